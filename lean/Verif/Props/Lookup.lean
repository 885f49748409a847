import Verif.Model.Lookup
import Verif.Props.FindSpecs
import Verif.Props.Cache
import Verif.Props.QueryTotal
/-
C84: looking up the values of an attribute of an entity.
-/
namespace Mentat
open CC

namespace CC

/-- Patterns of an entity and an attribute that is not cached forward are not looked up in the cache. -/
theorem cacheLookup_forward {cc : CC} {k : Known} {p : EPattern} {e a : Entid} (he : p.e = .entid e) (ha : p.a = .entid a)
    (htx : p.tx = .placeholder) (h : k.cachedForward a = false) :
    cc.cacheLookup k p = if (k.schema.attr a).isNone then some cc.markEmpty else none := by
  unfold cacheLookup
  simp only [htx, ha, he, ne_eq, not_true_eq_false, if_false, h, Bool.false_or]
  cases k.schema.attr a with
  | none => rfl
  | some at_ =>
    simp only [Option.isNone_some, Bool.false_eq_true, if_false]
    split
    · cases p.v <;> rfl
    · rfl

theorem applyClauses_fetch {k : Known} {e a : Entid} (h : k.cachedForward a = false) (cc : CC) (x : Var) :
    applyClauses k cc [.pattern { e := .entid e, a := .entid a, v := .var x, tx := .placeholder }] =
      applyClauses ⟨k.schema, none⟩ cc [.pattern { e := .entid e, a := .entid a, v := .var x, tx := .placeholder }] := by
  unfold applyClauses
  cases firstPass cc [.pattern { e := .entid e, a := .entid a, v := .var x, tx := .placeholder }] with
  | err e => rfl
  | panic => rfl
  | ok cc =>
    simp only [Res.bind, applyRun]
    cases hev : cc.evolvePattern k.schema { e := .entid e, a := .entid a, v := .var x, tx := .placeholder } with
    | err e => rfl
    | panic => rfl
    | ok o =>
      cases o with
      | none => rfl
      | some q =>
        have hq : q.e = .entid e ∧ q.a = .entid a ∧ q.tx = .placeholder := by
          simp only [evolvePattern, evolveNonValue, evolveAttribute] at hev
          cases hat : k.schema.attr a with
          | none => simp only [hat] at hev; cases hev
          | some at_ =>
            simp only [hat] at hev
            obtain ⟨ov, -, hev⟩ := bind_iff.mp hev
            cases ov with
            | none => cases hev
            | some v => cases hev; exact ⟨rfl, rfl, rfl⟩
        simp only [List.nil_append, applyEvolved]
        have hre : ∃ w, cc.reEvolve q = some { q with v := w } := by
          unfold reEvolve
          simp only [hq.1]
          exact ⟨_, rfl⟩
        obtain ⟨w, hre⟩ := hre
        simp only [hre]
        have e1 : cc.applyPattern k { q with v := w } = cc.applyPattern ⟨k.schema, none⟩ { q with v := w } := by
          unfold applyPattern
          rw [cacheLookup_forward (p := { q with v := w }) hq.1 hq.2.1 hq.2.2 h,
            cacheLookup_forward (k := ⟨k.schema, none⟩) (p := { q with v := w }) hq.1 hq.2.1 hq.2.2 rfl]
        rw [e1]

end CC

/-- What is not cached is fetched as if there were no cache. -/
theorem fetch_uncached (fl : Floats) {k : Known} (db : Tables) (e : Entid) {a : Entid} (one : Bool)
    (h : k.cachedForward a = false) : fetchValues fl k db e a one = fetchValues fl ⟨k.schema, none⟩ db e a one := by
  unfold fetchValues runQuery algebrizeQuery algebrize fetchQuery
  have hp : ∀ q : FindQuery, q.inVars = [] → q.withVars = [] → q.limit = .none → fromParsed q = .ok q := by
    intro q h1 h2 h3
    unfold fromParsed
    simp [h1, h2, h3]
  rw [hp _ rfl rfl rfl]
  simp only [Res.bind, withInputs, keepKeys, List.isEmpty_nil, if_true, applyClauses_fetch h]

/-- The query of a lookup is one of those treated. -/
theorem fetch_treated {db : Db} (hr : ReachData db) (ftId : Text → Int) (e a : Entid) (one : Bool) :
    Treated ⟨db.schema, none⟩ (db.tables ftId) (fun _ => False) (fetchQuery e a one) ⟨[], []⟩ ["?v".toList] := by
  refine ⟨⟨rfl, ⟨AMap.wf_nil, by simp, by simp⟩, by simp [fetchQuery], ?_, looseOnce_false _, by simp⟩, dbOk_reach hr ftId,
    by simp [fetchQuery, WhereClause.usesAll, WhereClause.uses], ⟨_, List.mem_singleton.mpr rfl, by simp [fetchQuery]⟩, ?_⟩
  · refine .simple ?_
    simp only [fetchQuery, WhereClause.SimpleAll, WhereClause.Simple, and_true]
    exact patOk_known ⟨.inl ⟨_, rfl⟩, by simp, by simp⟩ (by simp [Pattern.NoKeyword, only])
  · intro ρ hρ
    have hs := hρ.sat
    simp only [fetchQuery, SatAll, Sat] at hs
    refine readable_patterns (s := db.schema) (fun d hd => (rows_storable hr d hd).2)
      (ps := [{ e := .entid e, a := .entid a, v := .var "?v".toList, tx := .placeholder }]) ?_ ρ ?_
    · intro v hv
      exact ⟨_, List.mem_singleton.mpr rfl, by simpa [Pattern.vars, NonValue.vars, PatValue.vars] using hv⟩
    · intro p hp
      rw [List.mem_singleton] at hp
      subst hp
      exact hs.1

/-- Its answers are the values held. -/
theorem fetch_answers {db : Db} (hr : ReachData db) (ftId : Text → Int) {e a : Entid} {one : Bool} {v : TypedValue} :
    (∃ ρ, IsAnswer db.schema (db.tables ftId).facts (fetchQuery e a one) [] ρ ∧ ρ "?v".toList = v) ↔
      Has db.store.rows e a v := by
  constructor
  · rintro ⟨ρ, hρ, rfl⟩
    have hs := hρ.sat
    simp only [fetchQuery, SatAll, Sat] at hs
    obtain ⟨⟨r, hr, h1, h2, h3, -⟩, -⟩ := hs
    exact ⟨r, hr, h1, h2, h3.symm⟩
  · rintro ⟨r, hr', rfl, rfl, rfl⟩
    refine ⟨fun _ => r.v, ⟨fun _ => (rows_storable hr r hr').1, (fun x hx => (List.not_mem_nil hx).elim), ?_⟩, rfl⟩
    simp only [fetchQuery, SatAll, Sat, and_true]
    exact ⟨r, hr', rfl, rfl, rfl, trivial⟩

theorem fetch_ok {db : Db} (hr : ReachData db) (fl : Floats) (ftId : Text → Int) (e a : Entid) (one : Bool) :
    ∃ r, fetchValues fl ⟨db.schema, none⟩ (db.tables ftId) e a one = .ok r :=
  C74_patterns_partial (xs := ["?v".toList])
    (ps := [{ e := .entid e, a := .entid a, v := .var "?v".toList, tx := .placeholder }]) (fetch_treated hr ftId e a one)
    (by cases one <;> rfl) rfl (by simp) (by simp) (by simp [Pattern.vars, NonValue.vars, PatValue.vars]) (by simp [fetchQuery])
    (by simp [fetchQuery]) (by simp [fetchQuery]) rfl

/-- C84.  After any history, the values looked up of an attribute that is not cached are the values held, each once, whatever
else is cached and whether or not there is such an attribute; the value looked up is one of them, if there is one. -/
theorem C84_uncached {db : Db} (hr : ReachData db) (fl : Floats) (ftId : Text → Int) (cache : Option AttrCache) (e a : Entid)
    (hu : Known.cachedForward ⟨db.schema, cache⟩ a = false) :
    (∃ vs, lookupValues fl ⟨db.schema, cache⟩ (db.tables ftId) e a = .ok vs ∧ vs.Nodup ∧
      ∀ v, v ∈ vs ↔ Has db.store.rows e a v) ∧
    ∃ o, lookupValue fl ⟨db.schema, cache⟩ (db.tables ftId) e a = .ok o ∧
      (∀ v, o = some v → Has db.store.rows e a v) ∧ (o = none → ∀ v, ¬ Has db.store.rows e a v) := by
  constructor
  · obtain ⟨r, h⟩ := fetch_ok hr fl ftId e a false
    obtain ⟨vs, rfl, h1, -, h2, h3⟩ := C83_coll_answers_partial (x := "?v".toList) (fetch_treated hr ftId e a false) rfl rfl h
    refine ⟨vs, ?_, h3 rfl, fun v => ?_⟩
    · unfold lookupValues
      rw [if_neg (by simp [hu]), fetch_uncached fl _ e false hu, h]; rfl
    · rw [← fetch_answers hr ftId (one := false)]
      constructor
      · intro hv
        obtain ⟨ρ, hρ, rfl⟩ := h1 v hv
        exact ⟨ρ, hρ, rfl⟩
      · rintro ⟨ρ, hρ, rfl⟩
        exact h2 id ρ hρ
  · obtain ⟨r, h⟩ := fetch_ok hr fl ftId e a true
    have hl : lookupValue fl ⟨db.schema, cache⟩ (db.tables ftId) e a = r.intoScalar := by
      unfold lookupValue
      rw [if_neg (by simp [hu]), fetch_uncached fl _ e true hu, h]; rfl
    rw [hl]
    rcases C83_scalar_answers_partial (x := "?v".toList) (fetch_treated hr ftId e a true) rfl h with ⟨rfl, h1⟩ | ⟨ρ, rfl, hρ, -⟩
    · refine ⟨none, rfl, by simp, fun _ v hv => ?_⟩
      obtain ⟨ρ, hρ, -⟩ := (fetch_answers hr ftId (one := true)).mpr hv
      exact h1 ρ hρ
    · refine ⟨_, rfl, fun v hv => ?_, by simp⟩
      cases hv
      exact (fetch_answers hr ftId (one := true)).mp ⟨ρ, hρ, rfl⟩

section
variable {a : Entid} {c : Conn}

theorem Conn.known_forward : c.known.cachedForward a = decide (a ∈ c.cache.forward) := by
  rfl

/-- C84, cardinality one: the value looked up is the value held, cached or not. -/
theorem C84_value_partial (h : Connected a (SingleOk a) c) (hr : ReachData c.db) (fl : Floats) (ftId : Text → Int)
    {at_ : Attribute} (hat : c.schema.attr a = some at_) (hm : at_.multival = false) (e : Entid) :
    ∃ o, lookupValue fl c.known (c.db.tables ftId) e a = .ok o ∧ ∀ v, o = some v ↔ Has c.store.rows e a v := by
  by_cases hf : a ∈ c.cache.forward
  · refine ⟨c.cache.getValue c.schema a e, ?_, C37_single_partial h hf hat hm e⟩
    unfold lookupValue
    rw [if_pos (by simp [Conn.known_forward, hf])]
    rfl
  · obtain ⟨-, o, ho, h1, h2⟩ := C84_uncached hr fl ftId (some (.settled c.cache)) e a
      (show c.known.cachedForward a = false by simp [Conn.known_forward, hf])
    refine ⟨o, ho, fun v => ⟨h1 v, fun hv => ?_⟩⟩
    cases o with
    | none => exact absurd hv (h2 rfl v)
    | some w => rw [C14_one_partial hr.kept e a w v at_ hat hm (h1 w rfl) hv]

/-- C84, cardinality many: the values looked up are the values held, cached or not. -/
theorem C84_values_partial (h : Connected a (SameShape a) c) (hr : ReachData c.db) (fl : Floats) (ftId : Text → Int)
    {at_ : Attribute} (hat : c.schema.attr a = some at_) (hm : at_.multival = true) (e : Entid) :
    ∃ vs, lookupValues fl c.known (c.db.tables ftId) e a = .ok vs ∧ ∀ v, v ∈ vs ↔ Has c.store.rows e a v := by
  by_cases hf : a ∈ c.cache.forward
  · refine ⟨(c.cache.getValues c.schema a e).getD [], ?_, C37_multi_partial h hf hat hm e⟩
    unfold lookupValues
    rw [if_pos (by simp [Conn.known_forward, hf])]
    rfl
  · obtain ⟨⟨vs, h1, -, h2⟩, -⟩ := C84_uncached hr fl ftId (some (.settled c.cache)) e a
      (show c.known.cachedForward a = false by simp [Conn.known_forward, hf])
    exact ⟨vs, h1, h2⟩

/-- Once an attribute of cardinality one is cached, none of its values is found by looking up its values. -/
theorem C84_values_cached_one {at_ : Attribute} (hat : c.schema.attr a = some at_) (hm : at_.multival = false)
    (hf : a ∈ c.cache.forward) (fl : Floats) (db : Tables) (e : Entid) : lookupValues fl c.known db e a = .ok [] := by
  unfold lookupValues
  rw [if_pos (by simp [Conn.known_forward, hf])]
  simp [Conn.known, AttrCache.getValues, Caches.getValues, hat, hm]

/-- Once an attribute of cardinality many is cached, none of its values is found by looking up its value. -/
theorem C84_value_cached_many {at_ : Attribute} (hat : c.schema.attr a = some at_) (hm : at_.multival = true)
    (hf : a ∈ c.cache.forward) (fl : Floats) (db : Tables) (e : Entid) : lookupValue fl c.known db e a = .ok none := by
  unfold lookupValue
  rw [if_pos (by simp [Conn.known_forward, hf])]
  simp [Conn.known, AttrCache.getValue, Caches.getValue, hat, hm]

end

/-- C84, by the name of the attribute: a name not known is an error, otherwise it is as by the entity named. -/
theorem C84_named (fl : Floats) (k : Known) (db : Tables) (e : Entid) (a : Keyword) :
    (∀ b, AMap.get k.schema.identMap a = some b → lookupValueFor fl k db e a = lookupValue fl k db e b ∧
      lookupValuesFor fl k db e a = lookupValues fl k db e b) ∧
    (AMap.get k.schema.identMap a = none → lookupValueFor fl k db e a = .err .other ∧ lookupValuesFor fl k db e a = .err .other) := by
  constructor
  · intro b h
    simp [lookupValueFor, lookupValuesFor, lookupAttribute, h, Res.bind]
  · intro h
    simp [lookupValueFor, lookupValuesFor, lookupAttribute, h, Res.bind]

/-! ### Histories -/

/-- The store after the transactions is one of those of `ReachData`. -/
theorem reachData_of {txs : List Tx} {db : Db} (h : decide (runDataFrom txs bootDb = some db) = true) : ReachData db :=
  runDataFrom_reach (.boot (Int.le_refl 0) bootDb_eq) (of_decide_eq_true h)

/-- A value of an attribute that is cached and one of an attribute that is not; a name that is not known. -/
theorem C84_example : ∃ c : Conn, Connected xOne (SingleOk xOne) c ∧ Connected xMany (SameShape xMany) c ∧ ReachData c.db ∧
    xOne ∈ c.cache.forward ∧ xMany ∉ c.cache.forward ∧
    lookupValueFor QueryEx.floats c.known (c.db.tables fun _ => 1) e1 (kw "x" "one") = .ok (some (str "b")) ∧
    lookupValuesFor QueryEx.floats c.known (c.db.tables fun _ => 1) e1 (kw "x" "many") = .ok [.long 2, .long 3] ∧
    lookupValue QueryEx.floats c.known (c.db.tables fun _ => 1) 65540 xMany = .ok none ∧
    lookupValueFor QueryEx.floats c.known (c.db.tables fun _ => 1) e1 (kw "x" "none") = .err .other := by
  obtain ⟨c, hc, hp⟩ := connected_of_setup (a := xOne) (Q := SingleOk xOne)
    (Qb := fun db db' shown => sameShapeB xOne db db' shown && shownKeptB xOne db db' shown)
    (by
      intro db db' shown h
      rw [Bool.and_eq_true] at h
      exact ⟨sameShapeB_iff h.1, shownKeptB_iff h.2⟩)
    [dataSession, .reg xOne .forward, .session [.tx changeTx]]
    (pr := fun c =>
      decide (runConn xMany (sameShapeB xMany) [dataSession, .reg xOne .forward, .session [.tx changeTx]] (Conn.connect setupDb) = some c) &&
      decide (runDataFrom [setupTx, dataTx, changeTx] bootDb = some c.db) &&
      decide (xOne ∈ c.cache.forward) && decide (xMany ∉ c.cache.forward) &&
      decide (lookupValueFor QueryEx.floats c.known (c.db.tables fun _ => 1) e1 (kw "x" "one") = .ok (some (str "b"))) &&
      decide (lookupValuesFor QueryEx.floats c.known (c.db.tables fun _ => 1) e1 (kw "x" "many") = .ok [.long 2, .long 3]) &&
      decide (lookupValue QueryEx.floats c.known (c.db.tables fun _ => 1) 65540 xMany = .ok none) &&
      decide (lookupValueFor QueryEx.floats c.known (c.db.tables fun _ => 1) e1 (kw "x" "none") = .err .other))
    (by decide +kernel)
  simp only [Bool.and_eq_true] at hp
  obtain ⟨⟨⟨⟨⟨⟨⟨h1, h2⟩, h3⟩, h4⟩, h5⟩, h6⟩, h7⟩, h8⟩ := hp
  exact ⟨c, hc, runConn_connected (fun _ _ _ => sameShapeB_iff) (.connect reachKept_setup) (of_decide_eq_true h1), reachData_of h2,
    of_decide_eq_true h3, of_decide_eq_true h4, of_decide_eq_true h5, of_decide_eq_true h6, of_decide_eq_true h7, of_decide_eq_true h8⟩

/-- A value of a cached attribute of cardinality one is held, and is not among the values looked up. -/
theorem C84_fails_one : ∃ c : Conn, Connected xOne (SingleOk xOne) c ∧ ReachData c.db ∧ Has c.store.rows e1 xOne (str "a") ∧
    lookupValues QueryEx.floats c.known (c.db.tables fun _ => 1) e1 xOne = .ok [] := by
  obtain ⟨c, hc, hp⟩ := connected_of_setup (a := xOne) (Q := SingleOk xOne)
    (Qb := fun db db' shown => sameShapeB xOne db db' shown && shownKeptB xOne db db' shown)
    (by
      intro db db' shown h
      rw [Bool.and_eq_true] at h
      exact ⟨sameShapeB_iff h.1, shownKeptB_iff h.2⟩)
    [dataSession, .reg xOne .forward]
    (pr := fun c => decide (runDataFrom [setupTx, dataTx] bootDb = some c.db) && hasB c.db e1 xOne (str "a") &&
      decide (lookupValues QueryEx.floats c.known (c.db.tables fun _ => 1) e1 xOne = .ok []))
    (by decide +kernel)
  simp only [Bool.and_eq_true] at hp
  obtain ⟨⟨h1, h2⟩, h3⟩ := hp
  exact ⟨c, hc, reachData_of h1, hasB_iff.mp h2, of_decide_eq_true h3⟩

/-- Values of a cached attribute of cardinality many are held, and no value is found; and a value may be found twice. -/
theorem C84_fails_many : (∃ c : Conn, Connected xMany (SameShape xMany) c ∧ ReachData c.db ∧ Has c.store.rows e1 xMany (.long 1) ∧
    lookupValue QueryEx.floats c.known (c.db.tables fun _ => 1) e1 xMany = .ok none) ∧
    ∃ c : Conn, Connected xMany (SameShape xMany) c ∧
      lookupValues QueryEx.floats c.known (c.db.tables fun _ => 1) e1 xMany = .ok [.long 1, .long 2, .long 2] := by
  constructor
  · obtain ⟨c, hc, hp⟩ := connected_of_setup (a := xMany) (Q := SameShape xMany)
      (Qb := sameShapeB xMany) (fun _ _ _ => sameShapeB_iff)
      [dataSession, .reg xMany .forward]
      (pr := fun c => decide (runDataFrom [setupTx, dataTx] bootDb = some c.db) && hasB c.db e1 xMany (.long 1) &&
        decide (lookupValue QueryEx.floats c.known (c.db.tables fun _ => 1) e1 xMany = .ok none))
      (by decide +kernel)
    simp only [Bool.and_eq_true] at hp
    obtain ⟨⟨h1, h2⟩, h3⟩ := hp
    exact ⟨c, hc, reachData_of h1, hasB_iff.mp h2, of_decide_eq_true h3⟩
  · obtain ⟨c, hc, hp⟩ := connected_of_setup (a := xMany) (Q := SameShape xMany)
      (Qb := sameShapeB xMany) (fun _ _ _ => sameShapeB_iff)
      [dataSession, .reg xMany .forward, .session [.tx ([addE e1 xMany (.long 2)], [])]]
      (pr := fun c => decide (lookupValues QueryEx.floats c.known (c.db.tables fun _ => 1) e1 xMany =
        .ok [.long 1, .long 2, .long 2])) (by decide +kernel)
    exact ⟨c, hc, of_decide_eq_true hp⟩

end Mentat
