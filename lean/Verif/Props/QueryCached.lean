import Verif.Proofs.QueryCached
import Verif.Props.Lookup
/-
C92: caching an attribute does not change the answers of a query.
-/
namespace Mentat
open CC

section
variable {fl : Floats} {k : Known} {db : Tables} {q : FindQuery} {inputs : Inputs} {xs : List Var} {r : QResult}

/-- What is assumed of a query: the limit is not an input; the clauses are patterns with a given attribute,
comparisons, statements of types, and `not`s and `not-join`s of these, each with a pattern whose attribute is not cached or whose
variables are all unified; all inputs have values. -/
structure PlainQuery (k : Known) (q : FindQuery) (inputs : Inputs) : Prop where
  ins : inputs.Ok
  clauses : ∀ c ∈ q.clauses, CClause k (only q.inVars (AMap.get inputs.values)) c
  bound : ∀ x ∈ q.inVars, (AMap.get inputs.values x).isSome

mutual
theorem cclause_bare {vals : Var → Option TypedValue} : ∀ (c : WhereClause), CClause k vals c → CClause ⟨k.schema, none⟩ vals c
  | .pattern _, h => h
  | .typeAnno _ _, _ => trivial
  | .pred _ _, _ => trivial
  | .not _ cs, ⟨h, p, hp, hl⟩ => ⟨cclauses_bare cs h, p, hp, hl.imp id fun hu => by
      cases ha : p.a with
      | entid a => exact ⟨rfl, rfl⟩
      | ident i => exact fun _ _ => ⟨rfl, rfl⟩
      | var x => rw [ha] at hu; exact hu
      | placeholder => rw [ha] at hu; exact hu⟩
  | .or _ _, h => h.elim
  | .whereFn _ _ _, h => h.elim
theorem cclauses_bare {vals : Var → Option TypedValue} : ∀ (cs : List WhereClause), CClauses k vals cs → CClauses ⟨k.schema, none⟩ vals cs
  | [], _ => trivial
  | c :: cs, h => ⟨cclause_bare c h.1, cclauses_bare cs h.2⟩
end

theorem PlainQuery.bare (h : PlainQuery k q inputs) : PlainQuery ⟨k.schema, none⟩ q inputs :=
  ⟨h.ins, fun c hc => cclause_bare c (h.clauses c hc), h.bound⟩

theorem constants_vars {cc : CC} : ∀ {xs : List Var} {vs : List TypedValue}, constants cc (xs.map .var) = .ok vs →
    List.Forall₂ (fun x v => AMap.get cc.vals x = some v) xs vs
  | [], vs, h => by obtain rfl := Res.ok.inj h; exact .nil
  | x :: xs, vs, h => by
    simp only [List.map_cons, constants] at h
    split at h
    · rename_i v hv
      obtain ⟨ws, hws, h⟩ := bind_iff.mp h
      obtain rfl := Res.ok.inj h
      exact .cons hv (constants_vars hws)
    · cases h

theorem forall₂_map_eq {ρ : Assign} {xs : List Var} {vs : List TypedValue} (h : List.Forall₂ (fun x v => ρ x = v) xs vs) :
    xs.map ρ = vs := by
  induction h with
  | nil => rfl
  | cons h1 _ ih => rw [List.map_cons, ih, h1]

/-- C92.  If the caches say what the store holds, a query gives the answers, all of them and nothing else, each once unless
ordered by variables not found. -/
theorem C92_rows_partial (hk : k.Faithful db.rows) (hd : DbOk k.schema db) (hq : PlainQuery k q inputs)
    (hread : ∀ ρ, IsAnswer k.schema db.facts q inputs.values ρ → ∀ x ∈ xs, (ρ x).Readable) (hne : xs ≠ [])
    (hf : q.find = .rel (xs.map .var)) (hlim : q.limit = .none) (h : runQuery fl k db q inputs = .ok r) :
    ∃ rows : List (List TypedValue), r = .rel xs.length rows.flatten ∧
      (∀ row, row ∈ rows ↔ Answers k.schema db.facts q inputs.values xs row) ∧ (q.order = none → rows.Nodup) := by
  have hel : q.find.elements = xs.map .var := by rw [hf]; rfl
  unfold runQuery at h
  obtain ⟨a, ha, h⟩ := bind_iff.mp h
  obtain ⟨al, hdry⟩ := algebrized_cached hk hd hq.ins (fun cc => by rw [hel]; exact deriveTypes_vars cc xs) (by simp [hlim])
    hq.clauses hq.bound ha
  by_cases hub : a.cc.empty = false → a.fullyUnitBound = false
  · obtain ⟨rows, h1, h2, -, h3, h4⟩ := answering_rows al hread hne hf hlim hub h
    exact ⟨rows, h1, fun row => ⟨h2 row, h3 (fun _ _ => id) row⟩, h4⟩
  · -- the answer is known without the store
    obtain ⟨he, hub⟩ : a.cc.empty = false ∧ a.fullyUnitBound = true := by
      cases he : a.cc.empty <;> cases hu : a.fullyUnitBound <;> simp [he, hu] at hub ⊢
    unfold runAlgebrized at h
    rw [he, hub] at h
    simp only [Bool.false_eq_true, if_false, if_true, fromConstants, al.find, hf] at h
    obtain ⟨vs, hvs, h⟩ := bind_iff.mp h
    obtain rfl := Res.ok.inj h
    have hvs := constants_vars (by simpa [FindSpec.elements] using hvs)
    have hw : a.cc.wheres = [] := by
      unfold Algebraic.fullyUnitBound at hub
      simp only [Bool.and_eq_true] at hub
      exact List.isEmpty_iff.mp hub.1
    have hrow : ∀ {env : Env} {ρ : Assign}, Reads a.cc env ρ → xs.map ρ = vs := by
      intro env ρ hr
      exact forall₂_map_eq (hvs.imp fun x v h => hr.vals x v h)
    refine ⟨[vs], by simp, fun row => ?_, by simp⟩
    rw [List.mem_singleton]
    constructor
    · rintro rfl
      obtain ⟨ρ, hρ, hr⟩ := al.reads [] (by simp [CC.stables, hdry he hw, evalFrom]) he (by simp [hw, evalAll])
      exact ⟨ρ, hρ, (hrow hr).symm⟩
    · rintro ⟨ρ, hρ, rfl⟩
      obtain ⟨loc, -, -, hr⟩ := al.found ρ hρ
      exact hrow hr

theorem faithful_none (s : Schema) (rows : List Row) : Known.Faithful ⟨s, none⟩ rows :=
  ⟨(fun _ _ h => nomatch h), (fun _ _ h => nomatch h), (fun _ _ h => nomatch h), (fun _ _ h => nomatch h)⟩

theorem perm_of_mem {α : Type} [DecidableEq α] {l l' : List α} (h : l.Nodup) (h' : l'.Nodup) (hm : ∀ a, a ∈ l ↔ a ∈ l') : l.Perm l' := by
  rw [List.perm_iff_count]
  intro a
  rw [h.count, h'.count]
  simp [hm]

/-- C92: with the caches and without, the same rows, but for their order. -/
theorem C92_same_partial (hk : k.Faithful db.rows) (hd : DbOk k.schema db) (hq : PlainQuery k q inputs)
    (hread : ∀ ρ, IsAnswer k.schema db.facts q inputs.values ρ → ∀ x ∈ xs, (ρ x).Readable) (hne : xs ≠ [])
    (hf : q.find = .rel (xs.map .var)) (hlim : q.limit = .none) {r' : QResult} (h : runQuery fl k db q inputs = .ok r)
    (h' : runQuery fl ⟨k.schema, none⟩ db q inputs = .ok r') :
    ∃ rows rows' : List (List TypedValue), r = .rel xs.length rows.flatten ∧ r' = .rel xs.length rows'.flatten ∧
      (∀ row ∈ rows ++ rows', row.length = xs.length) ∧
      (∀ row, row ∈ rows ↔ row ∈ rows') ∧ (q.order = none → rows.Perm rows') := by
  obtain ⟨rows, h1, h2, h3⟩ := C92_rows_partial hk hd hq hread hne hf hlim h
  obtain ⟨rows', g1, g2, g3⟩ := C92_rows_partial (faithful_none k.schema db.rows) hd hq.bare hread hne hf hlim h'
  have hm : ∀ row, row ∈ rows ↔ row ∈ rows' := fun row => (h2 row).trans (g2 row).symm
  refine ⟨rows, rows', h1, g1, ?_, hm, fun ho => perm_of_mem (h3 ho) (g3 ho) hm⟩
  intro row hrow
  have : row ∈ rows := by
    rcases List.mem_append.mp hrow with h | h
    · exact h
    · exact (hm row).mpr h
  obtain ⟨ρ, -, rfl⟩ := (h2 row).mp this
  simp

/-! ### Connections -/

/-- The caches of a connection say what the store holds, if what was transacted while an attribute was cached is what its
caches can follow (C37, C38). -/
theorem C92_faithful {c : Conn}
    (hf : ∀ a ∈ c.cache.forward, Connected a (SingleOk a) c ∧ ∀ at_, c.schema.attr a = some at_ → at_.multival = false)
    (hr : ∀ a ∈ c.cache.reverse, ∀ at_, c.schema.attr a = some at_ →
      (at_.unique.isSome = true → Connected a (UniqueOk a) c) ∧ (at_.unique.isSome = false → Connected a (NonUniqueOk a) c)) :
    c.known.Faithful c.store.rows := by
  refine ⟨?_, ?_, ?_, ?_⟩ <;> intro a at_ ha hat <;> have ha := of_decide_eq_true ha
  · exact (hf a ha).2 at_ hat
  · exact C37_single_partial (hf a ha).1 ha hat ((hf a ha).2 at_ hat)
  · intro hu; exact C38_unique_partial ((hr a ha at_ hat).1 hu) ha hat hu
  · intro hu; exact C38_nonUnique_partial ((hr a ha at_ hat).2 hu) ha hat hu

/-- C92 for the queries of a connection. -/
theorem C92_connection_partial {c : Conn} {ftId : Text → Int} (hdb : ReachData c.db)
    (hf : ∀ a ∈ c.cache.forward, Connected a (SingleOk a) c ∧ ∀ at_, c.schema.attr a = some at_ → at_.multival = false)
    (hr : ∀ a ∈ c.cache.reverse, ∀ at_, c.schema.attr a = some at_ →
      (at_.unique.isSome = true → Connected a (UniqueOk a) c) ∧ (at_.unique.isSome = false → Connected a (NonUniqueOk a) c))
    (hq : PlainQuery c.known q inputs)
    (hread : ∀ ρ, IsAnswer c.schema (c.db.tables ftId).facts q inputs.values ρ → ∀ x ∈ xs, (ρ x).Readable) (hne : xs ≠ [])
    (hfind : q.find = .rel (xs.map .var)) (hlim : q.limit = .none)
    (h : runQuery fl c.known (c.db.tables ftId) q inputs = .ok r) :
    ∃ rows : List (List TypedValue), r = .rel xs.length rows.flatten ∧
      (∀ row, row ∈ rows ↔ Answers c.schema (c.db.tables ftId).facts q inputs.values xs row) ∧
      (q.order = none → rows.Nodup) :=
  C92_rows_partial (k := c.known) (C92_faithful hf hr) (dbOk_reach hdb ftId) hq hread hne hfind hlim h

end

/-! ### Examples -/

namespace CachedEx
def v : Var := "v".toList
def e : Var := "e".toList
def m : Var := "m".toList
def at' (x : NonValue) (a : String) (w : PatValue) : WhereClause :=
  .pattern { e := x, a := .ident (kw "x" a), v := w, tx := .placeholder }
def text (s : String) : PatValue := .constant (.text s.toList)
/-- A query of a connection, with its caches and without. -/
def run (c : Conn) (q : FindQuery) : Res QResult := runQuery QueryEx.floats c.known (c.db.tables fun _ => 1) q (Inputs.ofValues [])
def bare (c : Conn) (q : FindQuery) : Res QResult :=
  runQuery QueryEx.floats ⟨c.schema, none⟩ (c.db.tables fun _ => 1) q (Inputs.ofValues [])
/-- The entity by its name, its value by the entity, and the rest from the store. -/
def joined : FindQuery := QueryEx.find [e, v, m] [at' (.var e) "many" (.var m), .pred (some .gt) [.var m, .int 2],
  at' (.var e) "id" (text "k"), at' (.var e) "one" (.var v)]
/-- Nothing is read. -/
def looked : FindQuery := QueryEx.find [v, e] [at' (.var e) "id" (text "k"), at' (.var e) "one" (.var v)]
def one : FindQuery := QueryEx.find [v] [at' (.entid e1) "one" (.var v)]
def many : FindQuery := QueryEx.find [v] [at' (.entid e1) "many" (.var v)]

/-- Those whose name is another, those that are not known to have the value that was replaced. -/
def others : FindQuery := QueryEx.find [e] [at' (.var e) "one" .placeholder, .not none [at' (.var e) "id" (text "z")],
  .not none [at' (.var e) "one" (text "a")], .not (some [e]) [at' (.var e) "many" (.var m), .pred (some .gt) [.var m, .int 7]]]
def without : FindQuery := QueryEx.find [e] [at' (.var e) "one" .placeholder, .not none [at' (.var e) "id" (text "k")]]
/-- Those found by name that have no value. -/
def lacking : FindQuery := QueryEx.find [e] [at' (.var e) "id" (text "k"), .not (some [e]) [at' (.var e) "one" (.var v)]]

theorem plain {k : Known} {xs : List Var} {cs : List WhereClause} (h : ∀ c ∈ cs, CClause k (fun _ => none) c) :
    PlainQuery k (QueryEx.find xs cs) (Inputs.ofValues []) := by
  refine ⟨inputs_ok AMap.wf_nil (by simp), ?_, by simp [QueryEx.find]⟩
  have : only (QueryEx.find xs cs).inVars (AMap.get (Inputs.ofValues []).values) = fun _ => none := by
    funext y; simp [only, QueryEx.find]
  rw [this]
  exact h

theorem patOk {k : Known} {x : NonValue} {a : String} {w : PatValue} (h : (∃ y, w = .var y) ∨ ∃ s, w = text s) :
    CClause k (fun _ => none) (at' x a w) := by
  refine ⟨trivial, ?_, ?_⟩
  · rintro k rfl; rcases h with ⟨y, h⟩ | ⟨s, h⟩ <;> cases h
  · rintro c u rfl hu
    rcases h with ⟨y, h⟩ | ⟨s, h⟩ <;> cases h
    cases hu; trivial

theorem patAny {k : Known} {x : NonValue} {a : String} : CClause k (fun _ => none) (at' x a .placeholder) :=
  ⟨trivial, fun _ h => (by cases h), fun _ _ h => (by cases h)⟩

theorem only_none (U : List Var) : only U (fun _ => none) = fun _ => none := by
  funext x; simp [only]

theorem notOk {k : Known} {x : NonValue} {a : String} {w : PatValue} (h : CClause k (fun _ => none) (at' x a w)) :
    CClause k (fun _ => none) (.not none [at' x a w]) := by
  rw [CClause, only_none]
  refine ⟨⟨h, trivial⟩, _, List.mem_singleton_self _, .inl fun y hy => ?_⟩
  simp only [unified, WhereClause.varsAll, at', WhereClause.vars, List.append_nil]
  exact hy

end CachedEx
open CachedEx

/-- An attribute cached forward, another cached reverse, and a third not cached: the hypotheses are met, and the queries give
what they should. -/
theorem C92_example : ∃ c : Conn, ReachData c.db ∧ xOne ∈ c.cache.forward ∧ xId ∈ c.cache.reverse ∧
    c.known.Faithful c.store.rows ∧ PlainQuery c.known joined (Inputs.ofValues []) ∧ PlainQuery c.known looked (Inputs.ofValues []) ∧
    PlainQuery c.known others (Inputs.ofValues []) ∧ PlainQuery c.known without (Inputs.ofValues []) ∧
    CachedEx.run c others = .ok (.rel 1 [.ref e1]) ∧ CachedEx.run c without = .ok (.rel 1 []) ∧
    CachedEx.run c joined = .ok (.rel 3 [.ref e1, str "b", .long 3]) ∧
    CachedEx.run c looked = .ok (.rel 2 [str "b", .ref e1]) ∧ bare c looked = CachedEx.run c looked := by
  let ops : List COp := [dataSession, .reg xOne .forward, .reg xId .reverse, .session [.tx changeTx]]
  obtain ⟨c, hc, hp⟩ := connected_of_setup (a := xOne) (Q := SingleOk xOne)
    (Qb := fun db db' shown => sameShapeB xOne db db' shown && shownKeptB xOne db db' shown)
    (by
      intro db db' shown h
      rw [Bool.and_eq_true] at h
      exact ⟨sameShapeB_iff h.1, shownKeptB_iff h.2⟩)
    ops
    (pr := fun c =>
      decide (runConn xId (fun db db' shown => sameShapeB xId db db' shown && shownKeptB xId db db' shown &&
        noSilentB xId db db' shown && retractsHeldB xId db db' shown) ops (Conn.connect setupDb) = some c) &&
      decide (runDataFrom [setupTx, dataTx, changeTx] bootDb = some c.db) &&
      decide (xOne ∈ c.cache.forward ∧ ∀ a ∈ c.cache.forward, a = xOne) &&
      decide (xId ∈ c.cache.reverse ∧ ∀ a ∈ c.cache.reverse, a = xId) &&
      (c.schema.attr xOne).any (fun x => !x.multival) && (c.schema.attr xId).any (fun x => x.unique.isSome) &&
      decide (CachedEx.run c joined = .ok (.rel 3 [.ref e1, str "b", .long 3])) &&
      decide (CachedEx.run c looked = .ok (.rel 2 [str "b", .ref e1])) && decide (bare c looked = CachedEx.run c looked) &&
      decide (CachedEx.run c others = .ok (.rel 1 [.ref e1])) && decide (CachedEx.run c without = .ok (.rel 1 [])) &&
      decide (AMap.get c.schema.identMap (kw "x" "many") = some xMany))
    (by decide +kernel)
  simp only [Bool.and_eq_true] at hp
  obtain ⟨⟨⟨⟨⟨⟨⟨⟨⟨⟨⟨h1, h2⟩, h3⟩, h4⟩, h5⟩, h6⟩, h7⟩, h9⟩, h10⟩, h11⟩, h12⟩, h13⟩ := hp
  have h3 := of_decide_eq_true h3
  have h4 := of_decide_eq_true h4
  have hu : Connected xId (UniqueOk xId) c := runConn_connected (Q := UniqueOk xId) (by
      intro db db' shown h
      simp only [Bool.and_eq_true] at h
      exact ⟨sameShapeB_iff h.1.1.1, shownKeptB_iff h.1.1.2, noSilentB_iff h.1.2, retractsHeldB_iff h.2⟩)
    (.connect reachKept_setup) (of_decide_eq_true h1)
  obtain ⟨a1, g1, g1'⟩ := any_some' h5
  obtain ⟨a2, g2, g2'⟩ := any_some' h6
  refine ⟨c, reachData_of h2, h3.1, h4.1, C92_faithful ?_ ?_, plain ?_, plain ?_, plain ?_, plain ?_, of_decide_eq_true h11,
    of_decide_eq_true h12, of_decide_eq_true h7, of_decide_eq_true h9, of_decide_eq_true h10⟩
  · intro a ha
    obtain rfl := h3.2 a ha
    refine ⟨hc, fun at_ hat => ?_⟩
    rw [g1] at hat; cases hat
    simpa using g1'
  · intro a ha at_ hat
    obtain rfl := h4.2 a ha
    rw [g2] at hat; cases hat
    exact ⟨fun _ => hu, fun hn => by rw [g2'] at hn; cases hn⟩
  · intro cl hcl
    simp only [List.mem_cons, List.not_mem_nil, or_false] at hcl
    rcases hcl with rfl | rfl | rfl | rfl
    · exact patOk (.inl ⟨_, rfl⟩)
    · trivial
    · exact patOk (.inr ⟨_, rfl⟩)
    · exact patOk (.inl ⟨_, rfl⟩)
  · intro cl hcl
    simp only [List.mem_cons, List.not_mem_nil, or_false] at hcl
    rcases hcl with rfl | rfl
    · exact patOk (.inr ⟨_, rfl⟩)
    · exact patOk (.inl ⟨_, rfl⟩)
  · intro cl hcl
    simp only [List.mem_cons, List.not_mem_nil, or_false] at hcl
    rcases hcl with rfl | rfl | rfl | rfl
    · exact patAny
    · exact notOk (patOk (.inr ⟨_, rfl⟩))
    · exact notOk (patOk (.inr ⟨_, rfl⟩))
    · rw [CClause, only_none]
      refine ⟨⟨patOk (.inl ⟨_, rfl⟩), trivial, trivial⟩, _, List.mem_cons_self, .inr fun a ha => ?_⟩
      have := ha.symm.trans (of_decide_eq_true h13)
      cases this
      exact ⟨decide_eq_false fun hm => absurd (h3.2 _ hm) (by decide), decide_eq_false fun hm => absurd (h4.2 _ hm) (by decide)⟩
  · intro cl hcl
    simp only [List.mem_cons, List.not_mem_nil, or_false] at hcl
    rcases hcl with rfl | rfl
    · exact patAny
    · exact notOk (patOk (.inr ⟨_, rfl⟩))

/-! ### Where the code does otherwise -/

/-- An attribute of cardinality many cached forward: the values of an entity are not found, although the cache has them. -/
theorem C92_fails_many : ∃ c : Conn, Connected xMany (SameShape xMany) c ∧ Has c.store.rows e1 xMany (.long 2) ∧
    c.cache.getValues c.schema xMany e1 = some [.long 1, .long 2] ∧
    CachedEx.run c many = .ok (.rel 1 []) ∧ bare c many = .ok (.rel 1 [.long 1, .long 2]) := by
  obtain ⟨c, hc, hp⟩ := connected_of_setup (a := xMany) (Q := SameShape xMany) (Qb := sameShapeB xMany) (fun _ _ _ => sameShapeB_iff)
    [dataSession, .reg xMany .forward]
    (pr := fun c => hasB c.db e1 xMany (.long 2) && decide (c.cache.getValues c.schema xMany e1 = some [.long 1, .long 2]) &&
      decide (CachedEx.run c many = .ok (.rel 1 [])) && decide (bare c many = .ok (.rel 1 [.long 1, .long 2]))) (by decide +kernel)
  simp only [Bool.and_eq_true] at hp
  exact ⟨c, hc, hasB_iff.mp hp.1.1.1, of_decide_eq_true hp.1.1.2, of_decide_eq_true hp.1.2, of_decide_eq_true hp.2⟩

/-- An attribute cached reverse whose value was replaced (C38): the entity is still found by the value it had. -/
theorem C92_fails_stale : ∃ c : Conn, Connected xOne AnyTx c ∧ Has c.store.rows e1 xOne (str "b") ∧ ¬ Has c.store.rows e1 xOne (str "a") ∧
    CachedEx.run c (QueryEx.find [CachedEx.e] [at' (.var CachedEx.e) "one" (text "a")]) = .ok (.rel 1 [.ref e1]) ∧
    bare c (QueryEx.find [CachedEx.e] [at' (.var CachedEx.e) "one" (text "a")]) = .ok (.rel 1 []) := by
  obtain ⟨c, hc, hp⟩ := connected_of_setup (a := xOne) (Q := AnyTx) (Qb := fun _ _ _ => true) (fun _ _ _ _ => trivial)
    [dataSession, .reg xOne .both, .session [.tx changeTx]]
    (pr := fun c => hasB c.db e1 xOne (str "b") && !hasB c.db e1 xOne (str "a") &&
      decide (CachedEx.run c (QueryEx.find [CachedEx.e] [at' (.var CachedEx.e) "one" (text "a")]) = .ok (.rel 1 [.ref e1])) &&
      decide (bare c (QueryEx.find [CachedEx.e] [at' (.var CachedEx.e) "one" (text "a")]) = .ok (.rel 1 []))) (by decide +kernel)
  simp only [Bool.and_eq_true] at hp
  refine ⟨c, hc, hasB_iff.mp hp.1.1.1, fun hn => ?_, of_decide_eq_true hp.1.2, of_decide_eq_true hp.2⟩
  have := hp.1.1.2
  rw [show hasB c.db e1 xOne (str "a") = true from hasB_iff.mpr hn] at this
  simp at this

/-- An input that is given no value: without the cache an error; with it, it takes the value cached. -/
theorem C92_fails_unbound : ∃ c : Conn, Connected xOne (SingleOk xOne) c ∧
    CachedEx.run c { one with inVars := [CachedEx.v] } = .ok (.rel 1 [str "a"]) ∧
    bare c { one with inVars := [CachedEx.v] } = .err .unboundVariables := by
  obtain ⟨c, hc, hp⟩ := connected_of_setup (a := xOne) (Q := SingleOk xOne)
    (Qb := fun db db' shown => sameShapeB xOne db db' shown && shownKeptB xOne db db' shown)
    (by
      intro db db' shown h
      rw [Bool.and_eq_true] at h
      exact ⟨sameShapeB_iff h.1, shownKeptB_iff h.2⟩)
    [dataSession, .reg xOne .forward]
    (pr := fun c => decide (CachedEx.run c { one with inVars := [CachedEx.v] } = .ok (.rel 1 [str "a"])) &&
      decide (bare c { one with inVars := [CachedEx.v] } = .err .unboundVariables)) (by decide +kernel)
  simp only [Bool.and_eq_true] at hp
  exact ⟨c, hc, of_decide_eq_true hp.1, of_decide_eq_true hp.2⟩

/-- A `not-join` all of whose clauses the caches answer is left out, instead of letting nothing through: an entity that has a value is
given among those that have none. -/
theorem C92_fails_not : ∃ c : Conn, Connected xOne (SingleOk xOne) c ∧ Has c.store.rows e1 xOne (str "a") ∧
    CachedEx.run c lacking = .ok (.rel 1 [.ref e1]) ∧ bare c lacking = .ok (.rel 1 []) := by
  obtain ⟨c, hc, hp⟩ := connected_of_setup (a := xOne) (Q := SingleOk xOne)
    (Qb := fun db db' shown => sameShapeB xOne db db' shown && shownKeptB xOne db db' shown)
    (by
      intro db db' shown h
      rw [Bool.and_eq_true] at h
      exact ⟨sameShapeB_iff h.1, shownKeptB_iff h.2⟩)
    [dataSession, .reg xOne .forward, .reg xId .reverse]
    (pr := fun c => hasB c.db e1 xOne (str "a") && decide (CachedEx.run c lacking = .ok (.rel 1 [.ref e1])) &&
      decide (bare c lacking = .ok (.rel 1 []))) (by decide +kernel)
  simp only [Bool.and_eq_true] at hp
  exact ⟨c, hc, hasB_iff.mp hp.1.1, of_decide_eq_true hp.1.2, of_decide_eq_true hp.2⟩

end Mentat
