import Verif.Props.QueryCached
/-
C92, C84 and C37 inside a transaction: queries and lookups of a transaction in progress.
-/
namespace Mentat
open CC

section
variable {a : Entid} {c : Conn} {p : InProgress}

/-- C37 inside a transaction, cardinality one, exactly: the value answered is the value held, or, if none is held any more, the
value that was held when the transaction began. -/
theorem C37_single_inProgress (h : Connected a (SingleOk a) c) (hs : Session a (SingleOk a) c p)
    (hf : p.cache.cachedForward a = true) {at_ : Attribute} (hat : p.schema.attr a = some at_) (hm : at_.multival = false)
    (hcat : a ∈ c.cache.forward → (c.schema.attr a).any (fun x => !x.multival) = true) (e : Entid) (v : TypedValue) :
    p.cache.getValue p.schema a e = some v ↔
      Has p.store.rows e a v ∨ (∀ w, ¬ Has p.store.rows e a w) ∧ a ∈ c.cache.forward ∧ Has c.store.rows e a v := by
  have hc : ConnInv True sSingle a c := connected_inv laws_single shaped_single
    (fun _ => follows_single a) (fun _ _ _ _ h => h.1) (fills_single a) h
  have hp := session_inv laws_single shaped_single (fun _ => follows_single a)
    (fun _ _ _ _ h => h.1) (fills_single a) hc hs
  have ho := hp.lists.forward_iff.mp hf
  have good : ∀ v, sSingle.holds (sSingle.eff p.cache.overlay (some c.cache) a) e v ↔ Has p.store.rows e a v :=
    fun v => hp.good trivial ho (by simp [hat, sSingle, hm]) e v
  have inner : ∀ v, c.cache.getValue p.schema a e = some v ↔ a ∈ c.cache.forward ∧ Has c.store.rows e a v := by
    intro v
    rw [getValue_iff hat hm]
    by_cases hi : a ∈ c.cache.forward
    · rw [hc.good trivial hi (hcat hi) e v]
      simp [hi]
    · have : sSingle.entry c.cache a = [] := by
        unfold Slot.entry
        cases hg : AMap.get (sSingle.field c.cache) a with
        | none => rfl
        | some m => exact absurd (hc.caches.tidy (by simp [hg])) hi
      rw [this]
      simp [hi, laws_single.holdsNil]
  constructor
  · intro hg
    by_cases hh : ∃ w, Has p.store.rows e a w
    · obtain ⟨w, hw⟩ := hh
      have := C37_single_inProgress_partial h hs hf hat hm hw
      rw [this] at hg; cases hg
      exact .inl hw
    · have hn : ∀ w, ¬ Has p.store.rows e a w := fun w hw => hh ⟨w, hw⟩
      refine .inr ⟨hn, ?_⟩
      unfold ProgCache.getValue at hg
      rw [if_neg (hp.lists.fwd ho), hp.inner] at hg
      split at hg
      · rename_i w hw
        exfalso
        refine hn w ((good w).mp ?_)
        rw [getValue_iff hat hm] at hw
        rw [eff_eq sSingle hc.caches ho]
        unfold Slot.entry at hw
        split
        · rename_i m hmm
          rw [hmm] at hw
          exact hw
        · rename_i hmm
          rw [hmm] at hw
          exact absurd hw (laws_single.holdsNil e w)
      · exact (inner v).mp hg
  · rintro (hv | ⟨hn, hi, hv⟩)
    · exact C37_single_inProgress_partial h hs hf hat hm hv
    · unfold ProgCache.getValue
      rw [if_neg (hp.lists.fwd ho), hp.inner]
      split
      · rename_i w hw
        exfalso
        refine hn w ((good w).mp ?_)
        rw [getValue_iff hat hm] at hw
        rw [eff_eq sSingle hc.caches ho]
        unfold Slot.entry at hw
        split
        · rename_i m hmm
          rw [hmm] at hw
          exact hw
        · rename_i hmm
          rw [hmm] at hw
          exact absurd hw (laws_single.holdsNil e w)
      · exact (inner v).mpr ⟨hi, hv⟩

/-- What is assumed of the attributes cached: what was transacted while they were is what their caches can follow (C37, C38), on
the connection and in the transaction; and no entity has lost the value it had of an attribute cached forward. -/
structure CachesFollow (c : Conn) (p : InProgress) : Prop where
  forward : ∀ a, p.cache.cachedForward a = true → Connected a (SingleOk a) c ∧ Session a (SingleOk a) c p ∧
    (∀ at_, p.schema.attr a = some at_ → at_.multival = false) ∧
    (a ∈ c.cache.forward → (c.schema.attr a).any (fun x => !x.multival) = true ∧
      ∀ e v, Has c.store.rows e a v → ∃ w, Has p.store.rows e a w)
  unique : ∀ a, p.cache.cachedReverse a = true → ∀ at_, p.schema.attr a = some at_ → at_.unique.isSome = true →
    Connected a (UniqueOk a) c ∧ Session a (UniqueOk a) c p
  shared : ∀ a, p.cache.cachedReverse a = true → ∀ at_, p.schema.attr a = some at_ → at_.unique.isSome = false →
    Connected a (NonUniqueOk a) c ∧ Session a (NonUniqueOk a) c p

/-- C92: then the caches of the transaction say what the store holds, as it is inside the transaction. -/
theorem C92_inProgress_faithful (hf : CachesFollow c p) (use : Bool) : (p.known use).Faithful p.store.rows := by
  cases use with
  | false => exact faithful_none p.schema p.store.rows
  | true =>
    refine ⟨?_, ?_, ?_, ?_⟩ <;> intro a at_ ha hat
    · exact (hf.forward a ha).2.2.1 at_ hat
    · intro e v
      obtain ⟨h1, h2, h3, h4⟩ := hf.forward a ha
      refine (C37_single_inProgress h1 h2 ha hat (h3 at_ hat) (fun hi => (h4 hi).1) e v).trans
        ⟨?_, .inl⟩
      rintro (hv | ⟨hn, hi, hv⟩)
      · exact hv
      · obtain ⟨w, hw⟩ := (h4 hi).2 e v hv
        exact absurd hw (hn w)
    · intro hu e v
      obtain ⟨h1, h2⟩ := hf.unique a ha at_ hat hu
      exact C38_unique_inProgress_partial h1 h2 ha hat hu e v
    · intro hu e v
      obtain ⟨h1, h2⟩ := hf.shared a ha at_ hat hu
      exact C38_nonUnique_inProgress_partial h1 h2 ha hat hu e v

variable {fl : Floats} {q : FindQuery} {inputs : Inputs} {xs : List Var} {r : QResult}

/-- C92 for the queries of a transaction in progress, with the caches and without: the answers of the store as it is inside the
transaction, what was transacted in it included. -/
theorem C92_inProgress_partial {ftId : Text → Int} {use : Bool} (hdb : ReachData p.db) (hf : CachesFollow c p)
    (hq : PlainQuery (p.known use) q inputs)
    (hread : ∀ ρ, IsAnswer p.schema (p.db.tables ftId).facts q inputs.values ρ → ∀ x ∈ xs, (ρ x).Readable) (hne : xs ≠ [])
    (hfind : q.find = .rel (xs.map .var)) (hlim : q.limit = .none)
    (h : runQuery fl (p.known use) (p.db.tables ftId) q inputs = .ok r) :
    ∃ rows : List (List TypedValue), r = .rel xs.length rows.flatten ∧
      (∀ row, row ∈ rows ↔ Answers p.schema (p.db.tables ftId).facts q inputs.values xs row) ∧
      (q.order = none → rows.Nodup) :=
  C92_rows_partial (k := p.known use) (C92_inProgress_faithful hf use) (dbOk_reach hdb ftId) hq hread hne hfind hlim h

/-- C84 inside a transaction, cardinality one: the value looked up is the value held or, of an attribute cached of which no value is
held any more, the value held when the transaction began. -/
theorem C84_inProgress_value_partial (h : Connected a (SingleOk a) c) (hs : Session a (SingleOk a) c p) (hr : ReachData p.db)
    (fl : Floats) (ftId : Text → Int) {at_ : Attribute} (hat : p.schema.attr a = some at_) (hm : at_.multival = false)
    (hcat : a ∈ c.cache.forward → (c.schema.attr a).any (fun x => !x.multival) = true) (e : Entid) :
    ∃ o, lookupValue fl p.known (p.db.tables ftId) e a = .ok o ∧ ∀ v, o = some v ↔ Has p.store.rows e a v ∨
      p.cache.cachedForward a = true ∧ (∀ w, ¬ Has p.store.rows e a w) ∧ a ∈ c.cache.forward ∧ Has c.store.rows e a v := by
  by_cases hf : p.cache.cachedForward a = true
  · refine ⟨p.cache.getValue p.schema a e, ?_, fun v => by
      rw [C37_single_inProgress h hs hf hat hm hcat e v]; simp [hf]⟩
    unfold lookupValue
    rw [if_pos (show p.known.cachedForward a = true from hf)]
    rfl
  · obtain ⟨-, o, ho, h1, h2⟩ := C84_uncached hr fl ftId (some (.ongoing p.cache)) e a
      (show p.cache.cachedForward a = false by simpa using hf)
    refine ⟨o, ho, fun v => ⟨fun hv => .inl (h1 v hv), ?_⟩⟩
    rintro (hv | ⟨hv, -⟩)
    · cases o with
      | none => exact absurd hv (h2 rfl v)
      | some w => rw [C14_one_partial hr.kept e a w v at_ hat hm (h1 w rfl) hv]
    · exact absurd hv hf

/-- C84 inside a transaction, cardinality many. -/
theorem C84_inProgress_values_partial (h : Connected a (SameShape a) c) (hs : Session a (SameShape a) c p) (hr : ReachData p.db)
    (fl : Floats) (ftId : Text → Int) {at_ : Attribute} (hat : p.schema.attr a = some at_) (hm : at_.multival = true) (e : Entid) :
    ∃ vs, lookupValues fl p.known (p.db.tables ftId) e a = .ok vs ∧ ∀ v, v ∈ vs ↔ Has p.store.rows e a v := by
  by_cases hf : p.cache.cachedForward a = true
  · refine ⟨(p.cache.getValues p.schema a e).getD [], ?_, C37_multi_inProgress_partial h hs hf hat hm e⟩
    unfold lookupValues
    rw [if_pos (show p.known.cachedForward a = true from hf)]
    rfl
  · obtain ⟨⟨vs, h1, -, h2⟩, -⟩ := C84_uncached hr fl ftId (some (.ongoing p.cache)) e a
      (show p.cache.cachedForward a = false by simpa using hf)
    exact ⟨vs, h1, h2⟩

end

/-! ### Examples -/

namespace CachedEx
/-- A query of a transaction in progress, with its caches and without. -/
def inside (use : Bool) (p : InProgress) (q : FindQuery) : Res QResult :=
  runQuery QueryEx.floats (p.known use) (p.db.tables fun _ => 1) q (Inputs.ofValues [])

def uniqueB (db db' : Db) (shown : List Shown) : Bool :=
  sameShapeB xId db db' shown && shownKeptB xId db db' shown && noSilentB xId db db' shown && retractsHeldB xId db db' shown

theorem uniqueB_iff (db db' : Db) (shown : List Shown) (h : uniqueB db db' shown = true) : UniqueOk xId db db' shown := by
  simp only [uniqueB, Bool.and_eq_true] at h
  exact ⟨sameShapeB_iff h.1.1.1, shownKeptB_iff h.1.1.2, noSilentB_iff h.1.2, retractsHeldB_iff h.2⟩
end CachedEx
open CachedEx

/-- Inside a transaction that has replaced a value: the hypotheses are met, and the queries and lookups give the new value; outside, the
old one. -/
theorem C92_inProgress_example : ∃ (c : Conn) (p : InProgress), ReachData p.db ∧ CachesFollow c p ∧
    p.cache.cachedForward xOne = true ∧ p.cache.cachedReverse xId = true ∧
    inside true p looked = .ok (.rel 2 [str "b", .ref e1]) ∧ inside false p looked = inside true p looked ∧
    lookupValueFor QueryEx.floats p.known (p.db.tables fun _ => 1) e1 (kw "x" "one") = .ok (some (str "b")) ∧
    CachedEx.run c looked = .ok (.rel 2 [str "a", .ref e1]) := by
  let ops : List COp := [dataSession, .reg xOne .forward, .reg xId .reverse]
  obtain ⟨c, p, hc, hs, hp⟩ := session_of_setup (a := xOne) (Q := SingleOk xOne)
    (Qb := fun db db' shown => sameShapeB xOne db db' shown && shownKeptB xOne db db' shown)
    (by
      intro db db' shown h
      rw [Bool.and_eq_true] at h
      exact ⟨sameShapeB_iff h.1, shownKeptB_iff h.2⟩)
    ops [.tx changeTx]
    (pr := fun c p =>
      decide (runConn xId uniqueB ops (Conn.connect setupDb) = some c) &&
      decide (runSession xId uniqueB c [.tx changeTx] c.begin = some p) &&
      decide (runDataFrom [setupTx, dataTx, changeTx] bootDb = some p.db) &&
      decide (p.cache.cachedForward xOne = true ∧ ∀ a ∈ p.cache.inner.forward ++ p.cache.overlay.forward, a = xOne) &&
      decide (p.cache.cachedReverse xId = true ∧ ∀ a ∈ p.cache.inner.reverse ++ p.cache.overlay.reverse, a = xId) &&
      (p.schema.attr xOne).any (fun x => !x.multival) && (p.schema.attr xId).any (fun x => x.unique.isSome) &&
      (c.schema.attr xOne).any (fun x => !x.multival) &&
      (c.store.rows.all fun r => !decide (r.a = xOne) || p.store.rows.any fun r' => decide (r'.e = r.e) && decide (r'.a = xOne)) &&
      decide (inside true p looked = .ok (.rel 2 [str "b", .ref e1])) && decide (inside false p looked = inside true p looked) &&
      decide (lookupValueFor QueryEx.floats p.known (p.db.tables fun _ => 1) e1 (kw "x" "one") = .ok (some (str "b"))) &&
      decide (CachedEx.run c looked = .ok (.rel 2 [str "a", .ref e1])))
    (by decide +kernel)
  simp only [Bool.and_eq_true] at hp
  obtain ⟨⟨⟨⟨⟨⟨⟨⟨⟨⟨⟨⟨h1, h2⟩, h3⟩, h4⟩, h5⟩, h6⟩, h7⟩, h8⟩, h9⟩, h10⟩, h11⟩, h12⟩, h13⟩ := hp
  have h4 := of_decide_eq_true h4
  have h5 := of_decide_eq_true h5
  have hcu : Connected xId (UniqueOk xId) c := runConn_connected uniqueB_iff (.connect reachKept_setup) (of_decide_eq_true h1)
  have hsu : Session xId (UniqueOk xId) c p := runSession_session uniqueB_iff .begin (of_decide_eq_true h2)
  obtain ⟨a1, g1, g1'⟩ := any_some' h6
  obtain ⟨a2, g2, g2'⟩ := any_some' h7
  have rev : ∀ a, p.cache.cachedReverse a = true → a = xId := by
    intro a ha
    unfold ProgCache.cachedReverse at ha
    simp only [Bool.and_eq_true, Bool.or_eq_true, decide_eq_true_eq] at ha
    exact h5.2 a (List.mem_append.mpr ha.2)
  refine ⟨c, p, reachData_of h3, ⟨fun a ha => ?_, fun a ha at_ hat hu => ?_, fun a ha at_ hat hu => ?_⟩, h4.1, h5.1,
    of_decide_eq_true h10, of_decide_eq_true h11, of_decide_eq_true h12, of_decide_eq_true h13⟩
  · have : a = xOne := by
      unfold ProgCache.cachedForward at ha
      simp only [Bool.and_eq_true, Bool.or_eq_true, decide_eq_true_eq] at ha
      exact h4.2 a (List.mem_append.mpr ha.2)
    subst this
    refine ⟨hc, hs, fun at_ hat => ?_, fun _ => ⟨h8, fun e v he => ?_⟩⟩
    · rw [g1] at hat; cases hat
      simpa using g1'
    · obtain ⟨r, hr, rfl, hra, -⟩ := he
      have := List.all_eq_true.mp h9 r hr
      simp only [hra, decide_true, Bool.not_true, Bool.false_or, List.any_eq_true, Bool.and_eq_true, decide_eq_true_eq] at this
      obtain ⟨r', hr', e1, e2⟩ := this
      exact ⟨r'.v, r', hr', e1, e2, rfl⟩
  · obtain rfl := rev a ha
    exact ⟨hcu, hsu⟩
  · obtain rfl := rev a ha
    rw [g2] at hat; cases hat
    rw [g2'] at hu; cases hu

/-- A value retracted inside the transaction: the cache still answers it; without the caches nothing is found. -/
theorem C92_fails_inProgress : ∃ (c : Conn) (p : InProgress), Connected xOne (SingleOk xOne) c ∧ Session xOne (SingleOk xOne) c p ∧
    (∀ v, ¬ Has p.store.rows e1 xOne v) ∧ inside true p one = .ok (.rel 1 [str "a"]) ∧ inside false p one = .ok (.rel 1 []) := by
  obtain ⟨c, p, hc, hs, hp⟩ := session_of_setup (a := xOne) (Q := SingleOk xOne)
    (Qb := fun db db' shown => sameShapeB xOne db db' shown && shownKeptB xOne db db' shown)
    (by
      intro db db' shown h
      rw [Bool.and_eq_true] at h
      exact ⟨sameShapeB_iff h.1, shownKeptB_iff h.2⟩)
    [dataSession, .reg xOne .forward] [.tx ([retE e1 xOne (str "a")], [])]
    (pr := fun _ p => (p.store.rows.all fun r => !(decide (r.e = e1) && decide (r.a = xOne))) &&
      decide (inside true p one = .ok (.rel 1 [str "a"])) && decide (inside false p one = .ok (.rel 1 [])))
    (by decide +kernel)
  simp only [Bool.and_eq_true] at hp
  refine ⟨c, p, hc, hs, ?_, of_decide_eq_true hp.1.2, of_decide_eq_true hp.2⟩
  rintro v ⟨r, hr, h1, h2, -⟩
  have := List.all_eq_true.mp hp.1.1 r hr
  simp [h1, h2] at this

end Mentat
