import Verif.Proofs.Cache
import Verif.Spec.Session
import Mathlib.Tactic.Tauto
/- When an update of a cache slot follows the store. -/
namespace Mentat

/-- The entry says exactly what the store holds for `a`. -/
def Slot.Agree {K V : Type} (S : Slot K V) (m : AMap K V) (rows : List Row) (a : Entid) : Prop :=
  ∀ e v, S.holds m e v ↔ Has rows e a v

/-! ### Folding the operations -/

theorem single_fold_remove (l : List (Entid × TypedValue)) (m : SingleVals) (e : Entid) (v : TypedValue) :
    sSingle.holds (l.foldl sSingle.remove m) e v ↔ (∀ v', (e, v') ∉ l) ∧ sSingle.holds m e v := by
  induction l generalizing m with
  | nil => simp
  | cons x l ih =>
    rw [List.foldl_cons, ih]
    show _ ∧ AMap.get (AMap.insert m x.1 none) e = some (some v) ↔ _ ∧ AMap.get m e = some (some v)
    rw [AMap.get_insert]
    obtain ⟨xe, xv⟩ := x
    by_cases hx : xe = e
    · subst hx
      simp only [if_true, List.mem_cons, Prod.mk.injEq, true_and, not_or]
      constructor
      · rintro ⟨-, h⟩; simp at h
      · rintro ⟨h, -⟩; exact absurd rfl (h xv).1
    · simp only [hx, if_false, List.mem_cons, Prod.mk.injEq, Ne.symm hx, false_and, false_or]

theorem single_fold_add (l : List (Entid × TypedValue)) (m : SingleVals) (e : Entid) (v : TypedValue)
    (hu : ∀ v v', (e, v) ∈ l → (e, v') ∈ l → v = v') :
    sSingle.holds (l.foldl sSingle.add m) e v ↔
      (e, v) ∈ l ∨ ((∀ v', (e, v') ∉ l) ∧ sSingle.holds m e v) := by
  induction l generalizing m with
  | nil => simp
  | cons x l ih =>
    rw [List.foldl_cons, ih _ (fun v v' h h' => hu v v' (List.mem_cons_of_mem _ h)
      (List.mem_cons_of_mem _ h'))]
    show _ ∨ (_ ∧ AMap.get (AMap.insert m x.1 (some x.2)) e = some (some v)) ↔
      _ ∨ (_ ∧ AMap.get m e = some (some v))
    rw [AMap.get_insert]
    obtain ⟨xe, xv⟩ := x
    by_cases hx : xe = e
    · subst hx
      simp only [if_true, List.mem_cons, Prod.mk.injEq, true_and, not_or, Option.some.injEq]
      constructor
      · rintro (h | ⟨-, h⟩)
        · exact Or.inl (Or.inr h)
        · exact Or.inl (Or.inl h.symm)
      · rintro ((h | h) | ⟨h, -⟩)
        · by_cases hm : ∃ v', (xe, v') ∈ l
          · obtain ⟨v', hv'⟩ := hm
            have := hu v' xv (List.mem_cons_of_mem _ hv') (List.mem_cons_self ..)
            subst this; subst h
            exact Or.inl hv'
          · exact Or.inr ⟨fun v' h' => hm ⟨v', h'⟩, h.symm⟩
        · exact Or.inl h
        · exact absurd rfl (h xv).1
    · simp only [hx, if_false, List.mem_cons, Prod.mk.injEq, Ne.symm hx, false_and, false_or]

theorem unique_fold_remove (l : List (Entid × TypedValue)) (m : UniqueReverse) (e : Entid) (v : TypedValue) :
    sUnique.holds (l.foldl sUnique.remove m) e v ↔ (∀ e', (e', v) ∉ l) ∧ sUnique.holds m e v := by
  induction l generalizing m with
  | nil => simp
  | cons x l ih =>
    rw [List.foldl_cons, ih]
    show _ ∧ AMap.get (AMap.insert m x.2 none) v = some (some e) ↔ _ ∧ AMap.get m v = some (some e)
    rw [AMap.get_insert]
    obtain ⟨xe, xv⟩ := x
    by_cases hx : xv = v
    · subst hx
      simp only [if_true, List.mem_cons, Prod.mk.injEq, and_true, not_or]
      constructor
      · rintro ⟨-, h⟩; simp at h
      · rintro ⟨h, -⟩; exact absurd rfl (h xe).1
    · simp only [hx, if_false, List.mem_cons, Prod.mk.injEq, Ne.symm hx, and_false, false_or]

theorem unique_fold_add (l : List (Entid × TypedValue)) (m : UniqueReverse) (e : Entid) (v : TypedValue)
    (hu : ∀ e e', (e, v) ∈ l → (e', v) ∈ l → e = e') :
    sUnique.holds (l.foldl sUnique.add m) e v ↔
      (e, v) ∈ l ∨ ((∀ e', (e', v) ∉ l) ∧ sUnique.holds m e v) := by
  induction l generalizing m with
  | nil => simp
  | cons x l ih =>
    rw [List.foldl_cons, ih _ (fun v v' h h' => hu v v' (List.mem_cons_of_mem _ h)
      (List.mem_cons_of_mem _ h'))]
    show _ ∨ (_ ∧ AMap.get (AMap.insert m x.2 (some x.1)) v = some (some e)) ↔
      _ ∨ (_ ∧ AMap.get m v = some (some e))
    rw [AMap.get_insert]
    obtain ⟨xe, xv⟩ := x
    by_cases hx : xv = v
    · subst hx
      simp only [if_true, List.mem_cons, Prod.mk.injEq, and_true, not_or, Option.some.injEq]
      constructor
      · rintro (h | ⟨-, h⟩)
        · exact Or.inl (Or.inr h)
        · exact Or.inl (Or.inl h.symm)
      · rintro ((h | h) | ⟨h, -⟩)
        · by_cases hm : ∃ e', (e', xv) ∈ l
          · obtain ⟨e', he'⟩ := hm
            have := hu e' xe (List.mem_cons_of_mem _ he') (List.mem_cons_self ..)
            subst this; subst h
            exact Or.inl he'
          · exact Or.inr ⟨fun e' h' => hm ⟨e', h'⟩, h.symm⟩
        · exact Or.inl h
        · exact absurd rfl (h xe).1
    · simp only [hx, if_false, List.mem_cons, Prod.mk.injEq, Ne.symm hx, and_false, false_or]

theorem multi_remove (m : MultiVals) (x : Entid × TypedValue) (e : Entid) (v : TypedValue) :
    sMulti.holds (sMulti.remove m x) e v ↔ (e, v) ≠ x ∧ sMulti.holds m e v := by
  obtain ⟨xe, xv⟩ := x
  show (∃ vs, AMap.get (MultiVals.remove m (xe, xv)) e = some vs ∧ v ∈ vs) ↔
    _ ∧ ∃ vs, AMap.get m e = some vs ∧ v ∈ vs
  unfold MultiVals.remove
  cases hm : AMap.get m xe with
  | none =>
    simp only
    constructor
    · rintro ⟨vs, h, hv⟩
      refine ⟨?_, vs, h, hv⟩
      rintro heq
      simp only [Prod.mk.injEq] at heq
      rw [heq.1, hm] at h
      simp at h
    · exact fun h => h.2
  | some vs0 =>
    simp only [AMap.get_insert]
    by_cases hx : xe = e
    · subst hx
      simp only [if_true, Option.some.injEq, exists_eq_left', List.mem_filter, decide_eq_true_eq, hm,
        ne_eq, Prod.mk.injEq, true_and]
      exact and_comm
    · simp only [hx, if_false, ne_eq, Prod.mk.injEq, Ne.symm hx, false_and, not_false_eq_true, true_and]

theorem multi_fold_remove (l : List (Entid × TypedValue)) (m : MultiVals) (e : Entid) (v : TypedValue) :
    sMulti.holds (l.foldl sMulti.remove m) e v ↔ (e, v) ∉ l ∧ sMulti.holds m e v := by
  induction l generalizing m with
  | nil => simp
  | cons x l ih =>
    rw [List.foldl_cons, ih, multi_remove, List.mem_cons, not_or]
    tauto

theorem multi_fold_add (l : List (Entid × TypedValue)) (m : MultiVals) (e : Entid) (v : TypedValue) :
    sMulti.holds (l.foldl sMulti.add m) e v ↔ (e, v) ∈ l ∨ sMulti.holds m e v := by
  induction l generalizing m with
  | nil => simp
  | cons x l ih =>
    rw [List.foldl_cons, ih]
    have : sMulti.holds (sMulti.add m x) e v ↔ (e, v) = x ∨ sMulti.holds m e v := by
      obtain ⟨xe, xv⟩ := x
      show (∃ vs, AMap.get (AMap.insert m xe ((AMap.get m xe).getD [] ++ [xv])) e = some vs ∧ v ∈ vs) ↔
        _ ∨ ∃ vs, AMap.get m e = some vs ∧ v ∈ vs
      rw [AMap.get_insert]
      by_cases hx : xe = e
      · subst hx
        simp only [if_true, Option.some.injEq, exists_eq_left', List.mem_append, List.mem_singleton,
          Prod.mk.injEq, true_and]
        cases AMap.get m xe with
        | none => simp
        | some vs => simp [or_comm]
      · simp only [hx, if_false, Prod.mk.injEq, Ne.symm hx, false_and, false_or]
    rw [this, List.mem_cons]
    tauto

theorem nonUnique_remove (m : NonUniqueReverse) (x : Entid × TypedValue) (e : Entid) (v : TypedValue) :
    sNonUnique.holds (sNonUnique.remove m x) e v ↔ (e, v) ≠ x ∧ sNonUnique.holds m e v := by
  obtain ⟨xe, xv⟩ := x
  show (∃ vs, AMap.get (NonUniqueReverse.remove m (xe, xv)) v = some vs ∧ e ∈ vs) ↔
    _ ∧ ∃ vs, AMap.get m v = some vs ∧ e ∈ vs
  unfold NonUniqueReverse.remove
  cases hm : AMap.get m xv with
  | none =>
    simp only
    constructor
    · rintro ⟨vs, h, hv⟩
      refine ⟨?_, vs, h, hv⟩
      rintro heq
      simp only [Prod.mk.injEq] at heq
      rw [heq.2, hm] at h
      simp at h
    · exact fun h => h.2
  | some vs0 =>
    simp only [AMap.get_insert]
    by_cases hx : xv = v
    · subst hx
      simp only [if_true, Option.some.injEq, exists_eq_left', List.mem_filter, decide_eq_true_eq, hm,
        ne_eq, Prod.mk.injEq, and_true]
      exact and_comm
    · simp only [hx, if_false, ne_eq, Prod.mk.injEq, Ne.symm hx, and_false, not_false_eq_true, true_and]

theorem nonUnique_fold_remove (l : List (Entid × TypedValue)) (m : NonUniqueReverse) (e : Entid)
    (v : TypedValue) :
    sNonUnique.holds (l.foldl sNonUnique.remove m) e v ↔ (e, v) ∉ l ∧ sNonUnique.holds m e v := by
  induction l generalizing m with
  | nil => simp
  | cons x l ih =>
    rw [List.foldl_cons, ih, nonUnique_remove, List.mem_cons, not_or]
    tauto

theorem mem_setInsert' {α : Type} [DecidableEq α] (l : List α) (x y : α) :
    y ∈ setInsert l x ↔ y = x ∨ y ∈ l := by
  unfold setInsert
  split
  · rename_i h
    constructor
    · exact Or.inr
    · rintro (rfl | h')
      · exact h
      · exact h'
  · simp [or_comm]

theorem nonUnique_fold_add (l : List (Entid × TypedValue)) (m : NonUniqueReverse) (e : Entid)
    (v : TypedValue) :
    sNonUnique.holds (l.foldl sNonUnique.add m) e v ↔ (e, v) ∈ l ∨ sNonUnique.holds m e v := by
  induction l generalizing m with
  | nil => simp
  | cons x l ih =>
    rw [List.foldl_cons, ih]
    have : sNonUnique.holds (sNonUnique.add m x) e v ↔ (e, v) = x ∨ sNonUnique.holds m e v := by
      obtain ⟨xe, xv⟩ := x
      show (∃ vs, AMap.get (AMap.insert m xv (setInsert ((AMap.get m xv).getD []) xe)) v = some vs ∧
        e ∈ vs) ↔ _ ∨ ∃ vs, AMap.get m v = some vs ∧ e ∈ vs
      rw [AMap.get_insert]
      by_cases hx : xv = v
      · subst hx
        simp only [if_true, Option.some.injEq, exists_eq_left', mem_setInsert',
          Prod.mk.injEq, and_true]
        cases AMap.get m xv with
        | none => simp
        | some vs => simp
      · simp only [hx, if_false, Prod.mk.injEq, Ne.symm hx, and_false, false_or]
    rw [this, List.mem_cons]
    tauto

/-! ### One transaction -/

section
variable {db : Db} {now : Int} {terms : List TTerm} {ids : List TempId} {db' : Db} {rep : Report}

theorem mem_shownPairs {qs : List Reduced} {b a e v} :
    (e, v) ∈ shownPairs (shownOf qs) b a ↔ ∃ q ∈ qs, q.added = b ∧ q.a = a ∧ q.e = e ∧ q.v = v := by
  unfold shownPairs shownOf
  simp only [List.mem_map, List.mem_filter, decide_eq_true_eq, Prod.mk.injEq]
  constructor
  · rintro ⟨d, ⟨⟨q, hq, rfl⟩, h1, h2⟩, h3, h4⟩
    exact ⟨q, hq, h1, h2, h3, h4⟩
  · rintro ⟨q, hq, h1, h2, h3, h4⟩
    exact ⟨_, ⟨⟨q, hq, rfl⟩, h1, h2⟩, h3, h4⟩

theorem mem_shownPairs_iff {shown : List Shown} {b a e v} :
    (e, v) ∈ shownPairs shown b a ↔ (⟨b, e, a, v⟩ : Shown) ∈ shown := by
  unfold shownPairs
  simp only [List.mem_map, List.mem_filter, decide_eq_true_eq, Prod.mk.injEq]
  constructor
  · rintro ⟨d, ⟨hd, rfl, rfl⟩, rfl, rfl⟩
    exact hd
  · intro h
    exact ⟨_, ⟨h, rfl, rfl⟩, rfl, rfl⟩

/-- What the transaction does to the datoms of `a`, relative to what it showed. -/
structure ShownSpec (rows rows' : List Row) (shown : List Shown) (a : Entid) : Prop where
  retracted : ∀ e v, (⟨false, e, a, v⟩ : Shown) ∈ shown → ¬ Has rows' e a v
  fresh : ∀ e v, Has rows' e a v → ¬ Has rows e a v → (⟨true, e, a, v⟩ : Shown) ∈ shown
  frame : ∀ e v, (∀ b v', (⟨b, e, a, v'⟩ : Shown) ∉ shown) → (Has rows' e a v ↔ Has rows e a v)

theorem TxTrace.shownSpec (T : TxTrace db db.schema now terms ids .materializeAndCommit db' rep)
    (a : Entid) : ShownSpec db.store.rows db'.store.rows (shownOf (reducedOf db.schema T.t)) a := by
  have hm : ∀ b e v, (⟨b, e, a, v⟩ : Shown) ∈ shownOf (reducedOf db.schema T.t) ↔
      ∃ q ∈ reducedOf db.schema T.t, q.added = b ∧ q.a = a ∧ q.e = e ∧ q.v = v := by
    intro b e v
    rw [← mem_shownPairs_iff, mem_shownPairs]
  refine ⟨?_, ?_, ?_⟩
  · intro e v h
    obtain ⟨q, hq, h1, rfl, rfl, rfl⟩ := (hm _ _ _).mp h
    exact T.retracted_absent hq h1
  · intro e v h' h
    rw [T.has_iff] at h'
    obtain ⟨r, hr, rfl, rfl, rfl⟩ := h'
    rcases (T.mem_store r).mp hr with ⟨h1, -⟩ | ⟨q, hq, hi, rfl⟩
    · exact absurd ⟨r, h1, rfl, rfl, rfl⟩ h
    · exact (hm _ _ _).mpr ⟨q, hq, hi.1, rfl, rfl, rfl⟩
  · intro e v h
    refine T.unchanged ?_ v
    intro q hq he ha
    exact absurd ((hm q.added e q.v).mpr ⟨q, hq, rfl, ha, he, rfl⟩) (h _ _)

/-- For a cardinality-many attribute every assertion shown holds afterwards and nothing goes away
silently. -/
theorem TxTrace.shownMany (T : TxTrace db db.schema now terms ids .materializeAndCommit db' rep)
    {a : Entid} {at_ : Attribute} (hat : db.schema.attr a = some at_) (hm : at_.multival = true) :
    ShownKept a db db' (shownOf (reducedOf db.schema T.t)) ∧
    NoSilentRemoval a db db' (shownOf (reducedOf db.schema T.t)) := by
  have hq' : ∀ b e v, (⟨b, e, a, v⟩ : Shown) ∈ shownOf (reducedOf db.schema T.t) ↔
      ∃ q ∈ reducedOf db.schema T.t, q.added = b ∧ q.a = a ∧ q.e = e ∧ q.v = v := by
    intro b e v
    rw [← mem_shownPairs_iff, mem_shownPairs]
  have hattr : ∀ q ∈ reducedOf db.schema T.t, q.a = a → q.attr.multival = true := by
    intro q hq ha
    have := (T.mem_queue.mp hq).1
    rw [ha, hat] at this
    rw [← Option.some.inj this, hm]
  refine ⟨?_, ?_⟩
  · intro e v h
    obtain ⟨q, hq, h1, rfl, rfl, rfl⟩ := (hq' _ _ _).mp h
    refine T.added_present hq h1 ?_
    intro h2
    rw [hattr q hq rfl] at h2; simp at h2
  · rintro e v ⟨r, hr, rfl, rfl, rfl⟩ hn
    rw [T.has_iff] at hn
    apply Classical.byContradiction
    intro hcon
    apply hn
    refine ⟨r, (T.mem_store r).mpr (Or.inl ⟨hr, ?_⟩), rfl, rfl, rfl⟩
    rintro ⟨q, hq, hj, hd⟩
    have hmq := hattr q hq hj.2.1.symm
    rcases hd with hd | ⟨hd, -⟩
    · exact hcon ((hq' _ _ _).mpr ⟨q, hq, hd, hj.2.1.symm, hj.1.symm, (hj.2.2 hmq).symm⟩)
    · rw [hmq] at hd; simp at hd

/-- For a cardinality-one attribute, an entity from which something is retracted and to which nothing
is added has no value afterwards. -/
theorem TxTrace.shownOne (T : TxTrace db db.schema now terms ids .materializeAndCommit db' rep)
    {a : Entid} {at_ : Attribute} (hat : db.schema.attr a = some at_) (hm : at_.multival = false)
    {e v'} (hr : (⟨false, e, a, v'⟩ : Shown) ∈ shownOf (reducedOf db.schema T.t))
    (hn : ∀ v, (⟨true, e, a, v⟩ : Shown) ∉ shownOf (reducedOf db.schema T.t)) (v : TypedValue) :
    ¬ Has db'.store.rows e a v := by
  rw [← mem_shownPairs_iff, mem_shownPairs] at hr
  obtain ⟨q, hq, hqa, hqaa, rfl, rfl⟩ := hr
  rw [T.has_iff]
  rintro ⟨r, hr, he, ha, rfl⟩
  rcases (T.mem_store r).mp hr with ⟨h1, hnd⟩ | ⟨q', hq', hi, rfl⟩
  · refine hnd ⟨q, hq, ⟨he, ha.trans hqaa.symm, ?_⟩, Or.inl hqa⟩
    intro hmq
    have := (T.mem_queue.mp hq).1
    rw [hqaa, hat] at this
    rw [← Option.some.inj this, hm] at hmq
    simp at hmq
  · refine hn q'.v ?_
    rw [← mem_shownPairs_iff, mem_shownPairs]
    exact ⟨q', hq', hi.1, ha, he, rfl⟩

/-- Two assertions for one entity and cardinality-one attribute are the same. -/
theorem TxTrace.shownOneAdd (T : TxTrace db db.schema now terms ids .materializeAndCommit db' rep)
    {a : Entid} {at_ : Attribute} (hat : db.schema.attr a = some at_) (hm : at_.multival = false)
    {e v v'} (h : (⟨true, e, a, v⟩ : Shown) ∈ shownOf (reducedOf db.schema T.t))
    (h' : (⟨true, e, a, v'⟩ : Shown) ∈ shownOf (reducedOf db.schema T.t)) : v = v' := by
  rw [← mem_shownPairs_iff, mem_shownPairs] at h h'
  obtain ⟨q, hq, hqa, hqaa, hqe, rfl⟩ := h
  obtain ⟨q', hq', hqa', hqaa', hqe', rfl⟩ := h'
  have hmq : ∀ q ∈ reducedOf db.schema T.t, q.a = a → q.attr.multival = false := by
    intro q hq ha
    have := (T.mem_queue.mp hq).1
    rw [ha, hat] at this
    rw [← Option.some.inj this, hm]
  rw [T.oneAdd hq hq' hqa hqa' (hmq q hq hqaa) (hmq q' hq' hqaa') (by rw [hqe, hqe'])
    (by rw [hqaa, hqaa'])]

end

section
variable {db db' : Db} {shown : List Shown} {a : Entid}

theorem single_step (hs : ShownSpec db.store.rows db'.store.rows shown a) (hk : ShownKept a db db' shown)
    (hadd : ∀ e v v', (⟨true, e, a, v⟩ : Shown) ∈ shown → (⟨true, e, a, v'⟩ : Shown) ∈ shown → v = v')
    (hone : ∀ e v v', Has db'.store.rows e a v → Has db'.store.rows e a v' → v = v')
    (hret : ∀ e v', (⟨false, e, a, v'⟩ : Shown) ∈ shown →
      (∀ v, (⟨true, e, a, v⟩ : Shown) ∉ shown) → ∀ v, ¬ Has db'.store.rows e a v)
    {m : SingleVals} (hm : sSingle.Agree m db.store.rows a) :
    sSingle.Agree ((shownPairs shown true a).foldl sSingle.add
      ((shownPairs shown false a).foldl sSingle.remove m)) db'.store.rows a := by
  intro e v
  rw [single_fold_add _ _ _ _ (by
    intro v v' h h'
    rw [mem_shownPairs_iff] at h h'
    exact hadd e v v' h h'), single_fold_remove]
  simp only [mem_shownPairs_iff]
  rw [hm e v]
  constructor
  · rintro (h | ⟨h1, h2, h3⟩)
    · exact hk e v h
    · refine (hs.frame e v ?_).mpr h3
      intro b v'
      cases b
      · exact h2 v'
      · exact h1 v'
  · intro h
    by_cases hadd' : ∃ v', (⟨true, e, a, v'⟩ : Shown) ∈ shown
    · obtain ⟨v', hv'⟩ := hadd'
      have := hone e v v' h (hk e v' hv')
      subst this
      exact Or.inl hv'
    · have hna : ∀ v, (⟨true, e, a, v⟩ : Shown) ∉ shown := fun v hv => hadd' ⟨v, hv⟩
      refine Or.inr ⟨hna, ?_⟩
      have hnr : ∀ v', (⟨false, e, a, v'⟩ : Shown) ∉ shown := fun v' hv' => hret e v' hv' hna v h
      refine ⟨hnr, (hs.frame e v ?_).mp h⟩
      intro b v'
      cases b
      · exact hnr v'
      · exact hna v'

theorem multi_step (hs : ShownSpec db.store.rows db'.store.rows shown a) (hk : ShownKept a db db' shown)
    (hn : NoSilentRemoval a db db' shown) {m : MultiVals} (hm : sMulti.Agree m db.store.rows a) :
    sMulti.Agree ((shownPairs shown true a).foldl sMulti.add
      ((shownPairs shown false a).foldl sMulti.remove m)) db'.store.rows a := by
  intro e v
  rw [multi_fold_add, multi_fold_remove, mem_shownPairs_iff, mem_shownPairs_iff, hm e v]
  constructor
  · rintro (h | ⟨h1, h2⟩)
    · exact hk e v h
    · apply Classical.byContradiction
      intro hc
      exact h1 (hn e v h2 hc)
  · intro h
    by_cases ho : Has db.store.rows e a v
    · exact Or.inr ⟨fun hr => hs.retracted e v hr h, ho⟩
    · exact Or.inl (hs.fresh e v h ho)

theorem nonUnique_step (hs : ShownSpec db.store.rows db'.store.rows shown a) (hk : ShownKept a db db' shown)
    (hn : NoSilentRemoval a db db' shown) {m : NonUniqueReverse}
    (hm : sNonUnique.Agree m db.store.rows a) :
    sNonUnique.Agree ((shownPairs shown true a).foldl sNonUnique.add
      ((shownPairs shown false a).foldl sNonUnique.remove m)) db'.store.rows a := by
  intro e v
  rw [nonUnique_fold_add, nonUnique_fold_remove, mem_shownPairs_iff, mem_shownPairs_iff, hm e v]
  constructor
  · rintro (h | ⟨h1, h2⟩)
    · exact hk e v h
    · apply Classical.byContradiction
      intro hc
      exact h1 (hn e v h2 hc)
  · intro h
    by_cases ho : Has db.store.rows e a v
    · exact Or.inr ⟨fun hr => hs.retracted e v hr h, ho⟩
    · exact Or.inl (hs.fresh e v h ho)

theorem unique_step (hs : ShownSpec db.store.rows db'.store.rows shown a) (hk : ShownKept a db db' shown)
    (hn : NoSilentRemoval a db db' shown) (hh : RetractsHeld a db db' shown)
    (hu : ∀ e e' v, Has db.store.rows e a v → Has db.store.rows e' a v → e = e')
    (hu' : ∀ e e' v, Has db'.store.rows e a v → Has db'.store.rows e' a v → e = e')
    {m : UniqueReverse} (hm : sUnique.Agree m db.store.rows a) :
    sUnique.Agree ((shownPairs shown true a).foldl sUnique.add
      ((shownPairs shown false a).foldl sUnique.remove m)) db'.store.rows a := by
  intro e v
  rw [unique_fold_add _ _ _ _ (by
    intro e e' h h'
    rw [mem_shownPairs_iff] at h h'
    exact hu' e e' v (hk _ _ h) (hk _ _ h')), unique_fold_remove]
  simp only [mem_shownPairs_iff]
  rw [hm e v]
  constructor
  · rintro (h | ⟨h1, h2, h3⟩)
    · exact hk e v h
    · apply Classical.byContradiction
      intro hc
      exact h2 e (hn e v h3 hc)
  · intro h
    by_cases ha : (⟨true, e, a, v⟩ : Shown) ∈ shown
    · exact Or.inl ha
    · have ho : Has db.store.rows e a v := by
        apply Classical.byContradiction
        intro ho
        exact ha (hs.fresh e v h ho)
      refine Or.inr ⟨?_, ?_, ho⟩
      · intro e' he'
        have := hu' e e' v h (hk e' v he')
        subst this
        exact ha he'
      · intro e' he'
        have := hu e e' v ho (hh e' v he')
        subst this
        exact hs.retracted e v he' h

end

end Mentat
