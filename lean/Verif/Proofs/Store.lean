import Verif.Spec.Transact
/- Helper lemmas on the store model: what `Store.apply` does to rows and log. -/
namespace Mentat

/-- `q`'s search row joins with `r`. -/
def Joins (q : Reduced) (r : Row) : Prop :=
  r.e = q.e ∧ r.a = q.a ∧ (q.attr.multival = true → r.v = q.v)

def Deletes (q : Reduced) (r : Row) : Prop :=
  Joins q r ∧ (q.added = false ∨ (q.attr.multival = false ∧ q.v ≠ r.v))

def Inserts (rows : List Row) (q : Reduced) : Prop :=
  q.added = true ∧ ((∀ r ∈ rows, ¬ Joins q r) ∨ ∃ r ∈ rows, Joins q r ∧ q.v ≠ r.v)

theorem mem_leftJoin {rows q one p f} :
    f ∈ leftJoin rows q one p ↔
      f.q = q ∧ f.one = one ∧
        ((∃ r ∈ rows, p r = true ∧ f.hit = some r) ∨ ((∀ r ∈ rows, p r = false) ∧ f.hit = none)) := by
  unfold leftJoin
  split
  · rename_i h
    rw [List.filter_eq_nil_iff] at h
    cases f; simp only [List.mem_singleton, Found.mk.injEq]
    constructor
    · rintro ⟨rfl, rfl, rfl⟩
      exact ⟨rfl, rfl, Or.inr ⟨fun r hr => by simpa using h r hr, rfl⟩⟩
    · rintro ⟨rfl, rfl, ⟨r, hr, hp, _⟩ | ⟨_, rfl⟩⟩
      · exact absurd hp (h r hr)
      · exact ⟨rfl, rfl, rfl⟩
  · rename_i h
    simp only [List.mem_map, List.mem_filter]
    cases f; simp only [Found.mk.injEq]
    constructor
    · rintro ⟨r, ⟨hr, hp⟩, rfl, rfl, rfl⟩
      exact ⟨rfl, rfl, Or.inl ⟨r, hr, hp, rfl⟩⟩
    · rintro ⟨rfl, rfl, ⟨r, hr, hp, rfl⟩ | ⟨hn, _⟩⟩
      · exact ⟨r, ⟨hr, hp⟩, rfl, rfl, rfl⟩
      · exfalso; apply h
        rw [List.filter_eq_nil_iff]; intro r hr; simp [hn r hr]

theorem mem_searchOne {rows q f} :
    f ∈ searchOne rows q ↔
      f.q = q ∧ f.one = !q.attr.multival ∧
        ((∃ r ∈ rows, Joins q r ∧ f.hit = some r) ∨ ((∀ r ∈ rows, ¬ Joins q r) ∧ f.hit = none)) := by
  unfold searchOne Joins
  split <;> rename_i h <;> rw [mem_leftJoin] <;> simp_all

theorem mem_search {rows qs f} :
    f ∈ search rows qs ↔
      f.q ∈ qs ∧ f.one = !f.q.attr.multival ∧
        ((∃ r ∈ rows, Joins f.q r ∧ f.hit = some r) ∨
          ((∀ r ∈ rows, ¬ Joins f.q r) ∧ f.hit = none)) := by
  unfold search
  simp only [List.mem_flatMap, mem_searchOne]
  constructor
  · rintro ⟨q, hq, rfl, h⟩; exact ⟨hq, h⟩
  · rintro ⟨hq, h⟩; exact ⟨f.q, hq, rfl, h⟩

theorem exists_deletes {rows qs r} (hr : r ∈ rows) :
    (∃ f ∈ search rows qs, f.deletes = true ∧ f.hit = some r) ↔ ∃ q ∈ qs, Deletes q r := by
  constructor
  · rintro ⟨f, hf, hd, hh⟩
    rw [mem_search] at hf
    obtain ⟨hq, ho, ⟨r', hr', hj, hh'⟩ | ⟨_, hn⟩⟩ := hf
    · rw [hh] at hh'; cases hh'
      refine ⟨f.q, hq, hj, ?_⟩
      simp only [Found.deletes, hh, ho] at hd
      revert hd
      cases f.q.added <;> cases f.q.attr.multival <;> simp
    · simp [hh] at hn
  · rintro ⟨q, hq, hj, hd⟩
    refine ⟨⟨q, !q.attr.multival, some r⟩, ?_, ?_, rfl⟩
    · rw [mem_search]; exact ⟨hq, rfl, Or.inl ⟨r, hr, hj, rfl⟩⟩
    · revert hd
      simp only [Found.deletes]
      cases q.added <;> cases q.attr.multival <;> simp

theorem exists_inserts {rows qs q} :
    (∃ f ∈ search rows qs, f.inserts = true ∧ f.q = q) ↔ q ∈ qs ∧ Inserts rows q := by
  constructor
  · rintro ⟨f, hf, hd, rfl⟩
    rw [mem_search] at hf
    obtain ⟨hq, ho, ⟨r', hr', hj, hh'⟩ | ⟨hn, hh⟩⟩ := hf
    · simp only [Found.inserts, hh', Bool.and_eq_true, decide_eq_true_eq] at hd
      exact ⟨hq, hd.1, Or.inr ⟨r', hr', hj, hd.2⟩⟩
    · simp only [Found.inserts, hh, Bool.and_true] at hd
      exact ⟨hq, hd, Or.inl hn⟩
  · rintro ⟨hq, ha, hn | ⟨r, hr, hj, hv⟩⟩
    · refine ⟨⟨q, !q.attr.multival, none⟩, ?_, ?_, rfl⟩
      · rw [mem_search]; exact ⟨hq, rfl, Or.inr ⟨hn, rfl⟩⟩
      · simp [Found.inserts, ha]
    · refine ⟨⟨q, !q.attr.multival, some r⟩, ?_, ?_, rfl⟩
      · rw [mem_search]; exact ⟨hq, rfl, Or.inl ⟨r, hr, hj, rfl⟩⟩
      · simp [Found.inserts, ha, hv]

theorem mem_dedup {α : Type} [DecidableEq α] {x : α} {l : List α} : x ∈ dedup l ↔ x ∈ l := by
  induction l with
  | nil => simp [dedup]
  | cons y r ih =>
    unfold dedup; split
    · rename_i h; rw [ih]; simp only [List.mem_cons]
      constructor
      · exact Or.inr
      · rintro (rfl | h') <;> assumption
    · simp [ih]

theorem nodup_dedup {α : Type} [DecidableEq α] (l : List α) : (dedup l).Nodup := by
  induction l with
  | nil => simp [dedup]
  | cons y r ih =>
    unfold dedup; split
    · exact ih
    · rename_i h; rw [List.nodup_cons, mem_dedup]; exact ⟨h, ih⟩

theorem mem_logRowsOf {rows qs tx l} :
    l ∈ logRowsOf tx (search rows qs) ↔
      (∃ q ∈ qs, Inserts rows q ∧ l = { e := q.e, a := q.a, v := q.v, tx := tx, added := true }) ∨
      (∃ r ∈ rows, (∃ q ∈ qs, Deletes q r) ∧
        l = { e := r.e, a := r.a, v := r.v, tx := tx, added := false }) := by
  unfold logRowsOf
  rw [List.mem_append]
  apply or_congr
  · simp only [List.mem_map, List.mem_filter]
    constructor
    · rintro ⟨f, ⟨hf, hi⟩, rfl⟩
      obtain ⟨h1, h2⟩ := exists_inserts.mp ⟨f, hf, hi, rfl⟩
      exact ⟨f.q, h1, h2, rfl⟩
    · rintro ⟨q, hq, hi, rfl⟩
      obtain ⟨f, hf, hi', rfl⟩ := exists_inserts.mpr ⟨hq, hi⟩
      exact ⟨f, ⟨hf, hi'⟩, rfl⟩
  · rw [mem_dedup]
    simp only [List.mem_filterMap]
    constructor
    · rintro ⟨f, hf, hl⟩
      split at hl
      · rename_i r hh
        split at hl
        · rename_i hd
          obtain ⟨_, _, ⟨r', hr', hj, hh'⟩ | ⟨_, hn⟩⟩ := mem_search.mp hf
          · rw [hh] at hh'; cases hh'
            refine ⟨r, hr', (exists_deletes hr').mp ⟨f, hf, hd, hh⟩, ?_⟩
            rw [← Option.some.inj hl, hj.1, hj.2.1]
          · simp [hh] at hn
        · simp at hl
      · simp at hl
    · rintro ⟨r, hr, hd, rfl⟩
      obtain ⟨f, hf, hd, hh⟩ := (exists_deletes hr).mpr hd
      refine ⟨f, hf, ?_⟩
      obtain ⟨_, _, ⟨r', hr', hj, hh'⟩ | ⟨_, hn⟩⟩ := mem_search.mp hf
      · rw [hh] at hh'; cases hh'
        simp [hh, hd, hj.1, hj.2.1]
      · simp [hh] at hn

theorem mem_deleteRows {rows qs r} :
    r ∈ deleteRows rows (search rows qs) ↔ r ∈ rows ∧ ¬ ∃ q ∈ qs, Deletes q r := by
  unfold deleteRows
  simp only [List.mem_filter, Bool.not_eq_true', List.any_eq_false, Bool.and_eq_true,
    decide_eq_true_eq]
  constructor
  · rintro ⟨hr, h⟩
    refine ⟨hr, ?_⟩
    rw [← exists_deletes hr]
    rintro ⟨f, hf, hd⟩
    exact h f hf hd
  · rintro ⟨hr, h⟩
    refine ⟨hr, fun f hf hd => h ((exists_deletes hr).mp ⟨f, hf, hd⟩)⟩

theorem mem_insertRows {rows qs tx r} :
    r ∈ insertRows tx (search rows qs) ↔ ∃ q ∈ qs, Inserts rows q ∧ r = newRow tx q := by
  unfold insertRows
  simp only [List.mem_map, List.mem_filter]
  constructor
  · rintro ⟨f, ⟨hf, hi⟩, rfl⟩
    obtain ⟨h1, h2⟩ := exists_inserts.mp ⟨f, hf, hi, rfl⟩
    exact ⟨f.q, h1, h2, rfl⟩
  · rintro ⟨q, hq, hi, rfl⟩
    obtain ⟨f, hf, hi', rfl⟩ := exists_inserts.mpr ⟨hq, hi⟩
    exact ⟨f, ⟨hf, hi'⟩, rfl⟩

theorem mem_newRows {rows qs tx r} :
    r ∈ deleteRows rows (search rows qs) ++ insertRows tx (search rows qs) ↔
      (r ∈ rows ∧ ¬ ∃ q ∈ qs, Deletes q r) ∨ (∃ q ∈ qs, Inserts rows q ∧ r = newRow tx q) := by
  rw [List.mem_append, mem_deleteRows, mem_insertRows]

/-- What a successful `apply` gives. -/
theorem apply_ok {st : Store} {tx qs act st' lr} (h : st.apply tx qs act = .ok (st', lr)) :
    st'.rows = deleteRows st.rows (search st.rows qs) ++ insertRows tx (search st.rows qs) ∧
    uniqueOk st'.rows = true ∧ lr = logRowsOf tx (search st.rows qs) ∧
    inexactUniqueOk qs = true ∧ foundUniqueOk (search st.rows qs) = true ∧
    (act = .materializeAndCommit → st'.log = st.log ++ lr) ∧
    (act = .materialize → st'.log = st.log) := by
  unfold Store.apply updateDatoms at h
  simp only at h
  split at h
  · simp at h
  · rename_i hc
    simp only [Bool.or_eq_true, Bool.not_eq_true', not_or, Bool.not_eq_false] at hc
    split at h
    · rename_i rows' hu
      split at hu
      · rename_i hu'
        cases hu
        cases act <;> simp only [Res.ok.injEq, Prod.mk.injEq] at h <;>
          obtain ⟨rfl, rfl⟩ := h <;> simp_all
      · simp at hu
    · simp at h
    · simp at h

/-- `uniqueOk` says: rows are pairwise distinct as datoms, and flagged rows pairwise distinct
as (a, v). -/
theorem uniqueOk_iff {rows : List Row} :
    uniqueOk rows = true ↔
      rows.Pairwise (fun r r' => ¬ (r'.e = r.e ∧ r'.a = r.a ∧ r'.v = r.v) ∧
        ¬ (r.uniq = true ∧ r'.uniq = true ∧ r'.a = r.a ∧ r'.v = r.v)) := by
  induction rows with
  | nil => simp [uniqueOk]
  | cons r rest ih =>
    unfold uniqueOk
    simp only [Bool.and_eq_true, ih, List.pairwise_cons, List.all_eq_true, decide_eq_true_eq,
      Bool.or_eq_true, Bool.not_eq_true']
    constructor
    · rintro ⟨⟨h1, h2⟩, h3⟩
      refine ⟨fun r' hr' => ⟨h1 r' hr', ?_⟩, h3⟩
      rintro ⟨hu, hu', ha, hv⟩
      rcases h2 with h2 | h2
      · simp [hu] at h2
      · exact h2 r' hr' ⟨hu', ha, hv⟩
    · rintro ⟨h1, h3⟩
      refine ⟨⟨fun r' hr' => (h1 r' hr').1, ?_⟩, h3⟩
      cases hu : r.uniq
      · exact Or.inl rfl
      · exact Or.inr fun r' hr' h => (h1 r' hr').2 ⟨hu, h⟩

theorem pairwise_mem {α : Type} {R : α → α → Prop} {l : List α} (h : l.Pairwise R) {x y : α}
    (hx : x ∈ l) (hy : y ∈ l) : x = y ∨ R x y ∨ R y x := by
  induction l with
  | nil => simp at hx
  | cons z r ih =>
    rw [List.pairwise_cons] at h
    rcases List.mem_cons.mp hx with rfl | hx' <;> rcases List.mem_cons.mp hy with rfl | hy'
    · exact Or.inl rfl
    · exact Or.inr (Or.inl (h.1 _ hy'))
    · exact Or.inr (Or.inr (h.1 _ hx'))
    · exact ih h.2 hx' hy'

theorem uniqueOk_eav {rows : List Row} (h : uniqueOk rows = true) {r r' : Row}
    (hr : r ∈ rows) (hr' : r' ∈ rows) (he : r.e = r'.e) (ha : r.a = r'.a) (hv : r.v = r'.v) :
    r = r' := by
  rcases pairwise_mem (uniqueOk_iff.mp h) hr hr' with h | h | h
  · exact h
  · exact absurd ⟨he.symm, ha.symm, hv.symm⟩ h.1
  · exact absurd ⟨he, ha, hv⟩ h.1

theorem uniqueOk_av {rows : List Row} (h : uniqueOk rows = true) {r r' : Row}
    (hr : r ∈ rows) (hr' : r' ∈ rows) (hu : r.uniq = true) (hu' : r'.uniq = true)
    (ha : r.a = r'.a) (hv : r.v = r'.v) : r = r' := by
  rcases pairwise_mem (uniqueOk_iff.mp h) hr hr' with h | h | h
  · exact h
  · exact absurd ⟨hu, hu', ha.symm, hv.symm⟩ h.2
  · exact absurd ⟨hu', hu, ha, hv⟩ h.2

end Mentat
