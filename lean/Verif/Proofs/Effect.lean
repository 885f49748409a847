import Verif.Proofs.Run
/- The effect of a successful transaction on the datoms, in terms of its input. -/
namespace Mentat

namespace TxTrace
variable {db : Db} {sfm : Schema} {now : Int} {terms : List TTerm} {ids : List TempId}
    {act : TxAction} {db' : Db} {rep : Report}

theorem has_iff (T : TxTrace db sfm now terms ids act db' rep) (e a v) :
    Has db'.store.rows e a v ↔ Has T.store.rows e a v := by
  obtain ⟨f, hf, hf', -⟩ := T.metaRows
  rw [hf, has_map hf']

theorem mem_store (T : TxTrace db sfm now terms ids act db' rep) (r : Row) :
    r ∈ T.store.rows ↔ (r ∈ db.store.rows ∧ ¬ ∃ q ∈ reducedOf db.schema T.t, Deletes q r) ∨
      (∃ q ∈ reducedOf db.schema T.t, Inserts db.store.rows q ∧ r = newRow rep.txId q) := by
  obtain ⟨hrows, -⟩ := apply_ok T.applied
  rw [hrows, mem_newRows]

/-- Two additions for one entity and cardinality-one attribute are the same: the unique index on
`inexact_searches`. -/
theorem oneAdd (T : TxTrace db sfm now terms ids act db' rep) {q q' : Reduced}
    (hq : q ∈ reducedOf db.schema T.t) (hq' : q' ∈ reducedOf db.schema T.t)
    (ha : q.added = true) (ha' : q'.added = true) (hm : q.attr.multival = false)
    (hm' : q'.attr.multival = false) (he : q.e = q'.e) (hea : q.a = q'.a) : q = q' := by
  obtain ⟨-, -, -, hi, -⟩ := apply_ok T.applied
  have hp : ∀ {l : List Reduced}, inexactUniqueOk l = true → l.Pairwise (fun q q' =>
      q.attr.multival = false → q.added = true → q'.attr.multival = false → q'.added = true →
        ¬ (q'.e = q.e ∧ q'.a = q.a)) := by
    intro l
    induction l with
    | nil => simp
    | cons x r ih =>
      intro h
      unfold inexactUniqueOk at h
      simp only [Bool.and_eq_true, Bool.or_eq_true, Bool.not_eq_true', List.all_eq_true,
        decide_eq_true_eq] at h
      rw [List.pairwise_cons]
      refine ⟨?_, ih h.2⟩
      intro y hy h1 h2 h3 h4
      rcases h.1 with (h5 | h5) | h5
      · rw [h1] at h5; simp at h5
      · rw [h2] at h5; simp at h5
      · rcases h5 y hy with (h6 | h6) | h6
        · rw [h3] at h6; simp at h6
        · rw [h4] at h6; simp at h6
        · exact h6
  rcases pairwise_mem (hp hi) hq hq' with h | h | h
  · exact h
  · exact absurd ⟨he.symm, hea.symm⟩ (h hm ha hm' ha')
  · exact absurd ⟨he, hea⟩ (h hm' ha' hm ha)

/-- An added entry of the queue is present afterwards, unless the same transaction retracts
from the same entity and cardinality-one attribute. -/
theorem added_present (T : TxTrace db sfm now terms ids act db' rep) {q : Reduced}
    (hq : q ∈ reducedOf db.schema T.t) (ha : q.added = true)
    (hno : q.attr.multival = false → ∀ q' ∈ reducedOf db.schema T.t, q'.added = false →
      ¬ (q'.e = q.e ∧ q'.a = q.a)) : Has db'.store.rows q.e q.a q.v := by
  rw [T.has_iff]
  have hattr : ∀ q' ∈ reducedOf db.schema T.t, q'.a = q.a → q'.attr = q.attr := by
    intro q' hq' h
    have h1 := (T.mem_queue.mp hq).1
    have h2 := (T.mem_queue.mp hq').1
    rw [h, h1] at h2
    exact (Option.some.inj h2).symm
  by_cases hi : Inserts db.store.rows q
  · exact ⟨newRow rep.txId q, (T.mem_store _).mpr (Or.inr ⟨q, hq, hi, rfl⟩), rfl, rfl, rfl⟩
  · have hex : ∃ r ∈ db.store.rows, Joins q r ∧ q.v = r.v := by
      apply Classical.byContradiction
      intro hn
      apply hi
      refine ⟨ha, ?_⟩
      by_cases hj : ∃ r ∈ db.store.rows, Joins q r
      · obtain ⟨r, hr, hj⟩ := hj
        exact Or.inr ⟨r, hr, hj, fun hv => hn ⟨r, hr, hj, hv⟩⟩
      · exact Or.inl fun r hr hj' => hj ⟨r, hr, hj'⟩
    obtain ⟨r, hr, hj, hv⟩ := hex
    refine ⟨r, (T.mem_store _).mpr (Or.inl ⟨hr, ?_⟩), hj.1, hj.2.1, hv.symm⟩
    rintro ⟨q', hq', hj', hd⟩
    have he' : q'.e = q.e := hj'.1.symm.trans hj.1
    have hae : q'.a = q.a := hj'.2.1.symm.trans hj.2.1
    have hat := hattr q' hq' hae
    by_cases hm : q.attr.multival = true
    · have hv' : q'.v = q.v := by
        rw [hv]; exact (hj'.2.2 (by rw [hat, hm])).symm
      have := (found_unique T.applied).2 q' hq' q hq he' hae hv'
      subst this
      rcases hd with hd | hd
      · rw [ha] at hd; simp at hd
      · rw [hm] at hd; simp at hd
    · have hm : q.attr.multival = false := by simpa using hm
      rcases hd with hd | ⟨_, hd⟩
      · exact hno hm q' hq' hd ⟨he', hae⟩
      · by_cases ha' : q'.added = true
        · have := T.oneAdd hq hq' ha ha' hm (by rw [hat, hm]) he'.symm hae.symm
          subst this
          exact hd hv
        · exact hno hm q' hq' (by simpa using ha') ⟨he', hae⟩

/-- A retracted entry of the queue is absent afterwards. -/
theorem retracted_absent (T : TxTrace db sfm now terms ids act db' rep) {q : Reduced}
    (hq : q ∈ reducedOf db.schema T.t) (ha : q.added = false) :
    ¬ Has db'.store.rows q.e q.a q.v := by
  rw [T.has_iff]
  rintro ⟨r, hr, he, hae, hv⟩
  rcases (T.mem_store r).mp hr with ⟨_, hn⟩ | ⟨q', hq', hi, rfl⟩
  · exact hn ⟨q, hq, ⟨he, hae, fun _ => hv⟩, Or.inl ha⟩
  · have := (found_unique T.applied).2 q' hq' q hq he hae hv
    subst this
    rw [hi.1] at ha; simp at ha

/-- Nothing changes about (e, a) if every entry of the queue about it is an addition of a datom
already present. -/
theorem unchanged (T : TxTrace db sfm now terms ids act db' rep) {e a : Entid}
    (h : ∀ q ∈ reducedOf db.schema T.t, q.e = e → q.a = a →
      q.added = true ∧ Has db.store.rows e a q.v) (v : TypedValue) :
    Has db'.store.rows e a v ↔ Has db.store.rows e a v := by
  rw [T.has_iff]
  constructor
  · rintro ⟨r, hr, he, ha, hv⟩
    rcases (T.mem_store r).mp hr with ⟨h1, _⟩ | ⟨q, hq, hi, rfl⟩
    · exact ⟨r, h1, he, ha, hv⟩
    · have := (h q hq he ha).2
      rw [show v = q.v from hv.symm]; exact this
  · rintro ⟨r, hr, rfl, rfl, rfl⟩
    refine ⟨r, (T.mem_store _).mpr (Or.inl ⟨hr, ?_⟩), rfl, rfl, rfl⟩
    rintro ⟨q, hq, hj, hd⟩
    obtain ⟨hadd, r2, hr2, he2, ha2, hv2⟩ := h q hq hj.1.symm hj.2.1.symm
    rcases hd with hd | ⟨hm, hne⟩
    · rw [hadd] at hd; simp at hd
    · have hj2 : Joins q r2 := ⟨he2.trans hj.1, ha2.trans hj.2.1, fun h => by rw [hm] at h; simp at h⟩
      have := (found_unique T.applied).1 q hq r hr r2 hr2 hj hj2
      subst this
      exact hne hv2.symm

/-- The final terms are the input terms with tempids replaced, less the dropped ones. -/
theorem terms_spec (T : TxTrace db sfm now terms ids act db' rep) :
    ∃ U, ResolveSpec db.schema db.store db.parts.user terms ids T.s3 U ∧
      (∀ y ∈ T.s3.terms, ∃ x ∈ terms, Denotes T.s3.tempids x y) ∧
      (∀ x ∈ terms, (∃ y ∈ T.s3.terms, Denotes T.s3.tempids x y) ∨
        Dropped db.schema db.store U x) := by
  obtain ⟨U, sp⟩ := resolveTempIds_spec T.stage3
  have hmem : ∀ y, y ∈ T.s3.terms ↔
      y ∈ T.s3.inert ∨ y ∈ T.s3.pops.resolved ∨ y ∈ T.s3.pops.allocated := by
    intro y
    simp only [Stage3.terms, List.mem_append]
    constructor
    · rintro ((h | h) | h) <;> simp [h]
    · rintro (h | h | h) <;> simp [h]
  refine ⟨U, sp, ?_, ?_⟩
  · intro y hy; exact sp.sound y ((hmem y).mp hy)
  · intro x hx
    rcases sp.complete x hx with ⟨y, hy, hd⟩ | h
    · exact Or.inl ⟨y, (hmem y).mpr hy, hd⟩
    · exact Or.inr h

end TxTrace

theorem Denotes.unique {m x y y'} (h : Denotes m x y) (h' : Denotes m x y') : y = y' := by
  obtain ⟨h1, h2, h3, h4⟩ := h
  obtain ⟨k1, k2, k3, k4⟩ := h'
  obtain ⟨o, e, a, v⟩ := y
  obtain ⟨o', e', a', v'⟩ := y'
  simp only at *
  rw [h1, h2, k1, k2, h3.unique k3, h4.unique k4]

theorem get_external {m : TempIdMap} {s : Text} {n : Entid}
    (h : AMap.get (externalTempIds m) s = some n) : AMap.get m (.external s) = some n := by
  induction m with
  | nil => simp [externalTempIds] at h
  | cons p r ih =>
    obtain ⟨t, e⟩ := p
    cases t with
    | external s' =>
      simp only [externalTempIds, AMap.get_cons] at h ⊢
      by_cases hs : s' = s
      · simp only [hs, if_true] at h ⊢; exact h
      · simp only [hs, if_false] at h
        simp only [TempId.external.injEq, hs, if_false]
        exact ih h
    | internal k =>
      simp only [externalTempIds] at h
      simp only [AMap.get_cons, reduceCtorEq, if_false]
      exact ih h

theorem get_external' {m : TempIdMap} {s : Text} {n : Entid}
    (h : AMap.get m (.external s) = some n) : AMap.get (externalTempIds m) s = some n := by
  induction m with
  | nil => simp at h
  | cons p r ih =>
    obtain ⟨t, e⟩ := p
    cases t with
    | external s' =>
      simp only [externalTempIds, AMap.get_cons, TempId.external.injEq] at h ⊢
      by_cases hs : s' = s
      · simp only [hs, if_true] at h ⊢; exact h
      · simp only [hs, if_false] at h ⊢
        exact ih h
    | internal k =>
      simp only [AMap.get_cons, reduceCtorEq, if_false] at h
      simp only [externalTempIds]
      exact ih h

end Mentat
