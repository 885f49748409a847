import Verif.Model.Intern
import Mathlib.Data.List.Forall2
/- C64: interning. -/
namespace Mentat
variable {T : Type} [DecidableEq T]

/-- An allocation holds one value. -/
def Sane (l : List (Rc T)) : Prop := ∀ x ∈ l, ∀ y ∈ l, x.ptr = y.ptr → x.val = y.val

/-- Equal values have one handle in the set. -/
def OneHandle (s : InternSet T) : Prop := ∀ x ∈ s, ∀ y ∈ s, x.val = y.val → x = y

theorem intern_spec {s : InternSet T} {k : Rc T} (h1 : OneHandle s) :
    ∃ s' h, s.intern k = .ok (s', h) ∧ h.val = k.val ∧ h ∈ s' ∧ OneHandle s' ∧
      (∀ x ∈ s, x ∈ s') ∧ ∀ x ∈ s', x ∈ s ∨ x = k := by
  unfold InternSet.intern InternSet.insert
  cases hg : s.get k with
  | none =>
    refine ⟨s ++ [k], k, rfl, rfl, by simp, ?_, fun x hx => by simp [hx], by simp⟩
    have hn : ∀ x ∈ s, x.val ≠ k.val := by
      intro x hx
      have := List.find?_eq_none.1 hg x hx
      simpa using this
    intro x hx y hy hv
    simp only [List.mem_append, List.mem_singleton] at hx hy
    rcases hx with hx | rfl <;> rcases hy with hy | rfl
    · exact h1 x hx y hy hv
    · exact absurd hv (hn x hx)
    · exact absurd hv.symm (hn y hy)
    · rfl
  | some r =>
    have hm := List.mem_of_find?_eq_some hg
    have hv := List.find?_some hg
    simp only [hg]
    exact ⟨s, r, rfl, by simpa using hv, hm, h1, fun _ hx => hx, fun _ hx => Or.inl hx⟩

theorem internAll_spec {s : InternSet T} {ks : List (Rc T)} (h1 : OneHandle s) :
    ∃ s' hs, s.internAll ks = .ok (s', hs) ∧ List.Forall₂ (fun k h => h.val = k.val) ks hs ∧
      (∀ h ∈ hs, h ∈ s') ∧ OneHandle s' ∧ (∀ x ∈ s, x ∈ s') ∧ ∀ x ∈ s', x ∈ s ∨ x ∈ ks := by
  induction ks generalizing s with
  | nil => exact ⟨s, [], rfl, .nil, by simp, h1, fun _ hx => hx, fun _ hx => Or.inl hx⟩
  | cons k r ih =>
    obtain ⟨s1, h, e1, hv, hm, o1, k1, b1⟩ := intern_spec (k := k) h1
    obtain ⟨s2, hs, e2, hvs, hms, o2, k2, b2⟩ := ih o1
    refine ⟨s2, h :: hs, ?_, .cons hv hvs, ?_, o2, fun x hx => k2 x (k1 x hx), ?_⟩
    · simp only [InternSet.internAll, e1, Res.bind, e2]
    · intro x hx
      rcases List.mem_cons.1 hx with rfl | hx
      · exact k2 _ hm
      · exact hms x hx
    · intro x hx
      rcases b2 x hx with hx | hx
      · rcases b1 x hx with hx | rfl
        · exact Or.inl hx
        · exact Or.inr (by simp)
      · exact Or.inr (List.mem_cons_of_mem _ hx)

/-- C64: interning any sequence of values gives, for each, a handle to an equal value; two handles
are the same allocation exactly when the values are equal; and the handles given out earlier are
still the ones in the set. -/
theorem C64_intern (ks : List (Rc T)) (hk : Sane ks) :
    ∃ s hs, InternSet.internAll [] ks = .ok (s, hs) ∧
      List.Forall₂ (fun k h => h.val = k.val) ks hs ∧
      (∀ h ∈ hs, ∀ h' ∈ hs, h.ptr = h'.ptr ↔ h.val = h'.val) ∧
      (∀ more, ∃ s' hs', s.internAll more = .ok (s', hs') ∧ ∀ h ∈ hs, s'.get h = some h) := by
  have h0 : OneHandle ([] : InternSet T) := by simp [OneHandle]
  obtain ⟨s, hs, e, hv, hm, o, -, b⟩ := internAll_spec (ks := ks) h0
  refine ⟨s, hs, e, hv, ?_, ?_⟩
  · intro h hh h' hh'
    constructor
    · intro hp
      have m1 := b h (hm h hh)
      have m2 := b h' (hm h' hh')
      simp only [List.not_mem_nil, false_or] at m1 m2
      exact hk h m1 h' m2 hp
    · intro hval; rw [o h (hm h hh) h' (hm h' hh') hval]
  · intro more
    obtain ⟨s', hs', e', -, -, o', k', -⟩ := internAll_spec (ks := more) o
    refine ⟨s', hs', e', fun h hh => ?_⟩
    have hm' := k' h (hm h hh)
    cases hg : s'.get h with
    | none =>
      have := List.find?_eq_none.1 hg h hm'
      simp at this
    | some r =>
      have hr := List.mem_of_find?_eq_some hg
      have hrv := List.find?_some hg
      rw [o' r hr h hm' (by simpa using hrv)]

/-- "a" at 1, "b" at 2, "a" again at 3: the third handle is the first. -/
theorem C64_example : Sane [(⟨1, "a"⟩ : Rc String), ⟨2, "b"⟩, ⟨3, "a"⟩] ∧
    InternSet.internAll [] [(⟨1, "a"⟩ : Rc String), ⟨2, "b"⟩, ⟨3, "a"⟩] =
      .ok ([⟨1, "a"⟩, ⟨2, "b"⟩], [⟨1, "a"⟩, ⟨2, "b"⟩, ⟨1, "a"⟩]) := by
  refine ⟨?_, rfl⟩
  simp [Sane]

end Mentat
