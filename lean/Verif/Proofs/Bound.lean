import Verif.Spec.Bound
import Verif.Props.Permute
/-
Maps kept in the order of their variables, and what the calls of a query builder leave in them.
-/
namespace Mentat
open CC

theorem varLt_irrefl (x : Var) : varLt x x = false := lexLt_irrefl _

theorem varLt_trans {x y z : Var} (h1 : varLt x y = true) (h2 : varLt y z = true) : varLt x z = true := by
  cases h : varLt x z with
  | true => rfl
  | false =>
    have h4 : varLt z y = false := lexLt_asymm h2
    have h5 : varLt x y = false := lexLt_neg (m := z.map Char.toNat) h h4
    rw [h1] at h5; cases h5

theorem varLt_tri {x y : Var} (h1 : varLt x y = false) (h2 : varLt y x = false) : x = y :=
  toNat_map_inj (lexLt_tri h1 h2)

theorem varLt_ne {x y : Var} (h : varLt x y = true) : x ≠ y := by
  rintro rfl
  rw [varLt_irrefl] at h; cases h

def SortedVars {α : Type} (m : AMap Var α) : Prop := m.Pairwise fun p q => varLt p.1 q.1 = true

theorem get_putVar {α : Type} (x : Var) (v : α) : ∀ (m : AMap Var α) (y : Var), SortedVars m →
    AMap.get (putVar x v m) y = if x = y then some v else AMap.get m y
  | [], y, _ => by simp [putVar]
  | (z, w) :: r, y, hs => by
    unfold putVar
    split
    · rename_i h; subst h
      by_cases hy : z = y <;> simp [hy]
    · rename_i h
      split
      · rw [AMap.get_cons, AMap.get_cons, get_putVar x v r y (List.pairwise_cons.mp hs).2]
        by_cases hz : z = y
        · have : x ≠ y := fun e => h (hz.trans e.symm)
          simp [hz, this]
        · simp [hz]
      · rw [AMap.get_cons]

theorem mem_putVar {α : Type} {x : Var} {v : α} {p : Var × α} : ∀ {m : AMap Var α}, p ∈ putVar x v m → p = (x, v) ∨ p ∈ m
  | [], h => by simpa [putVar] using h
  | (z, w) :: r, h => by
    unfold putVar at h
    split at h
    · rcases List.mem_cons.mp h with h | h
      · exact .inl h
      · exact .inr (List.mem_cons_of_mem _ h)
    · split at h
      · rcases List.mem_cons.mp h with h | h
        · exact .inr (h ▸ List.mem_cons_self)
        · rcases mem_putVar h with h | h
          · exact .inl h
          · exact .inr (List.mem_cons_of_mem _ h)
      · rcases List.mem_cons.mp h with h | h
        · exact .inl h
        · exact .inr h

theorem sorted_putVar {α : Type} (x : Var) (v : α) : ∀ {m : AMap Var α}, SortedVars m → SortedVars (putVar x v m)
  | [], _ => by simp [putVar, SortedVars]
  | (z, w) :: r, hs => by
    obtain ⟨h1, h2⟩ := List.pairwise_cons.mp hs
    unfold putVar
    split
    · rename_i h; subst h
      exact List.pairwise_cons.mpr ⟨h1, h2⟩
    · rename_i h
      split
      · rename_i hlt
        refine List.pairwise_cons.mpr ⟨fun p hp => ?_, sorted_putVar x v h2⟩
        rcases mem_putVar hp with rfl | hp
        · exact hlt
        · exact h1 p hp
      · rename_i hlt
        have hlt' : varLt x z = true := by
          cases hx : varLt x z with
          | true => rfl
          | false => exact absurd (varLt_tri (by simpa using hlt) hx) h
        refine List.pairwise_cons.mpr ⟨fun p hp => ?_, hs⟩
        rcases List.mem_cons.mp hp with rfl | hp
        · exact hlt'
        · exact varLt_trans hlt' (h1 p hp)

theorem get_none_of_lt {α : Type} {x : Var} : ∀ {m : AMap Var α}, (∀ p ∈ m, varLt x p.1 = true) → AMap.get m x = none
  | [], _ => rfl
  | (z, w) :: r, h => by
    rw [AMap.get_cons, if_neg (varLt_ne (h _ List.mem_cons_self)).symm]
    exact get_none_of_lt fun p hp => h p (List.mem_cons_of_mem _ hp)

/-- Maps in the order of their variables are determined by what they hold. -/
theorem sorted_ext {α : Type} : ∀ {m m' : AMap Var α}, SortedVars m → SortedVars m' →
    (∀ x, AMap.get m x = AMap.get m' x) → m = m'
  | [], [], _, _, _ => rfl
  | [], (z, w) :: r, _, _, h => by simpa using h z
  | (z, w) :: r, [], _, _, h => by simpa using h z
  | (z, w) :: r, (z', w') :: r', hs, hs', h => by
    obtain ⟨h1, h2⟩ := List.pairwise_cons.mp hs
    obtain ⟨h1', h2'⟩ := List.pairwise_cons.mp hs'
    have e : z = z' := by
      refine varLt_tri ?_ ?_
      · cases hx : varLt z z' with
        | false => rfl
        | true =>
          have := h z
          rw [AMap.get_cons, if_pos rfl, get_none_of_lt (m := (z', w') :: r')] at this
          · cases this
          · intro p hp
            rcases List.mem_cons.mp hp with rfl | hp
            · exact hx
            · exact varLt_trans hx (h1' p hp)
      · cases hx : varLt z' z with
        | false => rfl
        | true =>
          have := h z'
          rw [AMap.get_cons (k' := z') (k := z'), if_pos rfl, get_none_of_lt (m := (z, w) :: r)] at this
          · cases this
          · intro p hp
            rcases List.mem_cons.mp hp with rfl | hp
            · exact hx
            · exact varLt_trans hx (h1 p hp)
    subst e
    have hw := h z
    simp only [AMap.get_cons, if_pos, Option.some.injEq] at hw
    subst hw
    rw [sorted_ext h2 h2' fun x => ?_]
    by_cases hx : z = x
    · subst hx
      rw [get_none_of_lt h1, get_none_of_lt h1']
    · have := h x
      simpa only [AMap.get_cons, if_neg hx] using this

theorem sorted_wf {α : Type} {m : AMap Var α} (h : SortedVars m) : AMap.WF m := by
  unfold AMap.WF AMap.keys
  rw [List.nodup_iff_pairwise_ne, List.pairwise_map]
  exact h.imp varLt_ne

/-! ### Inputs -/

theorem given_types : ∀ {values : List (Var × TypedValue)} {types types' : AMap Var ValueType}, SortedVars types →
    SortedVars values → Inputs.given types values = .ok types' →
    SortedVars types' ∧ ∀ x, AMap.get types' x = ((AMap.get values x).map (·.valueType)).or (AMap.get types x)
  | [], types, types', hs, _, h => by
    cases h
    exact ⟨hs, fun x => by simp⟩
  | (y, v) :: r, types, types', hs, hv, h => by
    unfold Inputs.given at h
    split at h
    · obtain ⟨h1, h2⟩ := List.pairwise_cons.mp hv
      obtain ⟨h3, h4⟩ := given_types (sorted_putVar y v.valueType hs) h2 h
      refine ⟨h3, fun x => ?_⟩
      rw [h4, get_putVar _ _ _ _ hs, AMap.get_cons]
      by_cases hy : y = x
      · subst hy
        rw [get_none_of_lt h1]
        simp
      · simp [hy]
    · cases h

theorem given_ok : ∀ {values : List (Var × TypedValue)} {types : AMap Var ValueType}, SortedVars types → SortedVars values →
    (((∀ x v t, AMap.get values x = some v → AMap.get types x = some t → t = v.valueType) →
        ∃ types', Inputs.given types values = .ok types') ∧
      (∀ x v t, AMap.get values x = some v → AMap.get types x = some t → t ≠ v.valueType →
        Inputs.given types values = .err .inputError))
  | [], types, _, _ => ⟨fun _ => ⟨types, rfl⟩, by simp⟩
  | (y, v) :: r, types, hs, hv => by
    obtain ⟨h1, h2⟩ := List.pairwise_cons.mp hv
    have ih := given_ok (sorted_putVar y v.valueType hs) h2
    constructor
    · intro h
      unfold Inputs.given
      rw [if_pos]
      · refine ih.1 fun x w t hx ht => ?_
        rw [get_putVar _ _ _ _ hs] at ht
        have hy : y ≠ x := by
          rintro rfl
          rw [get_none_of_lt h1] at hx; cases hx
        rw [if_neg hy] at ht
        exact h x w t (by rw [AMap.get_cons, if_neg hy]; exact hx) ht
      · cases ht : AMap.get types y with
        | none => rfl
        | some t => simpa using h y v t (by simp) ht
    · intro x w t hx ht hne
      unfold Inputs.given
      split
      · rename_i hc
        rw [AMap.get_cons] at hx
        split at hx
        · rename_i hy; subst hy
          cases hx
          rw [ht] at hc
          exact absurd (by simpa using hc) hne
        · rename_i hy
          exact ih.2 x w t hx (by rw [get_putVar _ _ _ _ hs, if_neg hy]; exact ht) hne
      · rfl

/-! ### Calls -/

theorem exact_instant {m : Int} (h : 0 ≤ m ∨ m % 1000000 = 0) : (DateTime.fromMicros m).toMicros = m := by
  unfold DateTime.fromMicros DateTime.toMicros
  rcases h with h | h
  · have : Int.tmod m 1000000 = m % 1000000 := Int.tmod_eq_emod_of_nonneg h
    have : Int.tdiv m 1000000 = m / 1000000 := Int.tdiv_eq_ediv_of_nonneg h
    simp only [*]
    omega
  · obtain ⟨c, rfl⟩ := Int.dvd_of_emod_eq_zero h
    simp only [Int.mul_tmod_right, Int.natAbs_zero]
    rw [Int.mul_tdiv_cancel_left _ (by decide)]
    omega

structure QueryBuilder.Sorted (b : QueryBuilder) : Prop where
  values : SortedVars b.values
  types : SortedVars b.types

theorem bindValue_ok {b b' : QueryBuilder} {x : Text} {v : TypedValue} (h : b.bindValue x v = .ok b') :
    x.head? = some '?' ∧ b' = { b with values := putVar x v b.values } := by
  unfold QueryBuilder.bindValue QueryBuilder.validName at h
  split at h
  · rename_i hx
    cases h
    exact ⟨hx, rfl⟩
  · cases h

theorem call_ok {s : Schema} {b b' : QueryBuilder} {c : BindCall} (he : c.Exact) (h : b.call s c = .ok b') (hb : b.Sorted) :
    c.Allowed s ∧ b'.Sorted ∧ b'.query = b.query ∧
      (∀ x, AMap.get b'.values x = (c.valueOf s x).or (AMap.get b.values x)) ∧
      ∀ x, AMap.get b'.types x = (c.typeOf x).or (AMap.get b.types x) := by
  have key : ∀ {y : Text} {v : TypedValue}, b.bindValue y v = .ok b' →
      y.head? = some '?' ∧ b'.Sorted ∧ b'.query = b.query ∧
      (∀ x, AMap.get b'.values x = (if y = x then some v else none).or (AMap.get b.values x)) ∧
      ∀ x, AMap.get b'.types x = AMap.get b.types x := by
    intro y v hv
    obtain ⟨h1, rfl⟩ := bindValue_ok hv
    refine ⟨h1, ⟨sorted_putVar _ _ hb.values, hb.types⟩, rfl, fun x => ?_, fun _ => rfl⟩
    simp only [get_putVar _ _ _ _ hb.values]
    split <;> simp
  cases c with
  | value y v =>
    obtain ⟨h1, h2, h3, h4, h5⟩ := key h
    exact ⟨⟨h1, by simp⟩, h2, h3, h4, h5⟩
  | refFromKw y k =>
    simp only [QueryBuilder.call, QueryBuilder.bindRefFromKw] at h
    split at h
    · cases h
    · rename_i e hk
      obtain ⟨h1, h2, h3, h4, h5⟩ := key h
      refine ⟨⟨h1, ?_⟩, h2, h3, fun x => ?_, h5⟩
      · intro x k' hx
        cases hx
        rw [hk]; rfl
      · rw [h4, BindCall.valueOf, hk]; rfl
  | ref y e =>
    obtain ⟨h1, h2, h3, h4, h5⟩ := key h
    exact ⟨⟨h1, by simp⟩, h2, h3, h4, h5⟩
  | long y i =>
    obtain ⟨h1, h2, h3, h4, h5⟩ := key h
    exact ⟨⟨h1, by simp⟩, h2, h3, h4, h5⟩
  | instant y m =>
    obtain ⟨h1, h2, h3, h4, h5⟩ := key h
    rw [exact_instant he] at h4
    exact ⟨⟨h1, by simp⟩, h2, h3, h4, h5⟩
  | dateTime y t =>
    obtain ⟨h1, h2, h3, h4, h5⟩ := key h
    exact ⟨⟨h1, by simp⟩, h2, h3, h4, h5⟩
  | type y t =>
    simp only [QueryBuilder.call, QueryBuilder.bindType, QueryBuilder.validName] at h
    split at h
    · rename_i hx
      cases h
      refine ⟨⟨hx, by simp⟩, ⟨hb.values, sorted_putVar _ _ hb.types⟩, rfl, fun _ => rfl, fun x => ?_⟩
      simp only [get_putVar _ _ _ _ hb.types, BindCall.typeOf]
      split <;> simp
    · cases h

theorem call_allowed {s : Schema} {b : QueryBuilder} {c : BindCall} (h : c.Allowed s) : ∃ b', b.call s c = .ok b' := by
  obtain ⟨h1, h2⟩ := h
  cases c with
  | refFromKw y k =>
    have h3 := h2 y k rfl
    simp only [BindCall.name] at h1
    cases hk : AMap.get s.identMap k with
    | none => rw [hk] at h3; cases h3
    | some e => exact ⟨_, by simp [QueryBuilder.call, QueryBuilder.bindRefFromKw, hk, QueryBuilder.bindValue, QueryBuilder.validName, h1, Res.bind]; rfl⟩
  | _ =>
    simp only [BindCall.name] at h1
    exact ⟨_, by simp [QueryBuilder.call, QueryBuilder.bindType, QueryBuilder.bindRef, QueryBuilder.bindLong, QueryBuilder.bindInstant,
      QueryBuilder.bindDateTime, QueryBuilder.bindValue, QueryBuilder.validName, h1, Res.bind]; rfl⟩

theorem calls_ok {s : Schema} : ∀ {cs : List BindCall} {b b' : QueryBuilder}, (∀ c ∈ cs, c.Exact) → b.Sorted →
    b.calls s cs = .ok b' → (∀ c ∈ cs, c.Allowed s) ∧ b'.Sorted ∧ b'.query = b.query ∧
      (∀ x, AMap.get b'.values x = (lastValue s cs x).or (AMap.get b.values x)) ∧
      ∀ x, AMap.get b'.types x = (lastType cs x).or (AMap.get b.types x)
  | [], b, b', _, hb, h => by
    cases h
    exact ⟨by simp, hb, rfl, fun x => by simp [lastValue], fun x => by simp [lastType]⟩
  | c :: cs, b, b', he, hb, h => by
    unfold QueryBuilder.calls at h
    obtain ⟨b1, h1, h2⟩ := Res.bind_eq_ok.mp h
    obtain ⟨a1, a2, a3, a4, a5⟩ := call_ok (he c List.mem_cons_self) h1 hb
    obtain ⟨i1, i2, i3, i4, i5⟩ := calls_ok (fun c hc => he c (List.mem_cons_of_mem _ hc)) a2 h2
    refine ⟨fun c' hc => ?_, i2, i3.trans a3, fun x => ?_, fun x => ?_⟩
    · rcases List.mem_cons.mp hc with rfl | hc
      · exact a1
      · exact i1 c' hc
    · rw [i4, a4]
      unfold lastValue
      rw [List.reverse_cons, List.findSome?_append, Option.or_assoc]
      simp
    · rw [i5, a5]
      unfold lastType
      rw [List.reverse_cons, List.findSome?_append, Option.or_assoc]
      simp

theorem calls_allowed {s : Schema} : ∀ {cs : List BindCall} {b : QueryBuilder}, (∀ c ∈ cs, c.Allowed s) →
    ∃ b', b.calls s cs = .ok b'
  | [], b, _ => ⟨b, rfl⟩
  | c :: cs, b, h => by
    obtain ⟨b1, h1⟩ := call_allowed (b := b) (h c List.mem_cons_self)
    obtain ⟨b2, h2⟩ := calls_allowed (b := b1) fun c hc => h c (List.mem_cons_of_mem _ hc)
    exact ⟨b2, by rw [QueryBuilder.calls, h1]; exact h2⟩

end Mentat
