import Verif.Proofs.QueryTyped
/-
A variable that has a column has a known type, unless it is one of those whose types are not known; a
column of integers is of references or Booleans.
-/
namespace Mentat
namespace CC

/-- Can the column hold values of the type? -/
def Fits (t : ValueType) (q : QA) : Prop := q.2.integerAffinity = true → t = .ref ∨ t = .boolean

/-- The types of columns are known; a variable with a column of tags has a column of values. -/
structure ColsKnown (L : Var → Prop) (cc : CC) : Prop where
  known : cc.empty = false → ∀ x qs, AMap.get cc.colb x = some qs → ¬ L x →
    ∃ t, AMap.get cc.known x = some (TypeSet.one t) ∧ ∀ q ∈ qs, Fits t q
  tagged : cc.empty = false → ∀ x q, AMap.get cc.extracted x = some q → ∃ qs, AMap.get cc.colb x = some qs

theorem Fits.value (t : ValueType) (al : Alias) : Fits t (al, .v) := fun h => by simp [Col.integerAffinity] at h
theorem Fits.ref (q : QA) : Fits .ref q := fun _ => .inl rfl

theorem one_inj {t u : ValueType} (h : TypeSet.one t = TypeSet.one u) : t = u := by
  have := congrFun h t
  simpa [TypeSet.one] using this

section
variable {L : Var → Prop} {cc : CC}

theorem ColsKnown.markEmpty : ColsKnown L cc.markEmpty :=
  ⟨fun h => by simp [CC.markEmpty] at h, fun h => by simp [CC.markEmpty] at h⟩

theorem ColsKnown.addWhere (h : ColsKnown L cc) (c : Constraint) : ColsKnown L (cc.addWhere c) := ⟨h.known, h.tagged⟩

theorem ColsKnown.constrainConst (h : ColsKnown L cc) (q : QA) (v : TypedValue) :
    ColsKnown L (cc.constrainConst q v) := by cases v <;> exact ⟨h.known, h.tagged⟩

theorem ColsKnown.constrainType (h : ColsKnown L cc) (x : Var) (t : ValueType) :
    ColsKnown L (cc.constrainType x t) := by
  refine ⟨?_, ?_⟩
  · intro he y qs hy hL
    rw [colb_constrainType] at hy
    obtain ⟨u, hu, hf⟩ := h.known ((grow_constrainType cc x t).empty he) y qs hy hL
    exact ⟨u, known_constrainType_keep he hu, hf⟩
  · intro he y q hy
    rw [colb_constrainType]
    exact h.tagged ((grow_constrainType cc x t).empty he) y q (by rw [← extracted_constrainType cc x t]; exact hy)

theorem ColsKnown.bindColumn (h : ColsKnown L cc) (s : Schema) (q : QA) {x : Var}
    (hx : cc.empty = false → ¬ L x → ∃ t, AMap.get cc.known x = some (TypeSet.one t) ∧ Fits t q) :
    ColsKnown L (cc.bindColumn s q x) := by
  cases hv : AMap.get cc.vals x with
  | some v =>
    have key : ∀ d : CC, d.empty = true ∨ (d.empty = cc.empty ∧ d.colb = cc.colb ∧ d.known = cc.known ∧
        d.extracted = cc.extracted) → ColsKnown L d := by
      rintro d (he | ⟨e1, e2, e3, e4⟩)
      · exact ⟨fun h => absurd h (by simp [he]), fun h => absurd h (by simp [he])⟩
      · exact ⟨by rw [e1, e2, e3]; exact h.known, by rw [e1, e2, e4]; exact h.tagged⟩
    rcases bindColumn_some (s := s) (q := q) hv with h1 | ⟨c, -, h1⟩ <;> rw [h1]
    · exact key _ (.inl rfl)
    · exact key _ (.inr ⟨rfl, rfl, rfl, rfl⟩)
  | none =>
    refine ⟨?_, ?_⟩
    · intro he y qs hy hL
      rw [known_bindColumn]
      have he' := (grow_bindColumn cc s q x).empty he
      rw [bindColumn_none hv] at hy
      simp only [CC.pushColumn, AMap.get_insert, (tagged_fields cc q x).1] at hy
      split at hy
      · rename_i e
        subst e
        obtain rfl := Option.some.inj hy
        obtain ⟨t, ht, hf⟩ := hx he' hL
        refine ⟨t, ht, ?_⟩
        intro p hp
        rw [List.mem_append, List.mem_singleton] at hp
        rcases hp with hp | rfl
        · cases hc : AMap.get cc.colb x with
          | none => rw [hc] at hp; simp at hp
          | some qs =>
            rw [hc] at hp
            obtain ⟨u, hu, hf'⟩ := h.known he' x qs hc hL
            rw [ht] at hu
            rw [one_inj (Option.some.inj hu)]
            exact hf' p hp
        · exact hf
      · exact h.known he' y qs hy hL
    · intro he y p hy
      have he' := (grow_bindColumn cc s q x).empty he
      rw [bindColumn_none hv] at hy ⊢
      simp only [CC.pushColumn, AMap.get_insert, (tagged_fields cc q x).1] at hy ⊢
      split
      · exact ⟨_, rfl⟩
      · rename_i e
        refine h.tagged he' y p ?_
        rw [← tagged_extracted cc q e]; exact hy

theorem ColsKnown.constrainRef (h : ColsKnown L cc) (p : ENonValue) : ColsKnown L (cc.constrainRef p) := by
  cases p with
  | var x => exact h.constrainType x .ref
  | _ => exact h

theorem ColsKnown.applyRefPlace (h : ColsKnown L cc) (s : Schema) (al : Alias) (c : Col) {p : ENonValue}
    (hp : cc.empty = false → ∀ x, p = .var x → AMap.get cc.known x = some (TypeSet.one .ref)) :
    ColsKnown L (cc.applyRefPlace s al c p) := by
  cases p with
  | placeholder => exact h
  | entid e => exact h.addWhere _
  | var x => exact h.bindColumn s _ fun he _ => ⟨_, hp he x rfl, Fits.ref _⟩

theorem ColsKnown.applyForAlias (h : ColsKnown L cc) {s : Schema} {p : EPattern} (hp : Plain L s cc p) (al : Alias) :
    ColsKnown L (cc.applyForAlias s p al) := by
  have h1 : ColsKnown L (cc.stageRefs p) := ((h.constrainRef p.tx).constrainRef p.e).constrainRef p.a
  have h2 : ColsKnown L ((cc.stageRefs p).applyRefPlace s al .e p.e) :=
    h1.applyRefPlace s al .e fun he x hx => known_stageRefs he (.inl hx)
  have h3 : ColsKnown L (cc.stageA s p al) := by
    refine h2.applyRefPlace s al .a fun he x hx => ?_
    rw [known_applyRefPlace]
    exact known_stageRefs ((grow_applyRefPlace _ s al .e p.e).empty he) (.inr (.inl hx))
  have h4 : ColsKnown L (cc.stageV s p al).1 := by
    unfold stageV
    cases hv : p.v with
    | placeholder => exact h3
    | var x =>
      simp only [CC.applyValuePlace]
      by_cases hk : ∃ a, p.a = .entid a
      · obtain ⟨a, ha⟩ := hk
        obtain ⟨⟨at_, hat⟩, -⟩ := hp.known a ha
        rw [valueTypeOf_known ha hat]
        simp only
        split
        · exact h3.constrainType _ _
        · exact (h3.constrainType _ _).bindColumn s _ fun _ _ => ⟨_, known_constrainType_self _ _ _, Fits.value _ _⟩
      · have hno : ∀ a, p.a ≠ .entid a := fun a ha => hk ⟨a, ha⟩
        have hvv : (cc.stageA s p al).vals = cc.vals := (grow_stageA cc s p al).vals
        rw [valueTypeOf_unknown hp hno hvv]
        simp only [Option.isSome_none, Bool.false_and, Bool.false_eq_true, if_false]
        refine h3.bindColumn s _ fun _ hL => ?_
        rcases hp.unknown hno with h | ⟨y, h, hy⟩ | ⟨w, h, -⟩
        · rw [h] at hv; cases hv
        · rw [h] at hv; cases hv; exact absurd hy hL
        · rw [h] at hv; cases hv
    | entid i =>
      simp only [CC.applyValuePlace]
      split <;> first | exact h3.addWhere _ | exact ColsKnown.markEmpty
    | entidOrInteger i =>
      simp only [CC.applyValuePlace]
      split <;> exact h3.addWhere _
    | identOrKeyword k =>
      simp only [CC.applyValuePlace]
      split
      · cases AMap.get s.identMap k <;> first | exact h3.addWhere _ | exact ColsKnown.markEmpty
      · exact (h3.addWhere _).addWhere _
    | value v =>
      simp only [CC.applyValuePlace]
      split
      · simp only
        split
        · exact (h3.constrainConst _ _).addWhere _
        · exact h3.constrainConst _ _
      · exact ColsKnown.markEmpty
  rw [applyForAlias_eq]
  split
  · exact h
  · split
    · exact ColsKnown.markEmpty
    · split
      · refine h4.applyRefPlace s al .tx fun he x hx => ?_
        unfold stageV at he ⊢
        exact known_applyValuePlace_keep he (known_stageA ((grow_applyValuePlace _ _ _ _ _).empty he) (.inr (.inr hx)))
      · exact h4

end
end CC
end Mentat
