import Verif.Proofs.QueryStep
/-
The values in the columns recorded for a variable are of its type.
-/
namespace Mentat
namespace CC

/-- The columns of a variable.  If its type is known they hold values of that type, the first of them the
value of the variable if that is known.  If not there is only one, and its tag is recorded; it may show
the row of a string only if the variable is required not to be a string. -/
structure Cells (L : Var → Prop) (cc : CC) (env : Env) (x : Var) (qs : List QA) : Prop where
  typed : ¬ L x → ∃ t, AMap.get cc.known x = some (TypeSet.one t) ∧
    (∀ q ∈ qs, ∃ w : TypedValue, w.Proper ∧ w.valueType = t ∧ cell env q = w.toSql.1) ∧
    ∀ v, AMap.get cc.vals x = some v → ∀ q, qs.head? = some q → cell env q = v.toSql.1
  loose : L x → ∃ al, qs = [(al, .v)] ∧ AMap.get cc.extracted x = some (al, .tag) ∧
    ((∃ w : TypedValue, w.Proper ∧ HoldsValue env al w) ∨
      (cell env (al, .tag) = .integer ValueType.string.tag ∧
        ∃ ts, AMap.get cc.required x = some ts ∧ ts .string = false))

/-- In this environment all columns are as they should be. -/
def JAt (L : Var → Prop) (db : Tables) (cc : CC) (env : Env) : Prop :=
  cc.empty = false → evalAll db env cc.wheres = true →
    ∀ x qs, AMap.get cc.colb x = some qs → Cells L cc env x qs

section
variable {L : Var → Prop} {db : Tables} {cc : CC} {env : Env}

theorem Within.jat_congr {K : Alias → Prop} (h : Within K cc) {env' : Env}
    (he : ∀ al, K al → Env.get env al = Env.get env' al) (hj : JAt L db cc env) : JAt L db cc env' := by
  intro hem hw x qs hx
  have hc := hj hem (by rw [h.evalAll he]; exact hw) x qs hx
  have hcell : ∀ q ∈ qs, cell env q = cell env' q := fun q hq => cell_congr (he _ (h.cols x qs hx q hq))
  refine ⟨?_, ?_⟩
  · intro hl
    obtain ⟨t, ht, h1, h2⟩ := hc.typed hl
    refine ⟨t, ht, ?_, ?_⟩
    · intro q hq
      obtain ⟨w, hw1, hw2, hw3⟩ := h1 q hq
      exact ⟨w, hw1, hw2, by rw [← hcell q hq]; exact hw3⟩
    · intro v hv q hq
      have : q ∈ qs := by cases qs <;> simp_all
      rw [← hcell q this]; exact h2 v hv q hq
  · intro hl
    obtain ⟨al, hq, ht, h3⟩ := hc.loose hl
    have e1 : cell env (al, .v) = cell env' (al, .v) := hcell _ (by rw [hq]; simp)
    have e2 : cell env (al, .tag) = cell env' (al, .tag) := cell_congr (he _ (h.tags x _ ht))
    refine ⟨al, hq, ht, ?_⟩
    rcases h3 with ⟨w, hw, hv⟩ | ⟨h4, h5⟩
    · exact .inl ⟨w, hw, by rw [← e1]; exact hv.v, by rw [← e2]; exact hv.tag⟩
    · exact .inr ⟨by rw [← e2]; exact h4, h5⟩

theorem JAt.markEmpty : JAt L db cc.markEmpty env := fun h => by simp [CC.markEmpty] at h

theorem JAt.addWhere (h : JAt L db cc env) (c : Constraint) : JAt L db (cc.addWhere c) env := by
  intro he hw x qs hx
  have := h he ((grow_addWhere cc c).evalAll hw) x qs hx
  exact ⟨this.typed, this.loose⟩

theorem JAt.constrainConst (h : JAt L db cc env) (q : QA) (v : TypedValue) :
    JAt L db (cc.constrainConst q v) env := by
  cases v <;> exact h.addWhere _

theorem JAt.constrainType (h : JAt L db cc env) {x : Var} (t : ValueType) :
    JAt L db (cc.constrainType x t) env := by
  intro he hw y qs hy
  have g := grow_constrainType cc x t
  rw [colb_constrainType] at hy
  have hc := h (g.empty he) (g.evalAll hw) y qs hy
  refine ⟨?_, ?_⟩
  · intro hl
    obtain ⟨u, hu, h1, h2⟩ := hc.typed hl
    refine ⟨u, known_constrainType_keep he hu, h1, ?_⟩
    rw [g.vals]; exact h2
  · intro hl
    rw [extracted_constrainType, g.required]
    exact hc.loose hl

/-- The column holds a value of the known type of the variable. -/
theorem JAt.bindColumn (h : JAt L db cc env) (s : Schema) {q : QA} {x : Var} (hx : ¬ L x)
    (hq : cc.empty = false → evalAll db env cc.wheres = true → ∃ t, AMap.get cc.known x = some (TypeSet.one t) ∧
      ∃ w : TypedValue, w.Proper ∧ w.valueType = t ∧ cell env q = w.toSql.1) :
    JAt L db (cc.bindColumn s q x) env := by
  cases hv : AMap.get cc.vals x with
  | some v =>
    rcases bindColumn_some (s := s) (q := q) hv with e | ⟨c, hc, e⟩ <;> rw [e]
    · exact JAt.markEmpty
    · exact h.addWhere c
  | none =>
    rw [bindColumn_none hv]
    obtain ⟨f1, f2, f3, f4, f5, f6⟩ := tagged_fields cc q x
    intro he hw y qs hy
    have he' : cc.empty = false := by rw [← f3]; exact he
    have hw' : evalAll db env cc.wheres = true := by rw [← f6]; exact hw
    simp only [pushColumn, f1, AMap.get_insert] at hy
    split at hy
    · rename_i e
      subst e
      refine ⟨fun _ => ?_, fun hl => absurd hl hx⟩
      obtain ⟨t, ht, w, hw1, hw2, hw3⟩ := hq he' hw'
      refine ⟨t, by simp only [pushColumn, f2]; exact ht, ?_, ?_⟩
      · intro r hr
        cases hy
        simp only [List.mem_append, List.mem_singleton] at hr
        rcases hr with hr | rfl
        · cases hg : AMap.get cc.colb x with
          | none => simp [hg] at hr
          | some l =>
            obtain ⟨u, hu, h1, -⟩ := (h he' hw' x l hg).typed hx
            rw [ht] at hu
            have : u = t := by
              have := congrFun (Option.some.inj hu) t
              simp only [TypeSet.one, decide_true] at this
              exact (of_decide_eq_true this.symm).symm
            subst this
            exact h1 r (by simpa [hg] using hr)
        · exact ⟨w, hw1, hw2, hw3⟩
      · intro v hv'
        simp only [pushColumn, f4, hv] at hv'
        simp at hv'
    · rename_i e
      have hc := h he' hw' y qs hy
      refine ⟨?_, ?_⟩
      · intro hl
        simp only [pushColumn, f2, f4]
        exact hc.typed hl
      · intro hl
        simp only [pushColumn, f5, tagged_extracted cc q e]
        exact hc.loose hl

/-- The column of a variable whose type is not known, met for the first time. -/
theorem JAt.bindLoose (h : JAt L db cc env) (s : Schema) {al : Alias} {x : Var} (hx : L x) (hu : Unmet cc x)
    (hq : cc.empty = false → evalAll db env cc.wheres = true →
      ((∃ w : TypedValue, w.Proper ∧ HoldsValue env al w) ∨
      (cell env (al, .tag) = .integer ValueType.string.tag ∧
        ∃ ts, AMap.get cc.required x = some ts ∧ ts .string = false))) :
    JAt L db (cc.bindColumn s (al, .v) x) env := by
  rw [bindColumn_none hu.vals]
  obtain ⟨f1, f2, f3, f4, f5, f6⟩ := tagged_fields cc (al, .v) x
  intro he hw y qs hy
  have he' : cc.empty = false := by rw [← f3]; exact he
  have hw' : evalAll db env cc.wheres = true := by rw [← f6]; exact hw
  simp only [pushColumn, f1, AMap.get_insert] at hy
  split at hy
  · rename_i e
    subst e
    refine ⟨fun hl => absurd hx hl, fun _ => ?_⟩
    refine ⟨al, ?_, ?_, ?_⟩
    · cases hy; simp [hu.cols]
    · simp [pushColumn, tagged, hu.needsTag, typeTag]
    · simp only [pushColumn, f5]
      exact hq he' hw'
  · rename_i e
    have hc := h he' hw' y qs hy
    refine ⟨?_, ?_⟩
    · intro hl
      simp only [pushColumn, f2, f4]
      exact hc.typed hl
    · intro hl
      simp only [pushColumn, f5, tagged_extracted cc _ e]
      exact hc.loose hl

theorem JAt.constrainRef (h : JAt L db cc env) (p : ENonValue) : JAt L db (cc.constrainRef p) env := by
  cases p with
  | var x => exact h.constrainType _
  | _ => exact h

theorem JAt.applyRefPlace (h : JAt L db cc env) (s : Schema) {al : Alias} {c : Col} {p : ENonValue} {n : Int}
    (hp : ∀ x, p = .var x → ¬ L x) (hn : cell env (al, c) = .integer n)
    (hk : cc.empty = false → ∀ x, p = .var x → AMap.get cc.known x = some (TypeSet.one .ref)) :
    JAt L db (cc.applyRefPlace s al c p) env := by
  cases p with
  | placeholder => exact h
  | var x =>
    refine h.bindColumn s (hp x rfl) fun he _ => ⟨.ref, hk he x rfl, .ref n, ?_, rfl, hn⟩
    simp [TypedValue.Proper]
  | entid e => exact h.addWhere _

theorem known_constrainRef_keep {p : ENonValue} (h : (cc.constrainRef p).empty = false) {y : Var} {u : ValueType}
    (hy : AMap.get cc.known y = some (TypeSet.one u)) :
    AMap.get (cc.constrainRef p).known y = some (TypeSet.one u) := by
  cases p with
  | var x => exact known_constrainType_keep h hy
  | _ => exact hy

theorem known_constrainRef_self {p : ENonValue} {x : Var} (h : p = .var x) :
    AMap.get (cc.constrainRef p).known x = some (TypeSet.one .ref) := by
  subst h; exact known_constrainType_self cc x .ref

/-- The variables in the places of entities are known to be references. -/
theorem known_stageRefs {p : EPattern} (h : (cc.stageRefs p).empty = false) {x : Var}
    (hx : p.e = .var x ∨ p.a = .var x ∨ p.tx = .var x) :
    AMap.get (cc.stageRefs p).known x = some (TypeSet.one .ref) := by
  have h2 := (grow_constrainRef ((cc.constrainRef p.tx).constrainRef p.e) p.a).empty h
  unfold stageRefs at h ⊢
  rcases hx with hx | hx | hx
  · exact known_constrainRef_keep h (known_constrainRef_self hx)
  · exact known_constrainRef_self hx
  · exact known_constrainRef_keep h (known_constrainRef_keep h2 (known_constrainRef_self hx))

theorem known_applyRefPlace (cc : CC) (s : Schema) (al : Alias) (c : Col) (p : ENonValue) :
    (cc.applyRefPlace s al c p).known = cc.known := by
  cases p with
  | placeholder => rfl
  | var x => exact known_bindColumn _ _ _ _
  | entid e => rfl

theorem known_stageA {s : Schema} {p : EPattern} {al : Alias} (h : (cc.stageA s p al).empty = false) {x : Var}
    (hx : p.e = .var x ∨ p.a = .var x ∨ p.tx = .var x) :
    AMap.get (cc.stageA s p al).known x = some (TypeSet.one .ref) := by
  have he : (cc.stageRefs p).empty = false :=
    (grow_applyRefPlace _ s al .e p.e).empty ((grow_applyRefPlace _ s al .a p.a).empty h)
  unfold stageA
  rw [known_applyRefPlace, known_applyRefPlace]
  exact known_stageRefs he hx

theorem known_applyValuePlace_keep {s : Schema} {al : Alias} {t : Option ValueType} {p : EValue}
    (h : (cc.applyValuePlace s al t p).1.empty = false) {y : Var} {u : ValueType}
    (hy : AMap.get cc.known y = some (TypeSet.one u)) :
    AMap.get (cc.applyValuePlace s al t p).1.known y = some (TypeSet.one u) := by
  have hcc : ∀ (c : CC) q v, (c.constrainConst q v).known = c.known := by
    intro c q v; cases v <;> rfl
  cases p with
  | placeholder => exact hy
  | var x =>
    simp only [CC.applyValuePlace] at h ⊢
    cases t with
    | none =>
      simp only [Option.isSome_none, Bool.false_and, Bool.false_eq_true, if_false] at h ⊢
      rw [known_bindColumn]; exact hy
    | some t =>
      simp only at h ⊢
      split at h
      · rename_i hc
        rw [if_pos hc]; exact known_constrainType_keep h hy
      · rename_i hc
        rw [if_neg hc]
        simp only [known_bindColumn]
        exact known_constrainType_keep ((grow_bindColumn _ _ _ _).empty h) hy
  | entid i =>
    simp only [CC.applyValuePlace]
    split <;> exact hy
  | entidOrInteger i =>
    simp only [CC.applyValuePlace]
    split <;> exact hy
  | identOrKeyword k =>
    simp only [CC.applyValuePlace]
    split
    · cases AMap.get s.identMap k <;> exact hy
    · exact hy
  | value v =>
    simp only [CC.applyValuePlace]
    split
    · simp only
      split
      · simp only [CC.addWhere, hcc]; exact hy
      · rw [hcc]; exact hy
    · exact hy

theorem evalAll_attr {s : Schema} {p : EPattern} {al : Alias} {a : Entid} {r : Row} (hrow : HoldsRow db env al r)
    (ha : p.a = .entid a) (hw : evalAll db env (cc.stageA s p al).wheres = true) : r.a = a := by
  unfold stageA at hw
  rw [ha] at hw
  simp only [CC.applyRefPlace, CC.addWhere, evalAll_append, evalAll, Bool.and_true, Bool.and_eq_true] at hw
  exact (evalC_eqEntid hrow.a).mp hw.2

/-- Applying a pattern to an alias that stands for a datom. -/
theorem JAt.applyForAlias {s : Schema} {p : EPattern} {al : Alias} {r : Row} (h : JAt L db cc env)
    (hd : DbOk s db) (hp : Plain L s cc p) (hl : ∀ x, p.v = .var x → L x → Unmet cc x)
    (ht : cc.tableFor s p.a p.v = some al.table) (hr : r ∈ db.rows) (hrow : HoldsRow db env al r) :
    JAt L db (cc.applyForAlias s p al) env := by
  have h1 : JAt L db (cc.stageRefs p) env := ((h.constrainRef p.tx).constrainRef p.e).constrainRef p.a
  have h2 : JAt L db ((cc.stageRefs p).applyRefPlace s al .e p.e) env :=
    h1.applyRefPlace s hp.e hrow.e fun he x hx => known_stageRefs he (.inl hx)
  have h3 : JAt L db (cc.stageA s p al) env := by
    refine h2.applyRefPlace s (fun x e => (hp.a x e).1) hrow.a fun he x hx => ?_
    rw [known_applyRefPlace]
    exact known_stageRefs ((grow_applyRefPlace _ s al .e p.e).empty he) (.inr (.inl hx))
  have h4 : JAt L db (cc.stageV s p al).1 env := by
    unfold stageV
    by_cases hk : ∃ a, p.a = .entid a
    · obtain ⟨a, ha⟩ := hk
      obtain ⟨⟨at_, hat⟩, hx, e1, e2⟩ := hp.known a ha
      rw [valueTypeOf_known ha hat]
      cases hv : p.v with
      | placeholder => exact h3
      | entid i =>
        simp only [CC.applyValuePlace]
        split <;> first | exact h3.addWhere _ | exact JAt.markEmpty
      | entidOrInteger i => exact absurd hv (e1 i)
      | identOrKeyword k => exact absurd hv (e2 k)
      | value v =>
        simp only [CC.applyValuePlace]
        split
        · simp only
          split
          · exact (h3.constrainConst _ _).addWhere _
          · exact h3.constrainConst _ _
        · exact JAt.markEmpty
      | var x =>
        simp only [CC.applyValuePlace]
        split
        · exact h3.constrainType _
        · refine (h3.constrainType _).bindColumn s (hx x hv) fun he hw => ?_
          rw [wheres_constrainType] at hw
          have hra := evalAll_attr hrow ha hw
          rw [tableFor_known ha hat] at ht
          exact ⟨_, known_constrainType_self _ _ _, r.v, hd.proper r hr, hd.attr hr hat hra,
            hrow.v (by rw [hra]; exact shown_known hd hat ht (by simp [hv]))⟩
    · have hk : ∀ a, p.a ≠ .entid a := fun a ha => hk ⟨a, ha⟩
      have g := grow_stageA cc s p al
      rw [valueTypeOf_unknown hp hk g.vals]
      rw [tableFor_unknown hp hk] at ht
      rcases hp.unknown hk with hv | ⟨x, hv, hx⟩ | ⟨w, hv, hw⟩
      · rw [hv]; exact h3
      · have hu := hl x hv hx
        have hu' := hu.stageA (p := p) (fun e => hp.e x e hx) (fun e => (hp.a x e).1 hx)
          (fun e => hp.tx x e hx) s al
        rw [hv]
        simp only [CC.applyValuePlace, Option.isSome_none, Bool.false_and, Bool.false_eq_true, if_false]
        refine h3.bindLoose s hx hu' fun _ _ => ?_
        rw [g.required]
        by_cases hdt : al.table = .datoms → db.ft r.a = false
        · exact .inl ⟨r.v, hd.proper r hr, hrow.value hdt⟩
        · have hdt : al.table = .datoms ∧ db.ft r.a = true := by
            refine ⟨Classical.byContradiction fun h => hdt fun e => absurd e h, ?_⟩
            cases hf : db.ft r.a with
            | true => rfl
            | false => exact absurd (fun _ => rfl) (hf ▸ hdt)
          obtain ⟨t, hst⟩ := hd.ft_string hr hdt.2
          refine .inr ⟨by rw [hrow.tag, hst]; rfl, ?_⟩
          rw [hdt.1, hv] at ht
          simp only [tableForUnknown, hu.known, Option.all_none, Bool.and_true, Option.some.injEq] at ht
          cases hg : AMap.get cc.required x with
          | none => simp [hg] at ht
          | some ts =>
            refine ⟨ts, rfl, ?_⟩
            cases hs : ts .string with
            | false => rfl
            | true => simp [hg, hs] at ht
      · rw [hv]
        simp only [CC.applyValuePlace]
        split
        · simp only
          split
          · exact (h3.constrainConst _ _).addWhere _
          · exact h3.constrainConst _ _
        · exact JAt.markEmpty
  rw [applyForAlias_eq]
  split
  · exact h
  · split
    · exact JAt.markEmpty
    · split
      · refine h4.applyRefPlace s hp.tx hrow.tx fun he x hx => ?_
        have he' := (grow_applyValuePlace (cc.stageA s p al) s al
          ((cc.stageA s p al).valueTypeOf s p) p.v).empty he
        exact known_applyValuePlace_keep he (known_stageA he' (.inr (.inr hx)))
      · exact h4

end
end CC
end Mentat
