import Verif.Proofs.QueryCols
/-
What the steps of the algebrizer leave of the earlier clauses: the computed tables they speak of are
among those recorded, and a variable once bound stays bound.
-/
namespace Mentat
namespace CC

/-- An alias of a table that is not computed, or of one of the first `N` computed tables. -/
def Low (N : Nat) (al : Alias) : Prop := al.table = .computed → al.n < N

theorem Low.mono {N M : Nat} (h : N ≤ M) {al : Alias} (hl : Low N al) : Low M al := fun hc =>
  Nat.lt_of_lt_of_le (hl hc) h

theorem Low.of_ne {N : Nat} {al : Alias} (h : al.table ≠ .computed) : Low N al := fun hc => absurd hc h

/-- The clauses speak of the first `N` computed tables only. -/
structure Lows (N : Nat) (cc : CC) : Prop where
  within : Within (Low N) cc
  tables : ∀ al ∈ cc.tables, Low N al

/-- The variable is bound: it has a value or a column. -/
def Bnd (cc : CC) (x : Var) : Prop := (∃ v, AMap.get cc.vals x = some v) ∨ ∃ qs, AMap.get cc.colb x = some qs

/-- The later clauses speak of computed tables that are there, and bind what the earlier ones do. -/
structure Ext (cc cc' : CC) : Prop where
  low : ∀ N, cc'.computed.length ≤ N → Lows N cc → Lows N cc'
  len : cc.computed.length ≤ cc'.computed.length
  bound : ∀ x, Bnd cc x → Bnd cc' x

theorem Ext.refl (cc : CC) : Ext cc cc := ⟨fun _ _ h => h, Nat.le_refl _, fun _ h => h⟩

theorem Ext.trans {a b c : CC} (h : Ext a b) (h' : Ext b c) : Ext a c :=
  ⟨fun N hN hl => h'.low N hN (h.low N (Nat.le_trans h'.len hN) hl), Nat.le_trans h.len h'.len,
    fun x hx => h'.bound x (h.bound x hx)⟩

/-- The alias is that of a column of some variable. -/
def FromCols (cc : CC) (al : Alias) : Prop := ∃ x qs, AMap.get cc.colb x = some qs ∧ ∃ q ∈ qs, q.1 = al

theorem FromCols.within {K : Alias → Prop} {cc : CC} {al : Alias} (h : FromCols cc al) (hw : Within K cc) : K al := by
  obtain ⟨x, qs, hx, q, hq, rfl⟩ := h
  exact hw.cols x qs hx q hq

theorem FromCols.of_eq {a b : CC} {al : Alias} (h : FromCols a al) (e : b.colb = a.colb) : FromCols b al := by
  unfold FromCols; rw [e]; exact h

/-- The columns of a variable are not forgotten. -/
def ColsUp (a b : CC) : Prop := ∀ x qs, AMap.get a.colb x = some qs → ∃ qs', AMap.get b.colb x = some qs'

theorem ColsUp.of_eq {a b : CC} (h : b.colb = a.colb) : ColsUp a b := fun x qs hx => ⟨qs, by rw [h]; exact hx⟩

theorem ColsUp.trans {a b c : CC} (h : ColsUp a b) (h' : ColsUp b c) : ColsUp a c := fun x qs hx => by
  obtain ⟨qs', hx'⟩ := h x qs hx
  exact h' x qs' hx'

theorem Ext.ofGrow {a b : CC} (g : Grow a b) (hc : ColsUp a b)
    (hw : ∀ N, a.computed.length ≤ N → Within (Low N) a → Within (Low N) b) : Ext a b := by
  refine ⟨?_, by rw [g.computed]; exact Nat.le_refl _, ?_⟩
  · intro N hN hl
    rw [g.computed] at hN
    exact ⟨hw N hN hl.within, by rw [g.tables]; exact hl.tables⟩
  · rintro x (⟨v, hv⟩ | ⟨qs, hq⟩)
    · exact .inl ⟨v, by rw [g.vals]; exact hv⟩
    · exact .inr (hc x qs hq)

section
variable {cc : CC}

theorem colsUp_bindColumn (cc : CC) (s : Schema) (q : QA) (x : Var) : ColsUp cc (cc.bindColumn s q x) := by
  cases hv : AMap.get cc.vals x with
  | some v => rcases bindColumn_some (s := s) (q := q) hv with e | ⟨c, hc, e⟩ <;> rw [e] <;> exact .of_eq rfl
  | none =>
    rw [bindColumn_none hv]
    intro y qs hy
    simp only [pushColumn, AMap.get_insert, (tagged_fields cc q x).1]
    split
    · exact ⟨_, rfl⟩
    · exact ⟨qs, hy⟩

theorem FromCols.bindColumn {al : Alias} (h : FromCols cc al) (s : Schema) (q : QA) (x : Var) :
    FromCols (cc.bindColumn s q x) al := by
  cases hv : AMap.get cc.vals x with
  | some v => rcases bindColumn_some (s := s) (q := q) hv with e | ⟨c, hc, e⟩ <;> rw [e] <;> exact h.of_eq rfl
  | none =>
    rw [bindColumn_none hv]
    obtain ⟨y, qs, hy, p, hp, e⟩ := h
    by_cases exy : x = y
    · subst exy
      refine ⟨x, _, by simp only [pushColumn, AMap.get_insert, if_true, (tagged_fields cc q x).1]; rfl, p, ?_, e⟩
      simp [hy, hp]
    · exact ⟨y, qs, by simp [pushColumn, AMap.get_insert, exy, (tagged_fields cc q x).1, hy], p, hp, e⟩

theorem bnd_bindColumn (cc : CC) (s : Schema) (q : QA) (x : Var) : Bnd (cc.bindColumn s q x) x := by
  cases hv : AMap.get cc.vals x with
  | some v => exact .inl ⟨v, by rw [(grow_bindColumn cc s q x).vals]; exact hv⟩
  | none =>
    rw [bindColumn_none hv]
    exact .inr ⟨_, by simp only [pushColumn, AMap.get_insert, if_true]; rfl⟩

theorem colb_constrainRef (cc : CC) (p : ENonValue) : (cc.constrainRef p).colb = cc.colb := by
  cases p with
  | var x => exact colb_constrainType cc x .ref
  | _ => rfl

theorem colb_constrainConst (cc : CC) (q : QA) (v : TypedValue) : (cc.constrainConst q v).colb = cc.colb := by
  cases v <;> rfl

theorem colsUp_applyRefPlace (cc : CC) (s : Schema) (al : Alias) (c : Col) (p : ENonValue) :
    ColsUp cc (cc.applyRefPlace s al c p) := by
  cases p with
  | var x => exact colsUp_bindColumn cc s _ x
  | _ => exact .of_eq rfl

theorem colsUp_applyValuePlace (cc : CC) (s : Schema) (al : Alias) (t : Option ValueType) (p : EValue) :
    ColsUp cc (cc.applyValuePlace s al t p).1 := by
  cases p with
  | placeholder => exact .of_eq rfl
  | var x =>
    simp only [CC.applyValuePlace]
    cases t with
    | none =>
      simp only [Option.isSome_none, Bool.false_and, Bool.false_eq_true, if_false]
      exact colsUp_bindColumn cc s _ x
    | some t =>
      simp only
      split
      · exact .of_eq (colb_constrainType cc x t)
      · exact (ColsUp.of_eq (colb_constrainType cc x t)).trans (colsUp_bindColumn _ s _ x)
  | entid i =>
    simp only [CC.applyValuePlace]
    split <;> exact .of_eq rfl
  | entidOrInteger i =>
    simp only [CC.applyValuePlace]
    split <;> exact .of_eq rfl
  | identOrKeyword k =>
    simp only [CC.applyValuePlace]
    split
    · cases AMap.get s.identMap k <;> exact .of_eq rfl
    · exact .of_eq rfl
  | value v =>
    simp only [CC.applyValuePlace]
    split
    · simp only
      split
      · exact .of_eq (colb_constrainConst cc (al, .v) v)
      · exact .of_eq (colb_constrainConst cc (al, .v) v)
    · exact .of_eq rfl

theorem colb_stageRefs (cc : CC) (p : EPattern) : (cc.stageRefs p).colb = cc.colb := by
  unfold stageRefs
  rw [colb_constrainRef, colb_constrainRef, colb_constrainRef]

theorem colsUp_stageA (cc : CC) (s : Schema) (p : EPattern) (al : Alias) : ColsUp cc (cc.stageA s p al) :=
  ((ColsUp.of_eq (colb_stageRefs cc p)).trans (colsUp_applyRefPlace _ s al .e p.e)).trans
    (colsUp_applyRefPlace _ s al .a p.a)

theorem colsUp_applyForAlias (cc : CC) (s : Schema) (p : EPattern) (al : Alias) :
    ColsUp cc (cc.applyForAlias s p al) := by
  have h4 : ColsUp cc (cc.stageV s p al).1 := (colsUp_stageA cc s p al).trans (colsUp_applyValuePlace _ s al _ p.v)
  rw [applyForAlias_eq]
  split
  · exact .of_eq rfl
  · split
    · exact (ColsUp.of_eq (colb_stageRefs cc p)).trans ((colsUp_applyRefPlace _ s al .e p.e).trans (.of_eq rfl))
    · split
      · exact h4.trans (colsUp_applyRefPlace _ s al .tx p.tx)
      · exact h4

theorem ext_markEmpty (cc : CC) : Ext cc cc.markEmpty :=
  .ofGrow (grow_markEmpty cc) (.of_eq rfl) fun _ _ h => h.markEmpty

theorem ext_addWhere {c : Constraint} (hc : ∀ N, cc.computed.length ≤ N → Within (Low N) cc → ∀ al ∈ c.refs, Low N al) :
    Ext cc (cc.addWhere c) :=
  .ofGrow (grow_addWhere cc c) (.of_eq rfl) fun N hN h => h.addWhere (hc N hN h)

theorem ext_constrainType (cc : CC) (x : Var) (t : ValueType) : Ext cc (cc.constrainType x t) :=
  .ofGrow (grow_constrainType cc x t) (.of_eq (colb_constrainType cc x t)) fun _ _ h => h.constrainType x t

theorem ext_bindColumn (cc : CC) (s : Schema) {q : QA} (hq : Low cc.computed.length q.1) (x : Var) :
    Ext cc (cc.bindColumn s q x) :=
  .ofGrow (grow_bindColumn cc s q x) (colsUp_bindColumn cc s q x) fun _ hN h => h.bindColumn s (hq.mono hN) x

theorem ext_applyForAlias (cc : CC) (s : Schema) (p : EPattern) {al : Alias} (ha : Low cc.computed.length al) :
    Ext cc (cc.applyForAlias s p al) :=
  .ofGrow (grow_applyForAlias cc s p al) (colsUp_applyForAlias cc s p al) fun _ hN h => h.applyForAlias s p (ha.mono hN)

/-- More tables that are not computed, and the counter moved on. -/
theorem ext_tables {cc : CC} {n : Nat} {als : List Alias} (h : ∀ al ∈ als, al.table ≠ .computed) :
    Ext cc { cc with counter := n, tables := cc.tables ++ als } := by
  refine ⟨fun N _ hl => ⟨⟨hl.within.wh, hl.within.cols, hl.within.tags⟩, ?_⟩, Nat.le_refl _, fun _ h => h⟩
  intro al ha
  simp only [List.mem_append] at ha
  rcases ha with ha | ha
  · exact hl.tables al ha
  · exact .of_ne (h al ha)

/-! ### The variables a pattern binds -/

/-- The variable is bound, and its type is known. -/
def Pinned (cc : CC) (x : Var) (t : ValueType) : Prop := Bnd cc x ∧ AMap.get cc.known x = some (TypeSet.one t)

/-- The pattern gives the variable the type. -/
def EPattern.Types (s : Schema) (p : EPattern) (x : Var) (t : ValueType) : Prop :=
  ((p.e = .var x ∨ p.a = .var x ∨ p.tx = .var x) ∧ t = .ref) ∨
    (p.v = .var x ∧ ∃ a at_, p.a = .entid a ∧ s.attr a = some at_ ∧ t = at_.valueType)

theorem bnd_applyRefPlace {s : Schema} {al : Alias} {c : Col} {p : ENonValue} {x : Var} (h : p = .var x) :
    Bnd (cc.applyRefPlace s al c p) x := by
  subst h; exact bnd_bindColumn cc s _ x

theorem Bnd.up {a b : CC} {x : Var} (h : Bnd a x) (g : Grow a b) (hc : ColsUp a b) : Bnd b x := by
  rcases h with ⟨v, hv⟩ | ⟨qs, hq⟩
  · exact .inl ⟨v, by rw [g.vals]; exact hv⟩
  · exact .inr (hc x qs hq)

theorem applyValuePlace_false {s : Schema} {al : Alias} {t : Option ValueType} {p : EValue}
    (h : (cc.applyValuePlace s al t p).2 = false) : (cc.applyValuePlace s al t p).1.empty = true := by
  cases p with
  | placeholder => simp [CC.applyValuePlace] at h
  | var x =>
    simp only [CC.applyValuePlace] at h ⊢
    cases t with
    | none => simp at h
    | some t =>
      simp only [Option.isSome_some, Bool.true_and] at h ⊢
      cases hc : (cc.constrainType x t).empty with
      | true => simp [hc]
      | false => rw [hc] at h; simp at h
  | entid i =>
    simp only [CC.applyValuePlace] at h
    split at h <;> simp at h
  | entidOrInteger i =>
    simp only [CC.applyValuePlace] at h
    split at h <;> simp at h
  | identOrKeyword k =>
    simp only [CC.applyValuePlace] at h ⊢
    split at h
    · cases hk : AMap.get s.identMap k with
      | none => rfl
      | some e => rw [hk] at h; simp at h
    · simp at h
  | value v =>
    simp only [CC.applyValuePlace] at h ⊢
    split at h
    · simp at h
    · rename_i hc
      rw [if_neg hc]; rfl

/-- A pattern that is applied, and not given up, is applied in all its places. -/
theorem applyForAlias_live {s : Schema} {p : EPattern} {al : Alias} (h : (cc.applyForAlias s p al).empty = false) :
    cc.empty = false ∧ badAttr s p.a = false ∧
      cc.applyForAlias s p al = (cc.stageV s p al).1.applyRefPlace s al .tx p.tx := by
  rw [applyForAlias_eq] at h ⊢
  cases he : cc.empty with
  | true => rw [he] at h; simp [he] at h
  | false =>
    rw [he] at h
    cases hb : badAttr s p.a with
    | true => rw [hb] at h; simp [CC.markEmpty] at h
    | false =>
      rw [hb] at h
      simp only [Bool.false_eq_true, if_false] at h ⊢
      refine ⟨trivial, trivial, ?_⟩
      cases hv : (cc.stageV s p al).2 with
      | true => simp
      | false =>
        rw [hv] at h
        simp only [Bool.false_eq_true, if_false] at h
        unfold stageV at hv h
        rw [applyValuePlace_false hv] at h
        cases h

/-- The variables of a pattern that is applied, and not given up. -/
theorem pins_applyForAlias {s : Schema} {p : EPattern} {al : Alias} (h : (cc.applyForAlias s p al).empty = false)
    {x : Var} {t : ValueType} (ht : p.Types s x t) : Pinned (cc.applyForAlias s p al) x t := by
  obtain ⟨h0, hb, e⟩ := applyForAlias_live h
  rw [e] at h ⊢
  have hV := (grow_applyRefPlace _ s al .tx p.tx).empty h
  have hA : (cc.stageA s p al).empty = false := (grow_applyValuePlace _ _ _ _ _).empty hV
  have hlast := fun y (hy : Bnd (cc.stageV s p al).1 y) =>
    hy.up (grow_applyRefPlace _ s al .tx p.tx) (colsUp_applyRefPlace _ s al .tx p.tx)
  have hval := fun y (hy : Bnd (cc.stageA s p al) y) =>
    hlast y (hy.up (grow_applyValuePlace _ s al ((cc.stageA s p al).valueTypeOf s p) p.v) (colsUp_applyValuePlace _ s al _ p.v))
  rcases ht with ⟨hr, rfl⟩ | ⟨hv, a, at_, ha, hat, rfl⟩
  · have hk : AMap.get (cc.stageA s p al).known x = some (TypeSet.one .ref) := known_stageA hA hr
    refine ⟨?_, ?_⟩
    · rcases hr with hr | hr | hr
      · refine hval x (Bnd.up ?_ (grow_applyRefPlace _ s al .a p.a) (colsUp_applyRefPlace _ s al .a p.a))
        exact bnd_applyRefPlace hr
      · exact hval x (bnd_applyRefPlace hr)
      · exact bnd_applyRefPlace hr
    · rw [known_applyRefPlace]
      unfold stageV at hV ⊢
      exact known_applyValuePlace_keep hV hk
  · rw [Pinned, known_applyRefPlace]
    have e1 : (cc.stageA s p al).valueTypeOf s p = some at_.valueType := valueTypeOf_known ha hat
    unfold stageV at hV hlast ⊢
    rw [e1, hv] at hV hlast ⊢
    simp only [CC.applyValuePlace, Option.isSome_some, Bool.true_and] at hV hlast ⊢
    split at hV
    · rename_i hc; rw [hc] at hV; cases hV
    · rename_i hc
      rw [if_neg hc] at hlast ⊢
      exact ⟨hlast x (bnd_bindColumn _ s _ x), by rw [known_bindColumn]; exact known_constrainType_self _ _ _⟩

end
end CC
end Mentat
