import Verif.Proofs.QueryClauses
/-
The functions that read the transaction log: applying one adds the condition that a row of the log is as
it says.
-/
namespace Mentat
namespace CC

/-- New tables of the statement, and what their rows are drawn from. -/
structure Drawn (γ : Type) where
  als : List Alias
  mem : γ → Prop
  row : γ → Alias → SRow

/-- The tables show this choice of rows. -/
def Drawn.At {γ : Type} (D : Drawn γ) (env : Env) (g : γ) : Prop :=
  D.mem g ∧ ∀ al ∈ D.als, Env.get env al = D.row g al

/-- Steps on the columns of new tables, for whatever rows they stand for. -/
structure Inner (L : Var → Prop) (db : Tables) {γ : Type} (D : Drawn γ) (X : Var → Prop) (cc cc' : CC)
    (P : γ → Assign → Prop) : Prop where
  grow : Grow cc cc'
  inv : Inv L cc → Inv L cc'
  jat : ∀ env l, D.At env l → JAt L db cc env → JAt L db cc' env
  «at» : ∀ env l, D.At env l → ∀ ρ : Assign, ρ.Proper → (At db cc' env ρ ↔ At db cc env ρ ∧ P l ρ)
  keep : cc'.empty = false → ∀ x t, AMap.get cc.known x = some (TypeSet.one t) →
    AMap.get cc'.known x = some (TypeSet.one t)
  unmet : ∀ x, ¬ X x → Unmet cc x → Unmet cc' x
  cols : ColsKnown L cc → ColsKnown L cc'
  ext : Ext cc cc'

section
variable {L X Y : Var → Prop} {db : Tables} {γ : Type} {D : Drawn γ} {al : Alias} {a b c cc : CC} {P Q : γ → Assign → Prop}

theorem Inner.refl : Inner L db D X cc cc (fun _ _ => True) :=
  ⟨Grow.refl _, id, fun _ _ _ h => h, fun _ _ _ _ _ => by simp, fun _ _ _ h => h, fun _ _ h => h, id, Ext.refl _⟩

theorem Inner.trans (h : Inner L db D X a b P) (h' : Inner L db D X b c Q) :
    Inner L db D X a c (fun l ρ => P l ρ ∧ Q l ρ) :=
  ⟨h.grow.trans h'.grow, fun hi => h'.inv (h.inv hi), fun env l he hj => h'.jat env l he (h.jat env l he hj),
    fun env l he ρ hρ => by rw [h'.at env l he ρ hρ, h.at env l he ρ hρ, and_assoc],
    fun he x t hx => h'.keep he x t (h.keep (h'.grow.empty he) x t hx),
    fun x hx hu => h'.unmet x hx (h.unmet x hx hu), fun hc => h'.cols (h.cols hc), h.ext.trans h'.ext⟩

theorem Inner.mono (h : Inner L db D X a b P) (hxy : ∀ x, X x → Y x) : Inner L db D Y a b P :=
  ⟨h.grow, h.inv, h.jat, h.at, h.keep, fun x hx => h.unmet x fun hy => hx (hxy x hy), h.cols, h.ext⟩

theorem Inner.congr (h : Inner L db D X a b P)
    (hpq : ∀ l, D.mem l → ∀ ρ : Assign, (P l ρ ↔ Q l ρ)) : Inner L db D X a b Q :=
  ⟨h.grow, h.inv, h.jat, fun env l he ρ hρ => by rw [h.at env l he ρ hρ, hpq l he.1 ρ], h.keep, h.unmet, h.cols, h.ext⟩

/-- Giving up when nothing can hold any more, instead of going on. -/
theorem Inner.stop (h : Inner L db D X a b P) (he : b.empty = true) :
    Inner L db D X a b (fun l ρ => P l ρ ∧ Q l ρ) :=
  ⟨h.grow, h.inv, h.jat, fun env l hg ρ hρ => by
      have := h.at env l hg ρ hρ
      constructor
      · intro hb; have := hb.live; rw [he] at this; cases this
      · rintro ⟨ha, hp, -⟩
        exact this.mpr ⟨ha, hp⟩,
    h.keep, h.unmet, h.cols, h.ext⟩

/-- A column that holds a reference or a boolean. -/
theorem at_bindColumn_col {env : Env} {ρ : Assign} {s : Schema} {q : QA} {x : Var} {w : TypedValue}
    (hq : entityColumn q = false) (ht : typeTag q = none) (hc : cell env q = w.toSql.1)
    (hw : w.valueType = .ref ∨ w.valueType = .boolean)
    (hr : At db cc env ρ → (ρ x).valueType = w.valueType) :
    At db (cc.bindColumn s q x) env ρ ↔ At db cc env ρ ∧ ρ x = w := by
  have hp : ∀ v : TypedValue, v.valueType = w.valueType → (w.toSql.1 = v.toSql.1 ↔ v = w) := by
    intro v hv
    cases w <;> simp [TypedValue.valueType] at hw <;> cases v <;> simp [TypedValue.valueType] at hv <;>
      simp [TypedValue.toSql, eq_comm]
    rename_i a b
    cases a <;> cases b <;> simp
  cases hv : AMap.get cc.vals x with
  | none =>
    rw [at_bindColumn_push hv, hc]
    constructor
    · rintro ⟨h, h2, -⟩; exact ⟨h, (hp _ (hr h)).mp h2⟩
    · rintro ⟨h, h2⟩
      exact ⟨h, (hp _ (hr h)).mpr h2, fun _ t h => by rw [ht] at h; cases h⟩
  | some v =>
    have e : cc.bindColumn s q x = cc.constrainConst q v := by
      unfold bindColumn
      simp [hv, hq]
    rw [e]
    by_cases h : At db cc env ρ
    · have hx := h.vals x v hv
      have hvt := hr h
      rw [hx] at hvt ⊢
      have hn : ∃ n, cell env q = .integer n := by
        rw [hc]; cases w <;> simp [TypedValue.valueType] at hw <;> exact ⟨_, rfl⟩
      obtain ⟨n, hn⟩ := hn
      have key : At db (cc.constrainConst q v) env ρ ↔ At db cc env ρ ∧ w.toSql.1 = v.toSql.1 := by
        cases w <;> simp [TypedValue.valueType] at hw <;> cases v <;> simp [TypedValue.valueType] at hvt
        · simp only [constrainConst, at_addWhere, evalC_eqEntid hc]
          simp [TypedValue.toSql]
        · rename_i a b
          have : evalC db env (eqValue q (.boolean b)) = evalC db env (eqEntid q (if b then 1 else 0)) := by
            simp [eqValue, eqEntid, TypedValue.toSql]
          simp only [constrainConst, at_addWhere, this, evalC_eqEntid hc]
          simp [TypedValue.toSql]
      rw [key, hp v hvt]
    · constructor
      · intro h'
        exfalso; apply h
        cases v <;> simp only [constrainConst, at_addWhere] at h' <;> exact h'.1
      · intro h'; exact absurd h'.1 h

theorem Inner.addWhere {k : Constraint} (ha : ∀ al ∈ D.als, Old cc.counter al ∧ al.table ≠ .computed)
    (hk : ∀ b ∈ k.refs, b ∈ D.als ∨ FromCols cc b)
    (h : ∀ env l, D.At env l → ∀ ρ : Assign, ρ.Proper → At db cc env ρ →
      (evalC db env k = true ↔ P l ρ)) : Inner L db D X cc (cc.addWhere k) P :=
  ⟨grow_addWhere cc k, fun hi => hi.addWhere fun b hb => (hk b hb).elim (fun e => (ha b e).1) fun h => h.within hi.fresh,
    fun _ _ _ hj => hj.addWhere k,
    fun env l he ρ hρ => by rw [at_addWhere]; exact and_congr_right (h env l he ρ hρ), fun _ _ _ h => h,
    fun _ _ h => ⟨h.vals, h.known, h.cols, h.tags, h.inputs⟩, fun h => h.addWhere k,
    ext_addWhere fun _ _ hw b hb => (hk b hb).elim (fun e => .of_ne (ha b e).2) fun h => h.within hw⟩

/-- The column holds what `f` reads from the rows chosen: a reference or a boolean. -/
def DrawnShows (D : Drawn γ) (al : Alias) (c : Col) (t : ValueType) (f : γ → TypedValue) : Prop :=
  al ∈ D.als ∧ typeTag (al, c) = none ∧ (t = .ref ∨ entityColumn (al, c) = false ∧ t = .boolean) ∧
    ∀ l, D.mem l → (f l).Proper ∧ (f l).valueType = t ∧ D.row l al c = (f l).toSql.1

theorem at_bindColumn_shown {env : Env} {ρ : Assign} {s : Schema} {q : QA} {x : Var} {w : TypedValue}
    (ht : typeTag q = none) (hc : cell env q = w.toSql.1)
    (hw : w.valueType = .ref ∨ entityColumn q = false ∧ w.valueType = .boolean)
    (hr : At db cc env ρ → (ρ x).valueType = w.valueType) :
    At db (cc.bindColumn s q x) env ρ ↔ At db cc env ρ ∧ ρ x = w := by
  cases hq : entityColumn q with
  | false => exact at_bindColumn_col hq ht hc (hw.imp id And.right) hr
  | true =>
    have hw : w.valueType = .ref := by
      rcases hw with h | h
      · exact h
      · rw [hq] at h; exact absurd h.1 (by simp)
    cases w <;> simp [TypedValue.valueType] at hw
    exact at_bindColumn_ref hq ht hc hr

theorem inner_typed {s : Schema} {c : Col} {t : ValueType} {f : γ → TypedValue}
    (ha : Old cc.counter al) (hn : al.table ≠ .computed) (hs : DrawnShows D al c t f) {x : Var} (hx : ¬ L x) :
    Inner L db D (fun y => y = x) cc ((cc.constrainType x t).bindColumn s (al, c) x) (fun l ρ => ρ x = f l) := by
  obtain ⟨h0, h1, h3, h4⟩ := hs
  have g := grow_constrainType cc x t
  refine ⟨g.trans (grow_bindColumn _ _ _ _), ?_, ?_, ?_, ?_, ?_, ?_,
    (ext_constrainType cc x t).trans (ext_bindColumn _ s (.of_ne hn) x)⟩
  · intro hi
    exact (hi.constrainType hx t).bindColumn s (q := (al, c)) (by rw [g.counter]; exact ha) (.inr (.inl h1))
  · intro env l he hj
    obtain ⟨p1, p2, p3⟩ := h4 l he.1
    refine (hj.constrainType t).bindColumn s hx fun _ _ => ⟨t, known_constrainType_self cc x t, f l, p1, p2, ?_⟩
    simp only [cell, he.2 al h0]; exact p3
  · intro env l he ρ hρ
    obtain ⟨p1, p2, p3⟩ := h4 l he.1
    rw [at_bindColumn_shown (w := f l) h1 (by simp only [cell, he.2 al h0]; exact p3)
      (by rw [p2]; exact h3) (fun h => by rw [(at_constrainType.mp h).2, p2]), at_constrainType]
    constructor
    · rintro ⟨⟨h, -⟩, e⟩; exact ⟨h, e⟩
    · rintro ⟨h, e⟩; exact ⟨⟨h, by rw [e, p2]⟩, e⟩
  · intro he y u hy
    rw [known_bindColumn]
    exact known_constrainType_keep ((grow_bindColumn _ s (al, c) x).empty he) hy
  · intro y hy hu
    exact (hu.constrainType (fun e => hy e.symm) t).bindColumn (fun e => hy e.symm) s _
  · intro hc
    refine (hc.constrainType x t).bindColumn s _ fun _ _ => ⟨t, known_constrainType_self cc x t, fun _ => h3.imp id And.right⟩

theorem inner_constrain {t : ValueType} {f : γ → TypedValue}
    {x : Var} (hx : ¬ L x) (he : (cc.constrainType x t).empty = true) (hf : ∀ l, D.mem l → (f l).valueType = t) :
    Inner L db D (fun y => y = x) cc (cc.constrainType x t) (fun l ρ => ρ x = f l) := by
  have hno : ∀ env (ρ : Assign), ¬ At db (cc.constrainType x t) env ρ := fun env ρ h => by
    have := h.live; rw [he] at this; cases this
  refine ⟨grow_constrainType cc x t, fun hi => hi.constrainType hx t, fun env l he hj => hj.constrainType t, ?_,
    fun he _ _ h => known_constrainType_keep he h, fun y hy hu => hu.constrainType (fun e => hy e.symm) t,
    fun hc => hc.constrainType x t, ext_constrainType cc x t⟩
  intro env l hg ρ hρ
  constructor
  · intro h; exact absurd h (hno _ _)
  · rintro ⟨h, e⟩
    exact absurd (at_constrainType.mpr ⟨h, by rw [e, hf l hg.1]⟩) (hno _ _)

/-- A place for a variable of known type. -/
theorem inner_bindTyped {s : Schema} {c : Col} {t : ValueType} {f : γ → TypedValue}
    (ha : Old cc.counter al) (hn : al.table ≠ .computed) (hs : DrawnShows D al c t f) {o : Option Var} (ho : ∀ x, o = some x → ¬ L x) :
    Inner L db D (fun y => o = some y) cc (cc.bindTyped s (al, c) t o).1 (fun l ρ => ∀ x, o = some x → ρ x = f l) ∧
      ((cc.bindTyped s (al, c) t o).2 = false → (cc.bindTyped s (al, c) t o).1.empty = true) := by
  cases o with
  | none =>
    refine ⟨?_, by simp [bindTyped]⟩
    exact Inner.refl.congr (by simp)
  | some x =>
    simp only [bindTyped]
    split
    · rename_i he
      refine ⟨((inner_constrain (f := f) (ho x rfl) he (fun l hl => (hs.2.2.2 l hl).2.1)).mono ?_).congr ?_, fun _ => he⟩
      · rintro y rfl; rfl
      · intro l hl ρ; simp
    · refine ⟨((inner_typed (s := s) ha hn hs (ho x rfl)).mono ?_).congr ?_, by simp⟩
      · rintro y rfl; rfl
      · intro l hl ρ; simp

/-- The values of the log can be read from its rows. -/
structure LogOk (db : Tables) : Prop where
  proper : ∀ l ∈ db.facts.log, l.v.Proper
  plain : ∀ l ∈ db.facts.log, db.ft l.a = false

/-- A row of the log. -/
def drawnLog (db : Tables) (al : Alias) : Drawn LogRow := ⟨[al], (· ∈ db.facts.log), fun l _ => db.logRow l⟩

theorem drawnLog_get {env : Env} {l : LogRow} (h : (drawnLog db al).At env l) : Env.get env al = db.logRow l :=
  h.2 al (by simp [drawnLog])

theorem LogOk.holds (h : LogOk db) {env : Env} {l : LogRow} (hl : l ∈ db.facts.log)
    (he : Env.get env al = db.logRow l) : HoldsValue env al l.v := by
  constructor
  · simp only [cell, he, Tables.logRow, sqlRow, Tables.rawValue, h.plain l hl]
  · simp only [cell, he, Tables.logRow, sqlRow]

/-- The place for the value: a variable whose type is not known. -/
theorem inner_value {s : Schema} (hd : LogOk db) (ha : Old cc.counter al) (hn : al.table ≠ .computed) {x : Var} (hx : L x)
    (hu : Unmet cc x) :
    Inner L db (drawnLog db al) (fun y => y = x) cc (cc.bindColumn s (al, .v) x) (fun l ρ => ρ x = l.v) := by
  refine ⟨grow_bindColumn _ _ _ _, fun hi => hi.bindColumn s (q := (al, .v)) ha (.inl hx), ?_, ?_, ?_, ?_, ?_,
    ext_bindColumn cc s (.of_ne hn) x⟩
  · intro env l he hj
    exact hj.bindLoose s hx hu fun _ _ => .inl ⟨l.v, hd.proper l he.1, hd.holds he.1 (drawnLog_get he)⟩
  · intro env l he ρ hρ
    exact at_bindColumn_new (hd.proper l he.1) hρ (hd.holds he.1 (drawnLog_get he)) hu.needsTag hu.vals
  · intro _ y u hy; rw [known_bindColumn]; exact hy
  · intro y hy hu'; exact hu'.bindColumn (fun e => hy e.symm) s _
  · intro hc; exact hc.bindColumn s _ fun _ hn => absurd hx hn

end

/-- New tables and steps on their columns. -/
theorem StepOk.ofDrawn {F : Env → Prop} {L X : Var → Prop} {db : Tables} {cc cc' : CC} {γ : Type} {D : Drawn γ}
    {P : γ → Assign → Prop} {n : Nat} (hi : Inv L cc) (ht : TypedIn F L db cc) (hn : cc.counter ≤ n)
    (hals : ∀ al ∈ D.als, al.table ≠ .computed ∧ cc.counter ≤ al.n ∧ al.n < n)
    (hrows : ∀ E, ∀ l2 ∈ evalFrom db E (D.als.map .table), ∃ g, D.mem g ∧ ∀ al ∈ D.als, Env.get l2 al = D.row g al)
    (hmem : ∀ E g, D.mem g → ∃ l2 ∈ evalFrom db E (D.als.map .table), ∀ al ∈ D.als, Env.get l2 al = D.row g al)
    (h : Inner L db D X { cc with counter := n, tables := cc.tables ++ D.als } cc' P) :
    StepOk F L db X cc cc' (fun ρ => ∃ g, D.mem g ∧ P g ρ) := by
  have hnew : ∀ al ∈ D.als, ¬ Old cc.counter al := by
    intro al ha ho
    have := ho (hals al ha).1
    have := (hals al ha).2.1
    omega
  have hi1 : Inv L { cc with counter := n, tables := cc.tables ++ D.als } := by
    refine ⟨hi.unit, hi.valsKnown, hi.valsProper, hi.loose, hi.tags, hi.wfCols, hi.wfReq, hi.colsNe,
      ⟨fun c hc a ha => (hi.fresh.wh c hc a ha).mono hn,
        fun x qs hx q hq => (hi.fresh.cols x qs hx q hq).mono hn,
        fun x q hx => (hi.fresh.tags x q hx).mono hn⟩, ?_, hi.computed, hi.wfKnown⟩
    intro a ha
    simp only [List.mem_append] at ha
    rcases ha with ha | ha
    · exact (hi.tables a ha).mono hn
    · intro _; exact (hals a ha).2.2
  have hs1 : Same cc { cc with counter := n, tables := cc.tables ++ D.als } := ⟨rfl, rfl, rfl, rfl, rfl, rfl, rfl⟩
  have g := h.grow
  have hst : cc'.stables = cc.stables ++ D.als.map .table := by
    rw [g.stables]
    simp only [stables, List.map_append]
    congr 1
    apply List.map_congr_left
    intro al ha
    have := (hals al ha).1
    split <;> simp_all
  have hkeys : ∀ E, ∀ l2 ∈ evalFrom db E (D.als.map .table), l2.map Prod.fst = D.als := by
    intro E l2 hl2
    rw [evalFrom_keys hl2, List.map_map]
    exact List.map_id _
  have env_old : ∀ (l1 l2 : Env) E a, l2 ∈ evalFrom db E (D.als.map .table) → Old cc.counter a →
      Env.get (l1 ++ E) a = Env.get (l1 ++ l2 ++ E) a := by
    intro l1 l2 E a hl2 ha
    rw [List.append_assoc, Env.get_append, Env.get_append (l := l1), Env.get_append (l := l2), hkeys E l2 hl2,
      if_neg (fun h => hnew a h ha)]
  have env_new : ∀ (l1 l2 : Env) E a, l1 ∈ evalFrom db E cc.stables → l2 ∈ evalFrom db E (D.als.map .table) → a ∈ D.als →
      Env.get (l1 ++ l2 ++ E) a = Env.get l2 a := by
    intro l1 l2 E a hl1 hl2 ha
    rw [List.append_assoc, Env.get_append, if_neg (fun h => hnew a ha (hi.keys hl1 h)), Env.get_append,
      hkeys E l2 hl2, if_pos ha]
  have hat : ∀ E (l1 l2 : Env) g, l1 ∈ evalFrom db E cc.stables → l2 ∈ evalFrom db E (D.als.map .table) → D.mem g →
      (∀ al ∈ D.als, Env.get l2 al = D.row g al) → D.At (l1 ++ l2 ++ E) g := by
    intro E l1 l2 g hl1 hl2 hg hr
    exact ⟨hg, fun al ha => by rw [env_new l1 l2 E al hl1 hl2 ha, hr al ha]⟩
  refine ⟨h.inv hi1, ?_, ?_, fun he x t hx => h.keep he x t hx, g.vals, g.inputs, g.empty,
    g.panics, ?_,
    fun x hx hu => h.unmet x hx ⟨hu.vals, hu.known, hu.cols, hu.tags, hu.inputs⟩, g.wheres,
    fun hc => h.cols ⟨hc.known, hc.tagged⟩,
    (ext_tables (n := n) (als := D.als) fun al ha => (hals al ha).1).trans h.ext⟩
  · intro E hE loc hloc
    rw [hst, mem_evalFrom_append] at hloc
    obtain ⟨l1, hl1, l2, hl2, rfl⟩ := hloc
    obtain ⟨g, hg, hr⟩ := hrows E l2 hl2
    exact h.jat _ g (hat E l1 l2 g hl1 hl2 hg hr)
      (hs1.jat (hi.fresh.jat_congr (fun a => env_old l1 l2 E a hl2) (ht E hE l1 hl1)))
  · intro E hE ρ hρ
    have key : ∀ (l1 l2 : Env) g, l1 ∈ evalFrom db E cc.stables → l2 ∈ evalFrom db E (D.als.map .table) → D.mem g →
        (∀ al ∈ D.als, Env.get l2 al = D.row g al) →
        (At db cc' (l1 ++ l2 ++ E) ρ ↔ At db cc (l1 ++ E) ρ ∧ P g ρ) := by
      intro l1 l2 g hl1 hl2 hg hr
      rw [h.at _ g (hat E l1 l2 g hl1 hl2 hg hr) ρ hρ, ← hs1.at, hi.fresh.at_congr (fun a => env_old l1 l2 E a hl2)]
    unfold Sem
    rw [hst]
    constructor
    · rintro ⟨loc, hloc, h'⟩
      rw [mem_evalFrom_append] at hloc
      obtain ⟨l1, hl1, l2, hl2, rfl⟩ := hloc
      obtain ⟨g, hg, hr⟩ := hrows E l2 hl2
      have := (key l1 l2 g hl1 hl2 hg hr).mp h'
      exact ⟨⟨l1, hl1, this.1⟩, g, hg, this.2⟩
    · rintro ⟨⟨l1, hl1, h'⟩, g, hg, hp⟩
      obtain ⟨l2, hl2, hr⟩ := hmem E g hg
      refine ⟨l1 ++ l2, ?_, (key l1 l2 g hl1 hl2 hg hr).mpr ⟨h', hp⟩⟩
      rw [mem_evalFrom_append]
      exact ⟨l1, hl1, l2, hl2, rfl⟩
  · rw [g.counter]; exact hn

theorem StepOk.ofLog {F : Env → Prop} {L X : Var → Prop} {db : Tables} {cc cc' : CC} {P : LogRow → Assign → Prop}
    (hi : Inv L cc) (ht : TypedIn F L db cc) (h : Inner L db (drawnLog db cc.logAlias) X cc.withLog cc' P) :
    StepOk F L db X cc cc' (fun ρ => ∃ l ∈ db.facts.log, P l ρ) := by
  have hrows : ∀ E row, row ∈ evalTable db E (.table cc.logAlias) ↔ ∃ l ∈ db.facts.log, db.logRow l = row := by
    intro E row
    simp only [evalTable, logAlias, Tables.tableRows, List.mem_map]
    rfl
  have hone : ∀ row, Env.get [(STable.alias (.table cc.logAlias), row)] cc.logAlias = row := by
    intro row; simp [Env.get, AMap.get_cons, STable.alias]
  refine StepOk.ofDrawn (D := drawnLog db cc.logAlias) (n := cc.counter + 1) hi ht (Nat.le_succ _) ?_ ?_ ?_ h
  · intro al ha
    obtain rfl : al = cc.logAlias := by simpa [drawnLog] using ha
    exact ⟨by simp [logAlias], Nat.le_refl _, Nat.lt_succ_self _⟩
  · intro E l2 hl2
    simp only [drawnLog, List.map_cons, List.map_nil, mem_evalFrom_one] at hl2
    obtain ⟨row, hrow, rfl⟩ := hl2
    obtain ⟨l, hl, rfl⟩ := (hrows _ row).mp hrow
    refine ⟨l, hl, ?_⟩
    intro al ha
    obtain rfl : al = cc.logAlias := by simpa [drawnLog] using ha
    exact hone _
  · intro E l hl
    refine ⟨[(STable.alias (.table cc.logAlias), db.logRow l)], ?_, ?_⟩
    · simp only [drawnLog, List.map_cons, List.map_nil, mem_evalFrom_one]
      exact ⟨_, (hrows _ _).mpr ⟨l, hl, rfl⟩, rfl⟩
    · intro al ha
      obtain rfl : al = cc.logAlias := by simpa [drawnLog] using ha
      exact hone _

/-! ### The functions -/

section
variable {F : Env → Prop} {L : Var → Prop} {db : Tables} {cc : CC}

theorem shows_tx (db : Tables) (cc : CC) : DrawnShows (drawnLog db cc.logAlias) cc.logAlias .tx .ref (fun l => .ref l.tx) :=
  ⟨by simp [drawnLog], rfl, .inl rfl, fun l _ => ⟨by simp [TypedValue.Proper], rfl, rfl⟩⟩
theorem shows_e (db : Tables) (cc : CC) : DrawnShows (drawnLog db cc.logAlias) cc.logAlias .e .ref (fun l => .ref l.e) :=
  ⟨by simp [drawnLog], rfl, .inl rfl, fun l _ => ⟨by simp [TypedValue.Proper], rfl, rfl⟩⟩
theorem shows_a (db : Tables) (cc : CC) : DrawnShows (drawnLog db cc.logAlias) cc.logAlias .a .ref (fun l => .ref l.a) :=
  ⟨by simp [drawnLog], rfl, .inl rfl, fun l _ => ⟨by simp [TypedValue.Proper], rfl, rfl⟩⟩
theorem shows_added (db : Tables) (cc : CC) :
    DrawnShows (drawnLog db cc.logAlias) cc.logAlias .added .boolean (fun l => .boolean l.added) :=
  ⟨by simp [drawnLog], rfl, .inr ⟨rfl, rfl⟩, fun l _ => ⟨by simp [TypedValue.Proper], rfl, rfl⟩⟩

theorem old_withLog (cc : CC) : Old cc.withLog.counter cc.logAlias := fun _ => Nat.lt_succ_self _

theorem log_ne (cc : CC) : cc.logAlias.table ≠ .computed := by simp [logAlias]

theorem FromCols.bindTyped {s : Schema} {q : QA} {t : ValueType} {o : Option Var} {al : Alias} (h : FromCols cc al) :
    FromCols (cc.bindTyped s q t o).1 al := by
  cases o with
  | none => exact h
  | some x =>
    have h1 : FromCols (cc.constrainType x t) al := h.of_eq (colb_constrainType cc x t)
    simp only [CC.bindTyped]
    split
    · exact h1
    · exact h1.bindColumn s q x

theorem at_withLog {env : Env} {ρ : Assign} : At db cc.withLog env ρ ↔ At db cc env ρ :=
  (show Same cc cc.withLog from ⟨rfl, rfl, rfl, rfl, rfl, rfl, rfl⟩).at.symm

/-- `(tx-ids $ t1 t2)`: a transaction of the log in the half-open range. -/
theorem step_txIds (hi : Inv L cc) (ht : TypedIn F L db cc) {s : Schema} {args : List FnArg} {b : Binding}
    (ha : ∀ x ∈ argVars args, ¬ L x) (hb : ∀ x, some x ∈ b.vars → ¬ L x) {cc' : CC}
    (h : cc.applyTxIds s args b = .ok cc') :
    StepOk F L db (· ∈ argVars args ++ b.vars.filterMap id) cc cc' (fun ρ => FnSat s db.facts ρ .txIds args b) := by
  unfold applyTxIds at h
  split at h
  rotate_left
  · cases h
  rename_i src t1 t2
  split at h
  · cases h
  split at h
  · cases h
  simp only at h
  cases hox : txVar b with
  | none => rw [hox] at h; cases h
  | some x =>
    rw [hox] at h
    have hbv : b.vars = [some x] := by
      unfold txVar at hox
      split at hox <;> cases hox <;> rfl
    simp only at h
    split at h
    rotate_left
    · cases h
    rw [bind_iff] at h
    obtain ⟨⟨c1, e1⟩, h1, h⟩ := h
    rw [bind_iff] at h
    obtain ⟨⟨c2, e2⟩, h2, h⟩ := h
    simp only at h
    obtain ⟨s1, b1, r1, n1, v1⟩ := step_resolveRef (F := F) (db := db) hi ht
      (fun y hy => ha y (by subst hy; simp [argVars])) h1
    obtain ⟨s2, b2, r2, n2, v2⟩ := step_resolveRef (F := F) (db := db) s1.inv s1.typed
      (fun y hy => ha y (by subst hy; cases t1 <;> simp [argVars])) h2
    have hx : ¬ L x := hb x (by rw [hbv]; simp)
    have hcol : ∀ env (l : LogRow), Env.get env c2.logAlias = db.logRow l →
        (SExpr.col c2.logAlias .tx).eval env = .integer l.tx := by
      intro env l he
      simp only [SExpr.eval, he]; rfl
    obtain ⟨i1, i1s⟩ := inner_bindTyped (L := L) (db := db) (s := s) (old_withLog c2) (log_ne c2) (shows_tx db c2) (o := some x)
      (fun y hy => by cases hy; exact hx)
    have hfc : ∀ al, FromCols c2 al → FromCols (c2.withLog.bindTyped s (c2.logAlias, .tx) .ref (some x)).1 al :=
      fun al h => FromCols.bindTyped (h.of_eq rfl)
    generalize hr : c2.withLog.bindTyped s (c2.logAlias, .tx) .ref (some x) = r at h i1 i1s hfc
    have hcnt : r.1.counter = c2.counter + 1 := i1.grow.counter
    have hals : ∀ al ∈ (drawnLog db c2.logAlias).als, Old r.1.counter al ∧ al.table ≠ .computed := by
      intro al ha
      obtain rfl : al = c2.logAlias := by simpa [drawnLog] using ha
      exact ⟨by rw [hcnt]; exact old_withLog c2, log_ne c2⟩
    have hback : ∀ env l, (drawnLog db c2.logAlias).At env l → ∀ ρ : Assign, ρ.Proper →
        At db r.1 env ρ → At db c2 env ρ := fun env l he ρ hρ h =>
      at_withLog.mp ((i1.at env l he ρ hρ).mp h).1
    have i2 : Inner L db (drawnLog db c2.logAlias) (fun y => some x = some y) r.1
        (r.1.addWhere (Constraint.infix SqlOp.le e1 (.col c2.logAlias .tx)))
        (fun l ρ => ∃ a, t1.Denotes s ρ (.ref a) ∧ a ≤ l.tx) := by
      refine Inner.addWhere (D := drawnLog db c2.logAlias) hals ?_ ?_
      · intro al hal
        simp only [Constraint.refs, List.mem_append] at hal
        rcases hal with hal | hal
        · exact .inr (hfc al ((r1 al hal).of_eq n2))
        · simp only [SExpr.refs, List.mem_singleton] at hal
          exact .inl (by simp [drawnLog, hal])
      · intro env l he ρ hρ hat
        obtain ⟨n, hn, hd⟩ := v1 env ρ (b2 env ρ (hback env l he ρ hρ hat))
        have := evalInfix_int (op := .le) hn (hcol env l (drawnLog_get he))
        rw [evalC]
        rw [show SqlOp.le = Ineq.sql .le from rfl, this]
        simp [hd, Ineq.compares]
    have i3 : Inner L db (drawnLog db c2.logAlias) (fun y => some x = some y) (r.1.addWhere (Constraint.infix SqlOp.le e1 (.col c2.logAlias .tx)))
        ((r.1.addWhere (Constraint.infix SqlOp.le e1 (.col c2.logAlias .tx))).addWhere (Constraint.infix SqlOp.lt (.col c2.logAlias .tx) e2))
        (fun l ρ => ∃ z, t2.Denotes s ρ (.ref z) ∧ l.tx < z) := by
      refine Inner.addWhere (D := drawnLog db c2.logAlias) hals ?_ ?_
      · intro al hal
        simp only [Constraint.refs, List.mem_append] at hal
        rcases hal with hal | hal
        · simp only [SExpr.refs, List.mem_singleton] at hal
          exact .inl (by simp [drawnLog, hal])
        · exact .inr ((hfc al (r2 al hal)).of_eq rfl)
      · intro env l he ρ hρ hat
        obtain ⟨n, hn, hd⟩ := v2 env ρ (hback env l he ρ hρ (at_addWhere.mp hat).1)
        have := evalInfix_int (op := .lt) (hcol env l (drawnLog_get he)) hn
        rw [evalC]
        rw [show SqlOp.lt = Ineq.sql .lt from rfl, this]
        simp [hd, Ineq.compares]
    have i : Inner L db (drawnLog db c2.logAlias) (fun y => some x = some y) c2.withLog cc'
        (fun l ρ => ρ x = .ref l.tx ∧ (∃ a, t1.Denotes s ρ (.ref a) ∧ a ≤ l.tx) ∧
          ∃ z, t2.Denotes s ρ (.ref z) ∧ l.tx < z) := by
      obtain rfl := Res.ok.inj h
      split
      · refine ((i1.trans i2).trans i3).congr ?_
        intro l _ ρ
        simp [and_assoc]
      · rename_i hf
        refine (i1.stop (Q := fun l ρ => (∃ a, t1.Denotes s ρ (.ref a) ∧ a ≤ l.tx) ∧
          ∃ z, t2.Denotes s ρ (.ref z) ∧ l.tx < z) (i1s (by simpa using hf))).congr ?_
        intro l _ ρ
        simp
    refine (((s1.trans s2).trans (StepOk.ofLog s2.inv s2.typed i)).mono ?_).congr ?_
    · rintro y ((rfl | rfl) | hy)
      · simp [argVars]
      · cases t1 <;> simp [argVars]
      · cases hy; simp [hbv]
    · intro E hE ρ hρ hsem
      simp only [FnSat, hbv, List.head?_cons, Holds?]
      constructor
      · rintro ⟨-, l, hl, hx, ⟨a, ha, hal⟩, z, hz, hzl⟩
        exact ⟨l, hl, a, z, ha, hz, hal, hzl, hx⟩
      · rintro ⟨l, hl, a, z, ha, hz, hal, hzl, hx⟩
        refine ⟨⟨?_, ?_⟩, l, hl, hx, ⟨a, ha, hal⟩, z, hz, hzl⟩
        · rintro y rfl; rw [show ρ y = .ref a from ha]; rfl
        · rintro y rfl; rw [show ρ y = .ref z from hz]; rfl

theorem inner_bindLog_typed {γ : Type} {D : Drawn γ} {X : Var → Prop} {al : Alias} {s : Schema} {c : Col} {t : ValueType}
    {f : γ → TypedValue} (ha : Old cc.counter al) (hn : al.table ≠ .computed) (hs : DrawnShows D al c t f) {o : Option Var} (ho : ∀ x, o = some x → ¬ L x ∧ X x)
    {r : List (Col × Option ValueType × Option Var)} {Q : γ → Assign → Prop}
    (h : ∀ c1 : CC, Old c1.counter al → (∀ x, o ≠ some x → Unmet cc x → Unmet c1 x) →
      Inner L db D X c1 (c1.bindLog s al r) Q) :
    Inner L db D X cc (cc.bindLog s al ((c, some t, o) :: r))
      (fun l ρ => (∀ x, o = some x → ρ x = f l) ∧ Q l ρ) := by
  obtain ⟨i1, i1s⟩ := inner_bindTyped (L := L) (db := db) (s := s) ha hn hs (fun x hx => (ho x hx).1)
  simp only [bindLog]
  have i2 := i1.mono (Y := X) (fun y hy => (ho y hy).2)
  split
  · exact i2.trans (h _ (by rw [i1.grow.counter]; exact ha) (fun x hx hu => i1.unmet x hx hu))
  · rename_i hf
    exact i2.stop (i1s (by simpa using hf))

theorem inner_bindLog_value {X : Var → Prop} {al : Alias} {s : Schema} {o : Option Var} (hd : ∀ x, o = some x → LogOk db)
    (ha : Old cc.counter al) (hn : al.table ≠ .computed) (ho : ∀ x, o = some x → L x ∧ X x ∧ Unmet cc x)
    {r : List (Col × Option ValueType × Option Var)} {Q : LogRow → Assign → Prop}
    (h : ∀ c1 : CC, Old c1.counter al → Inner L db (drawnLog db al) X c1 (c1.bindLog s al r) Q) :
    Inner L db (drawnLog db al) X cc (cc.bindLog s al ((.v, none, o) :: r))
      (fun l ρ => (∀ x, o = some x → ρ x = l.v) ∧ Q l ρ) := by
  cases o with
  | none => exact (h cc ha).congr (by simp)
  | some x =>
    obtain ⟨h1, h2, h3⟩ := ho x rfl
    have i1 := (inner_value (s := s) (hd x rfl) ha hn h1 h3).mono (Y := X) (by rintro y rfl; exact h2)
    exact (i1.trans (h _ (by rw [i1.grow.counter]; exact ha))).congr (by simp)

theorem join_get {bs : List (Option Var)} {i : Nat} {x : Var} : (bs[i]?).join = some x ↔ bs[i]? = some (some x) := by
  cases bs[i]? with
  | none => simp
  | some o => simp

theorem holds?_iff {ρ : Assign} {v : TypedValue} {bs : List (Option Var)} {i : Nat} :
    Holds? ρ v bs[i]? ↔ ∀ x, (bs[i]?).join = some x → ρ x = v := by
  simp only [join_get]
  cases bs[i]? with
  | none => simp [Holds?]
  | some o => cases o <;> simp [Holds?]

/-- `(tx-data $ t)`: a row of the log of that transaction. -/
theorem step_txData (hi : Inv L cc) (ht : TypedIn F L db cc) {s : Schema} {args : List FnArg} {b : Binding}
    (ha : ∀ x ∈ argVars args, ¬ L x) (hb : ∀ i x, b.vars[i]? = some (some x) → (L x ↔ i = 2))
    (hd : ∀ x, b.vars[2]? = some (some x) → LogOk db)
    (hu : ∀ x, b.vars[2]? = some (some x) → Unmet cc x) {cc' : CC}
    (h : cc.applyTxData s args b = .ok cc') :
    StepOk F L db (· ∈ argVars args ++ b.vars.filterMap id) cc cc' (fun ρ => FnSat s db.facts ρ .txData args b) := by
  unfold applyTxData at h
  split at h
  rotate_left
  · cases h
  rename_i src t
  split at h
  · cases h
  split at h
  · cases h
  split at h
  rotate_left
  · cases h
  rename_i bs _ _
  split at h
  · cases h
  simp only at h
  split at h
  rotate_left
  · cases h
  rw [bind_iff] at h
  obtain ⟨⟨c1, e1⟩, h1, h⟩ := h
  simp only at h
  obtain rfl := Res.ok.inj h
  obtain ⟨s1, b1, r1, n1, v1⟩ := step_resolveRef (F := F) (db := db) hi ht
    (fun y hy => ha y (by subst hy; simp [argVars])) h1
  simp only [Binding.vars] at hb hd hu ⊢
  have hmem : ∀ (i : Nat) x, (bs[i]?).join = some x → x ∈ bs.filterMap id := by
    intro i x hx
    rw [join_get] at hx
    simp only [List.mem_filterMap, id]
    exact ⟨some x, List.mem_of_getElem? hx, rfl⟩
  have hty : ∀ (i : Nat), i ≠ 2 → ∀ x, (bs[i]?).join = some x → ¬ L x ∧ x ∈ bs.filterMap id := fun i hi x hx =>
    ⟨fun hl => hi ((hb i x (join_get.mp hx)).mp hl), hmem i x hx⟩
  have i0 : Inner L db (drawnLog db c1.logAlias) (· ∈ bs.filterMap id) c1.withLog
      (c1.withLog.addWhere (Constraint.infix SqlOp.eq (SExpr.col c1.logAlias Col.tx) e1))
      (fun l ρ => t.Denotes s ρ (.ref l.tx)) := by
    refine Inner.addWhere (D := drawnLog db c1.logAlias) (fun al ha => by
      obtain rfl : al = c1.logAlias := by simpa [drawnLog] using ha
      exact ⟨old_withLog c1, log_ne c1⟩) ?_ ?_
    · intro al hal
      simp only [Constraint.refs, List.mem_append] at hal
      rcases hal with hal | hal
      · simp only [SExpr.refs, List.mem_singleton] at hal
        exact .inl (by simp [drawnLog, hal])
      · exact .inr ((r1 al hal).of_eq rfl)
    · intro env l he ρ hρ hat
      obtain ⟨n, hn, hd⟩ := v1 env ρ (at_withLog.mp hat)
      have hcol : (SExpr.col c1.logAlias .tx).eval env = .integer l.tx := by
        simp only [SExpr.eval, drawnLog_get he]; rfl
      rw [evalC, evalInfix_plain (by rw [hcol]; rfl) (by rw [hn]; rfl), hcol, hn, hd]
      simp [SqlOp.eval, eq_integer]
  have hu1 : ∀ x, (bs[2]?).join = some x → L x ∧ x ∈ bs.filterMap id ∧
      Unmet (c1.withLog.addWhere (Constraint.infix SqlOp.eq (SExpr.col c1.logAlias Col.tx) e1)) x := by
    intro x hx
    have hL := (hb 2 x (join_get.mp hx)).mpr rfl
    have := s1.unmet x (by rintro rfl; exact ha x (by simp [argVars]) hL) (hu x (join_get.mp hx))
    exact ⟨hL, hmem 2 x hx, this.vals, this.known, this.cols, this.tags, this.inputs⟩
  have ne_of : ∀ (i : Nat), i ≠ 2 → ∀ x, (bs[2]?).join = some x → (bs[i]?).join ≠ some x := fun i hi x hx hx' =>
    hi ((hb i x (join_get.mp hx')).mp ((hb 2 x (join_get.mp hx)).mpr rfl))
  have i := i0.trans (inner_bindLog_typed (s := s)
    (cc := c1.withLog.addWhere (Constraint.infix SqlOp.eq (SExpr.col c1.logAlias Col.tx) e1)) (X := (· ∈ bs.filterMap id)) (old_withLog c1) (log_ne c1) (shows_e db c1)
    (hty 0 (by decide)) fun c2 o2 u2 =>
    inner_bindLog_typed (s := s) o2 (log_ne c1) (shows_a db c1) (hty 1 (by decide)) fun c3 o3 u3 =>
    inner_bindLog_value (s := s) (o := (bs[2]?).join) (fun x hx => hd x (join_get.mp hx)) o3 (log_ne c1)
      (fun x hx => ⟨(hu1 x hx).1, (hu1 x hx).2.1,
        u3 x (ne_of 1 (by decide) x hx) (u2 x (ne_of 0 (by decide) x hx) (hu1 x hx).2.2)⟩) fun c4 o4 =>
    inner_bindLog_typed (s := s) o4 (log_ne c1) (shows_tx db c1) (hty 3 (by decide)) fun c5 o5 _ =>
    inner_bindLog_typed (s := s) o5 (log_ne c1) (shows_added db c1) (hty 4 (by decide)) (r := []) fun c6 o6 _ => Inner.refl)
  refine ((s1.trans (StepOk.ofLog s1.inv s1.typed i)).mono ?_).congr ?_
  · rintro y (rfl | hy)
    · simp [argVars]
    · exact List.mem_append_right _ hy
  · intro E hE ρ hρ hsem
    simp only [FnSat, Binding.vars, holds?_iff]
    constructor
    · rintro ⟨-, l, hl, ht, h0, h1, h2, h3, h4, -⟩
      exact ⟨l, hl, ht, h0, h1, h2, h3, h4⟩
    · rintro ⟨l, hl, ht, h0, h1, h2, h3, h4⟩
      refine ⟨?_, l, hl, ht, h0, h1, h2, h3, h4, trivial⟩
      rintro y rfl; rw [show ρ y = .ref l.tx from ht]; rfl

end

end CC
end Mentat
