import Verif.Proofs.QueryExt
/-
What a step of the algebrizer does to the meaning of the clauses, and that applying a pattern is such a
step.
-/
namespace Mentat
namespace CC

/-- The clauses agree on everything the meaning depends on, but for the tables. -/
structure Same (a b : CC) : Prop where
  empty : a.empty = b.empty
  vals : a.vals = b.vals
  known : a.known = b.known
  required : a.required = b.required
  wheres : a.wheres = b.wheres
  colb : a.colb = b.colb
  extracted : a.extracted = b.extracted

theorem Same.at {a b : CC} (h : Same a b) {db : Tables} {env : Env} {ρ : Assign} :
    At db a env ρ ↔ At db b env ρ := by
  obtain ⟨h1, h2, h3, h4, h5, h6, h7⟩ := h
  constructor
  · rintro ⟨p1, p2, p3, p4, p5, p6, p7⟩
    exact ⟨h1 ▸ p1, h2 ▸ p2, h3 ▸ p3, h4 ▸ p4, h5 ▸ p5, h6 ▸ p6, h7 ▸ p7⟩
  · rintro ⟨p1, p2, p3, p4, p5, p6, p7⟩
    exact ⟨h1.symm ▸ p1, h2.symm ▸ p2, h3.symm ▸ p3, h4.symm ▸ p4, h5.symm ▸ p5, h6.symm ▸ p6, h7.symm ▸ p7⟩

theorem Same.jat {a b : CC} (h : Same a b) {L : Var → Prop} {db : Tables} {env : Env}
    (hj : JAt L db a env) : JAt L db b env := by
  obtain ⟨h1, h2, h3, h4, h5, h6, h7⟩ := h
  intro he hw x qs hx
  have := hj (h1 ▸ he) (h5 ▸ hw) x qs (h6 ▸ hx)
  refine ⟨?_, ?_⟩
  · rw [← h3, ← h2]; exact this.typed
  · rw [← h7, ← h4]; exact this.loose

/-- The columns are as they should be, in every environment of `F` extended by rows for the tables. -/
def TypedIn (F : Env → Prop) (L : Var → Prop) (db : Tables) (cc : CC) : Prop :=
  ∀ E, F E → ∀ loc ∈ evalFrom db E cc.stables, JAt L db cc (loc ++ E)

/-- A step from `cc` to `cc'` that adds the condition `P`, touching variables in `X` only. -/
structure StepOk (F : Env → Prop) (L : Var → Prop) (db : Tables) (X : Var → Prop) (cc cc' : CC)
    (P : Assign → Prop) : Prop where
  inv : Inv L cc'
  typed : TypedIn F L db cc'
  sem : ∀ E, F E → ∀ ρ : Assign, ρ.Proper → (Sem db E cc' ρ ↔ Sem db E cc ρ ∧ P ρ)
  keep : cc'.empty = false → ∀ x t, AMap.get cc.known x = some (TypeSet.one t) →
    AMap.get cc'.known x = some (TypeSet.one t)
  vals : cc'.vals = cc.vals
  inputs : cc'.inputs = cc.inputs
  empty : cc'.empty = false → cc.empty = false
  panics : cc'.panics = cc.panics
  counter : cc.counter ≤ cc'.counter
  unmet : ∀ x, ¬ X x → Unmet cc x → Unmet cc' x
  wheres : ∃ ws, cc'.wheres = cc.wheres ++ ws
  cols : ColsKnown L cc → ColsKnown L cc'
  ext : Ext cc cc'

theorem StepOk.refl {F : Env → Prop} {L X : Var → Prop} {db : Tables} {cc : CC} (hi : Inv L cc)
    (ht : TypedIn F L db cc) : StepOk F L db X cc cc (fun _ => True) :=
  ⟨hi, ht, fun _ _ _ _ => by simp, fun _ _ _ h => h, rfl, rfl, id, rfl, Nat.le_refl _, fun _ _ h => h, ⟨[], by simp⟩, id, Ext.refl _⟩

theorem StepOk.congr {F : Env → Prop} {L X : Var → Prop} {db : Tables} {cc cc' : CC} {P Q : Assign → Prop}
    (h : StepOk F L db X cc cc' P)
    (hpq : ∀ E, F E → ∀ ρ : Assign, ρ.Proper → Sem db E cc ρ → (P ρ ↔ Q ρ)) : StepOk F L db X cc cc' Q :=
  ⟨h.inv, h.typed, fun E hE ρ hρ => by
    rw [h.sem E hE ρ hρ]
    exact and_congr_right (hpq E hE ρ hρ), h.keep, h.vals, h.inputs, h.empty, h.panics, h.counter, h.unmet, h.wheres, h.cols, h.ext⟩

theorem StepOk.trans {F : Env → Prop} {L X Y : Var → Prop} {db : Tables} {a b c : CC} {P Q : Assign → Prop}
    (h : StepOk F L db X a b P) (h' : StepOk F L db Y b c Q) :
    StepOk F L db (fun x => X x ∨ Y x) a c (fun ρ => P ρ ∧ Q ρ) := by
  refine ⟨h'.inv, h'.typed, ?_, ?_, h'.vals.trans h.vals, h'.inputs.trans h.inputs, fun e => h.empty (h'.empty e),
    h'.panics.trans h.panics, Nat.le_trans h.counter h'.counter, ?_, ?_, fun e => h'.cols (h.cols e), h.ext.trans h'.ext⟩
  · intro E hE ρ hρ
    rw [h'.sem E hE ρ hρ, h.sem E hE ρ hρ, and_assoc]
  · intro he x t hx
    exact h'.keep he x t (h.keep (h'.empty he) x t hx)
  · intro x hx hu
    exact h'.unmet x (fun hy => hx (.inr hy)) (h.unmet x (fun hy => hx (.inl hy)) hu)
  · obtain ⟨w, hw⟩ := h.wheres
    obtain ⟨w', hw'⟩ := h'.wheres
    exact ⟨w ++ w', by rw [hw', hw, List.append_assoc]⟩

theorem StepOk.mono {F : Env → Prop} {L X Y : Var → Prop} {db : Tables} {a b : CC} {P : Assign → Prop}
    (h : StepOk F L db X a b P) (hxy : ∀ x, X x → Y x) : StepOk F L db Y a b P :=
  ⟨h.inv, h.typed, h.sem, h.keep, h.vals, h.inputs, h.empty, h.panics, h.counter,
    fun x hx => h.unmet x fun hy => hx (hxy x hy), h.wheres, h.cols, h.ext⟩

/-- Giving up, when the condition cannot be met. -/
theorem StepOk.giveUp {F : Env → Prop} {L X : Var → Prop} {db : Tables} {cc : CC} {P : Assign → Prop}
    (hi : Inv L cc) (hp : ∀ E, F E → ∀ ρ : Assign, ρ.Proper → Sem db E cc ρ → ¬ P ρ) :
    StepOk F L db X cc cc.markEmpty P := by
  refine ⟨hi.markEmpty, fun _ _ _ _ => JAt.markEmpty, ?_, fun e => by simp [CC.markEmpty] at e, rfl, rfl,
    fun e => by simp [CC.markEmpty] at e, rfl, Nat.le_refl _, fun x _ h => ⟨h.vals, h.known, h.cols, h.tags, h.inputs⟩,
    ⟨[], by simp [CC.markEmpty]⟩, fun _ => ColsKnown.markEmpty, ext_markEmpty _⟩
  intro E hE ρ hρ
  constructor
  · rintro ⟨loc, -, h⟩; exact absurd h (at_markEmpty _)
  · rintro ⟨h, h'⟩; exact absurd h' (hp E hE ρ hρ h)

theorem sem_live {db : Tables} {E : Env} {cc : CC} {ρ : Assign} (h : Sem db E cc ρ) : cc.empty = false := by
  obtain ⟨_, _, h⟩ := h; exact h.live

/-! ### A pattern -/

theorem stables_push {cc : CC} {al : Alias} (h : al.table ≠ .computed) :
    ({ cc with tables := cc.tables ++ [al] } : CC).stables = cc.stables ++ [.table al] := by
  simp [stables, h]

theorem stables_alias (cc : CC) (hc : ∀ (i : Nat) (t : STable), cc.computed[i]? = some t → t.alias = ⟨.computed, i⟩) :
    cc.stables.map STable.alias = cc.tables := by
  unfold stables
  rw [List.map_map]
  conv => rhs; rw [← List.map_id cc.tables]
  apply List.map_congr_left
  intro al _
  simp only [Function.comp, id]
  split
  · rename_i h
    cases hg : cc.computed[al.n]? with
    | none => rfl
    | some t =>
      simp only [Option.getD_some]
      rw [hc _ _ hg]
      cases al; simp_all
  · rfl

theorem Inv.keys {L : Var → Prop} {cc : CC} (h : Inv L cc) {db : Tables} {E loc : Env}
    (hl : loc ∈ evalFrom db E cc.stables) {al : Alias} (ha : al ∈ loc.map Prod.fst) : Old cc.counter al := by
  rw [evalFrom_keys hl, stables_alias cc h.computed] at ha
  exact h.tables al ha

theorem cacheLookup_none {cc : CC} {k : Known} {p : EPattern} {L : Var → Prop} (hk : k.cache = none)
    (hp : Plain L k.schema cc p) : cc.cacheLookup k p = none := by
  unfold cacheLookup
  split
  · rfl
  · cases ha : p.a with
    | entid a =>
      obtain ⟨⟨at_, hat⟩, -⟩ := hp.known a ha
      simp [hat, Known.cachedForward, Known.cachedReverse, hk]
    | _ => rfl

/-- No datom matches a pattern for which there is no table. -/
theorem no_match_of_no_table {cc : CC} {s : Schema} {db : Tables} {L : Var → Prop} {p : EPattern} {ρ : Assign}
    (hd : DbOk s db) (hp : Plain L s cc p) (ht : cc.tableFor s p.a p.v = none) {r : Row} (hr : r ∈ db.rows) :
    ¬ p.Matches s ρ r := by
  by_cases hk : ∃ a, p.a = .entid a
  · obtain ⟨a, ha⟩ := hk
    obtain ⟨⟨at_, hat⟩, -, e1, e2⟩ := hp.known a ha
    rw [tableFor_known ha hat] at ht
    rintro ⟨-, h2, h3, -⟩
    rw [ha] at h2
    have hra : r.a = a := h2
    unfold tableForAttribute at ht
    cases hf : at_.fulltext with
    | false => simp [hf] at ht
    | true =>
      obtain ⟨t, hst⟩ := hd.ft_string hr (by rw [hra, hd.ft a at_ hat, hf])
      rw [hst] at h3
      cases hv : p.v with
      | placeholder => simp [hf, hv] at ht
      | var x => simp [hf, hv] at ht
      | entid i => rw [hv] at h3; simp [EValue.Matches] at h3
      | entidOrInteger i => exact e1 i hv
      | identOrKeyword k => exact e2 k hv
      | value w =>
        rw [hv] at h3
        simp only [EValue.Matches] at h3
        subst h3
        simp [hf, hv] at ht
  · rw [tableFor_unknown hp (fun a ha => hk ⟨a, ha⟩)] at ht
    simp at ht

theorem tableFor_fulltext {cc : CC} {s : Schema} {L : Var → Prop} {p : EPattern} (hp : Plain L s cc p)
    (ht : cc.tableFor s p.a p.v = some .fulltextDatoms) :
    ∃ a at_, p.a = .entid a ∧ s.attr a = some at_ ∧ at_.fulltext = true := by
  by_cases hk : ∃ a, p.a = .entid a
  · obtain ⟨a, ha⟩ := hk
    obtain ⟨⟨at_, hat⟩, -⟩ := hp.known a ha
    rw [tableFor_known ha hat] at ht
    refine ⟨a, at_, ha, hat, ?_⟩
    unfold tableForAttribute at ht
    cases hf : at_.fulltext with
    | true => rfl
    | false => simp [hf] at ht
  · rw [tableFor_unknown hp (fun a ha => hk ⟨a, ha⟩)] at ht
    unfold tableForUnknown at ht
    split at ht
    · split at ht <;> simp at ht
    · simp at ht
    · simp at ht

/-- The variables of an evolved pattern. -/
def EPattern.Has (p : EPattern) (x : Var) : Prop :=
  p.e = .var x ∨ p.a = .var x ∨ p.v = .var x ∨ p.tx = .var x

theorem Unmet.applyValuePlace {cc : CC} {x : Var} (h : Unmet cc x) {p : EValue} (hp : p ≠ .var x)
    (s : Schema) (al : Alias) (t : Option ValueType) : Unmet (cc.applyValuePlace s al t p).1 x := by
  have hcc : ∀ q v, Unmet (cc.constrainConst q v) x := by
    intro q v; cases v <;> exact ⟨h.vals, h.known, h.cols, h.tags, h.inputs⟩
  cases p with
  | placeholder => exact h
  | var y =>
    have hy : y ≠ x := fun e => hp (by rw [e])
    simp only [CC.applyValuePlace]
    cases t with
    | none =>
      simp only [Option.isSome_none, Bool.false_and, Bool.false_eq_true, if_false]
      exact h.bindColumn hy _ _
    | some t =>
      simp only
      split
      · exact h.constrainType hy _
      · exact (h.constrainType hy _).bindColumn hy _ _
  | entid i =>
    simp only [CC.applyValuePlace]
    split <;> exact ⟨h.vals, h.known, h.cols, h.tags, h.inputs⟩
  | entidOrInteger i =>
    simp only [CC.applyValuePlace]
    split <;> exact ⟨h.vals, h.known, h.cols, h.tags, h.inputs⟩
  | identOrKeyword k =>
    simp only [CC.applyValuePlace]
    split
    · cases AMap.get s.identMap k <;> exact ⟨h.vals, h.known, h.cols, h.tags, h.inputs⟩
    · exact ⟨h.vals, h.known, h.cols, h.tags, h.inputs⟩
  | value v =>
    simp only [CC.applyValuePlace]
    split
    · simp only
      split
      · have := hcc (al, .v) v
        exact ⟨this.vals, this.known, this.cols, this.tags, this.inputs⟩
      · exact hcc _ _
    · exact ⟨h.vals, h.known, h.cols, h.tags, h.inputs⟩

theorem Unmet.applyForAlias {cc : CC} {x : Var} (h : Unmet cc x) {p : EPattern} (hp : ¬ p.Has x)
    (s : Schema) (al : Alias) : Unmet (cc.applyForAlias s p al) x := by
  have he : p.e ≠ .var x := fun e => hp (.inl e)
  have ha : p.a ≠ .var x := fun e => hp (.inr (.inl e))
  have hv : p.v ≠ .var x := fun e => hp (.inr (.inr (.inl e)))
  have ht : p.tx ≠ .var x := fun e => hp (.inr (.inr (.inr e)))
  have h1 := ((h.constrainRef ht).constrainRef he).constrainRef ha
  have h2 := h1.applyRefPlace he s al .e
  have h3 := h.stageA he ha ht s al
  have h4 : Unmet (cc.stageV s p al).1 x := h3.applyValuePlace hv s al _
  rw [applyForAlias_eq]
  split
  · exact h
  · split
    · exact ⟨h2.vals, h2.known, h2.cols, h2.tags, h2.inputs⟩
    · split
      · exact h4.applyRefPlace ht s al .tx
      · exact h4

theorem known_applyForAlias_keep {cc : CC} {s : Schema} {p : EPattern} {al : Alias}
    (h : (cc.applyForAlias s p al).empty = false) {y : Var} {u : ValueType}
    (hy : AMap.get cc.known y = some (TypeSet.one u)) :
    AMap.get (cc.applyForAlias s p al).known y = some (TypeSet.one u) := by
  have hA : (cc.stageA s p al).empty = false → AMap.get (cc.stageA s p al).known y = some (TypeSet.one u) := by
    intro he
    have e1 : (cc.stageRefs p).empty = false :=
      (grow_applyRefPlace _ s al .e p.e).empty ((grow_applyRefPlace _ s al .a p.a).empty he)
    unfold stageA
    rw [known_applyRefPlace, known_applyRefPlace]
    unfold stageRefs at e1 ⊢
    have e2 := (grow_constrainRef _ p.a).empty e1
    have e3 := (grow_constrainRef _ p.e).empty e2
    exact known_constrainRef_keep e1 (known_constrainRef_keep e2 (known_constrainRef_keep e3 hy))
  have hV : (cc.stageV s p al).1.empty = false → AMap.get (cc.stageV s p al).1.known y = some (TypeSet.one u) := by
    intro he
    exact known_applyValuePlace_keep he (hA ((grow_applyValuePlace _ s al _ p.v).empty he))
  rw [applyForAlias_eq] at h ⊢
  split at h
  · rename_i hc; rw [if_pos hc]; exact hy
  · rename_i hc
    rw [if_neg hc]
    split at h
    · simp [CC.markEmpty] at h
    · rename_i hb
      rw [if_neg hb]
      split at h
      · rename_i hg
        rw [if_pos hg, known_applyRefPlace]
        exact hV ((grow_applyRefPlace _ _ _ _ _).empty h)
      · rename_i hg
        rw [if_neg hg]; exact hV h

/-- Applying a pattern the caches do not help with adds the condition that a datom matches it. -/
theorem step_applyPattern_read {F : Env → Prop} {L : Var → Prop} {db : Tables} {k : Known} {cc cc' : CC} {p : EPattern}
    (hk : cc.cacheLookup k p = none) (hd : DbOk k.schema db) (hi : Inv L cc) (ht : TypedIn F L db cc)
    (hp : Plain L k.schema cc p) (hl : ∀ x, p.v = .var x → L x → Unmet cc x)
    (h : cc.applyPattern k p = .ok cc') :
    StepOk F L db p.Has cc cc' (fun ρ => ∃ r ∈ db.rows, p.Matches k.schema ρ r) := by
  unfold applyPattern at h
  split at h
  · simp at h
  rw [hk] at h
  simp only at h
  cases htf : cc.tableFor k.schema p.a p.v with
  | none =>
    rw [htf] at h
    obtain rfl := Res.ok.inj h
    exact StepOk.giveUp hi fun _ _ ρ _ _ ⟨r, hr, hm⟩ => no_match_of_no_table hd hp htf hr hm
  | some t =>
    rw [htf] at h
    obtain rfl := Res.ok.inj h
    generalize hal : (⟨t, cc.counter⟩ : Alias) = al
    have hal' : al.table = t := by rw [← hal]
    have htbl := tableFor_plain hp htf
    have hnc : al.table ≠ .computed := by rw [hal']; rcases htbl with h | h | h <;> rw [h] <;> simp
    have hnew : ¬ Old cc.counter al := by
      intro ho; have := ho hnc; rw [← hal] at this; exact Nat.lt_irrefl _ this
    -- the clauses with the counter moved on
    have hi1 : Inv L { cc with counter := cc.counter + 1 } :=
      ⟨hi.unit, hi.valsKnown, hi.valsProper, hi.loose, hi.tags, hi.wfCols, hi.wfReq, hi.colsNe,
        ⟨fun c hc a ha => (hi.fresh.wh c hc a ha).mono (Nat.le_succ _),
          fun x qs hx q hq => (hi.fresh.cols x qs hx q hq).mono (Nat.le_succ _),
          fun x q hx => (hi.fresh.tags x q hx).mono (Nat.le_succ _)⟩,
        fun a ha => (hi.tables a ha).mono (Nat.le_succ _), hi.computed, hi.wfKnown⟩
    have hp1 : Plain L k.schema { cc with counter := cc.counter + 1 } p :=
      ⟨hp.e, hp.tx, hp.a, hp.known, hp.unknown, hp.proper⟩
    have hl1 : ∀ x, p.v = .var x → L x → Unmet { cc with counter := cc.counter + 1 } x := fun x hx hL =>
      ⟨(hl x hx hL).vals, (hl x hx hL).known, (hl x hx hL).cols, (hl x hx hL).tags, (hl x hx hL).inputs⟩
    have ht1 : ({ cc with counter := cc.counter + 1 } : CC).tableFor k.schema p.a p.v = some al.table := by
      rw [hal']; exact htf
    have ho1 : Old (cc.counter + 1) al := by intro _; rw [← hal]; exact Nat.lt_succ_self _
    have hs1 : Same cc { cc with counter := cc.counter + 1 } := ⟨rfl, rfl, rfl, rfl, rfl, rfl, rfl⟩
    generalize hcc1 : ({ cc with counter := cc.counter + 1 } : CC) = cc1 at *
    have hc1 : cc1.counter = cc.counter + 1 := by rw [← hcc1]
    have g := grow_applyForAlias cc1 k.schema p al
    generalize hcc2 : cc1.applyForAlias k.schema p al = cc2 at *
    have hs2 : Same { cc2 with tables := cc2.tables ++ [al] } cc2 := ⟨rfl, rfl, rfl, rfl, rfl, rfl, rfl⟩
    have hst : ({ cc2 with tables := cc2.tables ++ [al] } : CC).stables = cc.stables ++ [.table al] := by
      rw [stables_push hnc, g.stables, ← hcc1]; rfl
    -- environments
    have env_old : ∀ (l1 : Env) row E a, Old cc.counter a →
        Env.get (l1 ++ E) a = Env.get (l1 ++ [(al, row)] ++ E) a := by
      intro l1 row E a ha
      have hne : al ≠ a := fun e => hnew (e ▸ ha)
      rw [List.append_assoc, Env.get_append, Env.get_append]
      split
      · rfl
      · simp only [List.cons_append, List.nil_append, Env.get, AMap.get_cons, if_neg hne]
    have env_new : ∀ (l1 : Env) row E, l1 ∈ evalFrom db E cc.stables →
        Env.get (l1 ++ [(al, row)] ++ E) al = row := by
      intro l1 row E hl1
      rw [List.append_assoc, Env.get_append, if_neg (fun h => hnew (hi.keys hl1 h))]
      simp [Env.get, AMap.get_cons]
    -- the rows of the alias
    have hat : ∀ E (l1 : Env) row (r : Row), l1 ∈ evalFrom db E cc.stables → r ∈ db.rows →
        row = db.showRow al.table r → ∀ ρ : Assign, ρ.Proper →
        (At db ({ cc2 with tables := cc2.tables ++ [al] } : CC) (l1 ++ [(al, row)] ++ E) ρ ↔
          At db cc (l1 ++ E) ρ ∧ p.Matches k.schema ρ r) := by
      intro E l1 row r hl1' hr hrow ρ hρ
      have hh : HoldsRow db (l1 ++ [(al, row)] ++ E) al r := holdsRow_show (by rw [env_new l1 row E hl1', hrow])
      rw [hs2.at, ← hcc2, at_applyForAlias hd hp1 hl1 ht1 hr hh hρ, ← hs1.at,
        hi.fresh.at_congr (env_old l1 row E)]
    refine ⟨?_, ?_, ?_, ?_, ?_, ?_, ?_, ?_, ?_, ?_, ?_, ?_, ?_⟩
    · have h2 := hi1.applyForAlias hp1 (al := al) (by rw [hc1]; exact ho1)
      rw [hcc2] at h2
      refine ⟨h2.unit, h2.valsKnown, h2.valsProper, h2.loose, h2.tags, h2.wfCols, h2.wfReq, h2.colsNe,
        ⟨h2.fresh.wh, h2.fresh.cols, h2.fresh.tags⟩, ?_, h2.computed, h2.wfKnown⟩
      intro a ha
      simp only [List.mem_append, List.mem_singleton] at ha
      rcases ha with ha | rfl
      · exact h2.tables a ha
      · show Old cc2.counter a
        rw [g.counter, hc1]; exact ho1
    · intro E hE loc hloc
      rw [hst, mem_evalFrom_append] at hloc
      obtain ⟨l1, hl1', l2, hl2, rfl⟩ := hloc
      rw [mem_evalFrom_one] at hl2
      obtain ⟨row, hrow, rfl⟩ := hl2
      simp only [evalTable] at hrow
      rw [hal', mem_tableRows htbl] at hrow
      obtain ⟨r, hr, -, hrow⟩ := hrow
      have hh : HoldsRow db (l1 ++ [(STable.alias (.table al), row)] ++ E) al r :=
        holdsRow_show (by rw [hal', ← hrow]; exact env_new l1 row E hl1')
      have hj := hi.fresh.jat_congr (env_old l1 row E) (ht E hE l1 hl1')
      have hj1 := hs1.jat hj
      have hj2 := hj1.applyForAlias hd hp1 hl1 ht1 hr hh
      rw [hcc2] at hj2
      have hs3 : Same cc2 { cc2 with tables := cc2.tables ++ [al] } := ⟨rfl, rfl, rfl, rfl, rfl, rfl, rfl⟩
      exact hs3.jat hj2
    · intro E hE ρ hρ
      unfold Sem
      rw [hst]
      constructor
      · rintro ⟨loc, hloc, h⟩
        rw [mem_evalFrom_append] at hloc
        obtain ⟨l1, hl1', l2, hl2, rfl⟩ := hloc
        rw [mem_evalFrom_one] at hl2
        obtain ⟨row, hrow, rfl⟩ := hl2
        simp only [evalTable] at hrow
        rw [hal', mem_tableRows htbl] at hrow
        obtain ⟨r, hr, -, hrow⟩ := hrow
        have := (hat E l1 row r hl1' hr (by rw [hal']; exact hrow) ρ hρ).mp h
        exact ⟨⟨l1, hl1', this.1⟩, r, hr, this.2⟩
      · rintro ⟨⟨l1, hl1', h⟩, r, hr, hm⟩
        refine ⟨l1 ++ [(al, db.showRow al.table r)], ?_, (hat E l1 _ r hl1' hr rfl ρ hρ).mpr ⟨h, hm⟩⟩
        rw [mem_evalFrom_append]
        refine ⟨l1, hl1', _, ?_, rfl⟩
        rw [mem_evalFrom_one]
        refine ⟨_, ?_, rfl⟩
        simp only [evalTable]
        rw [hal', mem_tableRows htbl]
        refine ⟨r, hr, ?_, rfl⟩
        rintro rfl
        obtain ⟨a, at_, ha, hat', hf⟩ := tableFor_fulltext hp htf
        have hra : r.a = a := by have := hm.2.1; rw [ha] at this; exact this
        rw [hra, hd.ft a at_ hat', hf]
    · intro he x u hx
      have : AMap.get cc1.known x = some (TypeSet.one u) := by rw [← hcc1]; exact hx
      have h2 := known_applyForAlias_keep (cc := cc1) (s := k.schema) (p := p) (al := al)
        (by rw [hcc2]; exact he) this
      rw [hcc2] at h2; exact h2
    · show cc2.vals = cc.vals
      rw [g.vals, ← hcc1]
    · show cc2.inputs = cc.inputs
      rw [g.inputs, ← hcc1]
    · intro he
      have := g.empty he
      rw [← hcc1] at this; exact this
    · show cc2.panics = cc.panics
      rw [g.panics, ← hcc1]
    · show cc.counter ≤ cc2.counter
      rw [g.counter, hc1]; exact Nat.le_succ _
    · intro x hx hu
      have hu1 : Unmet cc1 x := by rw [← hcc1]; exact ⟨hu.vals, hu.known, hu.cols, hu.tags, hu.inputs⟩
      have h2 := hu1.applyForAlias (p := p) hx k.schema al
      rw [hcc2] at h2
      exact ⟨h2.vals, h2.known, h2.cols, h2.tags, h2.inputs⟩
    · obtain ⟨ws, hws⟩ := g.wheres
      exact ⟨ws, by show cc2.wheres = _; rw [hws, ← hcc1]⟩
    · intro hck
      have h1 : ColsKnown L cc1 := by rw [← hcc1]; exact ⟨hck.known, hck.tagged⟩
      have h2 := h1.applyForAlias hp1 al
      rw [hcc2] at h2
      exact ⟨h2.known, h2.tagged⟩
    · have x1 : Ext cc cc1 := by
        have := ext_tables (cc := cc) (n := cc.counter + 1) (als := []) (by simp)
        rw [List.append_nil, hcc1] at this; exact this
      have x2 := ext_applyForAlias cc1 k.schema p (al := al) (.of_ne hnc)
      rw [hcc2] at x2
      exact (x1.trans x2).trans (ext_tables (n := cc2.counter) (als := [al]) (by simpa using hnc))

/-- Applying a pattern adds the condition that a datom matches it. -/
theorem step_applyPattern {F : Env → Prop} {L : Var → Prop} {db : Tables} {k : Known} {cc cc' : CC} {p : EPattern}
    (hk : k.cache = none) (hd : DbOk k.schema db) (hi : Inv L cc) (ht : TypedIn F L db cc)
    (hp : Plain L k.schema cc p) (hl : ∀ x, p.v = .var x → L x → Unmet cc x)
    (h : cc.applyPattern k p = .ok cc') :
    StepOk F L db p.Has cc cc' (fun ρ => ∃ r ∈ db.rows, p.Matches k.schema ρ r) :=
  step_applyPattern_read (cacheLookup_none hk hp) hd hi ht hp hl h

/-- The variables of a pattern that is applied, and not given up. -/
theorem pins_applyPattern {L : Var → Prop} {k : Known} {cc cc' : CC} {p : EPattern} (hk : k.cache = none)
    (hp : Plain L k.schema cc p) (h : cc.applyPattern k p = .ok cc') (he : cc'.empty = false)
    {x : Var} {t : ValueType} (ht : p.Types k.schema x t) : Pinned cc' x t := by
  unfold applyPattern at h
  split at h
  · simp at h
  rw [cacheLookup_none hk hp] at h
  simp only at h
  cases htf : cc.tableFor k.schema p.a p.v with
  | none =>
    rw [htf] at h
    obtain rfl := Res.ok.inj h
    simp [CC.markEmpty] at he
  | some t =>
    rw [htf] at h
    obtain rfl := Res.ok.inj h
    exact pins_applyForAlias he ht

end CC
end Mentat
