import Verif.Proofs.QueryLog
/-
The function that searches the fulltext strings: applying it adds the condition that a datom is as it says.
-/
namespace Mentat

/-- Tables other than those of datoms. -/
inductive DataSource where
  | log | texts

/-- The strings of fulltext attributes are in the table, each under its own number. -/
structure SearchOk (db : Tables) : Prop where
  stored : ∀ r ∈ db.rows, db.ft r.a = true → ∀ t, r.v = .string t → t ∈ db.texts
  inj : ∀ t ∈ db.texts, ∀ u ∈ db.texts, db.ftId t = db.ftId u → t = u

/-- What a query reads from the tables other than those of datoms is as it should be. -/
def SourceOk (db : Tables) : DataSource → Prop
  | .log => CC.LogOk db
  | .texts => SearchOk db

namespace CC

/-- A string of `fulltext_values` and a datom. -/
def drawnTexts (db : Tables) (cc : CC) : Drawn (Text × Row) :=
  ⟨[cc.textAlias, cc.textDatoms], fun g => g.1 ∈ db.texts ∧ g.2 ∈ db.rows,
    fun g al => if al = cc.textAlias then db.textRow g.1 else db.rawRow g.2⟩

section
variable {F : Env → Prop} {L X : Var → Prop} {db : Tables} {cc : CC}

theorem textDatoms_ne (cc : CC) : cc.textDatoms ≠ cc.textAlias := by
  simp [textDatoms, textAlias]

theorem drawnTexts_text {env : Env} {g : Text × Row} (h : (drawnTexts db cc).At env g) :
    Env.get env cc.textAlias = db.textRow g.1 := by
  rw [h.2 _ (by simp [drawnTexts])]; simp [drawnTexts]

theorem drawnTexts_datom {env : Env} {g : Text × Row} (h : (drawnTexts db cc).At env g) :
    Env.get env cc.textDatoms = db.rawRow g.2 := by
  rw [h.2 _ (by simp [drawnTexts])]; simp [drawnTexts, textDatoms_ne]

theorem drawnTexts_als {al : Alias} (h : al ∈ (drawnTexts db cc).als) :
    (al = cc.textAlias ∨ al = cc.textDatoms) ∧ al.table ≠ .computed ∧ cc.counter ≤ al.n ∧ al.n < cc.counter + 2 := by
  have : al = cc.textAlias ∨ al = cc.textDatoms := by simpa [drawnTexts] using h
  refine ⟨this, ?_⟩
  rcases this with rfl | rfl <;> simp [textAlias, textDatoms]

/-- Two new tables and steps on their columns. -/
theorem StepOk.ofTexts {cc' : CC} {P : Text × Row → Assign → Prop} (hi : Inv L cc) (ht : TypedIn F L db cc)
    (h : Inner L db (drawnTexts db cc) X
      { cc with counter := cc.counter + 2, tables := cc.tables ++ [cc.textAlias, cc.textDatoms] } cc' P) :
    StepOk F L db X cc cc' (fun ρ => ∃ g : Text × Row, (g.1 ∈ db.texts ∧ g.2 ∈ db.rows) ∧ P g ρ) := by
  have hr1 : ∀ E row, row ∈ evalTable db E (.table cc.textAlias) ↔ ∃ t ∈ db.texts, db.textRow t = row := by
    intro E row
    simp only [evalTable, textAlias, Tables.tableRows, List.mem_map]
  have hr2 : ∀ E row, row ∈ evalTable db E (.table cc.textDatoms) ↔ ∃ r ∈ db.rows, db.rawRow r = row := by
    intro E row
    simp only [evalTable, textDatoms, Tables.tableRows, List.mem_map]
  have hget : ∀ r1 r2, ∀ al ∈ (drawnTexts db cc).als, Env.get ([(STable.alias (.table cc.textAlias), r1)] ++
      [(STable.alias (.table cc.textDatoms), r2)]) al = if al = cc.textAlias then r1 else r2 := by
    intro r1 r2 al ha
    rcases (drawnTexts_als ha).1 with rfl | rfl
    · simp [Env.get, AMap.get_cons, STable.alias]
    · simp [Env.get, AMap.get_cons, STable.alias, textDatoms_ne, (textDatoms_ne cc).symm]
  have hfrom : ∀ E l2, l2 ∈ evalFrom db E ((drawnTexts db cc).als.map .table) ↔
      ∃ t ∈ db.texts, ∃ r ∈ db.rows, l2 = [(STable.alias (.table cc.textAlias), db.textRow t)] ++
        [(STable.alias (.table cc.textDatoms), db.rawRow r)] := by
    intro E l2
    have : (drawnTexts db cc).als.map STable.table = [STable.table cc.textAlias] ++ [STable.table cc.textDatoms] := rfl
    rw [this, mem_evalFrom_append]
    simp only [mem_evalFrom_one]
    constructor
    · rintro ⟨l1, ⟨r1, h1, rfl⟩, l3, ⟨r2, h2, rfl⟩, rfl⟩
      obtain ⟨t, ht, rfl⟩ := (hr1 _ _).mp h1
      obtain ⟨r, hr, rfl⟩ := (hr2 _ _).mp h2
      exact ⟨t, ht, r, hr, rfl⟩
    · rintro ⟨t, ht, r, hr, rfl⟩
      exact ⟨_, ⟨_, (hr1 _ _).mpr ⟨t, ht, rfl⟩, rfl⟩, _, ⟨_, (hr2 _ _).mpr ⟨r, hr, rfl⟩, rfl⟩, rfl⟩
  refine StepOk.ofDrawn (D := drawnTexts db cc) (n := cc.counter + 2) hi ht (by omega)
    (fun al ha => (drawnTexts_als ha).2) ?_ ?_ h
  · intro E l2 hl2
    obtain ⟨t, ht, r, hr, rfl⟩ := (hfrom E l2).mp hl2
    exact ⟨(t, r), ⟨ht, hr⟩, fun al ha => by rw [hget _ _ al ha]; rfl⟩
  · intro E g hg
    exact ⟨_, (hfrom E _).mpr ⟨g.1, hg.1, g.2, hg.2, rfl⟩, fun al ha => by rw [hget _ _ al ha]; rfl⟩

theorem knownType_valueType {env : Env} {ρ : Assign} (h : At db cc env ρ) {x : Var} {t : ValueType}
    (ht : cc.knownType x = some t) : (ρ x).valueType = t := by
  unfold knownType at ht
  cases hk : AMap.get cc.known x with
  | none => rw [hk] at ht; cases ht
  | some ts =>
    rw [hk] at ht
    simp only at ht
    split at ht
    · rename_i hu
      have h1 := h.known x ts hk
      have h2 : (ρ x).valueType ∈ ts.list := by
        simp only [TypeSet.list, List.mem_filter, h1, and_true]
        cases (ρ x).valueType <;> simp [ValueType.all]
      unfold TypeSet.isUnit at hu
      unfold TypeSet.exemplar at ht
      generalize ts.list = l at *
      match l, hu, ht, h2 with
      | [u], _, ht, h2 =>
        rw [List.mem_singleton] at h2
        cases ht
        exact h2
    · cases ht

/-- What is searched for is one string. -/
theorem searchArgument_ok {s : Schema} {a : FnArg} {e : SExpr} (h : cc.searchArgument a = .ok e) :
    (∀ al ∈ e.refs, FromCols cc al) ∧ ∀ env ρ, At db cc env ρ →
      ∃ p, e.eval env = .text p ∧ ∀ q, a.Denotes s ρ (.string q) ↔ q = p := by
  unfold searchArgument at h
  split at h
  · obtain rfl := Res.ok.inj h
    refine ⟨by simp [SExpr.refs], fun env ρ hat => ⟨_, rfl, fun q => ?_⟩⟩
    simp [FnArg.Denotes, NIC.denotes, eq_comm]
  · rename_i x
    split at h
    · rename_i p hv
      obtain rfl := Res.ok.inj h
      refine ⟨by simp [SExpr.refs], fun env ρ hat => ⟨_, rfl, fun q => ?_⟩⟩
      simp [FnArg.Denotes, hat.vals x _ hv, eq_comm]
    · cases h
    · split at h
      · rename_i hk
        split at h
        · cases h
        · obtain ⟨q, qs, hq, rfl⟩ := firstColumn_ok h
          refine ⟨?_, fun env ρ hat => ?_⟩
          · intro al hal
            simp only [SExpr.refs, List.mem_singleton] at hal
            subst hal
            exact ⟨x, _, hq, q, by simp, rfl⟩
          · have h1 := hat.cols x _ hq q (by simp)
            have h2 := knownType_valueType hat hk
            cases hr : ρ x <;> rw [hr] at h2 <;> simp [TypedValue.valueType] at h2
            rename_i p
            rw [hr] at h1
            exact ⟨p, h1, fun q => by simp [FnArg.Denotes, hr, eq_comm]⟩
      · cases h
  · cases h

theorem searchAttribute_ok {s : Schema} {a : FnArg} {e : Entid} (h : cc.searchAttribute s a = .ok e) {env : Env} {ρ : Assign}
    (hat : At db cc env ρ) : ∀ n, a.Denotes s ρ (.ref n) ↔ n = e := by
  intro n
  unfold searchAttribute at h
  split at h
  · split at h
    · rename_i hk
      cases h
      simp [FnArg.Denotes, hk, eq_comm]
    · cases h
  · cases h; simp [FnArg.Denotes]
  · split at h
    · rename_i hv
      cases h
      simp [FnArg.Denotes, hat.vals _ _ hv, eq_comm]
    · cases h
    · cases h
  · cases h

/-- The place for the text. -/
theorem inner_bindText {s : Schema} {c0 : CC} {o : Option Var} (ha : Old cc.counter c0.textAlias)
    (ho : ∀ x, o = some x → ¬ L x) {p : CC × Bool} (h : cc.bindText s (c0.textAlias, .text) o = .ok p) :
    Inner L db (drawnTexts db c0) (fun y => o = some y) cc p.1 (fun g ρ => ∀ x, o = some x → ρ x = .string g.1) ∧
      (p.2 = false → p.1.empty = true) := by
  cases o with
  | none =>
    obtain rfl := Res.ok.inj h
    exact ⟨Inner.refl.congr (by simp), by simp⟩
  | some x =>
    have hx := ho x rfl
    simp only [bindText] at h
    split at h
    · rename_i he
      obtain rfl := Res.ok.inj h
      refine ⟨((inner_constrain (D := drawnTexts db c0) (f := fun g => .string g.1) hx he fun _ _ => rfl).mono ?_).congr ?_, fun _ => he⟩
      · rintro y rfl; rfl
      · intro l hl ρ; simp
    · split at h
      · cases h
      · rename_i hv
        obtain rfl := Res.ok.inj h
        refine ⟨?_, by simp⟩
        have g := grow_constrainType cc x .string
        refine ⟨g.trans (grow_bindColumn _ _ _ _), ?_, ?_, ?_, ?_, ?_, ?_,
          (ext_constrainType cc x .string).trans (ext_bindColumn _ s (.of_ne (by simp [textAlias])) x)⟩
        · intro hi
          exact (hi.constrainType hx .string).bindColumn s (q := (c0.textAlias, .text)) (by rw [g.counter]; exact ha)
            (.inr (.inl rfl))
        · intro env l he hj
          refine (hj.constrainType .string).bindColumn s hx fun _ _ =>
            ⟨.string, known_constrainType_self cc x .string, .string l.1, trivial, rfl, ?_⟩
          simp only [cell, drawnTexts_text he]; rfl
        · intro env l he ρ hρ
          rw [at_bindColumn_push hv, at_constrainType]
          have hc : cell env (c0.textAlias, .text) = .text l.1 := by
            simp only [cell, drawnTexts_text he]; rfl
          rw [hc]
          constructor
          · rintro ⟨⟨h, h1⟩, h2, -⟩
            refine ⟨h, fun y hy => ?_⟩
            cases hy
            cases hr : ρ x <;> rw [hr] at h1 <;> simp [TypedValue.valueType] at h1
            rw [hr] at h2
            rw [show l.1 = _ from SqlValue.text.inj h2]
          · rintro ⟨h, e⟩
            have e := e x rfl
            exact ⟨⟨h, by rw [e]; rfl⟩, by rw [e]; rfl, fun _ t h => by simp [typeTag] at h⟩
        · intro he y u hy
          rw [known_bindColumn]
          exact known_constrainType_keep ((grow_bindColumn _ s (c0.textAlias, .text) x).empty he) hy
        · intro y hy hu
          have hy : x ≠ y := fun e => hy (by rw [e])
          exact (hu.constrainType hy .string).bindColumn hy s _
        · intro hc
          exact (hc.constrainType x .string).bindColumn s _ fun _ _ =>
            ⟨.string, known_constrainType_self cc x .string, fun h => by simp [Col.integerAffinity] at h⟩

theorem shown_e (db : Tables) (cc : CC) : DrawnShows (drawnTexts db cc) cc.textDatoms .e .ref (fun g => .ref g.2.e) :=
  ⟨by simp [drawnTexts], rfl, .inl rfl, fun g _ => ⟨by simp [TypedValue.Proper], rfl, by
    simp [drawnTexts, textDatoms_ne, Tables.rawRow, sqlRow, TypedValue.toSql]⟩⟩
theorem shown_tx (db : Tables) (cc : CC) : DrawnShows (drawnTexts db cc) cc.textDatoms .tx .ref (fun g => .ref g.2.tx) :=
  ⟨by simp [drawnTexts], rfl, .inl rfl, fun g _ => ⟨by simp [TypedValue.Proper], rfl, by
    simp [drawnTexts, textDatoms_ne, Tables.rawRow, sqlRow, TypedValue.toSql]⟩⟩

/-- `(fulltext $ attribute search)`: a datom of the attribute whose string is one that the search finds. -/
theorem step_fulltext {s : Schema} (hd : DbOk s db) (hs : SearchOk db) (hi : Inv L cc) (ht : TypedIn F L db cc)
    {args : List FnArg} {b : Binding}
    (hb : ∀ x, some x ∈ b.vars → ¬ L x) (h3 : (b.vars[3]?).join = none) {cc' : CC}
    (h : cc.applyFulltext s args b = .ok cc') :
    StepOk F L db (· ∈ argVars args ++ b.vars.filterMap id) cc cc' (fun ρ => FnSat s db.facts ρ .fulltext args b) := by
  unfold applyFulltext at h
  split at h
  rotate_left
  · cases h
  rename_i src attr what
  split at h
  · cases h
  split at h
  · cases h
  split at h
  rotate_left
  · cases h
  rename_i bs _ _
  split at h
  · cases h
  split at h
  rotate_left
  · cases h
  rw [bind_iff] at h
  obtain ⟨a, ha, h⟩ := h
  cases hat_ : s.attr a with
  | none => rw [hat_] at h; cases h
  | some at_ =>
  rw [hat_] at h
  simp only at h
  split at h
  · rename_i hf
    obtain rfl := Res.ok.inj h
    refine StepOk.giveUp hi ?_
    rintro E hE ρ hρ ⟨loc, hloc, hat⟩ ⟨r, hr, at', t, e, h1, h2, h3, -⟩
    rw [(searchAttribute_ok ha hat r.a).mp h1, hat_] at h2
    cases h2
    simp [h3] at hf
  rename_i hf
  have hf : at_.fulltext = true := by simpa using hf
  have hft : db.ft a = true := by rw [hd.ft a at_ hat_, hf]
  rw [bind_iff] at h
  obtain ⟨e, he, h⟩ := h
  simp only [Binding.vars] at hb h3 ⊢
  have hty : ∀ (i : Nat) x, (bs[i]?).join = some x → ¬ L x := fun i x hx => hb x (by
    rw [join_get] at hx
    exact List.mem_of_getElem? hx)
  have hX : ∀ (i : Nat) x, (bs[i]?).join = some x → x ∈ bs.filterMap id := by
    intro i x hx
    rw [join_get] at hx
    simp only [List.mem_filterMap, id]
    exact ⟨some x, List.mem_of_getElem? hx, rfl⟩
  generalize hc0 : ({ cc with counter := cc.counter + 2, tables := cc.tables ++ [cc.textAlias, cc.textDatoms] } : CC) = c0
  have hc0n : c0.counter = cc.counter + 2 := by rw [← hc0]
  have hals : ∀ c1 : CC, c1.counter = cc.counter + 2 →
      ∀ al ∈ (drawnTexts db cc).als, Old c1.counter al ∧ al.table ≠ .computed := by
    intro c1 hc1 al hal
    obtain ⟨-, h1, h2, h3⟩ := drawnTexts_als hal
    exact ⟨fun _ => by rw [hc1]; exact h3, h1⟩
  have i1 : Inner L db (drawnTexts db cc) (· ∈ bs.filterMap id) c0 (c0.addWhere (eqEntid (cc.textDatoms, .a) a))
      (fun g ρ => g.2.a = a) := by
    refine Inner.addWhere (hals _ hc0n) ?_ ?_
    · intro al hal
      simp [eqEntid, Constraint.refs, SExpr.refs] at hal
      exact .inl (by simp [drawnTexts, hal])
    · intro env g hg ρ hρ hat
      exact evalC_eqEntid (by simp [cell, drawnTexts_datom hg, Tables.rawRow, sqlRow])
  have i2 : Inner L db (drawnTexts db cc) (· ∈ bs.filterMap id) (c0.addWhere (eqEntid (cc.textDatoms, .a) a))
      (cc.withTexts a) (fun g ρ => g.2.v = .string g.1) := by
    have : cc.withTexts a = (c0.addWhere (eqEntid (cc.textDatoms, .a) a)).addWhere
      (eqCol (cc.textDatoms, .v) (cc.textAlias, .rowid)) := by rw [← hc0]; rfl
    rw [this]
    refine Inner.addWhere (hals _ hc0n) ?_ ?_
    · intro al hal
      simp [eqCol, Constraint.refs, SExpr.refs] at hal
      exact .inl (by simp only [drawnTexts, List.mem_cons, List.not_mem_nil, or_false]; exact hal.symm)
    · intro env g hg ρ hρ hat
      have hga := ((i1.at env g hg ρ hρ).mp hat).2
      have hga : g.2.a = a := hga
      obtain ⟨t, ht⟩ := hd.ft_string hg.1.2 (by rw [hga]; exact hft)
      have e1 : cell env (cc.textDatoms, .v) = .integer (db.ftId t) := by
        simp [cell, drawnTexts_datom hg, Tables.rawRow, sqlRow, Tables.rawValue, hga, hft, ht]
      have e2 : cell env (cc.textAlias, .rowid) = .integer (db.ftId g.1) := by
        simp only [cell, drawnTexts_text hg]; rfl
      have hin := hs.stored g.2 hg.1.2 (by rw [hga]; exact hft) t ht
      simp only [eqCol, evalC]
      rw [evalInfix_plain (by rw [show SExpr.eval env (.col cc.textDatoms .v) = _ from e1]; rfl)
        (by rw [show SExpr.eval env (.col cc.textAlias .rowid) = _ from e2]; rfl),
        show SExpr.eval env (.col cc.textDatoms .v) = _ from e1, show SExpr.eval env (.col cc.textAlias .rowid) = _ from e2, ht]
      simp only [SqlOp.eval, eq_integer, reduceCtorEq, or_self, if_false, decide_eq_true_eq, TypedValue.string.injEq]
      constructor
      · intro hid; exact hs.inj t hin g.1 hg.1.1 hid
      · rintro rfl; rfl
  have hwn : (cc.withTexts a).counter = cc.counter + 2 := rfl
  obtain ⟨er, ev⟩ := searchArgument_ok (db := db) (s := s) he
  have i3 : Inner L db (drawnTexts db cc) (· ∈ bs.filterMap id) (cc.withTexts a)
      ((cc.withTexts a).addWhere (.search cc.textAlias e))
      (fun g ρ => ∃ p, what.Denotes s ρ (.string p) ∧ db.matches p g.1 = true) := by
    refine Inner.addWhere (hals _ hwn) ?_ ?_
    · intro al hal
      simp only [Constraint.refs, List.mem_cons] at hal
      rcases hal with rfl | hal
      · exact .inl (by simp [drawnTexts])
      · exact .inr (er al hal)
    · intro env g hg ρ hρ hat
      obtain ⟨p, hp, hq⟩ := ev env ρ hat
      have ht : Env.get env cc.textAlias .text = .text g.1 := by rw [drawnTexts_text hg]; rfl
      simp only [evalC, ht, hp]
      constructor
      · intro hm; exact ⟨p, (hq p).mpr rfl, hm⟩
      · rintro ⟨q, h1, h2⟩; rw [← (hq q).mp h1]; exact h2
  generalize hc3 : (cc.withTexts a).addWhere (.search cc.textAlias e) = c3 at h i3
  have hc3n : c3.counter = cc.counter + 2 := by rw [← hc3]; rfl
  have hold : ∀ c1 : CC, c1.counter = cc.counter + 2 → Old c1.counter cc.textDatoms ∧ Old c1.counter cc.textAlias :=
    fun c1 h1 => ⟨(hals c1 h1 _ (by simp [drawnTexts])).1, (hals c1 h1 _ (by simp [drawnTexts])).1⟩
  have i4 : Inner L db (drawnTexts db cc) (· ∈ bs.filterMap id) c3 cc'
      (fun g ρ => (∀ x, (bs[0]?).join = some x → ρ x = .ref g.2.e) ∧ (∀ x, (bs[1]?).join = some x → ρ x = .string g.1) ∧
        ∀ x, (bs[2]?).join = some x → ρ x = .ref g.2.tx) := by
    simp only [bindSearch] at h
    obtain ⟨j1, j1s⟩ := inner_bindTyped (db := db) (L := L) (s := s) (hold c3 hc3n).1 (by simp [textDatoms]) (shown_e db cc)
      (o := (bs[0]?).join) (hty 0)
    have j1 := j1.mono (Y := (· ∈ bs.filterMap id)) (hX 0)
    generalize c3.bindTyped s (cc.textDatoms, .e) .ref (bs[0]?).join = p at h j1 j1s
    split at h
    · rename_i hp
      obtain rfl := Res.ok.inj h
      exact j1.stop (j1s (by simpa using hp))
    rw [bind_iff] at h
    obtain ⟨q, hq, h⟩ := h
    have hpn : p.1.counter = cc.counter + 2 := by rw [j1.grow.counter, hc3n]
    obtain ⟨j2, j2s⟩ := inner_bindText (db := db) (L := L) (hold _ hpn).2 (hty 1) hq
    have j2 := j2.mono (Y := (· ∈ bs.filterMap id)) (hX 1)
    refine j1.trans ?_
    split at h
    · rename_i hp
      obtain rfl := Res.ok.inj h
      exact j2.stop (j2s (by simpa using hp))
    have hqn : q.1.counter = cc.counter + 2 := by rw [j2.grow.counter, hpn]
    obtain ⟨j3, j3s⟩ := inner_bindTyped (db := db) (L := L) (s := s) (hold q.1 hqn).1 (by simp [textDatoms]) (shown_tx db cc)
      (o := (bs[2]?).join) (hty 2)
    have j3 := j3.mono (Y := (· ∈ bs.filterMap id)) (hX 2)
    refine j2.trans ?_
    split at h
    · obtain rfl := Res.ok.inj h
      exact j3
    rw [h3] at h
    obtain rfl := Res.ok.inj h
    exact j3
  have i := (i1.trans i2).trans (i3.trans i4)
  rw [← hc0] at i
  refine ((StepOk.ofTexts hi ht i).mono ?_).congr ?_
  · intro y hy; exact List.mem_append_right _ hy
  · rintro E hE ρ hρ ⟨loc, hloc, hat⟩
    have hden := searchAttribute_ok ha hat
    have h3' : Holds? ρ (.double 0) bs[3]? := by
      rw [holds?_iff]; intro x hx; rw [h3] at hx; cases hx
    simp only [FnSat, Binding.vars, holds?_iff (i := 0), holds?_iff (i := 1), holds?_iff (i := 2)]
    constructor
    · rintro ⟨⟨t, r⟩, ⟨ht, hr⟩, ⟨hra, hrv⟩, ⟨p, hp, hm⟩, h0, h1, h2⟩
      simp only at *
      subst hra
      exact ⟨r, hr, at_, t, p, (hden r.a).mpr rfl, hat_, hf, hrv, hp, hm, h0, h1, h2, h3'⟩
    · rintro ⟨r, hr, at', t, p, hda, hra, -, hrv, hp, hm, h0, h1, h2, -⟩
      have hra := (hden r.a).mp hda
      exact ⟨(t, r), ⟨hs.stored r hr (by rw [hra]; exact hft) t hrv, hr⟩, ⟨hra, hrv⟩, ⟨p, hp, hm⟩, h0, h1, h2⟩

end

end CC
end Mentat
