import Verif.Props.Merge
import Verif.Props.Tempids
/- C72: merging does not alter installed attributes; C61 for retractions. -/
namespace Mentat.Sync

/-- The transaction asserts something about the entity. -/
def AssertsAbout (parts : List TxPart) (e : Entid) : Prop :=
  ∃ p ∈ parts, p.added = true ∧ p.a ≠ DB_TX_INSTANT ∧ p.e = e

/-- The term made of a datom: about a tempid named after the entity, if the transaction asserts something about
it, and otherwise, for a retraction of a unique value, about the entity that has the value. -/
structure RebasedTerm (db : Db) (parts : List TxPart) (q : TxPart) (y : TTerm) : Prop where
  op : y.op = if q.added then .add else .retract
  a : y.a = q.a
  v : y.v = .inl q.v
  instant : q.a ≠ DB_TX_INSTANT
  e : AssertsAbout parts q.e ∧ y.e = .inr (.external (entityName q.e)) ∨
    ¬ AssertsAbout parts q.e ∧ (∃ at_, db.schema.attr q.a = some at_ ∧ at_.unique ≠ none) ∧
      ∃ n, y.e = .inl n ∧ Has db.store.rows n q.a q.v

theorem willAllocate_iff {parts : List TxPart} {e : Entid} : willAllocate parts e = true ↔ AssertsAbout parts e := by
  simp only [willAllocate, List.any_eq_true, Bool.and_eq_true, decide_eq_true_eq, AssertsAbout, and_assoc]

/-- What is transacted for a local transaction. -/
theorem rebase_terms {db db' : Db} {now : Int} {parts : List TxPart} {ch : Bool}
    (h : rebaseOne db now parts = .ok (db', ch))
    (ht : ∀ p ∈ parts, ∀ at_, db.schema.attr p.a = some at_ → at_.valueType = p.v.valueType) :
    (ch = false ∧ db' = db ∧ (∀ p ∈ parts, p.a ≠ DB_TX_INSTANT → ¬ AssertsAbout parts p.e ∧
      ∀ at_, db.schema.attr p.a = some at_ → at_.unique ≠ none → ∀ n, ¬ Has db.store.rows n p.a p.v)) ∨
    ∃ might terms ids db1 rep, classify db.schema parts [] [] = .ok might ∧
      transactTerms db now terms ids = .ok (db1, rep) ∧
      (∀ y ∈ terms, ∃ q ∈ parts, RebasedTerm db parts q y) ∧
      (∀ q ∈ parts, q.a ≠ DB_TX_INSTANT → (AssertsAbout parts q.e ∨
        (∃ at_, db.schema.attr q.a = some at_ ∧ at_.unique ≠ none) ∧ ∃ n, Has db.store.rows n q.a q.v) →
        ∃ y ∈ terms, RebasedTerm db parts q y) ∧
      (∀ e ∈ might, ∀ n, AMap.get rep.tempids (entityName e) = some n → assertedIn db1.store.log n rep.txId = false) ∧
      (ch = true ∧ db' = db1 ∨ ch = false ∧ isTxEmpty db1.store.log rep.txId = true ∧ db'.store = db.store) := by
  unfold rebaseOne at h
  rw [Res.bind_ok_iff] at h
  obtain ⟨might, hmight, h⟩ := h
  rw [Res.bind_ok_iff] at h
  obtain ⟨es, hes, h⟩ := h
  -- which datoms contribute
  have hcontrib : ∀ q ∈ parts, ∃ o, rebasePart db parts q = .ok o := by
    have : ∀ (ps : List TxPart) es, rebaseParts db parts ps = .ok es → ∀ q ∈ ps, ∃ o, rebasePart db parts q = .ok o := by
      intro ps
      induction ps with
      | nil => intro es _ q hq; cases hq
      | cons p r ih =>
        intro es h q hq
        simp only [rebaseParts, Res.bind_ok_iff] at h
        obtain ⟨o, ho, es', hes, -⟩ := h
        rcases List.mem_cons.1 hq with rfl | hq
        · exact ⟨o, ho⟩
        · exact ih _ hes q hq
    exact this parts es hes
  have hsome : ∀ q ∈ parts, q.a ≠ DB_TX_INSTANT → (AssertsAbout parts q.e ∨
      (∃ at_, db.schema.attr q.a = some at_ ∧ at_.unique ≠ none) ∧ ∃ n, Has db.store.rows n q.a q.v) →
      ∃ x, rebasePart db parts q = .ok (some x) := by
    intro q hq hi hc
    unfold rebasePart
    rw [if_neg hi]
    by_cases hw : willAllocate parts q.e = true
    · rw [if_pos hw]; exact ⟨_, rfl⟩
    · rw [if_neg hw]
      cases ha : q.added with
      | true => simp
      | false =>
        rcases hc with hc | ⟨⟨at_, hat, hu⟩, n, r, hr, -, h2, h3⟩
        · exact absurd (willAllocate_iff.2 hc) hw
        · simp only [Bool.false_eq_true, if_false]
          rw [hat]
          simp only
          rw [if_neg (by cases hx : at_.unique <;> simp_all), if_pos (by
            rw [List.any_eq_true]; exact ⟨r, hr, by simp [h2, h3]⟩)]
          exact ⟨_, rfl⟩
  split at h
  · rename_i hemp
    cases h
    refine .inl ⟨rfl, rfl, ?_⟩
    intro p hp hi
    have hno : ∀ x, rebasePart db parts p ≠ .ok (some x) := by
      intro x hx
      have := (mem_rebaseParts hes x).2 ⟨p, hp, hx⟩
      rw [List.isEmpty_iff.1 hemp] at this; cases this
    refine ⟨fun ha => ?_, fun at_ hat hu n hh => ?_⟩
    · obtain ⟨x, hx⟩ := hsome p hp hi (.inl ha)
      exact hno x hx
    · obtain ⟨x, hx⟩ := hsome p hp hi (.inr ⟨⟨at_, hat, hu⟩, n, hh⟩)
      exact hno x hx
  · rw [Res.bind_ok_iff] at h
    obtain ⟨⟨db1, rep⟩, htx, h⟩ := h
    dsimp only at h
    have hshape : ∀ x ∈ es, ∃ op e a v, x = .addOrRetract op e (.entid a) (.atom v) := by
      intro x hx
      obtain ⟨p, -, hp⟩ := (mem_rebaseParts hes x).1 hx
      obtain ⟨e, he, -⟩ := rebasePart_ok hp
      exact ⟨_, e, p.a, p.v, he⟩
    obtain ⟨-, s, terms, hs, hres, htt⟩ := transactEntities_ok.1 htx
    have hflat := flattenAll_atoms es hshape 0
    have hm : List.Forall₂ (Means (startEnv db)) es s.terms := by
      obtain ⟨-, u, hu, h2, -, -⟩ := (C30_flat (startEnv db) es s.terms s.tempIds s.lookupRefs).1
        ⟨s, hs, rfl, rfl, rfl⟩
      rw [stage1_eq] at hu
      obtain ⟨ts', hts, had⟩ := run_means (C30_is_flat es) hu
      have h3 := had.terms
      simp only [List.nil_append] at h3
      rw [h2] at h3
      rw [h3]
      rw [hflat, map_codeOp] at hts
      · exact hts
      · intro e a v hx
        obtain ⟨op, e', a', v', hx⟩ := hshape _ hx
        cases hx; rfl
    have hr := C29_resolves hres
    have means : ∀ x ∈ es, ∃ t ∈ s.terms, Means (startEnv db) x t := by
      intro x hx
      obtain ⟨i, hi, rfl⟩ := List.mem_iff_getElem.1 hx
      have hlen := hm.length_eq
      exact ⟨s.terms[i], List.getElem_mem _, (List.forall₂_iff_get.1 hm).2 i hi (by omega)⟩
    have meant : ∀ t ∈ s.terms, ∃ x ∈ es, Means (startEnv db) x t := by
      intro x hx
      obtain ⟨i, hi, rfl⟩ := List.mem_iff_getElem.1 hx
      have hlen := hm.length_eq
      exact ⟨es[i], List.getElem_mem _, (List.forall₂_iff_get.1 hm).2 i (by omega) hi⟩
    have resolved : ∀ t ∈ s.terms, ∃ y ∈ terms, Resolved db.store.rows t y := by
      intro x hx
      obtain ⟨i, hi, rfl⟩ := List.mem_iff_getElem.1 hx
      have hlen := hr.length_eq
      exact ⟨terms[i], List.getElem_mem _, (List.forall₂_iff_get.1 hr).2 i hi (by omega)⟩
    have resolvedOf : ∀ y ∈ terms, ∃ t ∈ s.terms, Resolved db.store.rows t y := by
      intro x hx
      obtain ⟨i, hi, rfl⟩ := List.mem_iff_getElem.1 hx
      have hlen := hr.length_eq
      exact ⟨s.terms[i], List.getElem_mem _, (List.forall₂_iff_get.1 hr).2 i (by omega) hi⟩
    -- what the term of a datom is
    have hterm : ∀ q ∈ parts, ∀ x, rebasePart db parts q = .ok (some x) → ∀ t, Means (startEnv db) x t →
        ∀ y, Resolved db.store.rows t y → RebasedTerm db parts q y := by
      intro q hq x hx t hmean y hres1
      have hcore : ∀ (op : Op) (e : EntityPlace TypedValue), x = .addOrRetract op e (.entid q.a) (.atom q.v) →
          t.op = op ∧ t.a = q.a ∧ t.v = .inl q.v ∧ PlaceMeans (startEnv db) e t.e := by
        rintro op e rfl
        obtain ⟨ho, hmean⟩ := hmean
        rcases hmean with ⟨-, at_, h1, h2, h3, h4⟩ | ⟨fa, at_, x, hu, -⟩
        · simp only [Names] at h1
          rw [h1] at h2
          have hty := ht q hq at_ h2
          have hv : t.v = .inl q.v := by
            rcases h4 with ⟨h5, t', h6, -⟩ | ⟨-, w, h5, h6⟩
            · rw [hty] at h5
              cases hv : q.v <;> rw [hv] at h5 h6 <;> simp [TypedValue.valueType, TransactableValue.asTempid] at h5 h6
            · simp only [TransactableValue.intoTypedValue] at h5
              rw [if_pos hty.symm] at h5
              rw [h6, ← Res.ok.inj h5]
          exact ⟨ho, h1, hv, h3⟩
        · obtain ⟨ns, n, hh, -⟩ := hu; cases hh
      obtain ⟨r1, r2, r3, r4⟩ := hres1
      have hfin : ∀ (op : Op) (e : EntityPlace TypedValue), x = .addOrRetract op e (.entid q.a) (.atom q.v) →
          y.op = op ∧ y.a = q.a ∧ y.v = .inl q.v ∧ PlaceMeans (startEnv db) e t.e := by
        intro op e he
        obtain ⟨c1, c2, c3, c4⟩ := hcore op e he
        rw [c3] at r4
        exact ⟨r1.trans c1, r2.trans c2, r4, c4⟩
      unfold rebasePart at hx
      split at hx
      · cases hx
      · rename_i hi
        split at hx
        · rename_i hw
          obtain ⟨c1, c2, c3, c4⟩ := hfin _ _ (Option.some.inj (Res.ok.inj hx)).symm
          simp only [PlaceMeans] at c4
          rw [c4] at r3
          exact ⟨c1, c2, c3, hi, .inl ⟨willAllocate_iff.1 hw, r3⟩⟩
        · rename_i hw
          split at hx
          · rename_i hadd
            exact absurd (willAllocate_iff.2 ⟨q, hq, hadd, hi, rfl⟩) hw
          · rename_i hadd
            split at hx
            · cases hx
            · rename_i at_ hat
              split at hx
              · cases hx
              · rename_i hu
                split at hx
                · obtain ⟨c1, c2, c3, c4⟩ := hfin _ _ (Option.some.inj (Res.ok.inj hx)).symm
                  simp only [PlaceMeans, LookupMeans] at c4
                  obtain ⟨l, ⟨a', at1, w, k1, k2, -, k4, rfl⟩, c4⟩ := c4
                  simp only [Names] at k1
                  subst k1
                  have hty := ht q hq at1 k2
                  simp only [TransactableValue.intoTypedValue] at k4
                  rw [if_pos hty.symm] at k4
                  obtain rfl := Res.ok.inj k4
                  rw [c4] at r3
                  obtain ⟨n, hn1, hn2⟩ := r3
                  refine ⟨by rw [c1, if_neg hadd], c2, c3, hi, .inr ⟨fun ha => hw (willAllocate_iff.2 ha),
                    ⟨at_, hat, ?_⟩, n, hn2, hn1⟩⟩
                  intro hn; rw [hn] at hu; simp at hu
                · cases hx
    refine .inr ⟨might, terms, _, db1, rep, hmight, htt, ?_, ?_, ?_, ?_⟩
    · intro y hy
      obtain ⟨t, ht', hry⟩ := resolvedOf y hy
      obtain ⟨x, hx, hmx⟩ := meant t ht'
      obtain ⟨q, hq, hqx⟩ := (mem_rebaseParts hes x).1 hx
      exact ⟨q, hq, hterm q hq x hqx t hmx y hry⟩
    · intro q hq hi hc
      obtain ⟨x, hx⟩ := hsome q hq hi hc
      obtain ⟨t, ht', hmx⟩ := means x ((mem_rebaseParts hes x).2 ⟨q, hq, hx⟩)
      obtain ⟨y, hy, hry⟩ := resolved t ht'
      exact ⟨y, hy, hterm q hq x hx t hmx y hry⟩
    · intro e he n hn
      split at h
      · cases h
      · rename_i hany
        cases hA : assertedIn db1.store.log n rep.txId with
        | false => rfl
        | true =>
          exfalso
          apply hany
          rw [List.any_eq_true]
          exact ⟨e, he, by rw [hn]; exact hA⟩
    · split at h
      · cases h
      · split at h
        · rename_i hemp
          obtain ⟨rfl, rfl⟩ := Prod.mk.inj (Res.ok.inj h)
          exact .inr ⟨rfl, hemp, rfl⟩
        · obtain ⟨rfl, rfl⟩ := Prod.mk.inj (Res.ok.inj h)
          exact .inl ⟨rfl, rfl⟩

/-- An entity the transaction logs nothing about keeps its facts. -/
theorem transact_quiet {db db1 : Db} {now : Int} {terms : List TTerm} {ids : List TempId} {rep : Mentat.Report}
    (h : transactTerms db now terms ids = .ok (db1, rep)) {n : Entid}
    (hq : assertedIn db1.store.log n rep.txId = false) (a : Entid) (v : TypedValue) :
    Has db1.store.rows n a v ↔ Has db.store.rows n a v := by
  obtain ⟨T⟩ := transact_trace h
  obtain ⟨-, -, hlr, -, -, hlog, -⟩ := apply_ok T.applied
  have hno : ∀ l ∈ logRowsOf rep.txId (search db.store.rows (reducedOf db.schema T.t)), l.e ≠ n := by
    intro l hl he
    have hl' : l ∈ db1.store.log := by
      rw [T.log, hlog rfl, hlr]
      exact List.mem_append_right _ hl
    have : assertedIn db1.store.log n rep.txId = true := by
      unfold assertedIn
      rw [List.any_eq_true]
      refine ⟨l, hl', ?_⟩
      rw [mem_logRowsOf] at hl
      rcases hl with ⟨q, -, -, rfl⟩ | ⟨r, -, -, rfl⟩ <;> simpa using he
    rw [hq] at this; cases this
  rw [T.has_iff]
  constructor
  · rintro ⟨r, hr, h1, h2, h3⟩
    rcases (T.mem_store r).1 hr with ⟨hr, -⟩ | ⟨q, hq, hin, rfl⟩
    · exact ⟨r, hr, h1, h2, h3⟩
    · exact absurd h1 (hno _ (mem_logRowsOf.2 (.inl ⟨q, hq, hin, rfl⟩)))
  · rintro ⟨r, hr, h1, h2, h3⟩
    refine ⟨r, (T.mem_store r).2 (.inl ⟨hr, ?_⟩), h1, h2, h3⟩
    rintro ⟨q, hq, hd⟩
    exact absurd h1 (hno _ (mem_logRowsOf.2 (.inr ⟨r, hr, ⟨q, hq, hd⟩, rfl⟩)))

theorem classify_sub {s : Schema} {parts : List TxPart} : ∀ {willNot might res : List Entid},
    classify s parts willNot might = .ok res → ∀ e ∈ might, e ∈ res := by
  induction parts with
  | nil =>
    intro willNot might res h e he
    unfold classify at h
    rw [← Res.ok.inj h]; exact he
  | cons p r ih =>
    intro willNot might res h e he
    unfold classify at h
    split at h
    · split at h
      · split at h
        · exact ih h e (List.mem_cons_of_mem _ he)
        · exact ih h e he
      · cases h
    · split at h
      · exact ih h e (List.mem_cons_of_mem _ he)
      · exact ih h e he

theorem classify_ident {s : Schema} {p : TxPart} (ha : p.a = DB_IDENT) {k : Keyword} (hv : p.v = .keyword k)
    (hk : AMap.contains s.identMap k = true) {parts : List TxPart} (hp : p ∈ parts) :
    ∀ {willNot might res : List Entid}, classify s parts willNot might = .ok res → p.e ∈ res := by
  induction parts with
  | nil => cases hp
  | cons q r ih =>
    intro willNot might res h
    rcases List.mem_cons.1 hp with rfl | hp'
    · unfold classify at h
      rw [if_pos ha, hv] at h
      simp only [hk, if_true] at h
      exact classify_sub h _ List.mem_cons_self
    · unfold classify at h
      split at h
      · split at h
        · split at h
          · exact ih hp' h
          · exact ih hp' h
        · cases h
      · split at h
        · exact ih hp' h
        · exact ih hp' h

theorem classify_schema {s : Schema} {p : TxPart} (ha : isSchemaAttribute p.a = true) {parts : List TxPart}
    (hp : p ∈ parts) (hi : ∀ q ∈ parts, q.e = p.e → q.a ≠ DB_IDENT) :
    ∀ {willNot might res : List Entid}, p.e ∉ willNot → classify s parts willNot might = .ok res → p.e ∈ res := by
  induction parts with
  | nil => cases hp
  | cons q r ih =>
    intro willNot might res hw h
    have hi' : ∀ x ∈ r, x.e = p.e → x.a ≠ DB_IDENT := fun x hx => hi x (List.mem_cons_of_mem _ hx)
    rcases List.mem_cons.1 hp with rfl | hp'
    · unfold classify at h
      rw [if_neg (hi p List.mem_cons_self rfl), if_pos (by simp [ha, hw])] at h
      exact classify_sub h _ List.mem_cons_self
    · unfold classify at h
      split at h
      · rename_i hqa
        have hne : p.e ≠ q.e := fun he => hi q List.mem_cons_self he.symm hqa
        split at h
        · split at h
          · exact ih hp' hi' hw h
          · exact ih hp' hi' (by simp [hne, hw]) h
        · cases h
      · split at h
        · exact ih hp' hi' hw h
        · exact ih hp' hi' hw h

/-- The facts about the entity are the same in both. -/
def SameAbout (db db' : Db) (n : Entid) : Prop := ∀ a v, Has db'.store.rows n a v ↔ Has db.store.rows n a v

/-- C72.  When a local transaction names an attribute (or anything else) by an ident that the incoming
transactions, or the store before, have given to an entity, then rebasing it fails unless it leaves everything
about that entity as it is.  Partial: it must be the ident that finds the entity, see `C72_fails_identity`. -/
theorem C72_installed_partial {db db' : Db} {now : Int} {parts : List TxPart} {ch : Bool}
    (hr : RowsInv db.schema db.store.rows) (h : rebaseOne db now parts = .ok (db', ch))
    (ht : ∀ p ∈ parts, ∀ at_, db.schema.attr p.a = some at_ → at_.valueType = p.v.valueType)
    (hid : ∃ at_, db.schema.attr DB_IDENT = some at_ ∧ at_.unique = some .identity ∧ at_.index = true)
    {p : TxPart} (hp : p ∈ parts) (hadd : p.added = true) (ha : p.a = DB_IDENT) {k : Keyword} (hv : p.v = .keyword k)
    {n : Entid} (hk : AMap.get db.schema.identMap k = some n) (hn : Has db.store.rows n DB_IDENT (.keyword k)) :
    SameAbout db db' n := by
  intro a v
  rcases rebase_terms h ht with ⟨-, rfl, -⟩ | ⟨might, terms, ids, db1, rep, h1, h2, -, h4, h5, h6⟩
  · exact Iff.rfl
  rcases h6 with ⟨-, rfl⟩ | ⟨-, -, hs⟩
  · obtain ⟨at_, k1, k2, k3⟩ := hid
    have hi : p.a ≠ DB_TX_INSTANT := by rw [ha]; decide
    have hAbout : AssertsAbout parts p.e := ⟨p, hp, hadd, hi, rfl⟩
    obtain ⟨y, hy, hreb⟩ := h4 p hp hi (.inl hAbout)
    have hyt : y = ⟨.add, .inr (.external (entityName p.e)), DB_IDENT, .inl (.keyword k)⟩ := by
      obtain ⟨yo, ye, ya, yv⟩ := y
      obtain ⟨e1, e2, e3, -, e5⟩ := hreb
      simp only at e1 e2 e3 e5
      rcases e5 with ⟨-, e5⟩ | ⟨e5, -⟩
      · rw [e1, e2, e3, e5, hadd, ha, hv]; rfl
      · exact absurd hAbout e5
    subst hyt
    obtain ⟨T⟩ := transact_trace h2
    obtain ⟨U, sp, -⟩ := T.terms_spec
    have hget : AMap.get T.s3.tempids (.external (entityName p.e)) = some n :=
      sp.sub _ _ (sp.upserts _ _ _ n hy ⟨at_, k1, k2⟩ ((lookupAV_iff hr k1 (by rw [k2]; rfl) k3 n).mpr hn))
    have hrep : AMap.get rep.tempids (entityName p.e) = some n := by rw [T.tempids]; exact get_external' hget
    have hmight : p.e ∈ might := classify_ident ha hv (by unfold AMap.contains; rw [hk]; rfl) hp h1
    exact transact_quiet h2 (h5 _ hmight n hrep) a v
  · rw [hs]

/-- C72.  When a local transaction asserts a schema attribute of an entity it does not itself name by an ident, and
so may alter an attribute installed before, then rebasing it fails, unless there is already an entity of which the
assertion holds, and everything about it is left as it is.  Partial: the attribute asserted must not be an identity nor be
retracted in the same transaction, see `C72_fails_removed`. -/
theorem C72_altering_partial {db db' : Db} {now : Int} {parts : List TxPart} {ch : Bool}
    (h : rebaseOne db now parts = .ok (db', ch))
    (ht : ∀ p ∈ parts, ∀ at_, db.schema.attr p.a = some at_ → at_.valueType = p.v.valueType)
    {p : TxPart} (hp : p ∈ parts) (hadd : p.added = true) (ha : isSchemaAttribute p.a = true)
    (hno : ∀ q ∈ parts, q.e = p.e → q.a ≠ DB_IDENT) (hni : ¬ IsIdentity db.schema p.a)
    (hret : ∀ q ∈ parts, q.added = false → q.a ≠ p.a) :
    ∃ n, Has db.store.rows n p.a p.v ∧ SameAbout db db' n := by
  have hi : p.a ≠ DB_TX_INSTANT := by rintro e; rw [e] at ha; revert ha; decide
  have hAbout : AssertsAbout parts p.e := ⟨p, hp, hadd, hi, rfl⟩
  rcases rebase_terms h ht with ⟨-, -, h3⟩ | ⟨might, terms, ids, db1, rep, h1, h2, h3, h4, h5, h6⟩
  · exact absurd hAbout (h3 p hp hi).1
  obtain ⟨y, hy, hreb⟩ := h4 p hp hi (.inl hAbout)
  have hyt : y = ⟨.add, .inr (.external (entityName p.e)), p.a, .inl p.v⟩ := by
    obtain ⟨yo, ye, ya, yv⟩ := y
    obtain ⟨e1, e2, e3, -, e5⟩ := hreb
    simp only at e1 e2 e3 e5
    rcases e5 with ⟨-, e5⟩ | ⟨e5, -⟩
    · rw [e1, e2, e3, e5, hadd]; rfl
    · exact absurd hAbout e5
  subst hyt
  obtain ⟨σ, hσ, hden, -, hadd', -⟩ := C20_effect_partial h2
  obtain ⟨⟨zo, n, za, zv⟩, hz⟩ := hden _ hy
  have hz' := hz
  obtain ⟨z1, z2, z3, z4⟩ := hz'
  simp only [DenotesE, DenotesV] at z1 z2 z3 z4
  subst z1 z2 z4
  have hhas := hadd' _ hy _ hz rfl (fun t _ hid => absurd hid hni) ?_
  · simp only at hhas
    have hquiet := h5 p.e (classify_schema ha hp hno (by simp) h1) n ((hσ _ _).2 z3)
    have hsame := transact_quiet h2 hquiet
    refine ⟨n, (hsame _ _).1 hhas, ?_⟩
    rcases h6 with ⟨-, rfl⟩ | ⟨-, -, hs⟩
    · exact hsame
    · intro a v; rw [hs]
  · intro at_ _ _ y' hy' z' hz1 hz2 hz3
    obtain ⟨q, hq, hreb'⟩ := h3 y' hy'
    have hop : y'.op = .retract := by rw [← hz1.1]; exact hz2
    have hqa : q.added = false := by
      cases hqa : q.added with
      | false => rfl
      | true => have := hreb'.op; rw [hop, hqa] at this; cases this
    refine hret q hq hqa ?_
    rw [← hreb'.a, ← hz1.2.1]
    exact hz3.2

/-- C61, for retractions.  When a local transaction only retracts from an entity, then rebased it takes a unique
value away from whatever entity has it.  Other retractions are dropped (`C61_fails_replace`). -/
theorem C61_retracted_partial {db db' : Db} {now : Int} {parts : List TxPart}
    (hr : RowsInv db.schema db.store.rows) (h : rebaseOne db now parts = .ok (db', true))
    (ht : ∀ p ∈ parts, ∀ at_, db.schema.attr p.a = some at_ → at_.valueType = p.v.valueType)
    {p : TxPart} (hp : p ∈ parts) (hi : p.a ≠ DB_TX_INSTANT) (hno : ¬ AssertsAbout parts p.e)
    (hu : ∃ at_, db.schema.attr p.a = some at_ ∧ at_.unique ≠ none)
    (hone : ∀ q ∈ parts, q.added = true → ¬ (q.a = p.a ∧ q.v = p.v)) (n : Entid) :
    ¬ Has db'.store.rows n p.a p.v := by
  intro hn
  rcases rebase_terms h ht with ⟨h1, -⟩ | ⟨might, terms, ids, db1, rep, -, h2, h3, h4, -, h6⟩
  · cases h1
  rcases h6 with ⟨-, rfl⟩ | ⟨h1, -⟩
  swap
  · cases h1
  -- the entity had the value before
  have hbefore : Has db.store.rows n p.a p.v := by
    obtain ⟨T⟩ := transact_trace h2
    obtain ⟨U, sp, hsound, -⟩ := T.terms_spec
    rw [T.has_iff] at hn
    obtain ⟨r, hr', e1, e2, e3⟩ := hn
    rcases (T.mem_store r).1 hr' with ⟨hr', -⟩ | ⟨q, hq, hin, rfl⟩
    · exact ⟨r, hr', e1, e2, e3⟩
    · exfalso
      simp only [newRow] at e1 e2 e3
      rcases (T.mem_queue.mp hq).2 with ⟨-, hm | ⟨k1, -⟩⟩ | ⟨hadd, -⟩
      · obtain ⟨x, hx, hd⟩ := hsound _ hm
        obtain ⟨q', hq', hreb⟩ := h3 x hx
        obtain ⟨d1, d2, -, d4⟩ := hd
        rw [hreb.v] at d4
        simp only [DenotesV] at d4
        refine hone q' hq' ?_ ⟨by rw [← hreb.a, ← d2]; exact e2, by rw [← e3]; exact d4.symm⟩
        cases hqa : q'.added with
        | true => rfl
        | false =>
          have := hreb.op
          rw [hqa, ← d1] at this; cases this
      · exact hi (e2.symm.trans k1)
      · rw [hin.1] at hadd; cases hadd
  -- and it is taken away
  obtain ⟨at_, hat, hu'⟩ := hu
  obtain ⟨y, hy, hreb⟩ := h4 p hp hi (.inr ⟨⟨at_, hat, hu'⟩, n, hbefore⟩)
  rcases hreb.e with ⟨h1, -⟩ | ⟨-, -, m, hm, hhas⟩
  · exact hno h1
  have hmn : m = n := by
    obtain ⟨r, k1, k2, k3, k4⟩ := hhas
    obtain ⟨r', l1, l2, l3, l4⟩ := hbefore
    obtain ⟨at1, t1, -, t2, -⟩ := hr.typed r k1
    obtain ⟨at2, s1, -, s2, -⟩ := hr.typed r' l1
    rw [k3, hat] at t1; cases t1
    rw [l3, hat] at s1; cases s1
    have hus : at_.unique.isSome = true := by cases hx : at_.unique <;> simp_all
    rw [← k2, ← l2, uniqueOk_av hr.uniq k1 l1 (t2.trans hus) (s2.trans hus) (k3.trans l3.symm) (k4.trans l4.symm)]
  subst hmn
  have hadd : p.added = false := by
    cases hpa : p.added with
    | false => rfl
    | true => exact absurd ⟨p, hp, hpa, hi, rfl⟩ hno
  obtain ⟨σ, -, -, hret, -⟩ := C20_effect_partial h2
  have hyt : y = ⟨.retract, .inl m, p.a, .inl p.v⟩ := by
    obtain ⟨yo, ye, ya, yv⟩ := y
    have e1 := hreb.op; have e2 := hreb.a; have e3 := hreb.v
    simp only at e1 e2 e3 hm
    rw [e1, e2, e3, hm, hadd]; rfl
  subst hyt
  exact hret _ hy ⟨.retract, m, p.a, p.v⟩ ⟨rfl, rfl, rfl, rfl⟩ rfl hn

/-! ### Two stores that diverged after installing attributes -/

/-- `a` and `b` after one transaction each, and what `b` is after merging, as far as `p` can tell. -/
def mergedB (ta tb : Mentat.Tx) (p : Db → Db → Res (Db × Report) → Bool) : Bool :=
  match diverged setupDb ta tb with
  | some (a, b) => p a b (mergeVia (TX0 + 1) a b)
  | none => false

theorem mergedB_ok {ta tb : Mentat.Tx} {p : Db → Db → Res (Db × Report) → Bool} (h : mergedB ta tb p = true) :
    ∃ a b, Step setupDb a ∧ Step setupDb b ∧ p a b (mergeVia (TX0 + 1) a b) = true := by
  unfold mergedB at h
  split at h
  · rename_i a b hd
    exact ⟨a, b, (diverged_step hd).1, (diverged_step hd).2, h⟩
  · cases h

/-- C72.  Both stores install the same attribute; the merge keeps one.  If they install it differently, or the
local one alters an attribute installed before, the merge is refused. -/
theorem C72_example :
    (∃ a b m rep, Step setupDb a ∧ Step setupDb b ∧ mergeVia (TX0 + 1) a b = .ok (m, rep) ∧
      Has m.store.rows 65539 DB_IDENT (.keyword (kw "x" "new")) ∧ ¬ Has m.store.rows 65540 DB_IDENT (.keyword (kw "x" "new"))) ∧
    (∃ a b, Step setupDb a ∧ Step setupDb b ∧ mergeVia (TX0 + 1) a b = .err .notYetImplemented) ∧
    ∃ a b, Step setupDb a ∧ Step setupDb b ∧ Has b.store.rows xMany DB_INDEX (.boolean true) ∧
      mergeVia (TX0 + 1) a b = .err .badSchemaAssertion := by
  refine ⟨?_, ?_, ?_⟩
  · obtain ⟨a, b, ha, hb, h⟩ := mergedB_ok (ta := (install "new" DB_TYPE_LONG DB_CARDINALITY_ONE, [tid "new"]))
      (tb := (install "new" DB_TYPE_LONG DB_CARDINALITY_ONE, [tid "new"])) (p := fun _ _ r => match r with
        | .ok (m, _) => hasB m 65539 DB_IDENT (.keyword (kw "x" "new")) && !hasB m 65540 DB_IDENT (.keyword (kw "x" "new"))
        | _ => false) (by decide +kernel)
    split at h
    · rename_i m rep hm
      rw [Bool.and_eq_true, hasB_iff, Bool.not_eq_true', ← Bool.not_eq_true, hasB_iff] at h
      exact ⟨a, b, m, rep, ha, hb, hm, h⟩
    · cases h
  · obtain ⟨a, b, ha, hb, h⟩ := mergedB_ok (ta := (install "new" DB_TYPE_LONG DB_CARDINALITY_ONE, [tid "new"]))
      (tb := (install "new" DB_TYPE_LONG DB_CARDINALITY_MANY, [tid "new"]))
      (p := fun _ _ r => match r with | .err .notYetImplemented => true | _ => false) (by decide +kernel)
    split at h
    · rename_i hm; exact ⟨a, b, ha, hb, hm⟩
    · cases h
  · obtain ⟨a, b, ha, hb, h⟩ := mergedB_ok (ta := otherTx) (tb := ([addE xMany DB_INDEX (.boolean true)], []))
      (p := fun _ b r => hasB b xMany DB_INDEX (.boolean true) && match r with | .err .badSchemaAssertion => true | _ => false)
      (by decide +kernel)
    rw [Bool.and_eq_true, hasB_iff] at h
    obtain ⟨h1, h⟩ := h
    split at h
    · rename_i hm; exact ⟨a, b, ha, hb, h1, hm⟩
    · cases h

/-- C72 fails: a local attribute with a new ident that is found in the store by another identity alters the
attribute found (here it becomes indexed), and its ident is lost. -/
theorem C72_fails_identity : ∃ a b m rep, Step setupDb a ∧ Step setupDb b ∧ mergeVia (TX0 + 1) a b = .ok (m, rep) ∧
    ¬ Has a.store.rows xMany DB_INDEX (.boolean true) ∧ ¬ Has b.store.rows xMany DB_INDEX (.boolean true) ∧
    Has m.store.rows xMany DB_INDEX (.boolean true) ∧ ∀ e, ¬ Has m.store.rows e DB_IDENT (.keyword (kw "x" "new")) := by
  obtain ⟨a, b, ha, hb, h⟩ := mergedB_ok (ta := ([addE xMany xId (str "z")], []))
    (tb := (install "new" DB_TYPE_LONG DB_CARDINALITY_MANY [addT "new" DB_INDEX (.boolean true), addT "new" xId (str "z")],
      [tid "new"])) (p := fun a b r => !hasB a xMany DB_INDEX (.boolean true) && !hasB b xMany DB_INDEX (.boolean true) &&
      match r with
      | .ok (m, _) => hasB m xMany DB_INDEX (.boolean true) &&
          m.store.rows.all fun r => !decide (r.a = DB_IDENT ∧ r.v = .keyword (kw "x" "new"))
      | _ => false) (by decide +kernel)
  simp only [Bool.and_eq_true, Bool.not_eq_true', ← Bool.not_eq_true, hasB_iff] at h
  obtain ⟨⟨h1, h2⟩, h⟩ := h
  split at h
  · rename_i m rep hm
    simp only [Bool.and_eq_true, hasB_iff, List.all_eq_true, Bool.not_eq_true', decide_eq_false_iff_not] at h
    refine ⟨a, b, m, rep, ha, hb, hm, h1, h2, h.1, ?_⟩
    rintro e ⟨r, hr, -, k1, k2⟩
    exact h.2 r hr ⟨k1, k2⟩
  · cases h

/-- C72 fails: when an attribute was removed locally, the merge takes its ident away but leaves it an attribute. -/
theorem C72_fails_removed : ∃ a b m rep, Step setupDb a ∧ Step setupDb b ∧ mergeVia (TX0 + 1) a b = .ok (m, rep) ∧
    b.schema.attr xMany = none ∧ m.schema.attr xMany ≠ none ∧ Has m.store.rows xMany DB_VALUE_TYPE (.ref DB_TYPE_LONG) ∧
    ¬ Has m.store.rows xMany DB_IDENT (.keyword (kw "x" "many")) := by
  obtain ⟨a, b, ha, hb, h⟩ := mergedB_ok (ta := otherTx) (tb := ([retE xMany DB_IDENT (.keyword (kw "x" "many")),
      retE xMany DB_VALUE_TYPE (.ref DB_TYPE_LONG), retE xMany DB_CARDINALITY (.ref DB_CARDINALITY_MANY)], []))
    (p := fun _ b r => decide (b.schema.attr xMany = none) && match r with
      | .ok (m, _) => !decide (m.schema.attr xMany = none) && hasB m xMany DB_VALUE_TYPE (.ref DB_TYPE_LONG) &&
          !hasB m xMany DB_IDENT (.keyword (kw "x" "many"))
      | _ => false) (by decide +kernel)
  rw [Bool.and_eq_true, decide_eq_true_eq] at h
  obtain ⟨h1, h⟩ := h
  split at h
  · rename_i m rep hm
    simp only [Bool.and_eq_true, Bool.not_eq_true', ← Bool.not_eq_true, hasB_iff, decide_eq_true_eq] at h
    exact ⟨a, b, m, rep, ha, hb, hm, h1, h.1.1, h.1.2, h.2⟩
  · cases h

/-- C61: a local retraction of a unique value takes it away from the entity that has it. -/
theorem C61_example_retracted : ∃ db db', ReachKept db ∧
    rebaseOne db 0 [⟨none, 70000, xId, str "k", TX0 + 3, false⟩] = .ok (db', true) ∧
    Has db.store.rows e1 xId (str "k") ∧ ¬ Has db'.store.rows e1 xId (str "k") := by
  obtain ⟨db, h, hp⟩ := reachKept_of_setup (txs := [dataTx]) (p := fun db => hasB db e1 xId (str "k") &&
    match rebaseOne db 0 [⟨none, 70000, xId, str "k", TX0 + 3, false⟩] with
    | .ok (db', true) => !hasB db' e1 xId (str "k")
    | _ => false) (by decide +kernel)
  rw [Bool.and_eq_true, hasB_iff] at hp
  obtain ⟨h1, hp⟩ := hp
  split at hp
  · rename_i db' hr
    rw [Bool.not_eq_true', ← Bool.not_eq_true, hasB_iff] at hp
    exact ⟨db, db', h, hr, h1, hp⟩
  · cases hp

end Mentat.Sync
