import Verif.Proofs.PermuteApply
import Verif.Props.Datoms
/-
C65: the order in which the assertions of a flat transaction are written does not matter.
-/
namespace Mentat

theorem lexLt_tri : ∀ {l m : List Nat}, lexLt l m = false → lexLt m l = false → l = m
  | [], [], _, _ => rfl
  | [], _ :: _, h, _ => by simp [lexLt] at h
  | _ :: _, [], _, h => by simp [lexLt] at h
  | a :: l, b :: m, h, h' => by
    simp only [lexLt, Bool.or_eq_false_iff, Bool.and_eq_false_iff, decide_eq_false_iff_not] at h h'
    have e : a = b := by omega
    subst e
    rw [lexLt_tri (h.2.resolve_left (by simp)) (h'.2.resolve_left (by simp))]

theorem toNat_map_inj : ∀ {s t : Text}, s.map Char.toNat = t.map Char.toNat → s = t
  | [], [], _ => rfl
  | [], _ :: _, h => by simp at h
  | _ :: _, [], h => by simp at h
  | c :: s, d :: t, h => by
    simp only [List.map_cons, List.cons.injEq] at h
    rw [Char.toNat_inj.1 h.1, toNat_map_inj h.2]

/-- Values of one type that SQLite's order does not separate are equal for SQLite. -/
theorem sql_incomparable {v w : TypedValue} (ht : v.valueType = w.valueType)
    (h : v.toSql.1.lt w.toSql.1 = false) (h' : w.toSql.1.lt v.toSql.1 = false) :
    sqlPairEq v.toSql w.toSql = true := by
  cases v <;> cases w <;> simp only [TypedValue.valueType, reduceCtorEq] at ht <;>
    simp only [TypedValue.toSql, SqlValue.lt, decide_eq_false_iff_not] at h h' <;>
    simp only [sqlPairEq, TypedValue.toSql, SqlValue.eq, decide_true, Bool.true_and, decide_eq_true_eq]
  · omega
  · omega
  · omega
  · omega
  · omega
  · exact toNat_map_inj (lexLt_tri h h')
  · exact toNat_map_inj (lexLt_tri h h')
  · exact lexLt_tri h h'

/-- The values of metadata attributes a transaction can meet: the attribute has one value per entity,
or all its values, stored and asserted, are ones that can be read back (C01). -/
def MetaTold (db : Db) (terms : List TTerm) : Prop :=
  ∀ a ∈ metadataList, (∀ at_, db.schema.attr a = some at_ → at_.multival = false) ∨
    ((∀ e v, Has db.store.rows e a v → v.Proper) ∧
      ∀ x ∈ terms, ∀ v, x.a = a → x.v = .inl v → v.Proper)

theorem MetaTold.told {db : Db} {now terms ids db1 rep} (hi : RowsInv db.schema db.store.rows)
    (hx : TxInstantOk db.schema) (hm : MetaTold db terms)
    (T : TxTrace db db.schema now terms ids .materializeAndCommit db1 rep) : Told T.lr := by
  intro l hl l' hl' ha he hae hadd h1 h2
  have hi' := rowsInv_apply hi (T.qok hx) T.applied
  have hap := applySpec hi.uniq T.applied
  -- where the values come from
  have src : ∀ l ∈ T.lr, (l.added = true ∧ Has T.store.rows l.e l.a l.v) ∨
      (l.added = false ∧ Has db.store.rows l.e l.a l.v) := by
    intro l hl
    cases hb : l.added with
    | true => exact .inl ⟨rfl, (hap.added l hl hb).1⟩
    | false => exact .inr ⟨rfl, (hap.retracted l hl hb).1⟩
  have typed : ∀ {rows}, RowsInv db.schema rows → ∀ {e a v}, Has rows e a v →
      ∃ at_, db.schema.attr a = some at_ ∧ at_.valueType = v.valueType := by
    rintro rows hr e a v ⟨r, hr1, rfl, rfl, rfl⟩
    obtain ⟨at_, h1, h2, -⟩ := hr.typed r hr1
    exact ⟨at_, h1, h2⟩
  have tl : ∀ l ∈ T.lr, ∃ at_, db.schema.attr l.a = some at_ ∧ at_.valueType = l.v.valueType := by
    intro l hl
    rcases src l hl with ⟨-, h⟩ | ⟨-, h⟩
    · exact typed hi' h
    · exact typed hi h
  rcases hm l.a ha with hone | ⟨hp1, hp2⟩
  · have one : ∀ {rows}, RowsInv db.schema rows → ∀ {e a v v'}, a = l.a → Has rows e a v → Has rows e a v' →
        v = v' := by
      rintro rows hr e a v v' rfl ⟨r, hr1, rfl, hra, rfl⟩ ⟨r', hr2, he', hra', rfl⟩
      obtain ⟨at_, h1, -⟩ := hr.typed r hr1
      rw [hr.one r hr1 r' hr2 at_ h1 (hone at_ (hra ▸ h1)) he'.symm (hra.trans hra'.symm)]
    rcases src l hl with ⟨hb, h⟩ | ⟨hb, h⟩ <;> rcases src l' hl' with ⟨hb', h'⟩ | ⟨hb', h'⟩
    · rw [← he, ← hae] at h'; exact one hi' rfl h h'
    · rw [hadd, hb'] at hb; cases hb
    · rw [hadd, hb'] at hb; cases hb
    · rw [← he, ← hae] at h'; exact one hi rfl h h'
  · obtain ⟨U, -, hden, -⟩ := T.terms_spec
    have proper : ∀ l2 ∈ T.lr, l2.a = l.a → l2.v.Proper := by
      intro l2 hl2 ha2
      rcases src l2 hl2 with ⟨-, r, hr, he2, hae2, hv2⟩ | ⟨-, h⟩
      · rcases (T.mem_store r).1 hr with ⟨hr, -⟩ | ⟨q, hq, -, rfl⟩
        · exact hp1 l2.e l2.v ⟨r, hr, he2, hae2.trans ha2, hv2⟩
        · rw [T.mem_queue] at hq
          obtain ⟨-, hq⟩ := hq
          simp only [newRow] at he2 hae2 hv2
          have fin : ∀ op, (⟨op, q.e, q.a, q.v⟩ : RTerm) ∈ T.s3.terms → l2.v.Proper := by
            intro op hm
            obtain ⟨x, hx, h1, h2, h3, h4⟩ := hden _ hm
            simp only at h1 h2 h3 h4
            cases hv : x.v with
            | inl v =>
              rw [hv] at h4
              have := hp2 x hx v (h2.symm.trans (hae2.trans ha2)) hv
              rw [← show q.v = v from h4, hv2] at this
              exact this
            | inr t =>
              rw [hv] at h4
              obtain ⟨n, -, h4⟩ := h4
              rw [← hv2, h4]; trivial
          rcases hq with ⟨-, h | ⟨h, -⟩⟩ | ⟨-, h⟩
          · exact fin _ h
          · exfalso
            rw [← ha2, ← hae2, h] at ha
            exact absurd ha (by decide)
          · exact fin _ h
      · exact hp1 l2.e l2.v (ha2 ▸ h)
    obtain ⟨at1, t1, t2⟩ := tl l hl
    obtain ⟨at2, t3, t4⟩ := tl l' hl'
    rw [← hae, t1] at t3
    cases t3
    have hty : l.v.valueType = l'.v.valueType := t2.symm.trans t4
    exact (C02_same_type_partial (proper l hl rfl) (proper l' hl' hae.symm) hty).1 (sql_incomparable hty h1 h2)

/-- Outcomes agree: both are accepted, with the same result up to the order of the rows of the tables and
of the tempids in the report, or neither is. -/
def SameOutcome (r r' : Res (Db × Report)) : Prop :=
  (∃ db rep db' rep', r = .ok (db, rep) ∧ r' = .ok (db', rep') ∧ SameDb db db' ∧ SameReport rep rep') ∨
  ((∀ p, r ≠ .ok p) ∧ ∀ p, r' ≠ .ok p)

theorem outcome_same {db : Db} {now terms terms' ids ids'} (hr : ReachKept db) (hm : MetaTold db terms)
    (hl : SameMem terms terms') (hi : List.Perm ids ids') :
    SameOutcome (transactTerms db now terms ids) (transactTerms db now terms' ids') := by
  obtain ⟨hrows, htx⟩ := rowsInv_reach hr
  have hm' : MetaTold db terms' := by
    intro a ha
    rcases hm a ha with h | ⟨h1, h2⟩
    · exact .inl h
    · exact .inr ⟨h1, fun x hx => h2 x ((hl x).2 hx)⟩
  cases h : transactTerms db now terms ids with
  | ok p =>
    obtain ⟨db1, rep⟩ := p
    obtain ⟨db1', rep', h', h1, h2⟩ := transact_follows hl hi h fun T => hm.told hrows htx T
    exact .inl ⟨_, _, _, _, rfl, h', h1, h2⟩
  | err e =>
    refine .inr ⟨by simp, ?_⟩
    rintro ⟨db1, rep⟩ h'
    obtain ⟨_, _, h'', -⟩ := transact_follows hl.symm hi.symm h' fun T => hm'.told hrows htx T
    unfold transactTerms at h
    rw [h] at h''; cases h''
  | panic =>
    refine .inr ⟨by simp, ?_⟩
    rintro ⟨db1, rep⟩ h'
    obtain ⟨_, _, h'', -⟩ := transact_follows hl.symm hi.symm h' fun T => hm'.told hrows htx T
    unfold transactTerms at h
    rw [h] at h''; cases h''

/-- C65: permuting the terms of a transaction gives the same outcome: the same schema, the same
allocations, the same datoms, the same log and the same report, or a refusal of both.
(`MetaTold` excludes only stores whose metadata attributes were made cardinality many and given keywords
that cannot be read back.) -/
theorem C65_order_partial {db : Db} {now terms terms' ids ids'} (hr : ReachKept db) (hm : MetaTold db terms)
    (hl : List.Perm terms terms') (hi : List.Perm ids ids') :
    SameOutcome (transactTerms db now terms ids) (transactTerms db now terms' ids') :=
  outcome_same hr hm (fun _ => hl.mem_iff) hi

/-- C65: saying something twice changes nothing either. -/
theorem C65_repeated_partial {db : Db} {now terms terms' ids} (hr : ReachKept db) (hm : MetaTold db terms)
    (hl : ∀ x, x ∈ terms ↔ x ∈ terms') :
    SameOutcome (transactTerms db now terms ids) (transactTerms db now terms' ids) :=
  outcome_same hr hm hl (.refl _)

/-- C65 in terms of datoms: the same facts, written by the same transaction, and the same log. -/
theorem C65_datoms_partial {db : Db} {now terms terms' ids ids' db1 rep} (hr : ReachKept db)
    (hm : MetaTold db terms) (hl : List.Perm terms terms') (hi : List.Perm ids ids')
    (h : transactTerms db now terms ids = .ok (db1, rep)) :
    ∃ db2 rep2, transactTerms db now terms' ids' = .ok (db2, rep2) ∧
      (∀ r, r ∈ db1.store.rows ↔ r ∈ db2.store.rows) ∧ (∀ l, l ∈ db1.store.log ↔ l ∈ db2.store.log) ∧
      db1.schema = db2.schema ∧ db1.parts = db2.parts ∧ rep.txId = rep2.txId ∧
      (∀ t n, (t, n) ∈ rep.tempids ↔ (t, n) ∈ rep2.tempids) := by
  rcases C65_order_partial (now := now) hr hm hl hi with ⟨a, b, c, d, h1, h2, h3, h4⟩ | ⟨h1, -⟩
  · rw [h] at h1
    obtain ⟨rfl, rfl⟩ : db1 = a ∧ rep = b := by simpa using h1
    exact ⟨c, d, h2, fun r => h3.store.rows.mem_iff, fun l => h3.store.log.mem_iff, h3.schema, h3.parts,
      h4.txId, fun t n => h4.tempids.mem_iff⟩
  · exact absurd h (h1 _)

/-- `MetaTold` by computation. -/
def metaOneB (s : Schema) : Bool :=
  metadataList.all fun a => match s.attr a with
    | some at_ => !at_.multival
    | none => true

theorem metaOneB_told {db : Db} (h : metaOneB db.schema = true) (terms : List TTerm) : MetaTold db terms := by
  intro a ha
  left
  intro at_ hat
  have := List.all_eq_true.1 h a ha
  rw [hat] at this
  simpa using this

/-- A store and a transaction that installs an attribute, renames another, allocates, upserts and
retracts, written backwards. -/
theorem C65_example : ∃ db terms ids db1 rep, ReachKept db ∧ MetaTold db terms ∧
    terms = install "new" DB_TYPE_LONG DB_CARDINALITY_ONE ++
      addE xOne DB_IDENT (.keyword (kw "x" "uno")) :: changeTx.1 ∧ ids = tid "new" :: changeTx.2 ∧
    transactTerms db 0 terms ids = .ok (db1, rep) ∧
    ∃ db2 rep2, transactTerms db 0 terms.reverse ids.reverse = .ok (db2, rep2) ∧
      db1.store.rows ≠ db2.store.rows ∧ (∀ r, r ∈ db1.store.rows ↔ r ∈ db2.store.rows) ∧
      db1.schema = db2.schema := by
  obtain ⟨db, h, hp⟩ := reachKept_of_setup (txs := [dataTx]) (p := fun db =>
    metaOneB db.schema &&
    match transactTerms db 0 (install "new" DB_TYPE_LONG DB_CARDINALITY_ONE ++
        addE xOne DB_IDENT (.keyword (kw "x" "uno")) :: changeTx.1) (tid "new" :: changeTx.2),
      transactTerms db 0 (install "new" DB_TYPE_LONG DB_CARDINALITY_ONE ++
        addE xOne DB_IDENT (.keyword (kw "x" "uno")) :: changeTx.1).reverse (tid "new" :: changeTx.2).reverse with
    | .ok (db1, _), .ok (db2, _) => decide (db1.store.rows ≠ db2.store.rows)
    | _, _ => false) (by decide +kernel)
  simp only [Bool.and_eq_true] at hp
  obtain ⟨hk, hp⟩ := hp
  split at hp
  · rename_i db1 rep1 db2 rep2 h1 h2
    refine ⟨db, _, _, db1, rep1, h, metaOneB_told hk _, rfl, rfl, h1, db2, rep2, h2, by simpa using hp, ?_⟩
    obtain ⟨db3, rep3, h3, h4, -, h5, -⟩ := C65_datoms_partial h (metaOneB_told hk _)
      (List.reverse_perm _).symm (List.reverse_perm _).symm h1
    rw [h2] at h3
    obtain ⟨rfl, rfl⟩ : db2 = db3 ∧ rep2 = rep3 := by simpa using h3
    exact ⟨h4, h5⟩
  · simp at hp

end Mentat
