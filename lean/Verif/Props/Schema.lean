import Verif.Proofs.IdentMaps
import Verif.Proofs.SchemaRead
import Verif.Proofs.Examples
import Verif.Props.Datoms
/-
C32-C35: the in-memory schema against the store.
-/
namespace Mentat

/-! ### C35 -/

/-- The two ident maps are inverse to each other. -/
def InverseIdents (s : Schema) : Prop :=
  ∀ k e, AMap.get s.identMap k = some e ↔ AMap.get s.entidMap e = some k

/-- Reachable without undefining an attribute in use, without moving an ident from one entity to
another within a transaction, and without redefining `:db/ident` itself. -/
inductive ReachIdents : Db → Prop
  | boot {now db} : createCurrentVersion now = .ok db → ReachIdents db
  | step {db db'} : ReachIdents db → Transacts db db' → KeepsUsedAttributes db db' →
      IdentAttr db.schema → NoIdentMoves db.store.rows db'.store.rows → ReachIdents db'

theorem ReachIdents.kept {db : Db} (h : ReachIdents db) : ReachKept db := by
  induction h with
  | boot h => exact .boot h
  | step _ h hk _ _ ih => exact .step ih h hk

theorem bootstrapSchema_identAttr {s : Schema} (h : bootstrapSchema = .ok s) : IdentAttr s := by
  have key : (match bootstrapSchema with
      | .ok s => match s.attr DB_IDENT with
        | some at_ => decide (at_.valueType = .keyword ∧ at_.multival = false ∧ at_.unique.isSome = true)
        | none => false
      | _ => false) = true := by decide +kernel
  rw [h] at key
  simp only at key
  cases hat : s.attr DB_IDENT with
  | none => rw [hat] at key; cases key
  | some at_ => rw [hat] at key; simp only [decide_eq_true_eq] at key; exact ⟨at_, hat, key⟩

theorem identMaps_reach {db : Db} (h : ReachIdents db) :
    EntidsMatch db.schema db.store.rows ∧ IdentsMatch db.schema db.store.rows ∧
      IdentsTable db.views db.store.rows := by
  induction h with
  | boot h =>
    obtain ⟨s, db1, rep, h1, h2, h3, rfl⟩ := create_ok h
    obtain ⟨k1, k2, k3⟩ := idents_step (rowsInv_nil s) (bootstrapSchema_txInstant h1)
      (bootstrapSchema_identAttr h1) h2
    have e0 : EntidsMatch {} (preBoot s).store.rows := by intro e k; simp [preBoot, Has]
    have i0 : IdentsMatch {} (preBoot s).store.rows := by intro e k; simp [preBoot, Has]
    have v0 : IdentsTable (preBoot s).views (preBoot s).store.rows := by intro e k; simp [preBoot, Has]
    have m0 : NoIdentMoves (preBoot s).store.rows db1.store.rows := by
      intro k e e' hh; simp [preBoot, Has] at hh
    unfold Schema.same at h3
    simp only [Bool.and_eq_true] at h3
    obtain ⟨⟨q1, q2⟩, -⟩ := h3
    refine ⟨fun e k => ?_, fun k e => ?_, k3 e0 v0⟩
    · rw [show ({ db1 with schema := s } : Db).schema = s from rfl, ← amap_same q1]
      exact k1 e0 e k
    · rw [show ({ db1 with schema := s } : Db).schema = s from rfl, ← amap_same q2]
      exact k2 i0 m0 k e
  | step hr ht _ hia hmv ih =>
    obtain ⟨now, terms, ids, rep, -, ht⟩ := ht
    obtain ⟨hi, hti⟩ := rowsInv_reach hr.kept
    obtain ⟨k1, k2, k3⟩ := idents_step hi hti hia ht
    exact ⟨k1 ih.1, k2 ih.2.1 hmv, k3 ih.1 ih.2.2⟩

/-- C35, for histories in which no transaction moves an ident from one entity to another.
(Missing: such moves, `C35_fails`; transactions redefining `:db/ident`.) -/
theorem C35_inverse_partial {db : Db} (h : ReachIdents db) : InverseIdents db.schema := by
  obtain ⟨h1, h2, -⟩ := identMaps_reach h
  intro k e
  rw [h1, h2]

/-- C35: the maps say exactly what the `:db/ident` datoms say. -/
theorem C35_datoms_partial {db : Db} (h : ReachIdents db) (k : Keyword) (e : Entid) :
    (AMap.get db.schema.identMap k = some e ↔ Has db.store.rows e DB_IDENT (.keyword k)) ∧
    (AMap.get db.schema.entidMap e = some k ↔ Has db.store.rows e DB_IDENT (.keyword k)) :=
  ⟨(identMaps_reach h).2.1 k e, (identMaps_reach h).1 e k⟩

def xName (s : String) : TypedValue := .keyword (kw "x" s)

/-- Two attributes exchange their names. -/
def swapTx : Tx :=
  ([retE xMany DB_IDENT (xName "many"), addE xMany DB_IDENT (xName "one"),
    retE xOne DB_IDENT (xName "one"), addE xOne DB_IDENT (xName "many")], [])

/-- An attribute is renamed. -/
def renameTx : Tx :=
  ([addE xMany DB_IDENT (xName "numbers")], [])

/-- The full C35 fails: after exchanging two idents in one transaction, one of them names nothing,
although an entity has it. -/
theorem C35_fails : ∃ db, ReachKept db ∧ ¬ InverseIdents db.schema ∧
    Has db.store.rows xMany DB_IDENT (xName "one") ∧
    AMap.get db.schema.identMap (kw "x" "one") = none := by
  obtain ⟨db, h, hp⟩ := reachKept_of_setup (txs := [swapTx]) (p := fun db =>
    hasB db xMany DB_IDENT (xName "one") &&
    decide (AMap.get db.schema.identMap (kw "x" "one") = none ∧
      AMap.get db.schema.entidMap xMany = some (kw "x" "one"))) (by decide +kernel)
  simp only [Bool.and_eq_true, decide_eq_true_eq, hasB_iff] at hp
  obtain ⟨h1, h2, h3⟩ := hp
  refine ⟨db, h, fun hi => ?_, h1, h2⟩
  have := (hi (kw "x" "one") xMany).2 h3
  rw [h2] at this; cases this

/-! ### Checking histories -/

/-- Run transactions, checking `ok` between the stores before and after each. -/
def runWith (ok : Db → Db → Bool) : List Tx → Db → Option Db
  | [], db => some db
  | (terms, ids) :: rest, db =>
    if KnownTerms db terms then
      match transactTerms db 0 terms ids with
      | .ok (db', _) => if KeepsUsedAttributes db db' then if ok db db' then runWith ok rest db' else none else none
      | _ => none
    else none

theorem runWith_induct {ok : Db → Db → Bool} {P : Db → Prop}
    (hs : ∀ db db', P db → Transacts db db' → KeepsUsedAttributes db db' → ok db db' = true → P db')
    {txs : List Tx} {db db' : Db} (h0 : P db) (h : runWith ok txs db = some db') : P db' := by
  induction txs generalizing db with
  | nil => simp only [runWith, Option.some.injEq] at h; exact h ▸ h0
  | cons x rest ih =>
    obtain ⟨terms, ids⟩ := x
    unfold runWith at h
    by_cases hk : KnownTerms db terms
    · rw [if_pos hk] at h
      cases ht : transactTerms db 0 terms ids with
      | ok r =>
        obtain ⟨db1, rep⟩ := r
        simp only [ht] at h
        by_cases hku : KeepsUsedAttributes db db1
        · rw [if_pos hku] at h
          by_cases ho : ok db db1 = true
          · rw [if_pos ho] at h
            exact ih (hs db db1 h0 ⟨0, terms, ids, rep, hk, ht⟩ hku ho) h
          · rw [if_neg ho] at h; cases h
        · rw [if_neg hku] at h; cases h
      | err _ => simp only [ht] at h; cases h
      | panic => simp only [ht] at h; cases h
    · rw [if_neg hk] at h; cases h

theorem runWith_one {ok : Db → Db → Bool} {tx : Tx} {db db' : Db} (h : runWith ok [tx] db = some db') :
    Transacts db db' ∧ KeepsUsedAttributes db db' ∧ ok db db' = true := by
  obtain ⟨terms, ids⟩ := tx
  unfold runWith at h
  by_cases hk : KnownTerms db terms
  · rw [if_pos hk] at h
    cases ht : transactTerms db 0 terms ids with
    | ok r =>
      obtain ⟨db1, rep⟩ := r
      simp only [ht] at h
      by_cases hku : KeepsUsedAttributes db db1
      · rw [if_pos hku] at h
        by_cases ho : ok db db1 = true
        · rw [if_pos ho] at h
          simp only [runWith, Option.some.injEq] at h
          subst h
          exact ⟨⟨0, terms, ids, rep, hk, ht⟩, hku, ho⟩
        · rw [if_neg ho] at h; cases h
      · rw [if_neg hku] at h; cases h
    | err _ => simp only [ht] at h; cases h
    | panic => simp only [ht] at h; cases h
  · rw [if_neg hk] at h; cases h

theorem runKeptFrom_with {txs : List Tx} {db db' : Db} (h : runKeptFrom txs db = some db') :
    runWith (fun _ _ => true) txs db = some db' := by
  induction txs generalizing db with
  | nil => exact h
  | cons x rest ih =>
    obtain ⟨terms, ids⟩ := x
    unfold runKeptFrom at h
    unfold runWith
    by_cases hk : KnownTerms db terms
    · rw [if_pos hk] at h ⊢
      cases ht : transactTerms db 0 terms ids with
      | ok r =>
        obtain ⟨db1, rep⟩ := r
        simp only [ht] at h ⊢
        by_cases hku : KeepsUsedAttributes db db1
        · rw [if_pos hku] at h ⊢; exact ih h
        · rw [if_neg hku] at h; cases h
      | err _ => simp only [ht] at h; cases h
      | panic => simp only [ht] at h; cases h
    · rw [if_neg hk] at h; cases h

def schemaOneB (s : Schema) : Bool :=
  schemaList.all fun a => match s.attr a with
    | some at_ => !at_.multival
    | none => false

theorem schemaOneB_iff {s : Schema} : schemaOneB s = true ↔ SchemaOne s := by
  unfold schemaOneB SchemaOne
  rw [List.all_eq_true]
  refine forall_congr' fun a => forall_congr' fun _ => ?_
  cases s.attr a <;> simp

def identAttrB (s : Schema) : Bool :=
  match s.attr DB_IDENT with
  | some at_ => decide (at_.valueType = .keyword ∧ at_.multival = false ∧ at_.unique.isSome = true)
  | none => false

theorem identAttrB_spec {s : Schema} (h : identAttrB s = true) : IdentAttr s := by
  unfold identAttrB at h
  cases hat : s.attr DB_IDENT with
  | none => rw [hat] at h; cases h
  | some at_ => rw [hat] at h; simp only [decide_eq_true_eq] at h; exact ⟨at_, hat, h⟩

def noIdentMovesB (rows rows' : List Row) : Bool :=
  (rows.filter fun r => decide (r.a = DB_IDENT)).all fun r =>
    (rows'.filter fun r => decide (r.a = DB_IDENT)).all fun r' => decide (r.v = r'.v → r.e = r'.e)

theorem noIdentMovesB_spec {rows rows' : List Row} (h : noIdentMovesB rows rows' = true) : NoIdentMoves rows rows' := by
  simp only [noIdentMovesB, List.all_eq_true, List.mem_filter, decide_eq_true_eq] at h
  rintro k e e' ⟨r, hr, rfl, ha, hv⟩ ⟨r', hr', rfl, ha', hv'⟩
  exact h r ⟨hr, ha⟩ r' ⟨hr', ha'⟩ (hv.trans hv'.symm)

def identsOkB (db db' : Db) : Bool := identAttrB db.schema && noIdentMovesB db.store.rows db'.store.rows

/-- C35's hypotheses hold of a history with a rename: the old name is free, the new one in use. -/
theorem C35_example : ∃ db, ReachIdents db ∧ AMap.get db.schema.identMap (kw "x" "numbers") = some xMany ∧
    AMap.get db.schema.identMap (kw "x" "many") = none := by
  have key : (runWith identsOkB [setupTx, renameTx] bootDb).any (fun db =>
      decide (AMap.get db.schema.identMap (kw "x" "numbers") = some xMany ∧
        AMap.get db.schema.identMap (kw "x" "many") = none)) = true := by decide +kernel
  cases hrun : runWith identsOkB [setupTx, renameTx] bootDb with
  | none => rw [hrun] at key; cases key
  | some db =>
    rw [hrun] at key
    refine ⟨db, runWith_induct (P := ReachIdents) ?_ (.boot bootDb_eq) hrun, of_decide_eq_true key⟩
    intro db db' h ht hk ho
    simp only [identsOkB, Bool.and_eq_true] at ho
    exact .step h ht hk (identAttrB_spec ho.1) (noIdentMovesB_spec ho.2)

/-! ### C34 -/

/-- The datoms of `e` under `a` are the same. -/
def SameDatoms (rows rows' : List Row) (e a : Entid) : Prop := ∀ v, Has rows e a v ↔ Has rows' e a v

theorem gains_or_loses {rows rows' : List Row} {e a : Entid} (ha : a ∈ schemaList)
    (hf : ∀ v v', Has rows e a v → Has rows e a v' → v = v') (h : ¬ SameDatoms rows rows' e a) :
    (∃ v, Gains rows rows' e a v) ∨ ∃ v, Loses rows rows' e a v := by
  by_contra hn
  rw [not_or] at hn
  obtain ⟨h1, h2⟩ := hn
  have back : ∀ v, Has rows' e a v → Has rows e a v := by
    intro v hv; by_contra h0; exact h1 ⟨v, ha, hv, h0⟩
  refine h fun v => ⟨fun hv => ?_, back v⟩
  by_contra h0
  by_cases hx : ∃ v', Has rows' e a v'
  · obtain ⟨v', hx⟩ := hx
    rw [hf v v' hv (back v' hx)] at h0
    exact h0 hx
  · exact h2 ⟨v, ha, hv, not_exists.1 hx⟩

theorem same_nothing {rows rows' : List Row} {e a : Entid} (h : SameDatoms rows rows' e a) :
    (∀ v, ¬ Gains rows rows' e a v) ∧ ∀ v, ¬ Loses rows rows' e a v :=
  ⟨fun v hg => hg.2.2 ((h v).2 hg.2.1), fun v hl => hl.2.2 v ((h v).1 hl.2.1)⟩

theorem decodeBool_some {v : TypedValue} {b : Bool} (h : decodeBool v = some b) : v = .boolean b := by
  cases v <;> simp_all [decodeBool]

theorem decodeCardinality_some {v : TypedValue} {b : Bool} (h : decodeCardinality v = some b) :
    v = .ref (if b then DB_CARDINALITY_MANY else DB_CARDINALITY_ONE) := by
  cases v with
  | ref e =>
    simp only [decodeCardinality] at h
    split at h
    · simp_all
    · split at h
      · simp_all
      · cases h
  | _ => cases h

def uniqueEntid : Unique → Entid
  | .value => DB_UNIQUE_VALUE
  | .identity => DB_UNIQUE_IDENTITY

theorem decodeUnique_some {v : TypedValue} {u : Unique} (h : decodeUnique v = some u) : v = .ref (uniqueEntid u) := by
  cases v with
  | ref e =>
    simp only [decodeUnique] at h
    split at h
    · cases h; simp_all [uniqueEntid]
    · split at h
      · cases h; simp_all [uniqueEntid]
      · cases h
  | _ => cases h

/-- C34, as far as it holds: altering an attribute never changes its value type, full-text flag or
history flag; its cardinality, index and component flags change only if their datoms do, and then to
what the datoms say; uniqueness becomes what a new datom says, is dropped if its datom is retracted,
and otherwise stays, *or is dropped because another property was altered* (`C34_fails`); and an
attribute none of whose schema datoms change stays as it was, as does the absence of one. -/
theorem C34_alter_partial {db db' : Db} (hr : ReachKept db) (hso : SchemaOne db.schema) (ht : Transacts db db')
    (e : Entid) :
    ((∀ a ∈ schemaList, SameDatoms db.store.rows db'.store.rows e a) → db'.schema.attr e = db.schema.attr e) ∧
    ∀ at_ at', db.schema.attr e = some at_ → db'.schema.attr e = some at' →
      at'.valueType = at_.valueType ∧ at'.fulltext = at_.fulltext ∧ at'.noHistory = at_.noHistory ∧
      (SameDatoms db.store.rows db'.store.rows e DB_CARDINALITY → at'.multival = at_.multival) ∧
      (¬ SameDatoms db.store.rows db'.store.rows e DB_CARDINALITY →
        (at'.multival = true ↔ Has db'.store.rows e DB_CARDINALITY (.ref DB_CARDINALITY_MANY))) ∧
      (SameDatoms db.store.rows db'.store.rows e DB_INDEX → at'.index = at_.index) ∧
      (¬ SameDatoms db.store.rows db'.store.rows e DB_INDEX →
        (at'.index = true ↔ Has db'.store.rows e DB_INDEX (.boolean true))) ∧
      (SameDatoms db.store.rows db'.store.rows e DB_IS_COMPONENT → at'.component = at_.component) ∧
      (¬ SameDatoms db.store.rows db'.store.rows e DB_IS_COMPONENT →
        (at'.component = true ↔ Has db'.store.rows e DB_IS_COMPONENT (.boolean true))) ∧
      (SameDatoms db.store.rows db'.store.rows e DB_UNIQUE → at'.unique = at_.unique ∨
        at'.unique = none ∧ ∃ a ∈ schemaList, a ≠ DB_UNIQUE ∧ ¬ SameDatoms db.store.rows db'.store.rows e a) ∧
      (¬ SameDatoms db.store.rows db'.store.rows e DB_UNIQUE → ∀ u,
        (at'.unique = some u ↔ Has db'.store.rows e DB_UNIQUE (.ref (uniqueEntid u)))) := by
  obtain ⟨hi, hti⟩ := rowsInv_reach hr
  obtain ⟨now, terms, ids, rep, -, ht⟩ := ht
  obtain ⟨h1, -, -, h4⟩ := attrs_step hi hti hso ht
  have hf := fun a v v' (ha : a ∈ schemaList) => hi.one_schema hso (e := e) (v := v) (v' := v') ha
  have hst := h1 e
  have noch : (∀ a ∈ schemaList, SameDatoms db.store.rows db'.store.rows e a) → db'.schema.attr e = db.schema.attr e := by
    intro hsame
    have ng : ∀ a v, ¬ Gains db.store.rows db'.store.rows e a v := fun a v h => (same_nothing (hsame a h.1)).1 v h
    have nl : ∀ a v, ¬ Loses db.store.rows db'.store.rows e a v := fun a v h => (same_nothing (hsame a h.1)).2 v h
    generalize db.schema.attr e = o at hst
    generalize db'.schema.attr e = o' at hst
    cases hst with
    | same => rfl
    | gone _ hv => obtain ⟨v, hv⟩ := hv; exact absurd hv (nl _ v)
    | installed _ hb => obtain ⟨v, hv, -⟩ := hb.valueType; exact absurd hv (ng _ v)
    | altered hx =>
      obtain ⟨a, v, hx | hx⟩ := hx
      · exact absurd hx (ng a v)
      · exact absurd hx (nl a v)
  refine ⟨noch, fun at_ at' ha ha' => ?_⟩
  by_cases hall : ∀ a ∈ schemaList, SameDatoms db.store.rows db'.store.rows e a
  · have : at' = at_ := by
      have := noch hall
      rw [ha, ha'] at this; exact Option.some.inj this
    subst this
    have hc := hall DB_CARDINALITY (by decide)
    have hx := hall DB_INDEX (by decide)
    have hco := hall DB_IS_COMPONENT (by decide)
    have hu := hall DB_UNIQUE (by decide)
    exact ⟨rfl, rfl, rfl, fun _ => rfl, fun h => absurd hc h, fun _ => rfl, fun h => absurd hx h,
      fun _ => rfl, fun h => absurd hco h, fun _ => Or.inl rfl, fun h => absurd hu h⟩
  · rw [ha, ha'] at hst
    cases hst with
    | same _ hg hl =>
      exact absurd (fun a hm v => same_of_unchanged hf hg hl a v hm) hall
    | altered hx hc =>
      have fieldB : ∀ (A : Entid) (d : TypedValue → Option Bool) (w : Bool → TypedValue) (x' : Bool), A ∈ schemaList →
          (∀ v b, d v = some b → v = w b) → (∀ b b', w b = w b' → b = b') →
          (∀ v, ¬ Loses db.store.rows db'.store.rows e A v) →
          (∀ v, Gains db.store.rows db'.store.rows e A v → d v = some x') →
          ¬ SameDatoms db.store.rows db'.store.rows e A → (x' = true ↔ Has db'.store.rows e A (w true)) := by
        intro A d w x' hA hd hw hl hg hns
        rcases gains_or_loses hA (fun v v' => hf A v v' hA) hns with ⟨v, hv⟩ | ⟨v, hv⟩
        · have hvw := hd v _ (hg v hv)
          constructor
          · intro hx'; rw [← hx', ← hvw]; exact hv.2.1
          · intro hh
            rw [h4 e A v _ hA hv.2.1 hh] at hvw
            exact (hw _ _ hvw).symm
        · exact absurd hv (hl v)
      have noL : ∀ A, A ≠ DB_IS_COMPONENT → A ≠ DB_UNIQUE → ∀ v, ¬ Loses db.store.rows db'.store.rows e A v := by
        intro A k1 k2 v h
        rcases hc.only A v h with h | h
        · exact k1 h
        · exact k2 h
      refine ⟨hc.valueType, hc.fulltext, hc.noHistory, fun h => hc.multival' (same_nothing h).1, ?_,
        fun h => hc.index' (same_nothing h).1, ?_,
        fun h => hc.component'' (same_nothing h).1 (same_nothing h).2, ?_, ?_, ?_⟩
      · exact fieldB DB_CARDINALITY decodeCardinality
          (fun b => .ref (if b then DB_CARDINALITY_MANY else DB_CARDINALITY_ONE)) _ (by decide)
          (fun v b => decodeCardinality_some) (by decide) (noL _ (by decide) (by decide)) hc.multival
      · exact fieldB DB_INDEX decodeBool .boolean _ (by decide)
          (fun v b => decodeBool_some) (by decide) (noL _ (by decide) (by decide)) hc.index
      · intro hns
        by_cases hl : ∃ v, Loses db.store.rows db'.store.rows e DB_IS_COMPONENT v
        · obtain ⟨v, hl⟩ := hl
          have ng : ∀ v, ¬ Gains db.store.rows db'.store.rows e DB_IS_COMPONENT v := fun v' h => hl.2.2 v' h.2.1
          rw [hc.component' ng ⟨v, hl⟩]
          exact ⟨fun h => (by cases h), fun h => absurd h (hl.2.2 _)⟩
        · exact fieldB DB_IS_COMPONENT decodeBool .boolean _ (by decide)
            (fun v b => decodeBool_some) (by decide) (not_exists.1 hl) hc.component hns
      · intro hs
        obtain ⟨ng, nl⟩ := same_nothing hs
        by_cases hl : ∃ v, Loses db.store.rows db'.store.rows e DB_IS_COMPONENT v
        · exact Or.inl (hc.kept ng nl hl)
        · refine Or.inr ⟨hc.reset ng nl (not_exists.1 hl), ?_⟩
          obtain ⟨a, v, hx⟩ := hx
          have hm : a ∈ schemaList := by rcases hx with h | h <;> exact h.1
          have hns : ¬ SameDatoms db.store.rows db'.store.rows e a := by
            intro h
            rcases hx with hx | hx
            · exact (same_nothing h).1 v hx
            · exact (same_nothing h).2 v hx
          refine ⟨a, hm, ?_, hns⟩
          rintro rfl
          exact hns hs
      · intro hns u
        rcases gains_or_loses (by decide) (fun v v' => hf DB_UNIQUE v v' (by decide)) hns with ⟨v, hv⟩ | ⟨v, hv⟩
        · obtain ⟨k1, k2⟩ := hc.unique v hv
          obtain ⟨u', hu'⟩ := Option.isSome_iff_exists.1 k2
          rw [hu'] at k1
          have hvw := decodeUnique_some k1
          rw [hu']
          constructor
          · intro h; cases h; rw [← hvw]; exact hv.2.1
          · intro hh
            rw [h4 e DB_UNIQUE v _ (by decide) hv.2.1 hh] at hvw
            cases u <;> cases u' <;> first | rfl | (revert hvw; decide)
        · rw [hc.unique' (fun v' h => hv.2.2 v' h.2.1) ⟨v, hv⟩]
          exact ⟨fun h => (by cases h), fun h => absurd h (hv.2.2 _)⟩

/-- `:x/id` becomes cardinality many. -/
def alterCardTx : Tx := ([addE xId DB_CARDINALITY (.ref DB_CARDINALITY_MANY)], [])

/-- The full C34 fails: giving the unique attribute `:x/id` cardinality many also drops its
uniqueness in memory, while its `:db/unique` datom stays. -/
theorem C34_fails : ∃ db db' at_ at', ReachKept db ∧ SchemaOne db.schema ∧ Transacts db db' ∧
    db.schema.attr xId = some at_ ∧ db'.schema.attr xId = some at' ∧
    SameDatoms db.store.rows db'.store.rows xId DB_UNIQUE ∧ at_.unique = some .identity ∧ at'.unique = none := by
  have key : (runKeptFrom [alterCardTx] setupDb).any (fun db' =>
      setupDb.store.rows.all (fun r => if r.e = xId ∧ r.a = DB_UNIQUE then
        db'.store.rows.any (fun r' => decide (r'.e = xId ∧ r'.a = DB_UNIQUE ∧ r'.v = r.v)) else true) &&
      db'.store.rows.all (fun r => if r.e = xId ∧ r.a = DB_UNIQUE then
        setupDb.store.rows.any (fun r' => decide (r'.e = xId ∧ r'.a = DB_UNIQUE ∧ r'.v = r.v)) else true) &&
      decide ((setupDb.schema.attr xId).map (·.unique) = some (some .identity)) &&
      decide ((db'.schema.attr xId).map (·.unique) = some none)) = true := by decide +kernel
  cases hrun : runKeptFrom [alterCardTx] setupDb with
  | none => rw [hrun] at key; cases key
  | some db' =>
    rw [hrun] at key
    simp only [Option.any_some, Bool.and_eq_true, List.all_eq_true, decide_eq_true_eq] at key
    obtain ⟨⟨⟨k1, k2⟩, k3⟩, k4⟩ := key
    obtain ⟨at_, h1, h2⟩ := Option.map_eq_some_iff.1 k3
    obtain ⟨at', h3, h4⟩ := Option.map_eq_some_iff.1 k4
    refine ⟨setupDb, db', at_, at', reachKept_setup, schemaOneB_iff.1 (by decide +kernel),
      (runWith_one (ok := fun _ _ => true) (runKeptFrom_with hrun)).1, h1, h3, ?_, h2, h4⟩
    intro v
    constructor
    · rintro ⟨r, hr, he, ha, hv⟩
      have := k1 r hr
      rw [if_pos ⟨he, ha⟩, List.any_eq_true] at this
      obtain ⟨r', hr', hd⟩ := this
      simp only [decide_eq_true_eq] at hd
      exact ⟨r', hr', hd.1, hd.2.1, hd.2.2.trans hv⟩
    · rintro ⟨r, hr, he, ha, hv⟩
      have := k2 r hr
      rw [if_pos ⟨he, ha⟩, List.any_eq_true] at this
      obtain ⟨r', hr', hd⟩ := this
      simp only [decide_eq_true_eq] at hd
      exact ⟨r', hr', hd.1, hd.2.1, hd.2.2.trans hv⟩

/-! ### C33 -/

/-- No alteration of an existing attribute breaks the validity rules: only references become
components, only indexed attributes become unique, and the index of a full-text attribute stays, as
does that of a unique attribute unless it stops being unique. -/
def SafeAlterations (db db' : Db) : Prop :=
  ∀ e at_, db.schema.attr e = some at_ →
    (Gains db.store.rows db'.store.rows e DB_IS_COMPONENT (.boolean true) → at_.valueType = .ref) ∧
    (∀ v, Gains db.store.rows db'.store.rows e DB_UNIQUE v →
      (at_.index = true ∧ ¬ Gains db.store.rows db'.store.rows e DB_INDEX (.boolean false)) ∨
        Gains db.store.rows db'.store.rows e DB_INDEX (.boolean true)) ∧
    (Gains db.store.rows db'.store.rows e DB_INDEX (.boolean false) → at_.fulltext = false ∧
      (at_.unique = none ∨ ∃ v, Loses db.store.rows db'.store.rows e DB_UNIQUE v))

/-- Reachable by safe alterations, without undefining an attribute in use and without redefining the
attributes that describe attributes. -/
inductive ReachSafe : Db → Prop
  | boot {now db} : createCurrentVersion now = .ok db → ReachSafe db
  | step {db db'} : ReachSafe db → Transacts db db' → KeepsUsedAttributes db db' →
      SchemaOne db.schema → SafeAlterations db db' → ReachSafe db'

theorem ReachSafe.kept {db : Db} (h : ReachSafe db) : ReachKept db := by
  induction h with
  | boot h => exact .boot h
  | step _ h hk _ _ ih => exact .step ih h hk

/-- The rules of validity, spelled out. -/
def ValidAttribute (at_ : Attribute) : Prop :=
  (at_.unique ≠ none → at_.index = true) ∧ (at_.fulltext = true → at_.valueType = .string ∧ at_.index = true) ∧
  (at_.component = true → at_.valueType = .ref)

theorem valid_iff {at_ : Attribute} : at_.valid = true ↔ ValidAttribute at_ := by
  unfold Attribute.valid ValidAttribute
  cases at_.unique <;> cases at_.index <;> cases at_.fulltext <;> cases at_.component <;> simp

theorem bootstrapSchema_one {s : Schema} (h : bootstrapSchema = .ok s) : SchemaOne s := by
  have key : (match bootstrapSchema with
      | .ok s => schemaOneB s
      | _ => false) = true := by decide +kernel
  rw [h] at key
  exact schemaOneB_iff.1 key

/-- C33, one transaction: whatever is installed is valid; an invalid attribute can only come of
altering an attribute that was there. -/
theorem C33_step {db db' : Db} (hr : ReachKept db) (hso : SchemaOne db.schema) (ht : Transacts db db')
    (hv : ∀ e at_, db.schema.attr e = some at_ → ValidAttribute at_) (e : Entid) (at' : Attribute)
    (ha : db'.schema.attr e = some at') :
    ValidAttribute at' ∨ ∃ at_, db.schema.attr e = some at_ ∧
      ∃ a ∈ schemaList, ¬ SameDatoms db.store.rows db'.store.rows e a := by
  obtain ⟨hi, hti⟩ := rowsInv_reach hr
  obtain ⟨now, terms, ids, rep, -, ht⟩ := ht
  have hst := (attrs_step hi hti hso ht).1 e
  rw [ha] at hst
  generalize ho : db.schema.attr e = o at hst
  cases hst with
  | same => exact Or.inl (hv e at' ho)
  | installed _ _ h => exact Or.inl (valid_iff.1 h)
  | altered hx _ =>
    refine Or.inr ⟨_, rfl, ?_⟩
    obtain ⟨a, v, hx⟩ := hx
    refine ⟨a, by rcases hx with h | h <;> exact h.1, fun hs => ?_⟩
    rcases hx with hx | hx
    · exact (same_nothing hs).1 v hx
    · exact (same_nothing hs).2 v hx

/-- C33, for histories of safe alterations.  (Missing: alterations are not validated, `C33_fails`.) -/
theorem C33_valid_partial {db : Db} (h : ReachSafe db) : ∀ e at_, db.schema.attr e = some at_ → ValidAttribute at_ := by
  induction h with
  | boot h =>
    obtain ⟨s, db1, rep, h1, h2, h3, rfl⟩ := create_ok h
    have key := (attrs_step (rowsInv_nil s) (bootstrapSchema_txInstant h1) (bootstrapSchema_one h1) h2).1
    unfold Schema.same at h3
    simp only [Bool.and_eq_true] at h3
    obtain ⟨-, q3⟩ := h3
    intro e at_ ha
    have hst := key e
    have ha' : db1.schema.attr e = some at_ := by
      show AMap.get _ _ = _
      rw [amap_same q3]; exact ha
    rw [ha', show ({} : Schema).attr e = none from rfl] at hst
    cases hst with
    | installed _ _ h => exact valid_iff.1 h
  | step hr ht _ hso hsa ih =>
    rename_i db db' _
    obtain ⟨hi, hti⟩ := rowsInv_reach hr.kept
    obtain ⟨now, terms, ids, rep, -, ht⟩ := ht
    have key := (attrs_step hi hti hso ht).1
    intro e at' ha
    have hst := key e
    rw [ha] at hst
    generalize ho : db.schema.attr e = o at hst
    cases hst with
    | same => exact ih e at' ho
    | installed _ _ h => exact valid_iff.1 h
    | @altered at_ _ hx hc =>
      obtain ⟨s1, s2, s3⟩ := hsa e at_ ho
      obtain ⟨v1, v2, v3⟩ := ih e at_ ho
      have hidx : at_.index = true → ¬ Gains db.store.rows db'.store.rows e DB_INDEX (.boolean false) → at'.index = true := by
        intro h0 hn
        by_cases hg : ∃ v, Gains db.store.rows db'.store.rows e DB_INDEX v
        · obtain ⟨v, hg⟩ := hg
          have hd := hc.index v hg
          have hd' := decodeBool_some hd
          cases hb : at'.index with
          | true => rfl
          | false => rw [hb] at hd'; rw [hd'] at hg; exact absurd hg hn
        · rw [hc.index' (not_exists.1 hg)]; exact h0
      refine ⟨fun hu => ?_, fun hft => ?_, fun hco => ?_⟩
      · by_cases hg : ∃ v, Gains db.store.rows db'.store.rows e DB_UNIQUE v
        · obtain ⟨v, hg⟩ := hg
          rcases s2 v hg with ⟨h0, hn⟩ | hg'
          · exact hidx h0 hn
          · have := hc.index _ hg'
            exact (Option.some.inj this).symm
        · have hu0 : at_.unique ≠ none := by
            intro h0
            by_cases hl : ∃ v, Loses db.store.rows db'.store.rows e DB_UNIQUE v
            · exact hu (hc.unique' (not_exists.1 hg) hl)
            · by_cases hlc : ∃ v, Loses db.store.rows db'.store.rows e DB_IS_COMPONENT v
              · exact hu ((hc.kept (not_exists.1 hg) (not_exists.1 hl) hlc).trans h0)
              · exact hu (hc.reset (not_exists.1 hg) (not_exists.1 hl) (not_exists.1 hlc))
          refine hidx (v1 hu0) fun h => ?_
          rcases (s3 h).2 with h0 | hl
          · exact hu0 h0
          · exact hu (hc.unique' (not_exists.1 hg) hl)
      · rw [hc.fulltext] at hft
        obtain ⟨w1, w2⟩ := v2 hft
        exact ⟨by rw [hc.valueType]; exact w1, hidx w2 fun h => by rw [(s3 h).1] at hft; cases hft⟩
      · rw [hc.valueType]
        by_cases hg : ∃ v, Gains db.store.rows db'.store.rows e DB_IS_COMPONENT v
        · obtain ⟨v, hg⟩ := hg
          have hd' := decodeBool_some (hc.component v hg)
          rw [hco] at hd'
          rw [hd'] at hg
          exact s1 hg
        · by_cases hl : ∃ v, Loses db.store.rows db'.store.rows e DB_IS_COMPONENT v
          · rw [hc.component' (not_exists.1 hg) hl] at hco; cases hco
          · rw [hc.component'' (not_exists.1 hg) (not_exists.1 hl)] at hco
            exact v3 hco

/-- C33 for a store opened afresh: the attributes read are checked, whatever the history. -/
theorem C33_reopened {db db' : Db} (h : reopen db = .ok db') {e at_} (ha : db'.schema.attr e = some at_) :
    ValidAttribute at_ := by
  unfold reopen at h
  rw [Res.bind_eq_ok] at h
  obtain ⟨parts, -, h⟩ := h
  rw [Res.bind_eq_ok] at h
  obtain ⟨s, hs, h⟩ := h
  obtain rfl := Res.ok.inj h
  unfold readSchema at hs
  rw [Res.bind_eq_ok] at hs
  obtain ⟨im, -, hs⟩ := hs
  rw [Res.bind_eq_ok] at hs
  obtain ⟨⟨am, rp⟩, -, hs⟩ := hs
  simp only at hs
  split at hs
  · rename_i hall
    obtain rfl := Res.ok.inj hs
    rw [List.all_eq_true] at hall
    exact valid_iff.1 (hall _ (AMap.get_some_mem ha))
  · cases hs

/-- The string attribute `:x/one` is made a component. -/
def badComponentTx : Tx := ([addE xOne DB_IS_COMPONENT (.boolean true)], [])

/-- The full C33 fails: a transaction can make a string attribute a component; after it the store
cannot be opened again. -/
theorem C33_fails : ∃ db at_, ReachKept db ∧ db.schema.attr xOne = some at_ ∧ ¬ ValidAttribute at_ ∧
    reopen db = .err .badSchemaAssertion := by
  obtain ⟨db, h, hp⟩ := reachKept_of_setup (txs := [badComponentTx]) (p := fun db =>
    decide ((db.schema.attr xOne).map (·.valid) = some false) &&
    match reopen db with
    | .err .badSchemaAssertion => true
    | _ => false) (by decide +kernel)
  rw [Bool.and_eq_true, decide_eq_true_eq] at hp
  obtain ⟨h1, h2⟩ := hp
  obtain ⟨at_, ha, hv⟩ := Option.map_eq_some_iff.1 h1
  refine ⟨db, at_, h, ha, fun hh => ?_, ?_⟩
  · rw [valid_iff.2 hh] at hv; cases hv
  · revert h2
    cases reopen db with
    | ok _ => simp
    | panic => simp
    | err x => cases x <;> simp

/-! ### C32 -/

/-- The conditions under which the schema in memory keeps up with the store. -/
structure SteadyStep (db db' : Db) : Prop where
  keeps : KeepsUsedAttributes db db'
  identAttr : IdentAttr db.schema
  moves : NoIdentMoves db.store.rows db'.store.rows
  one : SchemaOne db.schema
  clean : CleanRemoval db.store.rows db'.store.rows
  unique : KeepsUnique db.store.rows db'.store.rows
  safe : SafeAlterations db db'

/-- Reachable by steady steps. -/
inductive ReachSteady : Db → Prop
  | boot {now db} : createCurrentVersion now = .ok db → ReachSteady db
  | step {db db'} : ReachSteady db → Transacts db db' → SteadyStep db db' → ReachSteady db'

theorem ReachSteady.safe {db : Db} (h : ReachSteady db) : ReachSafe db := by
  induction h with
  | boot h => exact .boot h
  | step _ h hk ih => exact .step ih h hk.keeps hk.one hk.safe

theorem ReachSteady.idents {db : Db} (h : ReachSteady db) : ReachIdents db := by
  induction h with
  | boot h => exact .boot h
  | step _ h hk ih => exact .step ih h hk.keeps hk.identAttr hk.moves

theorem attrsInv_reach {db : Db} (h : ReachSteady db) : AttrsInv db.schema db.store.rows db.views.schema := by
  induction h with
  | boot h =>
    obtain ⟨s, db1, rep, h1, h2, h3, rfl⟩ := create_ok h
    have hno : ∀ e a v, ¬ Has (preBoot s).store.rows e a v := by intro e a v; simp [preBoot, Has]
    have nob : ∀ e at_, ¬ Built (Has (preBoot s).store.rows e) at_ := by
      intro e at_ hb
      obtain ⟨v, hv, -⟩ := hb.valueType
      exact hno e _ v hv
    have i0 : AttrsInv {} (preBoot s).store.rows (preBoot s).views.schema := by
      have hs : ∀ x, x ∉ (preBoot s).views.schema := by intro x; simp [preBoot]
      refine ⟨fun e at_ => ⟨fun h => (by cases h), fun h => absurd h (nob e at_)⟩,
        fun e a v _ h => absurd h (hno e a v), fun e a v _ h => absurd h (hno e a v),
        fun e a v _ _ h => absurd h (hno e a v), fun e at_ => ⟨fun h => ?_, fun h => absurd h (nob e at_)⟩,
        fun e a v h => absurd h (hs _), fun e a v h => absurd h (hs _), fun e a v v' h => absurd h (hs _)⟩
      obtain ⟨v, hv, -⟩ := h.valueType
      exact absurd hv (hs _)
    have := attrsInv_step (rowsInv_nil s) (bootstrapSchema_txInstant h1) (bootstrapSchema_one h1) i0
      (fun e v h => absurd h (hno _ _ _)) (fun e v h => absurd h (hno _ _ _)) h2
    unfold Schema.same at h3
    simp only [Bool.and_eq_true] at h3
    obtain ⟨-, q3⟩ := h3
    refine { this with attrs := fun e at_ => ?_ }
    rw [← this.attrs]
    show AMap.get s.attributeMap e = _ ↔ AMap.get db1.schema.attributeMap e = _
    rw [amap_same q3]
  | step hr ht hs ih =>
    obtain ⟨now, terms, ids, rep, -, ht⟩ := ht
    obtain ⟨hi, hti⟩ := rowsInv_reach hr.safe.kept
    exact attrsInv_step hi hti hs.one ih hs.clean hs.unique ht

/-- The two schemas give every keyword the same entity, every entity the same keyword and the same
attribute. -/
def SameSchema (s s' : Schema) : Prop :=
  (∀ k, AMap.get s.identMap k = AMap.get s'.identMap k) ∧ (∀ e, AMap.get s.entidMap e = AMap.get s'.entidMap e) ∧
  ∀ e, s.attr e = s'.attr e

/-- C32, for steady histories: the `idents` and `schema` tables can be read, and give the schema in
memory.  (Missing: uniqueness lost by another alteration, unvalidated alterations, exchanged idents
and leftovers of removed attributes: `C32_fails`, `C33_fails`, `C35_fails`, `C32_fails_leftover`.) -/
theorem C32_reopened_partial {db : Db} (h : ReachSteady db) :
    ∃ s, readSchema db.views = .ok s ∧ SameSchema s db.schema := by
  obtain ⟨k1, k2, k3⟩ := identMaps_reach h.idents
  have hir : ∀ e v, Has db.store.rows e DB_IDENT v → ∃ k, v = .keyword k := by
    cases h with
    | boot h =>
      obtain ⟨s, db1, rep, h1, h2, h3, rfl⟩ := create_ok h
      obtain ⟨hi, -⟩ := rowsInv_reach (.boot h)
      exact (hi.identRows (bootstrapSchema_identAttr h1)).keyword
    | step hr ht hs =>
      obtain ⟨now, terms, ids, rep, -, ht⟩ := ht
      obtain ⟨hi, hti⟩ := rowsInv_reach hr.safe.kept
      exact (identRows_step hi hti hs.identAttr ht).keyword
  obtain ⟨s, hs, h1, h2, h3⟩ := readSchema_of_inv (attrsInv_reach h)
    (fun e at_ ha => valid_iff.2 (C33_valid_partial h.safe e at_ ha)) k1 k2 k3 hir
  exact ⟨s, hs, h2, h3, h1⟩

/-- C32 for a connection opened afresh. -/
theorem C32_connection_partial {db db' : Db} (h : ReachSteady db) (ho : reopen db = .ok db') :
    SameSchema db'.schema db.schema := by
  obtain ⟨s, hs, hsame⟩ := C32_reopened_partial h
  unfold reopen at ho
  rw [Res.bind_eq_ok] at ho
  obtain ⟨parts, -, ho⟩ := ho
  rw [Res.bind_eq_ok] at ho
  obtain ⟨s', hs', ho⟩ := ho
  obtain rfl := Res.ok.inj ho
  rw [hs] at hs'
  obtain rfl := Res.ok.inj hs'
  exact hsame

theorem not_same_of_attr {s s' : Schema} {e : Entid} (h : s.attr e ≠ s'.attr e) : ¬ SameSchema s s' :=
  fun hs => h (hs.2.2 e)

/-- A history after which the store opens, but with another schema. -/
theorem reopened_differs {txs : List Tx} {e : Entid} (h : (runKeptFrom txs setupDb).any (fun db =>
      match reopen db with
      | .ok db' => decide (db'.schema.attr e ≠ db.schema.attr e)
      | _ => false) = true) :
    ∃ db db', ReachKept db ∧ reopen db = .ok db' ∧ db'.schema.attr e ≠ db.schema.attr e := by
  obtain ⟨db, hr, hp⟩ := reachKept_of_setup h
  cases ho : reopen db with
  | ok db' => simp only [ho, decide_eq_true_eq] at hp; exact ⟨db, db', hr, ho, hp⟩
  | err _ => simp only [ho] at hp; cases hp
  | panic => simp only [ho] at hp; cases hp

/-- The full C32 fails: `:x/id`, given cardinality many, is unique again once the store is opened
afresh. -/
theorem C32_fails : ∃ db db', ReachKept db ∧ reopen db = .ok db' ∧ ¬ SameSchema db'.schema db.schema := by
  obtain ⟨db, db', h1, h2, h3⟩ := reopened_differs (txs := [alterCardTx]) (e := xId) (by decide +kernel)
  exact ⟨db, db', h1, h2, not_same_of_attr h3⟩

/-- `:x/many` is indexed, removed without retracting `:db/index`, and installed again. -/
def leftoverTxs : List Tx :=
  [([addE xMany DB_INDEX (.boolean true)], []),
   ([retE xMany DB_IDENT (xName "many"), retE xMany DB_VALUE_TYPE (.ref DB_TYPE_LONG),
     retE xMany DB_CARDINALITY (.ref DB_CARDINALITY_MANY)], []),
   ([addE xMany DB_IDENT (xName "many"), addE xMany DB_VALUE_TYPE (.ref DB_TYPE_LONG),
     addE xMany DB_CARDINALITY (.ref DB_CARDINALITY_MANY)], [])]

/-- The full C32 also fails by leftovers: the old `:db/index` counts for a store opened afresh only. -/
theorem C32_fails_leftover : ∃ db db', ReachKept db ∧ reopen db = .ok db' ∧
    db'.schema.attr xMany ≠ db.schema.attr xMany :=
  reopened_differs (txs := leftoverTxs) (by decide +kernel)

/-! Steady histories exist: -/

def cleanRemovalB (rows rows' : List Row) : Bool :=
  (rows.filter fun r => decide (r.a = DB_VALUE_TYPE)).all fun r =>
    rows'.any (fun r' => decide (r'.e = r.e ∧ r'.a = DB_VALUE_TYPE)) ||
    rows'.all fun r' => decide (r'.e = r.e → r'.a ∉ schemaList)

theorem cleanRemovalB_spec {rows rows' : List Row} (h : cleanRemovalB rows rows' = true) : CleanRemoval rows rows' := by
  simp only [cleanRemovalB, List.all_eq_true, List.any_eq_true, Bool.or_eq_true, List.mem_filter, decide_eq_true_eq] at h
  rintro e v ⟨r, hr, rfl, ha, -⟩ hn a hm v' ⟨r', hr', he', rfl, -⟩
  rcases h r ⟨hr, ha⟩ with ⟨q, hq, k1, k2⟩ | h
  · exact hn q.v ⟨q, hq, k1, k2, rfl⟩
  · exact h r' hr' he' hm

def schemaRowsOf (rows : List Row) (e : Entid) : List (Entid × TypedValue) :=
  (rows.filter fun r => decide (r.e = e ∧ r.a ∈ schemaList)).map fun r => (r.a, r.v)

theorem mem_schemaRowsOf {rows : List Row} {e a v} : (a, v) ∈ schemaRowsOf rows e ↔ a ∈ schemaList ∧ Has rows e a v := by
  simp only [schemaRowsOf, List.mem_map, List.mem_filter, decide_eq_true_eq, Prod.mk.injEq, Has]
  constructor
  · rintro ⟨r, ⟨hr, rfl, hm⟩, rfl, rfl⟩; exact ⟨hm, r, hr, rfl, rfl, rfl⟩
  · rintro ⟨hm, r, hr, rfl, rfl, rfl⟩; exact ⟨r, ⟨hr, rfl, hm⟩, rfl, rfl⟩

def keepsUniqueB (rows rows' : List Row) : Bool :=
  (rows.filter fun r => decide (r.a = DB_UNIQUE)).all fun r =>
    !(schemaRowsOf rows' r.e).contains (DB_UNIQUE, r.v) ||
    ((schemaRowsOf rows r.e).all fun p => (schemaRowsOf rows' r.e).contains p) &&
      ((schemaRowsOf rows' r.e).all fun p => (schemaRowsOf rows r.e).contains p)

theorem keepsUniqueB_spec {rows rows' : List Row} (h : keepsUniqueB rows rows' = true) : KeepsUnique rows rows' := by
  simp only [keepsUniqueB, List.all_eq_true, Bool.or_eq_true, Bool.and_eq_true, List.mem_filter, decide_eq_true_eq,
    Bool.not_eq_true', List.contains_eq_mem, decide_eq_false_iff_not] at h
  rintro e v ⟨r, hr, rfl, ha, rfl⟩ h'
  rcases h r ⟨hr, ha⟩ with h | ⟨h1, h2⟩
  · exact absurd (mem_schemaRowsOf.2 ⟨by decide, h'⟩) h
  · refine Or.inl fun a hm v => ⟨fun hh => ?_, fun hh => ?_⟩
    · exact (mem_schemaRowsOf.1 (h1 _ (mem_schemaRowsOf.2 ⟨hm, hh⟩))).2
    · exact (mem_schemaRowsOf.1 (h2 _ (mem_schemaRowsOf.2 ⟨hm, hh⟩))).2

def gained (rows rows' : List Row) : List (Entid × Entid × TypedValue) :=
  ((rows'.filter fun r' => decide (r'.a ∈ schemaList) &&
    !rows.any fun r => decide (r.e = r'.e ∧ r.a = r'.a ∧ r.v = r'.v)).map fun r => (r.e, r.a, r.v))

theorem mem_gained {rows rows' : List Row} {e a v} : (e, a, v) ∈ gained rows rows' ↔ Gains rows rows' e a v := by
  simp only [gained, List.mem_map, List.mem_filter, Bool.and_eq_true, decide_eq_true_eq, Bool.not_eq_true',
    Bool.eq_false_iff, ne_eq, List.any_eq_true, Prod.mk.injEq, Gains, Has]
  constructor
  · rintro ⟨r, ⟨hr, hm, hn⟩, rfl, rfl, rfl⟩; exact ⟨hm, ⟨r, hr, rfl, rfl, rfl⟩, hn⟩
  · rintro ⟨hm, ⟨r, hr, rfl, rfl, rfl⟩, hn⟩; exact ⟨r, ⟨hr, hm, hn⟩, rfl, rfl, rfl⟩

def safeB (db db' : Db) : Bool :=
  (gained db.store.rows db'.store.rows).all fun p =>
    match db.schema.attr p.1 with
    | none => true
    | some at_ =>
      (decide (p.2 = (DB_IS_COMPONENT, .boolean true) → at_.valueType = .ref)) &&
      (decide (p.2.1 = DB_UNIQUE →
        (at_.index = true ∧ (p.1, DB_INDEX, .boolean false) ∉ gained db.store.rows db'.store.rows) ∨
        (p.1, DB_INDEX, .boolean true) ∈ gained db.store.rows db'.store.rows)) &&
      (decide (p.2 = (DB_INDEX, .boolean false) → at_.fulltext = false ∧ at_.unique = none))

theorem safeB_spec {db db' : Db} (h : safeB db db' = true) : SafeAlterations db db' := by
  simp only [safeB, List.all_eq_true] at h
  intro e at_ ha
  have key : ∀ a v, Gains db.store.rows db'.store.rows e a v →
      ((a, v) = (DB_IS_COMPONENT, .boolean true) → at_.valueType = .ref) ∧
      (a = DB_UNIQUE →
        (at_.index = true ∧ (e, DB_INDEX, .boolean false) ∉ gained db.store.rows db'.store.rows) ∨
        (e, DB_INDEX, .boolean true) ∈ gained db.store.rows db'.store.rows) ∧
      ((a, v) = (DB_INDEX, .boolean false) → at_.fulltext = false ∧ at_.unique = none) := by
    intro a v hg
    have := h _ (mem_gained.2 hg)
    simp only [ha, Bool.and_eq_true, decide_eq_true_eq] at this
    exact ⟨this.1.1, this.1.2, this.2⟩
  simp only [mem_gained] at key
  exact ⟨fun hg => (key _ _ hg).1 rfl, fun v hg => (key _ _ hg).2.1 rfl,
    fun hg => ⟨((key _ _ hg).2.2 rfl).1, Or.inl ((key _ _ hg).2.2 rfl).2⟩⟩

def steadyB (db db' : Db) : Bool :=
  identsOkB db db' && schemaOneB db.schema && cleanRemovalB db.store.rows db'.store.rows &&
  keepsUniqueB db.store.rows db'.store.rows && safeB db db'

/-- Index `:x/many`, add data, rename `:x/many`, make `:x/id` a unique value, and remove `:x/many`
cleanly once it is no longer used. -/
def steadyTxs : List Tx :=
  [setupTx, ([addE xMany DB_INDEX (.boolean true)], []), dataTx, renameTx,
   ([addE xId DB_UNIQUE (.ref DB_UNIQUE_VALUE), addE xOne DB_CARDINALITY (.ref DB_CARDINALITY_MANY)], []),
   ([retE e1 xMany (.long 1), retE e1 xMany (.long 2)], []),
   ([retE xMany DB_IDENT (xName "numbers"), retE xMany DB_VALUE_TYPE (.ref DB_TYPE_LONG),
     retE xMany DB_CARDINALITY (.ref DB_CARDINALITY_MANY), retE xMany DB_INDEX (.boolean true)], [])]

theorem steady_example : ∃ db, ReachSteady db ∧ db.schema.attr xMany = none ∧
    (∃ at_, db.schema.attr xId = some at_ ∧ at_.unique = some .value) ∧
    ∃ at_, db.schema.attr xOne = some at_ ∧ at_.multival = true := by
  have key : (runWith steadyB steadyTxs bootDb).any (fun db =>
      decide (db.schema.attr xMany = none ∧ (db.schema.attr xId).map (·.unique) = some (some .value) ∧
        (db.schema.attr xOne).map (·.multival) = some true)) = true := by decide +kernel
  cases hrun : runWith steadyB steadyTxs bootDb with
  | none => rw [hrun] at key; cases key
  | some db =>
    rw [hrun] at key
    obtain ⟨k1, k2, k3⟩ := of_decide_eq_true key
    obtain ⟨a1, h1, h2⟩ := Option.map_eq_some_iff.1 k2
    obtain ⟨a2, h3, h4⟩ := Option.map_eq_some_iff.1 k3
    refine ⟨db, runWith_induct (P := ReachSteady) ?_ (.boot bootDb_eq) hrun, k1, ⟨a1, h1, h2⟩, a2, h3, h4⟩
    intro db db' h ht hk ho
    simp only [steadyB, identsOkB, Bool.and_eq_true] at ho
    obtain ⟨⟨⟨⟨⟨o1, o2⟩, o3⟩, o4⟩, o5⟩, o6⟩ := ho
    exact .step h ht ⟨hk, identAttrB_spec o1, noIdentMovesB_spec o2, schemaOneB_iff.1 o3,
      cleanRemovalB_spec o4, keepsUniqueB_spec o5, safeB_spec o6⟩

end Mentat
