import Verif.Props.QueryOr
import Verif.Props.Schema
/-
C73: what a query answers after any history of transactions.
-/
namespace Mentat
open CC

/-- A value that the store can hold and that reads back as itself. -/
def TypedValue.Storable (v : TypedValue) : Prop := v.Proper ∧ v.Readable

theorem storable_ref (e : Entid) : (TypedValue.ref e).Storable := ⟨trivial, by simp, by simp, by simp⟩

theorem storable_instant {i : Int} (h : 0 ≤ i) : (TypedValue.instant i).Storable :=
  ⟨trivial, by simp, fun us hu => by cases hu; exact .inl h, by simp⟩

/-- Reachable from a fresh store by transactions of values that read back, at times after 1970, without
undefining an attribute in use and without redefining the attributes that describe attributes. -/
inductive ReachData : Db → Prop
  | boot {now db} : 0 ≤ now → createCurrentVersion now = .ok db → ReachData db
  | step {db db' now terms ids rep} : ReachData db → 0 ≤ now → KnownTerms db terms →
      (∀ x ∈ terms, ∀ v, x.v = .inl v → v.Storable) → transactTerms db now terms ids = .ok (db', rep) →
      KeepsUsedAttributes db db' → SchemaOne db.schema → ReachData db'

theorem ReachData.kept {db : Db} (h : ReachData db) : ReachKept db := by
  induction h with
  | boot _ h => exact .boot h
  | step _ _ hk _ h hu _ ih => exact .step ih ⟨_, _, _, _, hk, h⟩ hu

/-- The instant of a transaction is the time or is among its terms. -/
theorem txInstant_source {db sfm now terms ids act db' rep} (T : TxTrace db sfm now terms ids act db' rep) :
    rep.txInstant = now ∨ (⟨.add, rep.txId, DB_TX_INSTANT, .instant rep.txInstant⟩ : RTerm) ∈ T.s3.terms := by
  have h := T.instant
  unfold getOrInsertTxInstant at h
  split at h
  · simp at h
  · simp only at h
    split at h
    · simp only [Res.ok.injEq, Prod.mk.injEq] at h
      exact .inl h.1.symm
    · rename_i i hone
      simp only [Res.ok.injEq, Prod.mk.injEq] at h
      refine .inr ((T.t0Spec.add _ _ _).mp ?_)
      rw [hone, h.1]
      simp
    · simp at h

/-- What is logged is what is transacted, allocated, or the time. -/
theorem log_values {P : TypedValue → Prop} {db sfm now terms ids db' rep} (hP : ∀ e, P (.ref e)) (hnow : P (.instant now))
    (hi : HistInv db) (hdb : ∀ l ∈ db.store.log, P l.v) (ht : ∀ x ∈ terms, ∀ v, x.v = .inl v → P v)
    (h : transactTermsWith db sfm now terms ids .materializeAndCommit = .ok (db', rep)) :
    ∀ l ∈ db'.store.log, P l.v := by
  obtain ⟨T⟩ := transact_trace h
  obtain ⟨-, -, hlr, -, -, hlog, -⟩ := apply_ok T.applied
  have hterm : ∀ y ∈ T.s3.terms, P y.v := by
    intro y hy
    obtain ⟨U, -, hs, -⟩ := T.terms_spec
    obtain ⟨x, hx, -, -, -, hv⟩ := hs y hy
    cases hxv : x.v with
    | inl v =>
      rw [hxv] at hv
      have hv : y.v = v := hv
      rw [hv]
      exact ht x hx _ hxv
    | inr t =>
      rw [hxv] at hv
      obtain ⟨n, -, hn⟩ := hv
      rw [hn]
      exact hP _
  intro l hl
  rw [T.log, hlog rfl, List.mem_append] at hl
  rcases hl with hl | hl
  · exact hdb l hl
  · rw [hlr, mem_logRowsOf] at hl
    rcases hl with ⟨q, hq, -, rfl⟩ | ⟨r, hr, -, rfl⟩
    · rcases (T.mem_queue.mp hq).2 with ⟨-, h | ⟨-, -, h⟩⟩ | ⟨-, h⟩
      · exact hterm _ h
      · show P q.v
        rw [h]
        rcases txInstant_source T with h | h
        · rw [h]; exact hnow
        · exact hterm _ h
      · exact hterm _ h
    · obtain ⟨l, hl, -, -, h1⟩ := has_rows_log hi.replay ⟨r, hr, rfl, rfl, rfl⟩
      show P r.v
      rw [← h1]
      exact hdb l hl

def storableB : TypedValue → Bool
  | .ref _ | .boolean _ | .long _ | .string _ => true
  | .keyword k => !k.ns.isEmpty && k.ns.all (fun c => decide (c ≠ ':' ∧ c ≠ '/')) && !k.name.isEmpty &&
      k.name.all fun c => decide (c ≠ ':' ∧ c ≠ '/')
  | _ => false

theorem storableB_spec {v : TypedValue} (h : storableB v = true) : v.Storable := by
  cases v with
  | keyword k =>
    simp only [storableB, Bool.and_eq_true, Bool.not_eq_true', List.isEmpty_eq_false_iff, List.all_eq_true,
      decide_eq_true_eq] at h
    obtain ⟨⟨⟨h1, h2⟩, h3⟩, h4⟩ := h
    exact ⟨⟨.inr ⟨h1, h2⟩, h3, h4⟩, by simp, by simp, fun k' hk => by cases hk; exact h1⟩
  | ref => exact storable_ref _
  | boolean => exact ⟨trivial, by simp, by simp, by simp⟩
  | long => exact ⟨trivial, by simp, by simp, by simp⟩
  | string => exact ⟨trivial, by simp, by simp, by simp⟩
  | _ => cases h

theorem bootTerms_storable : ∀ x ∈ bootTerms, ∀ v, x.v = .inl v → v.Storable := by
  have h : (bootTerms.all fun x => match x.v with | .inl v => storableB v | .inr _ => false) = true := by decide +kernel
  intro x hx v hv
  have := List.all_eq_true.mp h x hx
  rw [hv] at this
  exact storableB_spec this

/-- Every value in the log reads back. -/
theorem log_storable {db : Db} (h : ReachData db) : ∀ l ∈ db.store.log, l.v.Storable := by
  induction h with
  | boot hn h =>
    obtain ⟨s, db1, rep, -, h2, -, rfl⟩ := create_ok h
    have := log_values storable_ref (storable_instant hn) (histInv_preBoot s) (by simp [preBoot]) bootTerms_storable h2
    exact this
  | step hr hn _ hv h _ _ ih =>
    exact log_values storable_ref (storable_instant hn) (histInv_reach hr.kept.reach) ih hv h

theorem rows_storable {db : Db} (h : ReachData db) : ∀ r ∈ db.store.rows, r.v.Storable := by
  intro r hr
  obtain ⟨l, hl, -, -, h1⟩ := has_rows_log (histInv_reach h.kept.reach).replay ⟨r, hr, rfl, rfl, rfl⟩
  rw [← h1]
  exact log_storable h l hl

/-- Fulltext attributes are of strings. -/
theorem fulltext_string {db : Db} (h : ReachData db) : ∀ a at_, db.schema.attr a = some at_ → at_.fulltext = true →
    at_.valueType = .string := by
  induction h with
  | boot _ h => exact fun a at_ ha hf => (C33_valid_partial (.boot h) a at_ ha).2.1 hf |>.1
  | @step db db' now terms ids rep hr _ _ _ h _ hso ih =>
    obtain ⟨hi, hti⟩ := rowsInv_reach hr.kept
    intro a at' ha hf
    have hst := (attrs_step hi hti hso h).1 a
    rw [ha] at hst
    generalize ho : db.schema.attr a = o at hst
    cases hst with
    | same => exact ih a at' ho hf
    | installed _ _ hv => exact (valid_iff.1 hv).2.1 hf |>.1
    | altered _ hc => rw [hc.valueType]; rw [hc.fulltext] at hf; exact ih a _ ho hf

/-- The flag for fulltext of an attribute does not change while the attribute is there: the rows stored
under it all have the flag of the schema (the tables queried, Model/Sql, take it from the schema). -/
theorem fulltext_fixed {db db' : Db} {now terms ids rep} (hr : ReachData db) (hso : SchemaOne db.schema)
    (h : transactTerms db now terms ids = .ok (db', rep)) {a : Entid} {at_ at' : Attribute}
    (ha : db.schema.attr a = some at_) (ha' : db'.schema.attr a = some at') : at'.fulltext = at_.fulltext := by
  obtain ⟨hi, hti⟩ := rowsInv_reach hr.kept
  have hst := (attrs_step hi hti hso h).1 a
  rw [ha, ha'] at hst
  cases hst with
  | same => rfl
  | altered _ hc => exact hc.fulltext

/-- The tables of a store, as queried. -/
def Db.tables (db : Db) (ftId : Text → Int) : Tables :=
  { rows := db.store.rows, log := db.store.log, ft := fun a => (db.schema.attr a).any (·.fulltext), ftId }

theorem dbOk_reach {db : Db} (h : ReachData db) (ftId : Text → Int) : DbOk db.schema (db.tables ftId) := by
  obtain ⟨hi, -⟩ := rowsInv_reach h.kept
  refine ⟨fun r hr => ?_, fun r hr => (rows_storable h r hr).1, fun a at_ ha => ?_, fulltext_string h⟩
  · obtain ⟨at_, ha, ht, -⟩ := hi.typed r hr
    exact ⟨at_, ha, ht.symm⟩
  · simp [Db.tables, ha]

/-- A datom asserted by `tx` and not retracted since matches the pattern. -/
def Pattern.Asserted (s : Schema) (log : List LogRow) (ρ : Assign) (p : Pattern) : Prop :=
  ∃ l, LastAbout log l.e l.a l.v l ∧ l.added = true ∧
    p.e.Matches s ρ l.e ∧ p.a.Matches s ρ l.a ∧ p.v.Matches s ρ l.v ∧ p.tx.Matches s ρ l.tx

theorem asserted_iff {db : Db} (h : Reach db) {ρ : Assign} {p : Pattern} :
    p.Asserted db.schema db.store.log ρ ↔ ∃ d ∈ db.store.rows, p.Matches db.schema ρ d := by
  constructor
  · rintro ⟨l, hl, ha, h1, h2, h3, h4⟩
    obtain ⟨r, hr, e1, e2, e3, e4⟩ := (C16_replay h l.e l.a l.v l.tx).mpr ⟨l, hl, ha, rfl⟩
    exact ⟨r, hr, by rw [e1]; exact h1, by rw [e2]; exact h2, by rw [e3]; exact h3, by rw [e4]; exact h4⟩
  · rintro ⟨r, hr, h1, h2, h3, h4⟩
    obtain ⟨l, hl, ha, ht⟩ := (C16_replay h r.e r.a r.v r.tx).mp ⟨r, hr, rfl, rfl, rfl, rfl⟩
    obtain ⟨b, c, hlog, ⟨e1, e2, e3⟩, hno⟩ := hl
    exact ⟨l, ⟨b, c, hlog, ⟨rfl, rfl, rfl⟩, by rw [e1, e2, e3]; exact hno⟩, ha, by rw [e1]; exact h1, by rw [e2]; exact h2,
      by rw [e3]; exact h3, by rw [ht]; exact h4⟩

/-- C73, for patterns with known attributes, of any number and with any sharing of variables: after any
history, the rows are those of the assignments under which every pattern is matched by a datom that was
asserted by some transaction and not retracted since. -/
theorem C73_history_partial {db : Db} (hr : ReachData db) {fl : Floats} {ftId : Text → Int} {r : QResult} {ps : List Pattern}
    (hps : ∀ p ∈ ps, p.Known) {xs : List Var} (hne : xs ≠ []) (hxs : ∀ x ∈ xs, ∃ p ∈ ps, x ∈ p.vars)
    (h : runQuery fl ⟨db.schema, none⟩ (db.tables ftId) { find := .rel (xs.map .var), clauses := ps.map .pattern } ⟨[], []⟩ =
      .ok r) :
    ∃ rows : List (List TypedValue), r = .rel xs.length rows.flatten ∧ rows.Nodup ∧
      ∀ row, row ∈ rows ↔ ∃ ρ : Assign, ρ.Proper ∧ (∀ p ∈ ps, p.Asserted db.schema db.store.log ρ) ∧ row = xs.map ρ := by
  obtain ⟨rows, h1, h2, h3⟩ := C45_patterns (k := ⟨db.schema, none⟩) rfl (dbOk_reach hr ftId) hps hne
    (fun ρ _ hm => readable_patterns (fun d hd => (rows_storable hr d hd).2) hxs ρ hm) h
  refine ⟨rows, h1, h2, fun row => ?_⟩
  rw [h3]
  simp only [asserted_iff hr.kept.reach]
  rfl

/-! ### A history -/

/-- Like `runKeptFrom`, also checking the rest of what `ReachData` asks. -/
def runDataFrom : List Tx → Db → Option Db
  | [], db => some db
  | (terms, ids) :: rest, db =>
    if KnownTerms db terms ∧ schemaOneB db.schema = true ∧
        (terms.all fun x => match x.v with | .inl v => storableB v | .inr _ => true) = true then
      match transactTerms db 0 terms ids with
      | .ok (db', _) => if KeepsUsedAttributes db db' then runDataFrom rest db' else none
      | _ => none
    else none

theorem runDataFrom_reach {txs : List Tx} {db db' : Db} (hr : ReachData db)
    (h : runDataFrom txs db = some db') : ReachData db' := by
  induction txs generalizing db with
  | nil => simp only [runDataFrom, Option.some.injEq] at h; exact h ▸ hr
  | cons x rest ih =>
    obtain ⟨terms, ids⟩ := x
    unfold runDataFrom at h
    split at h
    · rename_i hk
      split at h
      · rename_i db1 rep ht
        split at h
        · rename_i hku
          refine ih (.step hr (Int.le_refl 0) hk.1 (fun x hx v hv => ?_) ht hku (schemaOneB_iff.1 hk.2.1)) h
          have := List.all_eq_true.mp hk.2.2 x hx
          rw [hv] at this
          exact storableB_spec this
        · simp at h
      · simp at h
    · simp at h

/-- The store after installing three attributes, adding an entity and changing it. -/
def changedDb : Option Db := runDataFrom [setupTx, dataTx, changeTx] bootDb

/-- `[:find ?e ?v :where [?e :x/one ?v]]`: the value before the change is not found. -/
theorem C73_example : ∃ db, ReachData db ∧
    runQuery QueryEx.floats ⟨db.schema, none⟩ (db.tables fun _ => 1)
      { find := .rel (["e".toList, "v".toList].map .var),
        clauses := [{ e := .var "e".toList, a := .ident (kw "x" "one"), v := .var "v".toList, tx := .placeholder }].map .pattern }
      ⟨[], []⟩ = .ok (.rel 2 [.ref e1, str "b"]) := by
  have h : (changedDb.any fun db => decide (runQuery QueryEx.floats ⟨db.schema, none⟩ (db.tables fun _ => 1)
      { find := .rel (["e".toList, "v".toList].map .var),
        clauses := [{ e := .var "e".toList, a := .ident (kw "x" "one"), v := .var "v".toList, tx := .placeholder }].map .pattern }
      ⟨[], []⟩ = .ok (.rel 2 [.ref e1, str "b"]))) = true := by decide +kernel
  cases hd : changedDb with
  | none => rw [hd] at h; cases h
  | some db =>
    rw [hd] at h
    exact ⟨db, runDataFrom_reach (.boot (Int.le_refl 0) bootDb_eq) hd, by simpa using h⟩

end Mentat
