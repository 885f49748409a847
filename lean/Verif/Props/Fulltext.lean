import Verif.Proofs.FulltextDb
import Verif.Proofs.Examples
/-
C81: what the tables hold for fulltext attributes.  `datoms` and the log have rowids of
`fulltext_values` in place of strings; the view `all_datoms` shows the strings.
-/
namespace Mentat

/-- The same transactions, run on the tables (Model/Fulltext) and on datoms that have their strings in
place (Model/Transact). -/
inductive RunsBoth (maxVars : Nat) : DiskDb → Db → Prop
  | boot {now d db} : diskCreate maxVars now = .ok d → createCurrentVersion now = .ok db → RunsBoth maxVars d db
  | step {d d' db db' now terms ids rep rep'} : RunsBoth maxVars d db → KnownTerms db terms →
      diskTransact maxVars d now terms ids = .ok (d', rep) → transactTerms db now terms ids = .ok (db', rep') →
      KeepsUsedAttributes db db' → RunsBoth maxVars d' db'

theorem runsBoth_ok {maxVars : Nat} {d : DiskDb} {db : Db} (h : RunsBoth maxVars d db) :
    ReachDisk maxVars d ∧ d.db = db := by
  induction h with
  | @boot now d db h h' =>
    have hr : ReachDisk maxVars d := .boot h
    refine ⟨hr, ?_⟩
    unfold diskCreate at h
    rw [Res.bind_eq_ok] at h
    obtain ⟨s, h1, h⟩ := h
    rw [Res.bind_eq_ok] at h
    obtain ⟨⟨d1, rep⟩, h2, h⟩ := h
    obtain ⟨b, hb, rfl, -⟩ := (diskTransact_refines (diskOk_empty _) (bootstrapSchema_fulltext h1)
      (bootstrapSchema_txInstant h1)).of_ok h2
    obtain ⟨s', db1, rep', h1', h2', -, rfl⟩ := create_ok h'
    rw [h1] at h1'
    simp only [Res.ok.injEq] at h1'
    subst h1'
    have hb' : transactTermsWith (preBoot s) {} now bootTerms [] .materializeAndCommit = .ok (d1.db, rep) := hb
    rw [hb'] at h2'
    simp only [Res.ok.injEq, Prod.mk.injEq] at h2'
    obtain ⟨rfl, rfl⟩ := h2'
    simp only at h
    split at h
    · simp only [Res.pure_eq, Res.ok.injEq] at h
      subst h
      rfl
    · simp at h
  | step hr hkn ht ht' hk ih =>
    obtain ⟨i1, rfl⟩ := ih
    obtain ⟨j1, j2, j3⟩ := reachDisk_ok i1
    obtain ⟨b, hb, rfl, -⟩ := (diskTransact_refines j2 j3 (rowsInv_reach j1).2).of_ok ht
    have hb' : transactTerms _ _ _ _ = _ := hb
    rw [hb'] at ht'
    simp only [Res.ok.injEq, Prod.mk.injEq] at ht'
    obtain ⟨rfl, rfl⟩ := ht'
    exact ⟨.step i1 hkn ht hk, rfl⟩

/-- C81, views: after any such history, `all_datoms` has the datoms that the transactions left, with
their strings, each once; the schema, the partitions and the materialized views are the same too. -/
theorem C81_views {maxVars : Nat} {d : DiskDb} {db : Db} (h : RunsBoth maxVars d db) :
    d.disk.allDatoms.Perm db.store.rows ∧ d.schema = db.schema ∧ d.parts = db.parts ∧ d.views = db.views := by
  obtain ⟨h1, rfl⟩ := runsBoth_ok h
  exact ⟨allDatoms_perm (reachDisk_ok h1).2.1, rfl, rfl, rfl⟩

/-- C81, transactions: what succeeds on the tables succeeds, with the same report. -/
theorem C81_transact {maxVars : Nat} {d : DiskDb} {db : Db} (h : RunsBoth maxVars d db) {now : Int} {terms : List TTerm}
    {ids : List TempId} {d' : DiskDb} {rep : Report} (ht : diskTransact maxVars d now terms ids = .ok (d', rep)) :
    ∃ db', transactTerms db now terms ids = .ok (db', rep) ∧ d'.disk.allDatoms.Perm db'.store.rows := by
  obtain ⟨h1, rfl⟩ := runsBoth_ok h
  obtain ⟨j1, j2, j3⟩ := reachDisk_ok h1
  obtain ⟨b, hb, rfl, h3, -⟩ := (diskTransact_refines j2 j3 (rowsInv_reach j1).2).of_ok ht
  exact ⟨_, hb, allDatoms_perm h3⟩

/-- C81, transactions: and the other way, if the variables of a statement suffice for all the terms; so
no statement on the tables fails for a reason of its own. -/
theorem C81_transact_conv {maxVars : Nat} {d : DiskDb} {db : Db} (h : RunsBoth maxVars d db) {now : Int}
    {terms : List TTerm} {ids : List TempId} (hv : 6 * (terms.length + 1) < maxVars) :
    (∀ db' rep, transactTerms db now terms ids = .ok (db', rep) →
      ∃ d', diskTransact maxVars d now terms ids = .ok (d', rep)) ∧
    (∀ e, transactTerms db now terms ids = .err e → diskTransact maxVars d now terms ids = .err e) := by
  obtain ⟨h1, rfl⟩ := runsBoth_ok h
  obtain ⟨j1, j2, j3⟩ := reachDisk_ok h1
  have hr := diskTransact_refines (maxVars := maxVars) (sfm := d.schema) (now := now) (terms := terms) (ids := ids)
    (act := .materializeAndCommit) j2 j3 (rowsInv_reach j1).2
  constructor
  · intro db' rep ht
    rcases hr.or_panic (b := (db', rep)) ht with ⟨hp, -⟩ | ⟨⟨d', rep'⟩, h4, h5, -⟩
    · omega
    · simp only [Prod.mk.injEq] at h5
      obtain ⟨-, rfl⟩ := h5
      exact ⟨d', h4⟩
  · intro e ht
    have ht' : transactTermsWith d.db d.schema now terms ids .materializeAndCommit = .err e := ht
    rw [ht'] at hr
    show diskTransactWith _ _ _ _ _ _ _ = _
    generalize diskTransactWith maxVars d d.schema now terms ids .materializeAndCommit = x at hr
    cases hr with
    | panic hp => rcases hp with hp | hp
                  · omega
                  · simp at hp
    | err e => rfl

/-- C81, the table: a rowid has one text and a text one rowid, no search is left in it, every datom of a
fulltext attribute has the rowid of a text, and no other datom has a rowid. -/
theorem C81_table {maxVars : Nat} {d : DiskDb} (h : ReachDisk maxVars d) :
    (d.disk.texts.map (·.rowid)).Nodup ∧ (d.disk.texts.map (·.text)).Nodup ∧
    (∀ x ∈ d.disk.texts, x.searchid = none) ∧
    (∀ r ∈ d.disk.rows, ∃ at_, d.schema.attr r.a = some at_ ∧ r.ft = at_.fulltext ∧
      ((at_.fulltext = true ∧ at_.valueType = .string ∧ ∃ x ∈ d.disk.texts, r.v = .rowid x.rowid) ∨
        (at_.fulltext = false ∧ ∃ v, r.v = .val v ∧ v.valueType = at_.valueType))) ∧
    (∀ l ∈ d.disk.log, ∀ n, l.v = .rowid n → ∃ x ∈ d.disk.texts, x.rowid = n) := by
  obtain ⟨j1, j2, j3⟩ := reachDisk_ok h
  refine ⟨j2.table.ids, j2.table.texts, j2.clean, ?_, ?_⟩
  · intro r hr
    obtain ⟨at_, hat, hty, -⟩ := (rowsInv_reach j1).1.typed (absRow _ r) (List.mem_map_of_mem hr)
    have hat : d.schema.attr r.a = some at_ := hat
    have hF : ftOf d.schema r.a = at_.fulltext := by unfold ftOf; rw [hat]
    obtain ⟨hft, hc⟩ := j2.rows r hr
    rw [hF] at hft hc
    refine ⟨at_, hat, hft, ?_⟩
    cases hv : r.v with
    | val v =>
      rw [hv] at hc
      refine .inr ⟨hc, v, rfl, ?_⟩
      rw [hty]; simp only [absRow, hv, absCell]
    | rowid n =>
      rw [hv] at hc
      obtain ⟨h1, x, hx, rfl⟩ := hc
      exact .inl ⟨h1, j3 _ _ hat h1, x, hx, rfl⟩
  · intro l hl n hn
    have := j2.log l hl
    rw [hn] at this
    exact this

/-- C81, the table only grows: a text keeps its rowid. -/
theorem C81_grows {maxVars : Nat} {d : DiskDb} (h : ReachDisk maxVars d) {now : Int} {terms : List TTerm}
    {ids : List TempId} {d' : DiskDb} {rep : Report} (ht : diskTransact maxVars d now terms ids = .ok (d', rep)) :
    ∀ x ∈ d.disk.texts, ∃ x' ∈ d'.disk.texts, x'.rowid = x.rowid ∧ x'.text = x.text := by
  obtain ⟨j1, j2, j3⟩ := reachDisk_ok h
  obtain ⟨b, -, -, -, h3⟩ := (diskTransact_refines j2 j3 (rowsInv_reach j1).2).of_ok ht
  exact h3

/-! ### Where the rowids are not looked up -/

theorem sortBy_map {α β : Type} (g : α → β) (key : β → Int) (l : List α) :
    sortBy key (l.map g) = (sortBy (fun x => key (g x)) l).map g := by
  have hi : ∀ x (m : List α), insertSortedBy key (g x) (m.map g) = (insertSortedBy (fun x => key (g x)) x m).map g := by
    intro x m
    induction m with
    | nil => rfl
    | cons y m ih => rw [List.map_cons, insertSortedBy, insertSortedBy, ih]; split <;> rfl
  induction l with
  | nil => rfl
  | cons x l ih => rw [List.map_cons, sortBy, ih, hi]; rfl

theorem read_shown {t : List FtRow} {c : Cell} (h : ∀ n, c ≠ .rowid n) : c.read = .ok (absCell t c) := by
  cases c with
  | val v => rfl
  | rowid n => exact absurd rfl (h n)

/-- C81, moves: a transaction that wrote and retracted no fulltext value is reversed from the tables as from datoms with
their strings in place: exactly its rows of the main timeline. -/
theorem C81_move_partial {maxVars : Nat} {d : DiskDb} {db : Db} (h : RunsBoth maxVars d db) {tx : Entid}
    (hno : ∀ l ∈ d.disk.log, l.tx = tx → l.timeline = 0 → ∀ n, l.v ≠ .rowid n) :
    diskReversedTerms d.disk.log tx = .ok (reversedTerms db.store.log tx) := by
  obtain ⟨-, rfl⟩ := runsBoth_ok h
  show _ = Res.ok (reversedTerms (d.disk.log.map (absLog d.disk.texts)) tx)
  unfold diskReversedTerms reversedTerms
  rw [List.filter_map, List.map_map]
  have key : ∀ ls : List DiskLog, (∀ l ∈ ls, ∀ n, l.v ≠ .rowid n) → reverseRows ls =
      .ok (ls.map fun l => ⟨if l.added then .retract else .add, .inl l.e, l.a, .inl (absCell d.disk.texts l.v)⟩) := by
    intro ls hls
    induction ls with
    | nil => rfl
    | cons l ls ih =>
      rw [reverseRows, read_shown (hls l (by simp)), ih fun x hx => hls x (by simp [hx])]
      rfl
  rw [key]
  · rfl
  · intro l hl
    rw [List.mem_filter, decide_eq_true_eq] at hl
    exact hno l hl.1 hl.2.1 hl.2.2

/-- C81, synchronizing: a log without fulltext values in the part to be read is read from the tables as from datoms with
their strings in place. -/
theorem C81_sync_partial {maxVars : Nat} {d : DiskDb} {db : Db} (h : RunsBoth maxVars d db) {S : Type} {fromTx : Option Entid}
    (recv : S → Entid → List Sync.TxPart → Res S) (s : S)
    (hno : ∀ l ∈ d.disk.log, l.timeline = 0 → (∀ t, fromTx = some t → t < l.tx) → ∀ n, l.v ≠ .rowid n) :
    diskProcess d.disk.log fromTx recv s = Sync.process db.store.log fromTx recv s := by
  obtain ⟨-, rfl⟩ := runsBoth_ok h
  show _ = Sync.process (d.disk.log.map (absLog d.disk.texts)) fromTx recv s
  unfold diskProcess Sync.process Sync.selectRows
  rw [List.filter_map, sortBy_map, List.map_map]
  have key : ∀ ls : List DiskLog, (∀ l ∈ ls, ∀ n, l.v ≠ .rowid n) →
      (ls.map fun l => l.v.read.bind fun v => .ok ({ e := l.e, a := l.a, v := v, tx := l.tx, added := l.added } : Sync.TxPart)) =
      ls.map ((fun l => Res.ok (Sync.toTxPart l)) ∘ absLog d.disk.texts) := by
    intro ls hls
    refine List.map_congr_left fun l hl => ?_
    rw [read_shown (t := d.disk.texts) (hls l hl)]
    rfl
  refine congrArg (fun rows : List (Res Sync.TxPart) => Sync.processRows recv rows.length none rows s) (key _ ?_)
  intro l hl
  rw [mem_sortBy, List.mem_filter, Bool.and_eq_true, decide_eq_true_eq] at hl
  refine hno l hl.1 hl.2.1 ?_
  rintro t rfl
  simpa using hl.2.2

/-- The move of a transaction that wrote or retracted a fulltext value off the main timeline fails: the log is
read without its strings (timelines.rs:117-123). -/
theorem C81_fails_move {log : List DiskLog} {tx : Entid} {l : DiskLog} {n : Nat} (hl : l ∈ log) (htx : l.tx = tx)
    (h0 : l.timeline = 0) (hn : l.v = .rowid n) : ∀ terms, diskReversedTerms log tx ≠ .ok terms := by
  have key : ∀ ls : List DiskLog, l ∈ ls → ∀ terms, reverseRows ls ≠ .ok terms := by
    intro ls
    induction ls with
    | nil => intro h; simp at h
    | cons x ls ih =>
      intro hm terms h
      unfold reverseRows at h
      obtain ⟨y, h1, h⟩ := Res.bind_eq_ok.mp h
      obtain ⟨ys, h2, -⟩ := Res.bind_eq_ok.mp h
      rcases List.mem_cons.mp hm with rfl | hm
      · rw [hn] at h1; simp [Cell.read] at h1
      · exact ih hm ys h2
  exact key _ (List.mem_filter.mpr ⟨hl, by simp [htx, h0]⟩)

theorem following_keeps_errors {first : Sync.TxPart} {e : Err} : ∀ {rows : List (Res Sync.TxPart)}, Res.err e ∈ rows →
    Res.err e ∈ (Sync.following first rows).2
  | [], h => by simp at h
  | .err e' :: rows, h => by simpa [Sync.following] using h
  | .panic :: rows, h => by simpa [Sync.following] using h
  | .ok d :: rows, h => by
    have h' : Res.err e ∈ rows := by simpa using h
    unfold Sync.following
    split
    · exact h
    · exact following_keeps_errors h'

theorem processRows_error {S : Type} {recv : S → Entid → List Sync.TxPart → Res S} {e : Err} : ∀ {n cur rows s},
    Res.err e ∈ rows → ∀ s', Sync.processRows recv n cur rows s ≠ .ok s'
  | n, _, [], _, h, _ => by simp at h
  | 0, _, _ :: _, _, _, _ => by simp [Sync.processRows]
  | n + 1, _, .err _ :: _, _, _, _ => by simp [Sync.processRows]
  | n + 1, _, .panic :: _, _, _, _ => by simp [Sync.processRows]
  | n + 1, cur, .ok d :: rows, s, h, s' => by
    have h' : Res.err e ∈ rows := by simpa using h
    unfold Sync.processRows
    split
    · exact processRows_error h' s'
    · intro hc
      obtain ⟨s1, -, hc⟩ := Res.bind_eq_ok.mp hc
      exact processRows_error (following_keeps_errors h') s' hc

/-- Reading the log to synchronize it fails, whatever is done with the transactions, if a fulltext value was
ever written or retracted in the part to be read (tx_processor.rs:93-103). -/
theorem C81_fails_sync {S : Type} {log : List DiskLog} {fromTx : Option Entid} {l : DiskLog} {n : Nat}
    (recv : S → Entid → List Sync.TxPart → Res S) (s : S) (hl : l ∈ log) (h0 : l.timeline = 0)
    (htx : ∀ t, fromTx = some t → t < l.tx) (hn : l.v = .rowid n) : ∀ s', diskProcess log fromTx recv s ≠ .ok s' := by
  unfold diskProcess
  apply processRows_error (e := .badSqlValuePair)
  rw [List.mem_map]
  refine ⟨l, ?_, by rw [hn]; rfl⟩
  rw [mem_sortBy, List.mem_filter]
  refine ⟨hl, ?_⟩
  cases fromTx with
  | none => simp [h0]
  | some t => simp [h0, htx t rfl]

/-! ### A history -/

def ftTx1 : Tx := (install "text" DB_TYPE_STRING DB_CARDINALITY_MANY
  [addT "text" DB_FULLTEXT (.boolean true), addT "text" DB_INDEX (.boolean true)], [tid "text"])

/-- Two entities, two texts, one of them twice; two of a plain attribute. -/
def ftTx2 : Tx := ([addT "a" 65536 (str "hello"), addT "b" 65536 (str "hello"), addT "b" 65536 (str "world"),
  addT "a" DB_DOC (str "hello")], [tid "a", tid "b"])

def ftTx3 : Tx := ([retE 65538 65536 (str "world"), addE 65537 65536 (str "new")], [])

/-- Transactions on the tables, with the checks of `ReachDisk`. -/
def runDisk (maxVars : Nat) : List Tx → DiskDb → Option DiskDb
  | [], d => some d
  | (terms, ids) :: rest, d =>
    if KnownTerms d.db terms then
      match diskTransact maxVars d 0 terms ids with
      | .ok (d', _) => if KeepsUsedAttributes d.db d'.db then runDisk maxVars rest d' else none
      | _ => none
    else none

theorem runDisk_reach {maxVars : Nat} {txs : List Tx} : ∀ {d d' : DiskDb}, ReachDisk maxVars d →
    runDisk maxVars txs d = some d' → ReachDisk maxVars d' := by
  induction txs with
  | nil => intro d d' hr h; simp only [runDisk, Option.some.injEq] at h; exact h ▸ hr
  | cons x rest ih =>
    intro d d' hr h
    obtain ⟨terms, ids⟩ := x
    unfold runDisk at h
    split at h
    · rename_i hk
      split at h
      · rename_i d1 rep ht
        split at h
        · rename_i hku
          exact ih (.step hr hk ht hku) h
        · simp at h
      · simp at h
    · simp at h

def diskRun (txs : List Tx) : Option DiskDb := match diskCreate 999 0 with
  | .ok d => runDisk 999 txs d
  | _ => none

theorem diskRun_reach {txs : List Tx} {d : DiskDb} (h : diskRun txs = some d) : ReachDisk 999 d := by
  unfold diskRun at h
  split at h
  · rename_i d0 h0; exact runDisk_reach (.boot h0) h
  · simp at h

/-- Every history on the tables is one on datoms with their strings. -/
theorem C81_runs {maxVars : Nat} {d : DiskDb} (h : ReachDisk maxVars d) : RunsBoth maxVars d d.db := by
  induction h with
  | @boot now d h =>
    refine .boot h ?_
    unfold diskCreate at h
    rw [Res.bind_eq_ok] at h
    obtain ⟨s, h1, h⟩ := h
    rw [Res.bind_eq_ok] at h
    obtain ⟨⟨d1, rep⟩, h2, h⟩ := h
    obtain ⟨b, hb, rfl, -⟩ := (diskTransact_refines (diskOk_empty _) (bootstrapSchema_fulltext h1)
      (bootstrapSchema_txInstant h1)).of_ok h2
    unfold createCurrentVersion
    rw [Res.bind_eq_ok]
    refine ⟨s, h1, ?_⟩
    rw [Res.bind_eq_ok]
    refine ⟨_, hb, ?_⟩
    simp only at h ⊢
    split at h
    · rename_i hsame
      simp only [Res.pure_eq, Res.ok.injEq] at h
      subst h
      rw [if_pos (show Schema.same d1.db.schema s = true from hsame)]
      rfl
    · simp at h
  | step hr hkn ht hk ih =>
    obtain ⟨db', h1, -⟩ := C81_transact ih ht
    obtain ⟨j1, j2, j3⟩ := reachDisk_ok hr
    obtain ⟨b, hb, rfl, -⟩ := (diskTransact_refines j2 j3 (rowsInv_reach j1).2).of_ok ht
    exact .step ih hkn ht hb hk

set_option maxRecDepth 100000 in
/-- The history meets the hypotheses: two datoms share a text, a value of a plain attribute is in place, and a text
that has only a retracted datom stays. -/
theorem C81_example : ∃ d, RunsBoth 999 d d.db ∧
    d.disk.texts = [⟨1, "hello".toList, none⟩, ⟨2, "world".toList, none⟩, ⟨3, "new".toList, none⟩] ∧
    Has d.disk.allDatoms 65537 65536 (str "hello") ∧ Has d.disk.allDatoms 65538 65536 (str "hello") ∧
    Has d.disk.allDatoms 65537 65536 (str "new") ∧ Has d.disk.allDatoms 65537 DB_DOC (str "hello") ∧
    (∃ r ∈ d.disk.rows, r.e = 65537 ∧ r.a = 65536 ∧ r.v = .rowid 1) ∧
    (∃ r ∈ d.disk.rows, r.e = 65538 ∧ r.a = 65536 ∧ r.v = .rowid 1) ∧
    (∃ r ∈ d.disk.rows, r.e = 65537 ∧ r.a = DB_DOC ∧ r.v = .val (str "hello")) ∧
    ∀ r ∈ d.disk.rows, r.v ≠ .rowid 2 := by
  have hrun : (diskRun [ftTx1, ftTx2, ftTx3]).any (fun d =>
      decide (d.disk.texts = [⟨1, "hello".toList, none⟩, ⟨2, "world".toList, none⟩, ⟨3, "new".toList, none⟩] ∧
      (∃ r ∈ d.disk.allDatoms, r.e = 65537 ∧ r.a = 65536 ∧ r.v = str "hello") ∧
      (∃ r ∈ d.disk.allDatoms, r.e = 65538 ∧ r.a = 65536 ∧ r.v = str "hello") ∧
      (∃ r ∈ d.disk.allDatoms, r.e = 65537 ∧ r.a = 65536 ∧ r.v = str "new") ∧
      (∃ r ∈ d.disk.allDatoms, r.e = 65537 ∧ r.a = DB_DOC ∧ r.v = str "hello") ∧
      (∃ r ∈ d.disk.rows, r.e = 65537 ∧ r.a = 65536 ∧ r.v = .rowid 1) ∧
      (∃ r ∈ d.disk.rows, r.e = 65538 ∧ r.a = 65536 ∧ r.v = .rowid 1) ∧
      (∃ r ∈ d.disk.rows, r.e = 65537 ∧ r.a = DB_DOC ∧ r.v = .val (str "hello")) ∧
      ∀ r ∈ d.disk.rows, r.v ≠ .rowid 2)) = true := by decide +kernel
  cases hd : diskRun [ftTx1, ftTx2, ftTx3] with
  | none => rw [hd] at hrun; simp at hrun
  | some d =>
    rw [hd] at hrun
    rw [Option.any_some, decide_eq_true_eq] at hrun
    exact ⟨d, C81_runs (diskRun_reach hd), hrun⟩

set_option maxRecDepth 100000 in
/-- After this history the second transaction cannot be moved and the log cannot be read to be uploaded, though with
its strings in place it could be. -/
theorem C81_fails_example : ∃ d tx, RunsBoth 999 d d.db ∧
    diskReversedTerms d.disk.log tx = .err .badSqlValuePair ∧
    (reversedTerms d.db.store.log tx).length = 5 ∧
    diskProcess d.disk.log none Sync.collectTxs [] = .err .badSqlValuePair ∧
    ∃ txs, Sync.process d.db.store.log none Sync.collectTxs [] = .ok txs ∧ txs.length = 4 := by
  have hrun : (diskRun [ftTx1, ftTx2, ftTx3]).any (fun d =>
      decide (diskReversedTerms d.disk.log 268435458 = .err .badSqlValuePair ∧
        (reversedTerms d.db.store.log 268435458).length = 5 ∧
        diskProcess d.disk.log none Sync.collectTxs [] = .err .badSqlValuePair) &&
      (match Sync.process d.db.store.log none Sync.collectTxs [] with
        | .ok txs => decide (txs.length = 4)
        | _ => false)) = true := by decide +kernel
  cases hd : diskRun [ftTx1, ftTx2, ftTx3] with
  | none => rw [hd] at hrun; simp at hrun
  | some d =>
    rw [hd] at hrun
    simp only [Option.any_some, Bool.and_eq_true, decide_eq_true_eq] at hrun
    obtain ⟨⟨h1, h2, h3⟩, h4⟩ := hrun
    refine ⟨d, _, C81_runs (diskRun_reach hd), h1, h2, h3, ?_⟩
    split at h4
    · rename_i txs ht
      exact ⟨txs, ht, of_decide_eq_true h4⟩
    · simp at h4

set_option maxRecDepth 100000 in
/-- In the same history the first transaction, which only defines attributes, can be moved. -/
theorem C81_move_example : ∃ d, RunsBoth 999 d d.db ∧ (reversedTerms d.db.store.log 268435457).length ≠ 0 ∧
    ∀ l ∈ d.disk.log, l.tx = 268435457 → l.timeline = 0 → ∀ n, l.v ≠ .rowid n := by
  have hrun : (diskRun [ftTx1, ftTx2, ftTx3]).any (fun d =>
      decide ((reversedTerms d.db.store.log 268435457).length ≠ 0) &&
        d.disk.log.all fun l => decide (l.tx ≠ 268435457) || decide (l.timeline ≠ 0) || match l.v with | .val _ => true | .rowid _ => false) =
      true := by decide +kernel
  cases hd : diskRun [ftTx1, ftTx2, ftTx3] with
  | none => rw [hd] at hrun; simp at hrun
  | some d =>
    rw [hd] at hrun
    simp only [Option.any_some, Bool.and_eq_true, decide_eq_true_eq, List.all_eq_true] at hrun
    refine ⟨d, C81_runs (diskRun_reach hd), hrun.1, fun l hl h1 h2 n hn => ?_⟩
    have := hrun.2 l hl
    simp [h1, h2, hn] at this

end Mentat
