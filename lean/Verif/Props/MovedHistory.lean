import Verif.Proofs.BootLog
import Verif.Props.Timelines
/- C36 for histories in which transactions have been moved off the main timeline before. -/
namespace Mentat

/-- The log rows of the main timeline. -/
def onMain (log : List LogRow) : List LogRow := log.filter fun l => decide (l.timeline = 0)

theorem mem_onMain {log : List LogRow} {l : LogRow} : l ∈ onMain log ↔ l ∈ log ∧ l.timeline = 0 := by
  unfold onMain
  rw [List.mem_filter, decide_eq_true_eq]

theorem onMain_append (l l' : List LogRow) : onMain (l ++ l') = onMain l ++ onMain l' := List.filter_append ..

theorem onMain_self {log : List LogRow} (h : ∀ l ∈ log, l.timeline = 0) : onMain log = log := by
  unfold onMain
  rw [List.filter_eq_self]
  intro l hl; simpa using h l hl

/-- Same datoms, but for the transactions they carry, and same main timeline. -/
def Alike (p d : Db) : Prop :=
  onMain d.store.log = onMain p.store.log ∧ ∀ e a v, Has d.store.rows e a v ↔ Has p.store.rows e a v

/-- `c` is `p`, or has one more transaction on the main timeline, which logs the net change. -/
def Between (p c : Db) : Prop :=
  Alike p c ∨ ∃ new tx, onMain c.store.log = onMain p.store.log ++ new ∧ new ≠ [] ∧
    (∀ l ∈ onMain p.store.log, l.tx < tx) ∧ (∀ l ∈ new, l.tx = tx ∧ l.timeline = 0) ∧
    NetChange new p.store.rows c.store.rows

/-- Holds in every database of a history with moves. -/
structure MainInv (db : Db) : Prop where
  uniq : uniqueOk db.store.rows = true
  parts : PartsOk db.parts
  known : ∀ e a v, Has db.store.rows e a v → ∃ l ∈ onMain db.store.log, l.e = e
  logTx : ∀ l ∈ onMain db.store.log, TX0 ≤ l.tx ∧ l.tx < db.parts.tx.next
  logE : ∀ l ∈ onMain db.store.log, db.parts.containsEntid l.e = true
  stamp : ∀ l ∈ onMain db.store.log, ∃ l' ∈ onMain db.store.log, l'.tx = l.tx ∧ l'.e = l.tx

theorem HistInv.main {db : Db} (hi : HistInv db) : MainInv db := by
  have hm : onMain db.store.log = db.store.log := onMain_self fun l hl => (hi.logTx l hl).2.2
  refine ⟨hi.uniq, hi.parts, ?_, ?_, ?_, ?_⟩ <;> rw [hm]
  · intro e a v h
    obtain ⟨l, hl, he, -⟩ := has_rows_log hi.replay h
    exact ⟨l, hl, he⟩
  · exact fun l hl => ⟨(hi.logTx l hl).1, (hi.logTx l hl).2.1⟩
  · exact hi.logE
  · intro l hl
    obtain ⟨i, h, -⟩ := hi.instants l.tx (hi.logTx l hl).1 (hi.logTx l hl).2.1
    exact ⟨_, h, rfl, rfl⟩

theorem MainInv.entity {db : Db} (hi : MainInv db) {e a v} (h : Has db.store.rows e a v) :
    db.parts.containsEntid e = true := by
  obtain ⟨l, hl, rfl⟩ := hi.known e a v h
  exact hi.logE l hl

theorem next_not_contained {p : Parts} (h : PartsOk p) : ¬ p.containsEntid p.tx.next = true := by
  intro hc
  obtain ⟨x1, x2, x3, x4⟩ := h.tx
  obtain ⟨p1, p2, p3, p4⟩ := h.user
  obtain ⟨b1, b2, b3, b4⟩ := h.db
  simp only [Parts.containsEntid, Partition.containsEntid, Bool.or_eq_true, decide_eq_true_eq] at hc
  have hT : TX0 = 268435456 := rfl
  have hU : USER0 = 65536 := rfl
  omega

theorem MainInv.no_datom_of_next {db : Db} (hi : MainInv db) : ∀ a v, ¬ Has db.store.rows db.parts.tx.next a v :=
  fun _ _ h => next_not_contained hi.parts (hi.entity h)

namespace TxTrace
variable {db : Db} {sfm : Schema} {now : Int} {terms : List TTerm} {ids : List TempId} {act : TxAction} {db' : Db}
  {rep : Report}

theorem entity_known (T : TxTrace db sfm now terms ids act db' rep)
    (hE : ∀ e a v, Has db.store.rows e a v → db.parts.containsEntid e = true)
    (hk : KnownTerms db terms) {y : RTerm} (hy : y ∈ T.s3.terms) :
    db.parts.containsEntid y.e = true ∨ y.e = db.parts.tx.next ∨
      (db.parts.user.next ≤ y.e ∧ y.e < T.s3.user.next) := by
  obtain ⟨U, sp⟩ := resolveTempIds_spec T.stage3
  have hy' : y ∈ T.s3.inert ∨ y ∈ T.s3.pops.resolved ∨ y ∈ T.s3.pops.allocated := by
    simp only [Stage3.terms, List.mem_append] at hy
    rcases hy with (h | h) | h
    · exact Or.inr (Or.inl h)
    · exact Or.inr (Or.inr h)
    · exact Or.inl h
  obtain ⟨x, hx, -, -, he, -⟩ := sp.sound y hy'
  cases hxe : x.e with
  | inl e =>
    rw [hxe] at he
    simp only [DenotesE] at he
    rw [he]
    rcases hk x hx e hxe with h | h
    · exact Or.inl h
    · exact Or.inr (Or.inl h)
  | inr t =>
    rw [hxe] at he
    simp only [DenotesE] at he
    cases hU : AMap.get U t with
    | none => exact Or.inr (Or.inr (sp.fresh t y.e he hU))
    | some n =>
      have := sp.sub t n hU
      rw [he] at this
      obtain ⟨a, v, hl⟩ := sp.fromStore t n hU
      obtain ⟨r, hr', rfl, ha, hv⟩ := lookupAV_some hl
      left
      rw [Option.some.inj this]
      exact hE _ _ _ ⟨r, hr', rfl, rfl, rfl⟩

/-- Every log row of a transaction is about an entity known afterwards. -/
theorem logged_entity (T : TxTrace db sfm now terms ids act db' rep) (hi : MainInv db)
    (hk : KnownTerms db terms) : ∀ l ∈ T.lr, db'.parts.containsEntid l.e = true := by
  intro l hl
  obtain ⟨t1, t2, t3⟩ := T.txid
  obtain ⟨u1, u2, u3, u4⟩ := T.userPart hi.parts
  obtain ⟨x1, x2, x3, x4⟩ := hi.parts.tx
  obtain ⟨p1, p2, p3, p4⟩ := hi.parts.user
  have hterm : ∀ y ∈ T.s3.terms, db'.parts.containsEntid y.e = true := by
    intro y hy
    rcases T.entity_known (fun _ _ _ => hi.entity) hk hy with h | h | h
    · exact T.contains_mono hi.parts h
    · rw [T.parts, t2, h]
      simp only [Parts.containsEntid, Partition.containsEntid, Bool.or_eq_true, decide_eq_true_eq]
      omega
    · rw [T.parts]
      simp only [Parts.containsEntid, Partition.containsEntid, Bool.or_eq_true, decide_eq_true_eq]
      omega
  obtain ⟨-, -, hlr', -⟩ := apply_ok T.applied
  rw [hlr', mem_logRowsOf] at hl
  rcases hl with ⟨q, hq, -, rfl⟩ | ⟨r, hr, -, rfl⟩
  · simp only
    rcases (T.mem_queue.mp hq).2 with ⟨-, h | ⟨-, h, -⟩⟩ | ⟨-, h⟩
    · exact hterm _ h
    · rw [T.parts, t2, h, t1]
      simp only [Parts.containsEntid, Partition.containsEntid, Bool.or_eq_true, decide_eq_true_eq]
      omega
    · exact hterm _ h
  · exact T.contains_mono hi.parts (hi.entity ⟨r, hr, rfl, rfl, rfl⟩)

/-- A transaction logs its instant. -/
theorem logged_instant (T : TxTrace db sfm now terms ids act db' rep) (hi : MainInv db) :
    (⟨rep.txId, DB_TX_INSTANT, .instant rep.txInstant, rep.txId, true, 0⟩ : LogRow) ∈ T.lr := by
  obtain ⟨t1, -, -⟩ := T.txid
  obtain ⟨at_, hat⟩ := Option.isSome_iff_exists.mp T.tSpec.attr
  obtain ⟨-, -, hlr, -⟩ := apply_ok T.applied
  rw [hlr, mem_logRowsOf]
  refine Or.inl ⟨⟨rep.txId, DB_TX_INSTANT, at_, .instant rep.txInstant, true⟩,
    T.mem_queue.mpr ⟨hat, Or.inl ⟨rfl, Or.inr ⟨rfl, rfl, rfl⟩⟩⟩, ⟨rfl, Or.inl ?_⟩, rfl⟩
  rintro r hr ⟨he, -, -⟩
  exact hi.no_datom_of_next r.a r.v ⟨r, hr, he.trans t1, rfl, rfl⟩

end TxTrace

theorem between_step {db now terms ids db' rep} (hi : MainInv db) (hk : KnownTerms db terms)
    (h : transactTerms db now terms ids = .ok (db', rep)) : Between db db' ∧ MainInv db' := by
  obtain ⟨T⟩ := transact_trace h
  obtain ⟨f, hf, hf', hfu⟩ := T.metaRows
  have hs := applySpec hi.uniq T.applied
  obtain ⟨-, hu', -, -, -, hlog, -⟩ := apply_ok T.applied
  have hlog' : db'.store.log = db.store.log ++ T.lr := by rw [T.log, hlog rfl]
  obtain ⟨t1, t2, t3⟩ := T.txid
  obtain ⟨u1, u2, u3, u4⟩ := T.userPart hi.parts
  have htxnext : db'.parts.tx.next = db.parts.tx.next + 1 := by rw [T.parts, t2]
  obtain ⟨x1, x2, x3, x4⟩ := hi.parts.tx
  obtain ⟨p1, p2, p3, p4⟩ := hi.parts.user
  have hmain : onMain db'.store.log = onMain db.store.log ++ T.lr := by
    rw [hlog', onMain_append, onMain_self (log := T.lr) fun l hl => (hs.stamp l hl).2]
  have hinst := T.logged_instant hi
  have hparts : PartsOk db'.parts := by
    refine ⟨?_, ?_, ?_⟩
    · rw [T.parts]; exact hi.parts.db
    · rw [T.parts]; exact ⟨u1, u2, by simp only; omega, u4⟩
    · rw [T.parts, t2]; simp only; omega
  constructor
  · right
    refine ⟨T.lr, rep.txId, hmain, List.ne_nil_of_mem hinst, ?_, hs.stamp, ?_⟩
    · intro l hl; rw [t1]; exact (hi.logTx l hl).2
    · intro e a v
      rw [T.has_iff]
      constructor
      · constructor
        · rintro ⟨l, hl, rfl, rfl, rfl, ha⟩
          exact ⟨(hs.added l hl ha).2, (hs.added l hl ha).1⟩
        · rintro ⟨h1, h2⟩
          exact ⟨_, hs.addedAll e a v h2 h1, rfl, rfl, rfl, rfl⟩
      · constructor
        · rintro ⟨l, hl, rfl, rfl, rfl, ha⟩
          exact hs.retracted l hl ha
        · rintro ⟨h1, h2⟩
          exact ⟨_, hs.retractedAll e a v h1 h2, rfl, rfl, rfl, rfl⟩
  · refine ⟨hfu hu', hparts, ?_, ?_, ?_, ?_⟩ <;> rw [hmain]
    · intro e a v hh
      by_cases hold : Has db.store.rows e a v
      · obtain ⟨l, hl, he⟩ := hi.known e a v hold
        exact ⟨l, List.mem_append_left _ hl, he⟩
      · rw [T.has_iff] at hh
        exact ⟨_, List.mem_append_right _ (hs.addedAll e a v hh hold), rfl⟩
    · intro l hl
      rw [htxnext]
      rcases List.mem_append.1 hl with hl | hl
      · have := hi.logTx l hl; omega
      · have := (hs.stamp l hl).1; omega
    · intro l hl
      rcases List.mem_append.1 hl with hl | hl
      · exact T.contains_mono hi.parts (hi.logE l hl)
      · exact T.logged_entity hi hk l hl
    · intro l hl
      rcases List.mem_append.1 hl with hl | hl
      · obtain ⟨l', h1, h2⟩ := hi.stamp l hl
        exact ⟨l', List.mem_append_left _ h1, h2⟩
      · refine ⟨_, List.mem_append_right _ hinst, ?_⟩
        rw [(hs.stamp l hl).1]; exact ⟨rfl, rfl⟩

/-- What reading the partition map back does to the invariant. -/
theorem mainInv_readParts {p d : Db} (hi : MainInv p) (hs : Alike p d) (hu : uniqueOk d.store.rows = true)
    (h1 : readPart d.store.log none 0 (USER0 - 1) = .ok d.parts.db)
    (h2 : readPart d.store.log (some (USER0 - 1)) USER0 (TX0 - 1) = .ok d.parts.user)
    (h3 : readPart d.store.log (some (TX0 - 1)) TX0 I64MAX = .ok d.parts.tx) : MainInv d := by
  obtain ⟨a1, a2, a3, a4, a5, a6⟩ := readPart_ok h1
  obtain ⟨b1, b2, b3, b4, b5, b6⟩ := readPart_ok h2
  obtain ⟨c1, c2, c3, c4, c5, c6⟩ := readPart_ok h3
  obtain ⟨q1, q2, q3, q4⟩ := hi.parts.db
  obtain ⟨p1, p2, p3, p4⟩ := hi.parts.user
  obtain ⟨x1, x2, x3, x4⟩ := hi.parts.tx
  have hT : TX0 = 268435456 := rfl
  have hU : USER0 = 65536 := rfl
  obtain ⟨hs1, hs2⟩ := hs
  have hE : ∀ l ∈ onMain d.store.log, (0 ≤ l.e ∧ l.e < 41) ∨ (USER0 ≤ l.e ∧ l.e < TX0 - 1) ∨
      (TX0 ≤ l.e ∧ l.e < p.parts.tx.next) := by
    intro l hl
    rw [hs1] at hl
    have := hi.logE l hl
    simp only [Parts.containsEntid, Partition.containsEntid, Bool.or_eq_true, decide_eq_true_eq] at this
    omega
  have hstamp : ∀ l ∈ onMain d.store.log, ∃ l' ∈ onMain d.store.log, l'.tx = l.tx ∧ l'.e = l.tx := by
    rw [hs1]; exact hi.stamp
  have htx0 : ∀ l ∈ onMain d.store.log, TX0 ≤ l.tx := by
    rw [hs1]; exact fun l hl => (hi.logTx l hl).1
  refine ⟨hu, ⟨⟨a1, a2, a3, ?_⟩, ⟨b1, b2, b3, b4⟩, ⟨c1, c2, c3, c4⟩⟩, ?_, ?_, ?_, hstamp⟩
  · rcases a6 with h | ⟨l, hl, h0, h4, h5, -⟩
    · omega
    · have := hE l (mem_onMain.2 ⟨hl, h0⟩); omega
  · intro e a v h
    rw [hs1]; exact hi.known e a v ((hs2 e a v).1 h)
  · intro l hl
    refine ⟨htx0 l hl, ?_⟩
    obtain ⟨l', hl', -, he⟩ := hstamp l hl
    have h0 := htx0 l hl
    have hx := hE l' hl'
    have := c5 l' (mem_onMain.1 hl').1 (mem_onMain.1 hl').2 (by omega) (by intro x hx; cases hx; omega)
    omega
  · intro l hl
    obtain ⟨hm, ht⟩ := mem_onMain.1 hl
    simp only [Parts.containsEntid, Partition.containsEntid, Bool.or_eq_true, decide_eq_true_eq]
    rcases hE l hl with h | h | h
    · have := a5 l hm ht (by omega) (by intro x hx; cases hx)
      omega
    · have := b5 l hm ht (by omega) (by intro x hx; cases hx; omega)
      omega
    · have := c5 l hm ht (by omega) (by intro x hx; cases hx; omega)
      omega

theorem alike_of_store {p d : Db} (h : d.store = p.store) : Alike p d := by
  unfold Alike; rw [h]; exact ⟨rfl, fun _ _ _ => Iff.rfl⟩

theorem Step.between {db db' : Db} (hi : MainInv db) (h : Step db db') : Between db db' ∧ MainInv db' := by
  rcases h with ⟨now, terms, ids, rep, hk, h⟩ | h | ⟨p, h, rfl⟩
  · exact between_step hi hk h
  · obtain ⟨hst, -, -, h1, h2, h3⟩ := reopen_ok h
    rw [← hst] at h1 h2 h3
    exact ⟨Or.inl (alike_of_store hst), mainInv_readParts hi (alike_of_store hst) (hst ▸ hi.uniq) h1 h2 h3⟩
  · refine ⟨Or.inl (alike_of_store rfl), ?_⟩
    have hc := @Widens.contains _ _ h
    obtain ⟨h1, h2, h3, h4, h5, h6⟩ := h
    have hu := hi.parts.user
    refine ⟨hi.uniq, ⟨?_, ?_, ?_⟩, hi.known, ?_, fun l hl => hc (hi.logE l hl), hi.stamp⟩
    · show p.db.start = 0 ∧ _
      rw [h1]; exact hi.parts.db
    · show p.user.start = USER0 ∧ p.user.fin = TX0 - 1 ∧ USER0 ≤ p.user.next ∧ p.user.next ≤ TX0 - 1
      omega
    · show p.tx.start = TX0 ∧ _
      rw [h2]; exact hi.parts.tx
    · show ∀ l ∈ onMain db.store.log, TX0 ≤ l.tx ∧ l.tx < p.tx.next
      rw [h2]; exact hi.logTx

theorem Alike.refl (d : Db) : Alike d d := ⟨rfl, fun _ _ _ => Iff.rfl⟩

theorem Between.congr {p p' c : Db} (hs : Alike p p') (h : Between p c) : Between p' c := by
  obtain ⟨h1, h2⟩ := hs
  rcases h with ⟨h3, h4⟩ | ⟨new, tx, h3, h4, h5, h6, h7⟩
  · exact Or.inl ⟨h3.trans h1.symm, fun e a v => (h4 e a v).trans (h2 e a v).symm⟩
  · refine Or.inr ⟨new, tx, by rw [h1]; exact h3, h4, by rw [h1]; exact h5, h6, ?_⟩
    intro e a v; rw [h2]; exact h7 e a v

/-- Moved states stand for the ones they restore. -/
theorem Between.congr_right {p c c' : Db} (hs : Alike c c') (h : Between p c) : Between p c' := by
  obtain ⟨h1, h2⟩ := hs
  rcases h with ⟨h3, h4⟩ | ⟨new, tx, h3, h4, h5, h6, h7⟩
  · exact Or.inl ⟨h1.trans h3, fun e a v => (h2 e a v).trans (h4 e a v)⟩
  · refine Or.inr ⟨new, tx, by rw [h1]; exact h3, h4, h5, h6, ?_⟩
    intro e a v; rw [h2]; exact h7 e a v

/-! ### Rewinding -/

/-- States, newest first, each one at most a transaction after the next; the last is after `base`. -/
def Chain (base : Db) : List Db → Prop
  | [] => True
  | d :: r => Between (r.headD base) d ∧ Chain base r

theorem Chain.log {base : Db} {r : List Db} (h : Chain base r) :
    ∃ new, onMain (r.headD base).store.log = onMain base.store.log ++ new ∧
      ∀ l ∈ new, ∀ l' ∈ onMain base.store.log, l'.tx < l.tx := by
  induction r with
  | nil => exact ⟨[], by simp⟩
  | cons d r ih =>
    obtain ⟨new, hn, hlt⟩ := ih h.2
    rcases h.1 with ⟨h1, -⟩ | ⟨new', tx, h1, -, h3, h4, -⟩
    · exact ⟨new, by simp only [List.headD_cons]; rw [h1, hn], hlt⟩
    · refine ⟨new ++ new', by simp only [List.headD_cons]; rw [h1, hn, List.append_assoc], ?_⟩
      intro l hl l' hl'
      rcases List.mem_append.1 hl with hl | hl
      · exact hlt l hl l' hl'
      · rw [(h4 l hl).1]
        exact h3 l' (by rw [hn]; exact List.mem_append_left _ hl')

theorem uniqueOk_filter {rows : List Row} (f : Row → Bool) (h : uniqueOk rows = true) :
    uniqueOk (rows.filter f) = true := by
  rw [uniqueOk_iff] at h ⊢
  exact h.filter f

theorem rewindTxs_chain {base : Db} {now : Int} {full : Db} (hfull : MainInv full) :
    ∀ (states : List Db) (d : Db) (ts : List Entid) (s : Option Schema) (d' : Db) (s' : Option Schema),
    Chain base states → (∀ x ∈ base :: states, OneUnder full.schema x.store.rows ∧ MainInv x) →
    d.schema = full.schema → d.parts = full.parts → d.store.log = full.store.log → uniqueOk d.store.rows = true →
    (∃ later, onMain full.store.log = onMain (states.headD base).store.log ++ later ∧
      ∀ l ∈ later, ∀ l' ∈ onMain (states.headD base).store.log, l'.tx < l.tx) →
    (∀ e a v, Has d.store.rows e a v ↔ Has (states.headD base).store.rows e a v) →
    ts.Pairwise (· > ·) → (∀ t, t ∈ ts ↔ (∃ l ∈ onMain (states.headD base).store.log, l.tx = t) ∧
      ¬ ∃ l ∈ onMain base.store.log, l.tx = t) →
    rewindTxs now ts d s = .ok (d', s') →
    (∀ e a v, Has d'.store.rows e a v ↔ Has base.store.rows e a v) ∧ d'.store.log = full.store.log ∧
      uniqueOk d'.store.rows = true := by
  intro states
  induction states with
  | nil =>
    intro d ts s d' s' _ _ _ _ hl hu _ hd _ hts h
    have : ts = [] := by
      cases ts with
      | nil => rfl
      | cons t r =>
        have := (hts t).1 (by simp)
        exact absurd this.1 this.2
    subst this
    simp only [rewindTxs, Res.ok.injEq, Prod.mk.injEq] at h
    obtain ⟨rfl, -⟩ := h
    exact ⟨hd, hl, hu⟩
  | cons c r ih =>
    intro d ts s d' s' hh hone hsch hparts hlog hu hlater hd hsorted hts h
    obtain ⟨hstep, hh'⟩ := hh
    simp only [List.headD_cons] at hlater hd hts
    have hone' : ∀ x ∈ base :: r, OneUnder full.schema x.store.rows ∧ MainInv x := by
      intro x hx
      refine hone x ?_
      rcases List.mem_cons.1 hx with rfl | hx
      · simp
      · simp [hx]
    have hhead : (r.headD base) ∈ base :: r := by
      cases r with
      | nil => simp
      | cons p r => simp
    rcases hstep with ⟨he1, he2⟩ | ⟨new, T, hnew, hne, hlt, hstamp, hnet⟩
    · rw [he1] at hlater hts
      exact ih d ts s d' s' hh' hone' hsch hparts hlog hu hlater
        (fun e a v => (hd e a v).trans (he2 e a v)) hsorted hts h
    · obtain ⟨later, hlater, hlater'⟩ := hlater
      obtain ⟨old, hold, -⟩ := hh'.log
      have hT : T ∈ ts := by
        rw [hts]
        obtain ⟨l, hl⟩ := List.exists_mem_of_ne_nil new hne
        refine ⟨⟨l, by rw [hnew]; simp [hl], (hstamp l hl).1⟩, ?_⟩
        rintro ⟨l', hl', ht⟩
        have := hlt l' (by rw [hold]; simp [hl'])
        omega
      have hmax : ∀ t ∈ ts, t ≤ T := by
        intro t ht
        obtain ⟨⟨l, hl, rfl⟩, -⟩ := (hts t).1 ht
        rw [hnew] at hl
        rcases List.mem_append.1 hl with hl | hl
        · have := hlt l hl; omega
        · rw [(hstamp l hl).1]; exact Int.le_refl _
      obtain ⟨ts', rfl, hsorted', hts'⟩ := desc_cons hsorted hT hmax
      simp only [rewindTxs] at h
      cases h1 : rewindOne d now T with
      | err e => rw [h1] at h; simp [Res.bind] at h
      | panic => rw [h1] at h; simp [Res.bind] at h
      | ok x =>
        obtain ⟨d1, s1⟩ := x
        rw [h1] at h
        simp only [Res.bind] at h
        obtain ⟨k1, k2, k3, db', rep, k4, k5⟩ := rewindOne_ok h1
        have hrev : reversedTerms d.store.log T = new.map reverseRow := by
          have hsplit : (d.store.log.filter fun l => decide (l.tx = T ∧ l.timeline = 0)) =
              (onMain full.store.log).filter fun l => decide (l.tx = T) := by
            unfold onMain
            rw [hlog, List.filter_filter]
            apply List.filter_congr
            intro l _
            by_cases h1 : l.tx = T <;> by_cases h2 : l.timeline = 0 <;> simp [h1, h2]
          unfold reversedTerms
          rw [hsplit, hlater, hnew, List.filter_append, List.filter_append]
          have f1 : (onMain (r.headD base).store.log).filter (fun l => decide (l.tx = T)) = [] := by
            rw [List.filter_eq_nil_iff]
            intro l hl; have := hlt l hl; simp; omega
          have f2 : new.filter (fun l => decide (l.tx = T)) = new := by
            rw [List.filter_eq_self]
            intro l hl; simpa using (hstamp l hl).1
          have f3 : later.filter (fun l => decide (l.tx = T)) = [] := by
            rw [List.filter_eq_nil_iff]
            intro l hl
            obtain ⟨l', hl'⟩ := List.exists_mem_of_ne_nil new hne
            have := hlater' l hl l' (by rw [hnew]; simp [hl'])
            rw [(hstamp l' hl').1] at this
            simp; omega
          rw [f1, f2, f3, List.nil_append, List.append_nil]
          rfl
        rw [hrev] at k4
        obtain ⟨T1⟩ := transact_trace k4
        have hid : rep.txId = full.parts.tx.next := by
          have := (allocate_ok T1.alloc).1
          rw [hparts] at this; exact this
        have hnophantom : ∀ a v, ¬ Has (r.headD base).store.rows rep.txId a v := by
          intro a v hhas
          obtain ⟨l, hl, he⟩ := (hone' _ hhead).2.known _ a v hhas
          have hmem : l ∈ onMain full.store.log := by
            rw [hlater, hnew]; exact List.mem_append_left _ (List.mem_append_left _ hl)
          have := hfull.logE l hmem
          rw [he, hid] at this
          exact next_not_contained hfull.parts this
        have hu1 : uniqueOk d1.store.rows = true := by
          rw [k5]
          obtain ⟨f, -, -, hfu⟩ := T1.metaRows
          obtain ⟨-, hu', -⟩ := apply_ok T1.applied
          exact uniqueOk_filter _ (hfu hu')
        refine ih d1 ts' s1 d' s' hh' hone' (k1.trans hsch) (k2.trans hparts) (k3.trans hlog) hu1 ?_ ?_ hsorted' ?_ h
        · refine ⟨new ++ later, by rw [hlater, hnew, List.append_assoc], ?_⟩
          intro l hl l' hl'
          rcases List.mem_append.1 hl with hl | hl
          · rw [(hstamp l hl).1]; exact hlt l' hl'
          · exact hlater' l hl l' (by rw [hnew]; exact List.mem_append_left _ hl')
        · intro e a v
          rw [k5, has_filter]
          by_cases he : e = rep.txId
          · subst he
            exact ⟨fun h => absurd rfl h.1, fun h => absurd h (hnophantom a v)⟩
          · rw [T1.undo hd hnet (hsch ▸ (hone' _ hhead).1) (hsch ▸ (hone c (by simp)).1) he]
            exact ⟨fun h => h.2, fun h => ⟨he, h⟩⟩
        · intro t
          rw [hts', hts, hnew]
          constructor
          · rintro ⟨⟨⟨l, hl, rfl⟩, h2⟩, h3⟩
            rcases List.mem_append.1 hl with hl | hl
            · exact ⟨⟨l, hl, rfl⟩, h2⟩
            · exact absurd (hstamp l hl).1 h3
          · rintro ⟨⟨l, hl, rfl⟩, h2⟩
            have := hlt l hl
            exact ⟨⟨⟨l, List.mem_append_left _ hl, rfl⟩, h2⟩, by omega⟩

/-- A move undoes the states after `base`. -/
theorem move_chain {base d d' : Db} {qs : List Db} {now : Int} {fromTx : Entid} {tl : Int}
    (hc : Chain base (d :: qs)) (hone : ∀ x ∈ base :: d :: qs, OneUnder d.schema x.store.rows ∧ MainInv x)
    (hfrom : ∀ l ∈ onMain d.store.log, fromTx ≤ l.tx ↔ l ∉ onMain base.store.log)
    (h : moveFromMain d now fromTx tl = .ok d') :
    Alike base d' ∧ MainInv d' ∧ readParts d'.store.log = .ok d'.parts ∧
    ∃ txs : List Entid, (∀ t, t ∈ txs ↔ fromTx ≤ t ∧ ∃ l ∈ onMain d.store.log, l.tx = t) ∧
      d'.store.log = d.store.log.map fun l => if l.tx ∈ txs then { l with timeline := tl } else l := by
  have hi : MainInv d := (hone d (by simp)).2
  obtain ⟨new, hnew, hlt⟩ := hc.log
  simp only [List.headD_cons] at hnew
  unfold moveFromMain at h
  split at h
  · cases h
  · rename_i htl
    split at h
    · cases h
    · rename_i hany
      cases htxs : txsToMove d.store.log fromTx with
      | nil => rw [htxs] at h; cases h
      | cons t0 tr =>
        rw [htxs] at h
        simp only at h
        cases hrw : rewindTxs now (t0 :: tr) d none with
        | err e => rw [hrw] at h; simp [Res.bind] at h
        | panic => rw [hrw] at h; simp [Res.bind] at h
        | ok x =>
          obtain ⟨d1, s1⟩ := x
          rw [hrw] at h
          simp only [Res.bind] at h
          have hmem0 : ∀ t, t ∈ t0 :: tr ↔ fromTx ≤ t ∧ ∃ l ∈ onMain d.store.log, l.tx = t := by
            intro t
            rw [← htxs, mem_txsToMove]
            constructor
            · rintro ⟨h1, l, hl, h0, rfl⟩
              exact ⟨h1, l, mem_onMain.2 ⟨hl, h0⟩, rfl⟩
            · rintro ⟨h1, l, hl, rfl⟩
              exact ⟨h1, l, (mem_onMain.1 hl).1, (mem_onMain.1 hl).2, rfl⟩
          have hmem : ∀ t, t ∈ t0 :: tr ↔ (∃ l ∈ onMain d.store.log, l.tx = t) ∧
              ¬ ∃ l ∈ onMain base.store.log, l.tx = t := by
            intro t
            rw [hmem0]
            constructor
            · rintro ⟨h1, l, hl, rfl⟩
              refine ⟨⟨l, hl, rfl⟩, ?_⟩
              rintro ⟨l', hl', he⟩
              exact (hfrom l' (by rw [hnew]; simp [hl'])).1 (he ▸ h1) hl'
            · rintro ⟨⟨l, hl, rfl⟩, h2⟩
              exact ⟨(hfrom l hl).2 fun h3 => h2 ⟨l, h3, rfl⟩, l, hl, rfl⟩
          obtain ⟨r1, r2, r3⟩ := rewindTxs_chain hi (d :: qs) d (t0 :: tr) none d1 s1 hc hone rfl rfl rfl hi.uniq
            ⟨[], by simp, by simp⟩ (fun _ _ _ => Iff.rfl) (htxs ▸ txsToMove_sorted _ _) hmem hrw
          have hlog : moveTransactions d1.store.log (t0 :: tr) tl =
              d.store.log.map fun l => if l.tx ∈ t0 :: tr then { l with timeline := tl } else l := by
            unfold moveTransactions; rw [r2]
          rw [hlog] at h
          generalize hL : (d.store.log.map fun l => if l.tx ∈ t0 :: tr then { l with timeline := tl } else l) = L at h
          have hmain : onMain L = onMain base.store.log := by
            have step1 : onMain L = (onMain d.store.log).filter fun l => decide (l.tx ∉ t0 :: tr) := by
              rw [← hL]
              unfold onMain
              generalize d.store.log = log
              induction log with
              | nil => rfl
              | cons l log ih =>
                rw [List.map_cons, List.filter_cons, List.filter_cons, ih]
                by_cases h1 : l.tx ∈ t0 :: tr
                · rw [if_pos h1]
                  by_cases h2 : l.timeline = 0
                  · simp only [htl, h2, decide_true, if_true, decide_false, Bool.false_eq_true, if_false, List.filter_cons]
                    rw [if_neg (by simp only [decide_eq_true_eq]; exact fun h => h h1)]
                  · simp [htl, h2]
                · rw [if_neg h1]
                  by_cases h2 : l.timeline = 0
                  · simp only [h2, decide_true, if_true, List.filter_cons]
                    rw [if_pos (by simp only [decide_eq_true_eq]; exact h1)]
                  · simp [h2]
            rw [step1, hnew, List.filter_append]
            have g1 : (onMain base.store.log).filter (fun l => decide (l.tx ∉ t0 :: tr)) = onMain base.store.log := by
              rw [List.filter_eq_self]
              intro l hl
              rw [decide_eq_true_eq, hmem]
              exact fun h => h.2 ⟨l, hl, rfl⟩
            have g2 : new.filter (fun l => decide (l.tx ∉ t0 :: tr)) = [] := by
              rw [List.filter_eq_nil_iff]
              intro l hl
              rw [decide_eq_true_eq, Decidable.not_not, hmem]
              refine ⟨⟨l, by rw [hnew]; simp [hl], rfl⟩, ?_⟩
              rintro ⟨l', hl', he⟩
              have := hlt l hl l' hl'
              omega
            rw [g1, g2, List.append_nil]
          cases hp : readParts L with
          | err e => rw [hp] at h; simp at h
          | panic => rw [hp] at h; simp at h
          | ok parts =>
            rw [hp] at h
            simp only [Res.ok.injEq] at h
            subst h
            have hal : Alike base
                { schema := match s1 with | some s => s | none => d.schema, parts := parts,
                  store := { rows := d1.store.rows, log := L }, views := d1.views } := ⟨hmain, r1⟩
            refine ⟨hal, ?_, hp, t0 :: tr, hmem0, hL.symm⟩
            unfold readParts at hp
            rw [Res.bind_eq_ok] at hp
            obtain ⟨p1, h1, hp⟩ := hp
            rw [Res.bind_eq_ok] at hp
            obtain ⟨p2, h2, hp⟩ := hp
            rw [Res.bind_eq_ok] at hp
            obtain ⟨p3, h3, hp⟩ := hp
            simp only [Res.pure_eq, Res.ok.injEq] at hp
            subst hp
            exact mainInv_readParts (hone base (by simp)).2 hal r3 h1 h2 h3

/-! ### Histories with moves -/

/-- `fromTx` separates what `d` has logged on the main timeline since `p`. -/
def Since (fromTx : Entid) (p d : Db) : Prop :=
  ∀ l ∈ onMain d.store.log, fromTx ≤ l.tx ↔ l ∉ onMain p.store.log

/-- `Line d ps`: a history of transactions, reopenings, widenings and moves off the main timeline leads to
`d`; `ps` are the earlier states on its main timeline, newest first: each step adds the state it leaves, each
move drops those it goes back behind.  A move may only be made if no attribute that is cardinality-one at
that time had several values for one entity in the states that it undoes. -/
inductive Line : Db → List Db → Prop
  | boot {now db} : createCurrentVersion now = .ok db → Line db []
  | step {d d' ps} : Line d ps → Step d d' → Line d' (d :: ps)
  | move {d d' p qs ps now fromTx tl} : Line d (qs ++ p :: ps) → Since fromTx p d →
      (∀ x ∈ p :: d :: qs, OneUnder d.schema x.store.rows) → moveFromMain d now fromTx tl = .ok d' → Line d' ps

/-- Each state is at most a transaction after the next. -/
def OnLine : Db → List Db → Prop
  | _, [] => True
  | d, p :: r => Between p d ∧ OnLine p r

theorem OnLine.split {p : Db} {ps : List Db} : ∀ {qs : List Db} {d : Db}, OnLine d (qs ++ p :: ps) →
    Chain p (d :: qs) ∧ OnLine p ps
  | [], _, h => ⟨⟨h.1, trivial⟩, h.2⟩
  | _ :: _, _, h => ⟨⟨h.1, (OnLine.split h.2).1⟩, (OnLine.split h.2).2⟩

theorem OnLine.congr {p d : Db} {ps : List Db} (hs : Alike p d) (h : OnLine p ps) : OnLine d ps := by
  cases ps with
  | nil => trivial
  | cons q r => exact ⟨h.1.congr_right hs, h.2⟩

/-- The oldest state on the line. -/
def oldest (d : Db) (ps : List Db) : Db := (d :: ps).getLast (by simp)

theorem Line.inv {d : Db} {ps : List Db} (h : Line d ps) :
    OnLine d ps ∧ (∀ x ∈ d :: ps, MainInv x) ∧ ∀ l ∈ onMain (oldest d ps).store.log, l.tx = TX0 := by
  induction h with
  | boot h =>
    refine ⟨trivial, ?_, ?_⟩
    · intro x hx
      rw [List.mem_singleton.1 hx]
      exact (histInv_reach (.boot h)).main
    · intro l hl
      exact ((boot_log h).2.1 l (mem_onMain.1 hl).1).2.1
  | step _ hs ih =>
    obtain ⟨h1, h2⟩ := hs.between (ih.2.1 _ (by simp))
    refine ⟨⟨h1, ih.1⟩, ?_, ?_⟩
    · intro x hx
      rcases List.mem_cons.1 hx with rfl | hx
      · exact h2
      · exact ih.2.1 x hx
    · have := ih.2.2
      unfold oldest at this ⊢
      rw [List.getLast_cons (by simp)]
      exact this
  | @move d d' p qs ps now fromTx tl _ hs hone hm ih =>
    obtain ⟨hc, hl⟩ := ih.1.split
    have hinv : ∀ x ∈ p :: d :: qs, OneUnder d.schema x.store.rows ∧ MainInv x := by
      intro x hx
      refine ⟨hone x hx, ih.2.1 x ?_⟩
      simp only [List.mem_cons, List.mem_append] at hx ⊢
      rcases hx with rfl | rfl | hx
      · exact Or.inr (Or.inr (Or.inl rfl))
      · exact Or.inl rfl
      · exact Or.inr (Or.inl hx)
    obtain ⟨ha, hi, -⟩ := move_chain hc hinv hs hm
    refine ⟨hl.congr ha, ?_, ?_⟩
    · intro x hx
      rcases List.mem_cons.1 hx with rfl | hx
      · exact hi
      · exact ih.2.1 x (by simp [hx])
    · have hold := ih.2.2
      unfold oldest at hold ⊢
      rw [List.getLast_cons (by simp), List.getLast_append_of_ne_nil (by simp) (by simp)] at hold
      cases ps with
      | nil =>
        simp only [List.getLast_singleton] at hold ⊢
        rw [ha.1]; exact hold
      | cons q r =>
        rw [List.getLast_cons (by simp)] at hold ⊢
        exact hold

/-- Every history without moves is one. -/
theorem Reach.line {d : Db} (h : Reach d) : ∃ ps, Line d ps := by
  induction h with
  | boot h => exact ⟨[], .boot h⟩
  | step _ h ih => obtain ⟨ps, ih⟩ := ih; exact ⟨_, .step ih (Or.inl h)⟩
  | reopen _ h ih => obtain ⟨ps, ih⟩ := ih; exact ⟨_, .step ih (Or.inr (Or.inl h))⟩
  | widen _ h ih => obtain ⟨ps, ih⟩ := ih; exact ⟨_, .step ih (Or.inr (Or.inr ⟨_, h, rfl⟩))⟩

/-- C36, in part, for all histories, with moves at any points: moving what was logged on the main timeline
since `p` restores the datoms (entity, attribute, value) of `p`, its main timeline and the partition map it
would be reopened with; the moved rows, and no others of the main timeline, are on the new timeline.  Missing:
the transaction that a restored datom carries (`C36_fails`), the schema (`C36_fails_schema`), and the rows that
are on other timelines already (`C36_fails_mixed`). -/
theorem C36_moves_partial {d d' p : Db} {qs ps : List Db} {now : Int} {fromTx : Entid} {tl : Int}
    (h : Line d (qs ++ p :: ps)) (hs : Since fromTx p d)
    (hone : ∀ x ∈ p :: d :: qs, OneUnder d.schema x.store.rows)
    (hm : moveFromMain d now fromTx tl = .ok d') :
    (∀ e a v, Has d'.store.rows e a v ↔ Has p.store.rows e a v) ∧
    onMain d'.store.log = onMain p.store.log ∧ readParts p.store.log = .ok d'.parts ∧
    ∃ f : LogRow → Int, d'.store.log = d.store.log.map (fun l => { l with timeline := f l }) ∧
      ∀ l ∈ onMain d.store.log, f l = if l ∈ onMain p.store.log then 0 else tl := by
  obtain ⟨hl, hinv, -⟩ := h.inv
  obtain ⟨hc, -⟩ := hl.split
  obtain ⟨ha, -, hp, txs, htxs, hlog⟩ := move_chain hc (fun x hx => ⟨hone x hx, hinv x (by
      simp only [List.mem_cons, List.mem_append] at hx ⊢
      rcases hx with rfl | rfl | hx
      · exact Or.inr (Or.inr (Or.inl rfl))
      · exact Or.inl rfl
      · exact Or.inr (Or.inl hx))⟩) hs hm
  refine ⟨ha.2, ha.1, ?_, fun l => if l.tx ∈ txs then tl else l.timeline, ?_, ?_⟩
  · have hpe : ∀ log lo fin, partEntids log lo fin = partEntids (onMain log) lo fin := by
      intro log lo fin
      unfold partEntids onMain
      rw [List.filter_filter]
      congr 1
      apply List.filter_congr
      intro l _
      by_cases h0 : l.timeline = 0 <;> simp [h0]
    rw [← hp]
    unfold readParts readPart partIdx
    simp only [hpe p.store.log, hpe d'.store.log, ha.1]
  · rw [hlog]
    apply List.map_congr_left
    intro l _
    by_cases ht : l.tx ∈ txs <;> simp [ht]
  · intro l hl
    simp only
    by_cases hp : l ∈ onMain p.store.log
    · rw [if_pos hp, if_neg, (mem_onMain.1 hl).2]
      rw [htxs]
      exact fun h => (hs l hl).1 h.1 hp
    · rw [if_neg hp, if_pos]
      rw [htxs]
      exact ⟨(hs l hl).2 hp, l, hl, rfl⟩

/-- C36: any point after the bootstrap transaction is such a point: if there is something to move, there is an
earlier state on the main timeline that the move goes back to. -/
theorem C36_point {d : Db} {ps : List Db} {fromTx : Entid} (h : Line d ps) (h0 : TX0 < fromTx)
    (hsome : ∃ l ∈ onMain d.store.log, fromTx ≤ l.tx) :
    ∃ qs p ps', ps = qs ++ p :: ps' ∧ Since fromTx p d := by
  obtain ⟨hl, -, hold⟩ := h.inv
  clear h
  induction ps generalizing d with
  | nil =>
    obtain ⟨l, hl, hle⟩ := hsome
    have := hold l hl
    omega
  | cons q r ih =>
    have hold' : ∀ l ∈ onMain (oldest q r).store.log, l.tx = TX0 := by
      unfold oldest at hold ⊢
      rw [List.getLast_cons (by simp)] at hold
      exact hold
    by_cases hq : ∃ l ∈ onMain q.store.log, fromTx ≤ l.tx
    · obtain ⟨qs, p, ps', rfl, hs⟩ := ih hq hl.2 hold'
      refine ⟨q :: qs, p, ps', rfl, ?_⟩
      rcases hl.1 with ⟨h1, -⟩ | ⟨new, tx, h1, -, h3, h4, -⟩
      · unfold Since; rw [h1]; exact hs
      · intro l hm
        rw [h1] at hm
        rcases List.mem_append.1 hm with hm | hm
        · exact hs l hm
        · obtain ⟨l0, hl0, hle⟩ := hq
          have := h3 l0 hl0
          have h5 := (h4 l hm).1
          obtain ⟨old, ho, -⟩ := (OnLine.split hl.2).1.log
          simp only [List.headD_cons] at ho
          refine ⟨fun _ hp => ?_, fun _ => by omega⟩
          have := h3 l (by rw [ho]; exact List.mem_append_left _ hp)
          omega
    · refine ⟨[], q, r, rfl, ?_⟩
      obtain ⟨l0, hl0, hle0⟩ := hsome
      rcases hl.1 with ⟨h1, -⟩ | ⟨new, tx, h1, -, h3, h4, -⟩
      · exact absurd ⟨l0, h1 ▸ hl0, hle0⟩ hq
      · intro l hm
        rw [h1] at hm hl0
        rcases List.mem_append.1 hm with hm | hm
        · exact ⟨fun hle => absurd ⟨l, hm, hle⟩ hq, fun hn => absurd hm hn⟩
        · have h5 := (h4 l hm).1
          rcases List.mem_append.1 hl0 with hl0 | hl0
          · exact absurd ⟨l0, hl0, hle0⟩ hq
          · have := (h4 l0 hl0).1
            refine ⟨fun _ hp => ?_, fun _ => by omega⟩
            have := h3 l hp
            omega

/-- A decidable form of the hypothesis on the point. -/
def sinceB (fromTx : Entid) (p d : Db) : Bool :=
  decide (∀ l ∈ onMain d.store.log, (fromTx ≤ l.tx ↔ l ∉ onMain p.store.log))

/-- A transaction is made on `db0`, moved to timeline 7, made again and moved to timeline 8. -/
def moveTwice (db0 : Db) (p : Db → Db → Db → Db → Bool) : Bool :=
  match stepTo db0 changeTx with
  | some d1 => sinceB (TX0 + 3) db0 d1 && oneB d1.schema db0.store.rows && oneB d1.schema d1.store.rows &&
    match moveFromMain d1 0 (TX0 + 3) 7 with
    | .ok d2 => match stepTo d2 changeTx with
      | some d3 => sinceB (TX0 + 3) d2 d3 && oneB d3.schema d2.store.rows && oneB d3.schema d3.store.rows &&
        match moveFromMain d3 0 (TX0 + 3) 8 with
        | .ok d4 => p d1 d2 d3 d4
        | _ => false
      | none => false
    | _ => false
  | none => false

theorem moveTwice_ok {db0 : Db} {p : Db → Db → Db → Db → Bool} (h : moveTwice db0 p = true) :
    ∃ d1 d2 d3 d4, Step db0 d1 ∧ Since (TX0 + 3) db0 d1 ∧
      (∀ x ∈ [db0, d1], OneUnder d1.schema x.store.rows) ∧ moveFromMain d1 0 (TX0 + 3) 7 = .ok d2 ∧
      Step d2 d3 ∧ Since (TX0 + 3) d2 d3 ∧
      (∀ x ∈ [d2, d3], OneUnder d3.schema x.store.rows) ∧ moveFromMain d3 0 (TX0 + 3) 8 = .ok d4 ∧
      p d1 d2 d3 d4 = true := by
  unfold moveTwice at h
  split at h
  · rename_i d1 s1
    simp only [Bool.and_eq_true] at h
    obtain ⟨⟨⟨a1, a2⟩, a3⟩, h⟩ := h
    split at h
    · rename_i d2 m1
      split at h
      · rename_i d3 s2
        simp only [Bool.and_eq_true] at h
        obtain ⟨⟨⟨b1, b2⟩, b3⟩, h⟩ := h
        split at h
        · rename_i d4 m2
          refine ⟨d1, d2, d3, d4, stepTo_step s1, fun l hl => of_decide_eq_true a1 l hl, ?_, m1, stepTo_step s2,
            fun l hl => of_decide_eq_true b1 l hl, ?_, m2, h⟩
          · intro x hx
            rcases List.mem_cons.1 hx with rfl | hx
            · exact oneB_iff a2
            · rw [List.mem_singleton.1 hx]; exact oneB_iff a3
          · intro x hx
            rcases List.mem_cons.1 hx with rfl | hx
            · exact oneB_iff b2
            · rw [List.mem_singleton.1 hx]; exact oneB_iff b3
        · cases h
      · cases h
    · cases h
  · cases h

/-- The second of two moves, with all that `C36_moves_partial` asks for; and the rows of timeline 7, which the
first move made, are on timeline 8 after the second: the new transaction has the id of the one moved away
before, and timelines.rs:73-90 moves rows by transaction id, whatever timeline they are on.  So the move does
not leave the other timelines alone, and timeline 8 has two transactions with one id. -/
theorem C36_fails_mixed : ∃ d2 d3 d4 ps, Line d3 (d2 :: ps) ∧ Since (TX0 + 3) d2 d3 ∧
    (∀ x ∈ [d2, d3], OneUnder d3.schema x.store.rows) ∧ moveFromMain d3 0 (TX0 + 3) 8 = .ok d4 ∧
    ¬ Has d3.store.rows e1 xOne (str "a") ∧ Has d4.store.rows e1 xOne (str "a") ∧
    (∃ l ∈ d3.store.log, l.timeline = 7) ∧ (∀ l ∈ d4.store.log, l.timeline ≠ 7) ∧
    ∃ i j : Nat, i ≠ j ∧ d4.store.log[i]? = d4.store.log[j]? ∧ d4.store.log[i]?.isSome := by
  obtain ⟨db0, h, hp⟩ := reachKept_of_setup (txs := [dataTx]) (p := fun db0 =>
    moveTwice db0 fun _ _ d3 d4 => !hasB d3 e1 xOne (str "a") && hasB d4 e1 xOne (str "a") &&
      (d3.store.log.any fun l => decide (l.timeline = 7)) && (d4.store.log.all fun l => decide (l.timeline ≠ 7)) &&
      (List.range d4.store.log.length).any fun i => (List.range i).any fun j =>
        decide (d4.store.log[i]? = d4.store.log[j]?)) (by decide +kernel)
  obtain ⟨d1, d2, d3, d4, s1, f1, o1, m1, s2, f2, o2, m2, hp⟩ := moveTwice_ok hp
  obtain ⟨ps, hl⟩ := h.reach.line
  have l2 : Line d2 ps := .move (qs := []) (.step hl s1) f1 o1 m1
  simp only [Bool.and_eq_true, List.any_eq_true, List.all_eq_true, decide_eq_true_eq, Bool.not_eq_true',
    List.mem_range] at hp
  obtain ⟨⟨⟨⟨h1, h2⟩, h3⟩, h4⟩, i, hi, j, hj, h5⟩ := hp
  refine ⟨d2, d3, d4, ps, .step l2 s2, f2, o2, m2, ?_, hasB_iff.1 h2, h3, h4, i, j, by omega, h5, ?_⟩
  · intro hh; rw [hasB_iff.2 hh] at h1; cases h1
  · rw [List.getElem?_eq_getElem hi]; rfl

end Mentat
