import Verif.Model.Timelines
import Verif.Props.Datoms
import Verif.Proofs.Examples
/- C36: moving transactions off the main timeline. -/
namespace Mentat

/-! ### Undoing one transaction -/

/-- The log rows `L` are the net change from `p` to `c`. -/
def NetChange (L : List LogRow) (p c : List Row) : Prop :=
  ∀ e a v, ((∃ l ∈ L, l.e = e ∧ l.a = a ∧ l.v = v ∧ l.added = true) ↔ ¬ Has p e a v ∧ Has c e a v) ∧
    ((∃ l ∈ L, l.e = e ∧ l.a = a ∧ l.v = v ∧ l.added = false) ↔ Has p e a v ∧ ¬ Has c e a v)

/-- At most one value per entity, for the attributes that `s` calls cardinality one. -/
def OneUnder (s : Schema) (rows : List Row) : Prop :=
  ∀ a at_, s.attr a = some at_ → at_.multival = false → ∀ e v v', Has rows e a v → Has rows e a v' → v = v'

def reverseRow (l : LogRow) : TTerm := ⟨if l.added then .retract else .add, .inl l.e, l.a, .inl l.v⟩

namespace TxTrace
variable {db : Db} {sfm : Schema} {now : Int} {act : TxAction} {db' : Db} {rep : Report} {L : List LogRow}

theorem reversed_terms (T : TxTrace db sfm now (L.map reverseRow) [] act db' rep) (y : RTerm) :
    y ∈ T.s3.terms ↔ ∃ l ∈ L, y = ⟨if l.added then .retract else .add, l.e, l.a, l.v⟩ := by
  obtain ⟨U, -, hs, hc⟩ := T.terms_spec
  constructor
  · intro hy
    obtain ⟨x, hx, h1, h2, h3, h4⟩ := hs y hy
    obtain ⟨l, hl, rfl⟩ := List.mem_map.1 hx
    refine ⟨l, hl, ?_⟩
    obtain ⟨op, e, a, v⟩ := y
    simp only [reverseRow, DenotesE, DenotesV] at h1 h2 h3 h4
    rw [h1, h2, h3, h4]
  · rintro ⟨l, hl, rfl⟩
    rcases hc (reverseRow l) (List.mem_map.2 ⟨l, hl, rfl⟩) with ⟨y, hy, h1, h2, h3, h4⟩ | h
    · obtain ⟨op, e, a, v⟩ := y
      simp only [reverseRow, DenotesE, DenotesV] at h1 h2 h3 h4
      rw [h1, h2, h3, h4] at hy; exact hy
    · obtain ⟨-, -, t, n, v, h, -⟩ := h
      simp [reverseRow] at h

/-- Transacting the reverse of the change from `p` to `c` on a store with the datoms of `c` gives the
datoms of `p`, but for those of the transaction itself. -/
theorem undo (T : TxTrace db sfm now (L.map reverseRow) [] act db' rep) {p c : List Row}
    (hd : ∀ e a v, Has db.store.rows e a v ↔ Has c e a v) (hn : NetChange L p c)
    (hp : OneUnder db.schema p) (hc : OneUnder db.schema c) {e a : Entid} (he : e ≠ rep.txId) (v : TypedValue) :
    Has db'.store.rows e a v ↔ Has p e a v := by
  -- entries of the queue about (e, a)
  have qret : ∀ q ∈ reducedOf db.schema T.t, q.added = false → ¬ Has p q.e q.a q.v ∧ Has c q.e q.a q.v := by
    intro q hq ha
    rcases (T.mem_queue.1 hq).2 with ⟨h, -⟩ | ⟨-, h⟩
    · rw [ha] at h; cases h
    · obtain ⟨l, hl, h⟩ := (T.reversed_terms _).1 h
      refine (hn q.e q.a q.v).1.1 ⟨l, hl, ?_⟩
      cases hx : l.added with
      | true => simp only [hx, if_true, Term.mk.injEq] at h; exact ⟨h.2.1.symm, h.2.2.1.symm, h.2.2.2.symm, rfl⟩
      | false => simp [hx] at h
  have qadd : ∀ q ∈ reducedOf db.schema T.t, q.added = true → q.e ≠ rep.txId →
      Has p q.e q.a q.v ∧ ¬ Has c q.e q.a q.v := by
    intro q hq ha hne
    rcases (T.mem_queue.1 hq).2 with ⟨-, h | ⟨-, h, -⟩⟩ | ⟨h, -⟩
    · obtain ⟨l, hl, h⟩ := (T.reversed_terms _).1 h
      refine (hn q.e q.a q.v).2.1 ⟨l, hl, ?_⟩
      cases hx : l.added with
      | true => simp [hx] at h
      | false =>
        simp only [hx, Bool.false_eq_true, if_false, Term.mk.injEq] at h
        exact ⟨h.2.1.symm, h.2.2.1.symm, h.2.2.2.symm, rfl⟩
    · exact absurd h hne
    · rw [ha] at h; cases h
  rw [T.has_iff]
  constructor
  · rintro ⟨r, hr, rfl, rfl, rfl⟩
    rcases (T.mem_store r).1 hr with ⟨h1, h2⟩ | ⟨q, hq, hi, rfl⟩
    · apply Classical.byContradiction
      intro hnp
      have hcr : Has c r.e r.a r.v := (hd _ _ _).1 ⟨r, h1, rfl, rfl, rfl⟩
      obtain ⟨l, hl, l1, l2, l3, l4⟩ := (hn r.e r.a r.v).1.2 ⟨hnp, hcr⟩
      have ht : (⟨.retract, r.e, r.a, r.v⟩ : RTerm) ∈ T.s3.terms :=
        (T.reversed_terms _).2 ⟨l, hl, by simp [l1, l2, l3, l4]⟩
      obtain ⟨at_, hat⟩ := Option.isSome_iff_exists.1 (T.t0Spec.attrs _ ht)
      have hq := (T.mem_queue (q := ⟨r.e, r.a, at_, r.v, false⟩)).2 ⟨hat, Or.inr ⟨rfl, ht⟩⟩
      exact h2 ⟨_, hq, ⟨rfl, rfl, fun _ => rfl⟩, Or.inl rfl⟩
    · exact (qadd q hq hi.1 he).1
  · intro hpv
    by_cases hcv : Has c e a v
    · obtain ⟨r, hr, rfl, rfl, rfl⟩ := (hd e a v).2 hcv
      refine ⟨r, (T.mem_store r).2 (Or.inl ⟨hr, ?_⟩), rfl, rfl, rfl⟩
      rintro ⟨q, hq, ⟨j1, j2, j3⟩, hdel⟩
      have hat := (T.mem_queue.1 hq).1
      cases hadd : q.added with
      | false =>
        obtain ⟨k1, k2⟩ := qret q hq hadd
        have : q.v = r.v := by
          cases hm : q.attr.multival with
          | true => exact (j3 hm).symm
          | false =>
            rw [j1, j2] at hcv
            exact hc q.a q.attr hat hm _ _ _ k2 hcv
        rw [this, ← j1, ← j2] at k1
        exact k1 hpv
      | true =>
        obtain ⟨k1, k2⟩ := qadd q hq hadd (j1 ▸ he)
        rcases hdel with h | ⟨hm, hne⟩
        · rw [hadd] at h; cases h
        · rw [j1, j2] at hpv
          exact hne (hp q.a q.attr hat hm _ _ _ k1 hpv)
    · obtain ⟨l, hl, l1, l2, l3, l4⟩ := (hn e a v).2.2 ⟨hpv, hcv⟩
      have ht : (⟨.add, e, a, v⟩ : RTerm) ∈ T.s3.terms :=
        (T.reversed_terms _).2 ⟨l, hl, by simp [l1, l2, l3, l4]⟩
      obtain ⟨at_, hat⟩ := Option.isSome_iff_exists.1 (T.t0Spec.attrs _ ht)
      have hq := (T.mem_queue (q := ⟨e, a, at_, v, true⟩)).2 ⟨hat, Or.inl ⟨rfl, Or.inl ht⟩⟩
      refine ⟨newRow rep.txId ⟨e, a, at_, v, true⟩, (T.mem_store _).2 (Or.inr ⟨_, hq, ⟨rfl, ?_⟩, rfl⟩), rfl, rfl, rfl⟩
      by_cases hj : ∃ r ∈ db.store.rows, Joins ⟨e, a, at_, v, true⟩ r
      · obtain ⟨r, hr, hj⟩ := hj
        refine Or.inr ⟨r, hr, hj, ?_⟩
        intro hv
        exact hcv ((hd e a v).1 ⟨r, hr, hj.1, hj.2.1, hv.symm⟩)
      · exact Or.inl fun r hr hj' => hj ⟨r, hr, hj'⟩

end TxTrace

/-! ### Histories -/

/-- One step of a history: a transaction, reopening the store, widening its user partition. -/
def Step (db db' : Db) : Prop :=
  Transacts db db' ∨ reopen db = .ok db' ∨ ∃ p, Widens db.parts p ∧ db' = { db with parts := p }

/-- The states of a history, newest first, after `db0`. -/
def History (db0 : Db) : List Db → Prop
  | [] => True
  | [d] => Step db0 d
  | d :: p :: r => Step p d ∧ History db0 (p :: r)

theorem History.tail {db0 d : Db} {r : List Db} (h : History db0 (d :: r)) :
    Step (r.headD db0) d ∧ History db0 r := by
  cases r with
  | nil => exact ⟨h, trivial⟩
  | cons p r => exact h

theorem Step.reach {db db' : Db} (hr : Reach db) (h : Step db db') : Reach db' := by
  rcases h with h | h | ⟨p, h, rfl⟩
  · exact .step hr h
  · exact .reopen hr h
  · exact .widen hr h

theorem History.reach {db0 : Db} (hr : Reach db0) {r : List Db} (h : History db0 r) : Reach (r.headD db0) := by
  induction r with
  | nil => exact hr
  | cons d r ih => exact (h.tail.1).reach (ih h.tail.2)

/-- A step leaves the store as it is, or appends the net change under a new transaction id. -/
theorem Step.store {db db' : Db} (hr : Reach db) (h : Step db db') :
    db'.store = db.store ∨ ∃ new tx, db'.store.log = db.store.log ++ new ∧ new ≠ [] ∧
      (∀ l ∈ db.store.log, l.tx < tx) ∧ (∀ l ∈ new, l.tx = tx ∧ l.timeline = 0) ∧
      NetChange new db.store.rows db'.store.rows := by
  rcases h with ⟨now, terms, ids, rep, hk, h⟩ | h | ⟨p, -, rfl⟩
  · right
    obtain ⟨new, h1, -, h2⟩ := C17_net_change hr h
    obtain ⟨h3, new', h4, h5, h6, -⟩ := C18_tx_ids hr hk h
    have : new = new' := List.append_cancel_left (h1.symm.trans h4)
    subst this
    refine ⟨new, rep.txId, h1, ?_, h3, fun l hl => ⟨h5 l hl, ((h2 l).1 hl).2.1⟩, ?_⟩
    · intro hn; rw [hn] at h6; cases h6
    · intro e a v
      constructor
      · constructor
        · rintro ⟨l, hl, rfl, rfl, rfl, ha⟩
          rcases ((h2 l).1 hl).2.2 with ⟨-, h⟩ | ⟨h, -⟩
          · exact h
          · rw [ha] at h; cases h
        · intro h
          exact ⟨⟨e, a, v, rep.txId, true, 0⟩, (h2 _).2 ⟨rfl, rfl, Or.inl ⟨rfl, h⟩⟩, rfl, rfl, rfl, rfl⟩
      · constructor
        · rintro ⟨l, hl, rfl, rfl, rfl, ha⟩
          rcases ((h2 l).1 hl).2.2 with ⟨h, -⟩ | ⟨-, h⟩
          · rw [ha] at h; cases h
          · exact h
        · intro h
          exact ⟨⟨e, a, v, rep.txId, false, 0⟩, (h2 _).2 ⟨rfl, rfl, Or.inr ⟨rfl, h⟩⟩, rfl, rfl, rfl, rfl⟩
  · left; exact (reopen_ok h).1
  · left; rfl

theorem History.log {db0 : Db} (hr : Reach db0) {r : List Db} (h : History db0 r) :
    ∃ new, (r.headD db0).store.log = db0.store.log ++ new := by
  induction r with
  | nil => exact ⟨[], by simp⟩
  | cons d r ih =>
    obtain ⟨new, hn⟩ := ih h.tail.2
    rcases h.tail.1.store (h.tail.2.reach hr) with h1 | ⟨new', tx, h1, -⟩
    · exact ⟨new, by simp only [List.headD_cons]; rw [h1, hn]⟩
    · exact ⟨new ++ new', by simp only [List.headD_cons]; rw [h1, hn, List.append_assoc]⟩

/-! ### Rewinding -/

theorem rewindOne_ok {db db1 : Db} {now tx s} (h : rewindOne db now tx = .ok (db1, s)) :
    db1.schema = db.schema ∧ db1.parts = db.parts ∧ db1.store.log = db.store.log ∧
    ∃ db' rep, transactTermsWith db db.schema now (reversedTerms db.store.log tx) [] .materialize = .ok (db', rep) ∧
      db1.store.rows = db'.store.rows.filter fun r => decide (r.e ≠ rep.txId) := by
  unfold rewindOne at h
  cases ht : transactTermsWith db db.schema now (reversedTerms db.store.log tx) [] .materialize with
  | err e => rw [ht] at h; simp [Res.bind] at h
  | panic => rw [ht] at h; simp [Res.bind] at h
  | ok x =>
    obtain ⟨db', rep⟩ := x
    rw [ht] at h
    simp only [Res.bind, Res.ok.injEq, Prod.mk.injEq] at h
    obtain ⟨rfl, -⟩ := h
    refine ⟨rfl, rfl, ?_, db', rep, rfl, rfl⟩
    obtain ⟨T⟩ := transact_trace ht
    obtain ⟨-, -, -, -, -, -, hlog⟩ := apply_ok T.applied
    exact T.log.trans (hlog rfl)

theorem has_filter {rows : List Row} {t e a v} :
    Has (rows.filter fun r => decide (r.e ≠ t)) e a v ↔ e ≠ t ∧ Has rows e a v := by
  constructor
  · rintro ⟨r, hr, rfl, rfl, rfl⟩
    obtain ⟨h1, h2⟩ := List.mem_filter.1 hr
    exact ⟨by simpa using h2, r, h1, rfl, rfl, rfl⟩
  · rintro ⟨h, r, hr, rfl, rfl, rfl⟩
    exact ⟨r, List.mem_filter.2 ⟨hr, by simpa using h⟩, rfl, rfl, rfl⟩

theorem desc_cons {ts : List Entid} (h : ts.Pairwise (· > ·)) {T : Entid} (hT : T ∈ ts) (hmax : ∀ t ∈ ts, t ≤ T) :
    ∃ ts', ts = T :: ts' ∧ ts'.Pairwise (· > ·) ∧ ∀ t, t ∈ ts' ↔ t ∈ ts ∧ t ≠ T := by
  cases ts with
  | nil => cases hT
  | cons x r =>
    rw [List.pairwise_cons] at h
    have : x = T := by
      rcases List.mem_cons.1 hT with h' | h'
      · exact h'.symm
      · have := h.1 T h'; have := hmax x (by simp); omega
    subst this
    refine ⟨r, rfl, h.2, ?_⟩
    intro t
    constructor
    · intro ht; have := h.1 t ht; exact ⟨List.mem_cons_of_mem _ ht, by omega⟩
    · rintro ⟨ht, hne⟩
      rcases List.mem_cons.1 ht with h' | h'
      · exact absurd h' hne
      · exact h'

theorem rewindTxs_history {db0 : Db} (hr0 : Reach db0) {now : Int} {full : Db} (hfull : HistInv full) :
    ∀ (states : List Db) (d : Db) (ts : List Entid) (s : Option Schema) (d' : Db) (s' : Option Schema),
    History db0 states → (∀ x ∈ states, OneUnder full.schema x.store.rows) → OneUnder full.schema db0.store.rows →
    d.schema = full.schema → d.parts = full.parts → d.store.log = full.store.log →
    (∃ later, full.store.log = (states.headD db0).store.log ++ later ∧
      ∀ l ∈ later, ∀ l' ∈ (states.headD db0).store.log, l'.tx < l.tx) →
    (∀ e a v, Has d.store.rows e a v ↔ Has (states.headD db0).store.rows e a v) →
    ts.Pairwise (· > ·) → (∀ t, t ∈ ts ↔ (∃ l ∈ (states.headD db0).store.log, l.tx = t) ∧
      ¬ ∃ l ∈ db0.store.log, l.tx = t) →
    rewindTxs now ts d s = .ok (d', s') →
    (∀ e a v, Has d'.store.rows e a v ↔ Has db0.store.rows e a v) ∧ d'.store.log = full.store.log := by
  intro states
  induction states with
  | nil =>
    intro d ts s d' s' _ _ _ _ _ hl _ hd _ hts h
    have : ts = [] := by
      cases ts with
      | nil => rfl
      | cons t r =>
        have := (hts t).1 (by simp)
        exact absurd this.1 this.2
    subst this
    simp only [rewindTxs, Res.ok.injEq, Prod.mk.injEq] at h
    obtain ⟨rfl, -⟩ := h
    exact ⟨hd, hl⟩
  | cons c r ih =>
    intro d ts s d' s' hh hone hone0 hsch hparts hlog hlater hd hsorted hts h
    obtain ⟨hstep, hh'⟩ := hh.tail
    have hrp := hh'.reach hr0
    have hrc : Reach c := hstep.reach hrp
    simp only [List.headD_cons] at hlater hd hts
    have hone' : ∀ x ∈ r, OneUnder full.schema x.store.rows := fun x hx => hone x (List.mem_cons_of_mem _ hx)
    rcases hstep.store hrp with he | ⟨new, T, hnew, hne, hlt, hstamp, hnet⟩
    · rw [he] at hlater hd hts
      exact ih d ts s d' s' hh' hone' hone0 hsch hparts hlog hlater hd hsorted hts h
    · obtain ⟨later, hlater, hlater'⟩ := hlater
      obtain ⟨old, hold⟩ := hh'.log hr0
      have hT : T ∈ ts := by
        rw [hts]
        obtain ⟨l, hl⟩ := List.exists_mem_of_ne_nil new hne
        refine ⟨⟨l, by rw [hnew]; simp [hl], (hstamp l hl).1⟩, ?_⟩
        rintro ⟨l', hl', ht⟩
        have := hlt l' (by rw [hold]; simp [hl'])
        omega
      have hmax : ∀ t ∈ ts, t ≤ T := by
        intro t ht
        obtain ⟨⟨l, hl, rfl⟩, -⟩ := (hts t).1 ht
        rw [hnew] at hl
        rcases List.mem_append.1 hl with hl | hl
        · have := hlt l hl; omega
        · rw [(hstamp l hl).1]; exact Int.le_refl _
      obtain ⟨ts', rfl, hsorted', hts'⟩ := desc_cons hsorted hT hmax
      simp only [rewindTxs] at h
      cases h1 : rewindOne d now T with
      | err e => rw [h1] at h; simp [Res.bind] at h
      | panic => rw [h1] at h; simp [Res.bind] at h
      | ok x =>
        obtain ⟨d1, s1⟩ := x
        rw [h1] at h
        simp only [Res.bind] at h
        obtain ⟨k1, k2, k3, db', rep, k4, k5⟩ := rewindOne_ok h1
        have hrev : reversedTerms d.store.log T = new.map reverseRow := by
          unfold reversedTerms
          rw [hlog, hlater, hnew, List.filter_append, List.filter_append]
          have f1 : (r.headD db0).store.log.filter (fun l => decide (l.tx = T ∧ l.timeline = 0)) = [] := by
            rw [List.filter_eq_nil_iff]
            intro l hl; have := hlt l hl; simp; omega
          have f2 : new.filter (fun l => decide (l.tx = T ∧ l.timeline = 0)) = new := by
            rw [List.filter_eq_self]
            intro l hl; simpa using hstamp l hl
          have f3 : later.filter (fun l => decide (l.tx = T ∧ l.timeline = 0)) = [] := by
            rw [List.filter_eq_nil_iff]
            intro l hl
            obtain ⟨l', hl'⟩ := List.exists_mem_of_ne_nil new hne
            have := hlater' l hl l' (by rw [hnew]; simp [hl'])
            rw [(hstamp l' hl').1] at this
            simp; omega
          rw [f1, f2, f3, List.nil_append, List.append_nil]
          rfl
        rw [hrev] at k4
        obtain ⟨T1⟩ := transact_trace k4
        have hid : rep.txId = full.parts.tx.next := by
          have := (allocate_ok T1.alloc).1
          rw [hparts] at this; exact this
        have hnophantom : ∀ a v, ¬ Has (r.headD db0).store.rows rep.txId a v := by
          intro a v hhas
          obtain ⟨l, hl, he, -⟩ := has_rows_log (histInv_reach hrp).replay hhas
          have hmem : l ∈ full.store.log := by
            rw [hlater, hnew]; exact List.mem_append_left _ (List.mem_append_left _ hl)
          have := hfull.logE l hmem
          have hx := hfull.parts.tx
          have hu := hfull.parts.user
          have hb := hfull.parts.db
          rw [he, hid] at this
          simp only [Parts.containsEntid, Partition.containsEntid, Bool.or_eq_true, decide_eq_true_eq] at this
          simp only [TX0, USER0] at *
          omega
        refine ih d1 ts' s1 d' s' hh' hone' hone0 (k1.trans hsch) (k2.trans hparts) (k3.trans hlog) ?_ ?_ hsorted' ?_ h
        · refine ⟨new ++ later, by rw [hlater, hnew, List.append_assoc], ?_⟩
          intro l hl l' hl'
          rcases List.mem_append.1 hl with hl | hl
          · rw [(hstamp l hl).1]; exact hlt l' hl'
          · exact hlater' l hl l' (by rw [hnew]; exact List.mem_append_left _ hl')
        · intro e a v
          rw [k5, has_filter]
          have honep : OneUnder full.schema (r.headD db0).store.rows := by
            cases r with
            | nil => exact hone0
            | cons p r => exact hone' p (by simp)
          by_cases he : e = rep.txId
          · subst he
            exact ⟨fun h => absurd rfl h.1, fun h => absurd h (hnophantom a v)⟩
          · rw [T1.undo hd hnet (hsch ▸ honep) (hsch ▸ hone c (by simp)) he]
            exact ⟨fun h => h.2, fun h => ⟨he, h⟩⟩
        · intro t
          rw [hts', hts, hnew]
          constructor
          · rintro ⟨⟨⟨l, hl, rfl⟩, h2⟩, h3⟩
            rcases List.mem_append.1 hl with hl | hl
            · exact ⟨⟨l, hl, rfl⟩, h2⟩
            · exact absurd (hstamp l hl).1 h3
          · rintro ⟨⟨l, hl, rfl⟩, h2⟩
            have := hlt l hl
            exact ⟨⟨⟨l, List.mem_append_left _ hl, rfl⟩, h2⟩, by omega⟩

theorem pairwise_insertSortedBy_lt {α : Type} (key : α → Int) (x : α) (l : List α)
    (h : l.Pairwise fun a b => key a < key b) (hx : ∀ y ∈ l, key y ≠ key x) :
    (insertSortedBy key x l).Pairwise fun a b => key a < key b := by
  induction l with
  | nil => simp [insertSortedBy]
  | cons y r ih =>
    unfold insertSortedBy
    rw [List.pairwise_cons] at h
    have hxy := hx y (by simp)
    split
    · rename_i hle
      rw [List.pairwise_cons]
      refine ⟨?_, List.pairwise_cons.2 h⟩
      intro z hz
      rcases List.mem_cons.1 hz with rfl | hz
      · omega
      · have := h.1 z hz; omega
    · rename_i hle
      rw [List.pairwise_cons]
      refine ⟨?_, ih h.2 fun z hz => hx z (List.mem_cons_of_mem _ hz)⟩
      intro z hz
      rcases (mem_insertSortedBy key x z r).1 hz with rfl | hz
      · omega
      · exact h.1 z hz

theorem txsToMove_sorted (log : List LogRow) (fromTx : Entid) : (txsToMove log fromTx).Pairwise (· > ·) := by
  unfold txsToMove
  generalize hl : dedup ((log.filter fun l => decide (fromTx ≤ l.tx ∧ l.timeline = 0)).map (·.tx)) = l
  have hn : l.Nodup := hl ▸ nodup_dedup _
  clear hl
  have : (sortBy (fun t : Entid => -t) l).Pairwise fun a b => -a < -b := by
    induction l with
    | nil => simp [sortBy]
    | cons x r ih =>
      rw [List.nodup_cons] at hn
      unfold sortBy
      refine pairwise_insertSortedBy_lt _ x _ (ih hn.2) ?_
      intro y hy he
      rw [mem_sortBy] at hy
      have : y = x := by omega
      exact hn.1 (this ▸ hy)
  exact this.imp fun h => by omega

theorem mem_txsToMove {log : List LogRow} {fromTx t : Entid} :
    t ∈ txsToMove log fromTx ↔ fromTx ≤ t ∧ ∃ l ∈ log, l.timeline = 0 ∧ l.tx = t := by
  unfold txsToMove
  rw [mem_sortBy, mem_dedup, List.mem_map]
  constructor
  · rintro ⟨l, hl, rfl⟩
    have := List.mem_filter.1 hl
    simp only [decide_eq_true_eq] at this
    exact ⟨this.2.1, l, this.1, this.2.2, rfl⟩
  · rintro ⟨h1, l, hl, h2, rfl⟩
    exact ⟨l, List.mem_filter.2 ⟨hl, by simp [h1, h2]⟩, rfl⟩

theorem partEntids_append (l l' : List LogRow) (lo : Option Entid) (fin : Entid) :
    partEntids (l ++ l') lo fin = partEntids l lo fin ++ partEntids l' lo fin := by
  unfold partEntids; rw [List.filter_append, List.map_append]

theorem partEntids_off {l : List LogRow} (h : ∀ x ∈ l, x.timeline ≠ 0) (lo : Option Entid) (fin : Entid) :
    partEntids l lo fin = [] := by
  unfold partEntids
  rw [List.map_eq_nil_iff, List.filter_eq_nil_iff]
  intro x hx
  have := h x hx
  simp [this]

/-- C36, in part: take any history from `db0`, at the end of which some transactions, exactly those
from `fromTx` on, are moved off the main timeline.  Then the same datoms (entity, attribute, value)
are present as in `db0`, the moved rows and no others are on the new timeline, and the partition map
is the one `db0` would be reopened with.  Hypothesis: no attribute that ends up cardinality-one had
several values for one entity on the way.  Missing: the transaction a restored datom carries
(`C36_fails`) and the schema (`C36_fails_schema`). -/
theorem C36_datoms_partial {db0 db' : Db} {states : List Db} {now : Int} {fromTx : Entid} {tl : Int}
    (hr : Reach db0) (hh : History db0 states)
    (hone : ∀ x ∈ db0 :: states, OneUnder (states.headD db0).schema x.store.rows)
    (hfrom : ∀ l ∈ (states.headD db0).store.log, fromTx ≤ l.tx ↔ l ∉ db0.store.log)
    (h : moveFromMain (states.headD db0) now fromTx tl = .ok db') :
    (∀ e a v, Has db'.store.rows e a v ↔ Has db0.store.rows e a v) ∧
    (db'.store.log = (states.headD db0).store.log.map fun l =>
      if fromTx ≤ l.tx then { l with timeline := tl } else l) ∧
    readParts db0.store.log = .ok db'.parts := by
  have hrd := hh.reach hr
  have hi := histInv_reach hrd
  have hi0 := histInv_reach hr
  obtain ⟨new, hnew⟩ := hh.log hr
  generalize hd : states.headD db0 = db at *
  unfold moveFromMain at h
  split at h
  · cases h
  · rename_i htl
    split at h
    · cases h
    · rename_i hany
      cases htxs : txsToMove db.store.log fromTx with
      | nil => rw [htxs] at h; cases h
      | cons t0 tr =>
        rw [htxs] at h
        simp only at h
        cases hrw : rewindTxs now (t0 :: tr) db none with
        | err e => rw [hrw] at h; simp [Res.bind] at h
        | panic => rw [hrw] at h; simp [Res.bind] at h
        | ok x =>
          obtain ⟨d1, s1⟩ := x
          rw [hrw] at h
          simp only [Res.bind] at h
          have hmem : ∀ t, t ∈ t0 :: tr ↔ (∃ l ∈ db.store.log, l.tx = t) ∧ ¬ ∃ l ∈ db0.store.log, l.tx = t := by
            intro t
            rw [← htxs, mem_txsToMove]
            constructor
            · rintro ⟨h1, l, hl, h0, rfl⟩
              refine ⟨⟨l, hl, rfl⟩, ?_⟩
              rintro ⟨l', hl', he⟩
              exact (hfrom l' (by rw [hnew]; simp [hl'])).1 (he ▸ h1) hl'
            · rintro ⟨⟨l, hl, rfl⟩, h2⟩
              exact ⟨(hfrom l hl).2 fun h3 => h2 ⟨l, h3, rfl⟩, l, hl, (hi.logTx l hl).2.2, rfl⟩
          obtain ⟨r1, r2⟩ := rewindTxs_history hr hi states db (t0 :: tr) none d1 s1 hh
            (fun x hx => hone x (List.mem_cons_of_mem _ hx)) (hone db0 (by simp)) rfl rfl rfl
            ⟨[], by rw [hd, List.append_nil], by simp⟩ (by rw [hd]; simp) (htxs ▸ txsToMove_sorted _ _) (by rw [hd]; exact hmem) hrw
          have hlog : moveTransactions d1.store.log (t0 :: tr) tl =
              db.store.log.map fun l => if fromTx ≤ l.tx then { l with timeline := tl } else l := by
            unfold moveTransactions
            rw [r2]
            apply List.map_congr_left
            intro l hl
            have : l.tx ∈ t0 :: tr ↔ fromTx ≤ l.tx := by
              rw [← htxs, mem_txsToMove]
              exact ⟨fun h => h.1, fun h => ⟨h, l, hl, (hi.logTx l hl).2.2, rfl⟩⟩
            by_cases hle : fromTx ≤ l.tx
            · rw [if_pos hle, if_pos (this.2 hle)]
            · rw [if_neg hle, if_neg fun h => hle (this.1 h)]
          rw [hlog] at h
          cases hp : readParts (db.store.log.map fun l => if fromTx ≤ l.tx then { l with timeline := tl } else l) with
          | err e => rw [hp] at h; simp at h
          | panic => rw [hp] at h; simp at h
          | ok parts =>
            rw [hp] at h
            simp only [Res.ok.injEq] at h
            subst h
            refine ⟨r1, rfl, ?_⟩
            rw [← hp]
            have hpe : ∀ lo fin, partEntids db0.store.log lo fin =
                partEntids (db.store.log.map fun l => if fromTx ≤ l.tx then { l with timeline := tl } else l) lo fin := by
              intro lo fin
              rw [hnew, List.map_append, partEntids_append]
              have g1 : (db0.store.log.map fun l => if fromTx ≤ l.tx then { l with timeline := tl } else l) =
                  db0.store.log := by
                refine (List.map_congr_left (g := id) ?_).trans (List.map_id _)
                intro l hl
                rw [if_neg fun h3 => (hfrom l (by rw [hnew]; simp [hl])).1 h3 hl]; rfl
              have g2 : ∀ l ∈ (new.map fun l => if fromTx ≤ l.tx then { l with timeline := tl } else l),
                  l.timeline ≠ 0 := by
                intro l hl
                obtain ⟨l', hl', rfl⟩ := List.mem_map.1 hl
                have hin : l' ∈ db.store.log := by rw [hnew]; simp [hl']
                have hnotin : l' ∉ db0.store.log := by
                  have := hi.nodup
                  rw [hnew, List.nodup_append] at this
                  exact fun h3 => this.2.2 l' h3 l' hl' rfl
                rw [if_pos ((hfrom l' hin).2 hnotin)]
                exact htl
              rw [g1, partEntids_off g2, List.append_nil]
            unfold readParts readPart partIdx
            simp only [hpe]

/-- C36: transactions cannot be moved to the main timeline, onto a timeline in use, or from a point
after the last one. -/
theorem C36_refused {db db' : Db} {now : Int} {fromTx : Entid} {tl : Int}
    (h : moveFromMain db now fromTx tl = .ok db') :
    tl ≠ 0 ∧ (∀ l ∈ db.store.log, l.timeline ≠ tl) ∧ ∃ l ∈ db.store.log, l.timeline = 0 ∧ fromTx ≤ l.tx := by
  unfold moveFromMain at h
  split at h
  · cases h
  · rename_i htl
    split at h
    · cases h
    · rename_i hany
      refine ⟨htl, ?_, ?_⟩
      · simpa using hany
      · cases htxs : txsToMove db.store.log fromTx with
        | nil => rw [htxs] at h; cases h
        | cons t r =>
          obtain ⟨h1, l, hl, h2, rfl⟩ := mem_txsToMove.1 (htxs ▸ List.mem_cons_self : t ∈ txsToMove db.store.log fromTx)
          exact ⟨l, hl, h2, h1⟩

/-- A decidable form of the hypothesis on cardinality. -/
def oneB (s : Schema) (rows : List Row) : Bool :=
  rows.all fun r => rows.all fun r' => decide (r.e = r'.e ∧ r.a = r'.a ∧ r.v ≠ r'.v →
    ∀ at_ ∈ s.attr r.a, at_.multival = true)

theorem oneB_iff {s : Schema} {rows : List Row} (h : oneB s rows = true) : OneUnder s rows := by
  rintro a at_ hat hm e v v' ⟨r, hr, rfl, rfl, rfl⟩ ⟨r', hr', h1, h2, rfl⟩
  unfold oneB at h
  rw [List.all_eq_true] at h
  have h3 := h r hr
  rw [List.all_eq_true] at h3
  have h4 := of_decide_eq_true (h3 r' hr')
  apply Classical.byContradiction
  intro hne
  have := h4 ⟨h1.symm, h2.symm, hne⟩ at_ hat
  rw [hm] at this; cases this

/-- The result of a transaction. -/
def stepTo (db : Db) (tx : Tx) : Option Db :=
  match transactTerms db 0 tx.1 tx.2 with
  | .ok (db', _) => if KnownTerms db tx.1 then some db' else none
  | _ => none

theorem stepTo_step {db db' : Db} {tx : Tx} (h : stepTo db tx = some db') : Step db db' := by
  unfold stepTo at h
  split at h
  · rename_i d rep ht
    split at h
    · rename_i hk
      cases h
      exact Or.inl ⟨0, tx.1, tx.2, rep, hk, ht⟩
    · cases h
  · cases h

/-- Two transactions, the second of which replaces one value, retracts another and adds a third; the
second is moved to timeline 7. -/
theorem C36_example : ∃ db0 db db', Reach db0 ∧ History db0 [db] ∧
    (∀ x ∈ [db0, db], OneUnder db.schema x.store.rows) ∧
    (∀ l ∈ db.store.log, TX0 + 3 ≤ l.tx ↔ l ∉ db0.store.log) ∧
    moveFromMain db 0 (TX0 + 3) 7 = .ok db' ∧ ¬ Has db.store.rows e1 xOne (str "a") ∧
    Has db'.store.rows e1 xOne (str "a") := by
  obtain ⟨db0, h, hp⟩ := reachKept_of_setup (txs := [dataTx]) (p := fun db0 =>
    match stepTo db0 changeTx with
    | some db => oneB db.schema db0.store.rows && oneB db.schema db.store.rows &&
      decide (∀ l ∈ db.store.log, TX0 + 3 ≤ l.tx ↔ l ∉ db0.store.log) && !hasB db e1 xOne (str "a") &&
      match moveFromMain db 0 (TX0 + 3) 7 with
      | .ok db' => hasB db' e1 xOne (str "a")
      | _ => false
    | none => false) (by decide +kernel)
  split at hp
  · rename_i db hs
    simp only [Bool.and_eq_true] at hp
    obtain ⟨⟨⟨⟨o1, o2⟩, hl⟩, hn⟩, hp⟩ := hp
    split at hp
    · rename_i db' hm
      refine ⟨db0, db, db', h.reach, stepTo_step hs, ?_, of_decide_eq_true hl, hm, ?_, hasB_iff.1 hp⟩
      · intro x hx
        rcases List.mem_cons.1 hx with rfl | hx
        · exact oneB_iff o1
        · rw [List.mem_singleton.1 hx]; exact oneB_iff o2
      · intro hh
        rw [hasB_iff.2 hh] at hn; cases hn
    · cases hp
  · cases hp

/-- The full C36 fails: after moving the transaction that replaced `"a"`, the datom with `"a"` is
back, but it carries the id of a transaction that the log does not have on any timeline
(timelines.rs:173-190 rewinds with a transaction whose own datoms are deleted). -/
theorem C36_fails : ∃ db0 db db', Reach db0 ∧ History db0 [db] ∧
    (∀ l ∈ db.store.log, TX0 + 3 ≤ l.tx ↔ l ∉ db0.store.log) ∧
    moveFromMain db 0 (TX0 + 3) 7 = .ok db' ∧
    ∃ r ∈ db'.store.rows, (∃ r0 ∈ db0.store.rows, r0.e = r.e ∧ r0.a = r.a ∧ r0.v = r.v ∧ r0.tx ≠ r.tx) ∧
      ∀ l ∈ db'.store.log, l.tx ≠ r.tx := by
  obtain ⟨db0, h, hp⟩ := reachKept_of_setup (txs := [dataTx]) (p := fun db0 =>
    match stepTo db0 changeTx with
    | some db => decide (∀ l ∈ db.store.log, TX0 + 3 ≤ l.tx ↔ l ∉ db0.store.log) &&
      match moveFromMain db 0 (TX0 + 3) 7 with
      | .ok db' => decide (∃ r ∈ db'.store.rows,
          (∃ r0 ∈ db0.store.rows, r0.e = r.e ∧ r0.a = r.a ∧ r0.v = r.v ∧ r0.tx ≠ r.tx) ∧
          ∀ l ∈ db'.store.log, l.tx ≠ r.tx)
      | _ => false
    | none => false) (by decide +kernel)
  split at hp
  · rename_i db hs
    simp only [Bool.and_eq_true] at hp
    obtain ⟨hl, hp⟩ := hp
    split at hp
    · rename_i db' hm
      exact ⟨db0, db, db', h.reach, stepTo_step hs, of_decide_eq_true hl, hm, of_decide_eq_true hp⟩
    · cases hp
  · cases hp

/-- ... and the schema is not that of the datoms: each rewound transaction starts from the schema
before the move, and only the last one's result is kept (timelines.rs:166-192).  Here two attributes
are installed, then a third; after moving both transactions the third is still in the schema. -/
theorem C36_fails_schema : ∃ db0 db1 db db', Reach db0 ∧ History db0 [db, db1] ∧
    (∀ l ∈ db.store.log, TX0 + 2 ≤ l.tx ↔ l ∉ db0.store.log) ∧
    moveFromMain db 0 (TX0 + 2) 7 = .ok db' ∧
    ∃ a, (db'.schema.attr a).isSome ∧ (db0.schema.attr a).isNone ∧ ∀ l ∈ db'.store.rows, l.e ≠ a := by
  obtain ⟨db0, h, hp⟩ := reachKept_of_setup (txs := []) (p := fun db0 =>
    match stepTo db0 (install "other" DB_TYPE_LONG DB_CARDINALITY_ONE ++
        install "third" DB_TYPE_LONG DB_CARDINALITY_ONE, [tid "other", tid "third"]) with
    | some db1 => match stepTo db1 (install "fourth" DB_TYPE_LONG DB_CARDINALITY_ONE, [tid "fourth"]) with
      | some db => decide (∀ l ∈ db.store.log, TX0 + 2 ≤ l.tx ↔ l ∉ db0.store.log) &&
        match moveFromMain db 0 (TX0 + 2) 7 with
        | .ok db' => decide (∃ a ∈ ([65539, 65540, 65541] : List Entid), (db'.schema.attr a).isSome ∧
            (db0.schema.attr a).isNone ∧ ∀ l ∈ db'.store.rows, l.e ≠ a)
        | _ => false
      | none => false
    | none => false) (by decide +kernel)
  split at hp
  · rename_i db1 hs1
    split at hp
    · rename_i db hs
      simp only [Bool.and_eq_true] at hp
      obtain ⟨hl, hp⟩ := hp
      split at hp
      · rename_i db' hm
        obtain ⟨a, -, ha⟩ := of_decide_eq_true hp
        exact ⟨db0, db1, db, db', h.reach, ⟨stepTo_step hs, stepTo_step hs1⟩, of_decide_eq_true hl, hm, a, ha⟩
      · cases hp
    · cases hp
  · cases hp

end Mentat
