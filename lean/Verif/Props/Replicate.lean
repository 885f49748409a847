import Verif.Proofs.Replay
import Verif.Props.SyncStore
import Verif.Props.Permute
/-
C70: fast-forwarding from the remote reproduces what was uploaded.
-/
namespace Mentat.Sync

/-- The same schema, facts, log and materialized views; only the order of the rows of the tables and the
partition map may differ. -/
structure Replica (db db' : Db) : Prop where
  schema : db'.schema = db.schema
  rows : db.store.rows.Perm db'.store.rows
  log : db.store.log.Perm db'.store.log
  idents : db.views.idents.Perm db'.views.idents
  attrs : db.views.schema.Perm db'.views.schema

/-- Transactions from `b` to `r` that undefine no attribute in use, and in which `:db/txInstant` is given only
to the transaction itself. -/
inductive Later : Db → Db → Prop
  | refl (db : Db) : Later db db
  | step {b b1 r : Db} {now : Int} {terms : List TTerm} {ids : List TempId} {rep : Mentat.Report}
      (h : transactTerms b now terms ids = .ok (b1, rep)) (known : KnownTerms b terms)
      (kept : KeepsUsedAttributes b b1) (told : MetaTold b terms)
      (own : ∀ l ∈ b1.store.log, l.tx = rep.txId → l.a = DB_TX_INSTANT → l.e = rep.txId)
      (rest : Later b1 r) : Later b r

/-! ### Partition maps -/

theorem bumpAll_ok {L : Partition} : ∀ (es : List Entid) {p p' : Partition}, bumpAll L es p = .ok p' →
    p'.start = p.start ∧ p'.fin = p.fin ∧ p.next ≤ p'.next ∧
    (∀ e ∈ es, L.start ≤ e → e ≤ L.fin → e < p'.next) ∧
    (p'.next = p.next ∨ ∃ e ∈ es, L.start ≤ e ∧ e ≤ L.fin ∧ p'.next = e + 1)
  | [], p, p', h => by
    simp only [bumpAll, Res.ok.injEq] at h
    subst h
    exact ⟨rfl, rfl, Int.le_refl _, by simp, .inl rfl⟩
  | e :: r, p, p', h => by
    simp only [bumpAll] at h
    cases hb : bump L p e with
    | err x => rw [hb] at h; simp [Res.bind] at h
    | panic => rw [hb] at h; simp [Res.bind] at h
    | ok p1 =>
      rw [hb] at h
      simp only [Res.bind] at h
      obtain ⟨h1, h2, h3, h4, h5⟩ := bumpAll_ok r h
      have hp1 : p1.start = p.start ∧ p1.fin = p.fin ∧ p.next ≤ p1.next ∧
          (L.start ≤ e → e ≤ L.fin → e < p1.next) ∧
          (p1.next = p.next ∨ (L.start ≤ e ∧ e ≤ L.fin ∧ p1.next = e + 1)) := by
        unfold bump at hb
        split at hb
        · rename_i hc
          simp only [Partition.allowsEntid, Bool.and_eq_true, decide_eq_true_eq] at hc
          unfold Partition.setNext at hb
          split at hb
          · cases hb
            exact ⟨rfl, rfl, by simp only; omega, fun _ _ => by simp only; omega, .inr ⟨hc.1.1, hc.1.2, rfl⟩⟩
          · cases hb
        · rename_i hc
          simp only [Res.ok.injEq] at hb
          subst hb
          refine ⟨rfl, rfl, Int.le_refl _, ?_, .inl rfl⟩
          intro a1 a2
          simp only [Partition.allowsEntid, Bool.and_eq_true, decide_eq_true_eq, not_and] at hc
          have := hc ⟨a1, a2⟩
          omega
      obtain ⟨k1, k2, k3, k4, k5⟩ := hp1
      refine ⟨h1.trans k1, h2.trans k2, by omega, ?_, ?_⟩
      · intro x hx a1 a2
        rcases List.mem_cons.1 hx with rfl | hx
        · have := k4 a1 a2; omega
        · exact h4 x hx a1 a2
      · rcases h5 with h5 | ⟨x, hx, a1, a2, a3⟩
        · rcases k5 with k5 | ⟨a1, a2, a3⟩
          · exact .inl (by omega)
          · exact .inr ⟨e, by simp, a1, a2, by omega⟩
        · exact .inr ⟨x, List.mem_cons_of_mem _ hx, a1, a2, a3⟩

/-- The partition map the uploader sends, taken back by one. -/
theorem uploaded_parts {es : List Entid} {q : Parts} {tx : Entid} (h : allocateParts es Parts.bootstrap = .ok q)
    (ht : tx ∈ es) (h1 : TX0 ≤ tx) (h2 : tx + 1 ≤ I64MAX)
    (he : ∀ e ∈ es, (0 ≤ e ∧ e < 41) ∨ (USER0 ≤ e ∧ e < TX0) ∨ (TX0 ≤ e ∧ e ≤ tx)) :
    ∃ q' tp, rewind q = .ok q' ∧ q'.tx.allocate 1 = .ok (tx, tp) ∧ q'.user.start ≤ q'.user.next ∧
      q'.user.next ≤ q'.user.fin ∧ ∀ e ∈ es, ({ q' with tx := tp } : Parts).containsEntid e = true := by
  have hT : TX0 = 268435456 := rfl
  have hU : USER0 = 65536 := rfl
  have hI : I64MAX = 9223372036854775807 := rfl
  unfold allocateParts at h
  cases hd : bumpAll Parts.bootstrap.db es Parts.bootstrap.db with
  | err x => rw [hd] at h; simp [Res.bind] at h
  | panic => rw [hd] at h; simp [Res.bind] at h
  | ok d =>
  rw [hd] at h
  simp only [Res.bind] at h
  cases hu : bumpAll Parts.bootstrap.user es Parts.bootstrap.user with
  | err x => rw [hu] at h; simp at h
  | panic => rw [hu] at h; simp at h
  | ok u =>
  rw [hu] at h
  simp only at h
  cases hx : bumpAll Parts.bootstrap.tx es Parts.bootstrap.tx with
  | err x => rw [hx] at h; simp at h
  | panic => rw [hx] at h; simp at h
  | ok t =>
  rw [hx] at h
  simp only [Res.ok.injEq] at h
  subst h
  obtain ⟨d1, d2, d3, d4, d5⟩ := bumpAll_ok es hd
  obtain ⟨u1, u2, u3, u4, u5⟩ := bumpAll_ok es hu
  obtain ⟨t1, t2, t3, t4, t5⟩ := bumpAll_ok es hx
  simp only [Parts.bootstrap] at d1 d2 d3 d4 d5 u1 u2 u3 u4 u5 t1 t2 t3 t4 t5
  have hnext : t.next = tx + 1 := by
    have := t4 tx ht h1 (by omega)
    rcases t5 with t5 | ⟨e, hm, a1, a2, a3⟩
    · omega
    · rcases he e hm with ⟨_, _⟩ | ⟨_, _⟩ | ⟨_, _⟩ <;> omega
  refine ⟨⟨d, u, { t with next := tx }⟩, { t with next := tx + 1 }, ?_, ?_, ?_, ?_, ?_⟩
  · unfold rewind Partition.setNext Partition.allowsEntid
    simp only [hnext, Int.add_sub_cancel]
    rw [if_pos (by simp only [decide_eq_true_eq]; omega)]
    rfl
  · unfold Partition.allocate Partition.setNext Partition.allowsEntid
    simp only
    rw [if_pos (by simp only [decide_eq_true_eq]; omega)]
    simp
  · simp only; omega
  · simp only
    rcases u5 with u5 | ⟨e, hm, a1, a2, a3⟩
    · omega
    · -- the map was accepted, so the bound holds
      have key : ∀ (es : List Entid) (p p' : Partition), bumpAll Parts.bootstrap.user es p = .ok p' →
          p.next ≤ p.fin → p'.next ≤ p'.fin := by
        intro es
        induction es with
        | nil => intro p p' h h'; simp only [bumpAll, Res.ok.injEq] at h; subst h; exact h'
        | cons e r ih =>
          intro p p' h h'
          simp only [bumpAll] at h
          cases hb : bump Parts.bootstrap.user p e with
          | err x => rw [hb] at h; simp [Res.bind] at h
          | panic => rw [hb] at h; simp [Res.bind] at h
          | ok p1 =>
            rw [hb] at h
            simp only [Res.bind] at h
            refine ih p1 p' h ?_
            unfold bump at hb
            split at hb
            · unfold Partition.setNext at hb
              split at hb
              · rename_i hc
                cases hb
                simp only [Partition.allowsEntid, decide_eq_true_eq] at hc
                exact hc.2
              · cases hb
            · simp only [Res.ok.injEq] at hb
              subst hb; exact h'
      exact key es _ u hu (by decide)
  · intro e hm
    simp only [Parts.containsEntid, Partition.containsEntid, Bool.or_eq_true, decide_eq_true_eq]
    rcases he e hm with ⟨_, _⟩ | ⟨_, _⟩ | ⟨_, _⟩
    · left; left; omega
    · have := u4 e hm (by omega) (by omega)
      left; right; omega
    · right; omega

/-! ### One transaction -/

/-- A part as a term. -/
def partTerm (p : TxPart) : RTerm := ⟨if p.added then .add else .retract, p.e, p.a, p.v⟩

theorem run_remote {env : TxEnv} : ∀ (ps : List TxPart) (s : Stage1),
    (∀ p ∈ ps, env.parts.containsEntid p.e = true) → (∀ p ∈ ps, p.a = DB_TX_INSTANT → p.e = env.txId) →
    (∀ p ∈ ps, ∃ at_, env.schema.attr p.a = some at_ ∧ at_.valueType = p.v.valueType) →
    env.run (ps.map remotePart) s = .ok { s with terms := s.terms ++ ps.map fun p =>
      (⟨if p.added then .add else .retract, .inl p.e, p.a, .inl p.v⟩ : LTerm) }
  | [], s, _, _, _ => by simp [run_nil]
  | p :: r, s, h1, h2, h3 => by
    rw [List.map_cons, run_cons]
    obtain ⟨at_, ha, ht⟩ := h3 p (by simp)
    have hstep : env.step s (remotePart p) = .ok (s.push
        ⟨if p.added then .add else .retract, .inl p.e, p.a, .inl p.v⟩, []) := by
      unfold remotePart TxEnv.step
      have hreq : env.schema.requireAttr p.a = .ok at_ := requireAttr_iff.2 ha
      simp only [EntidOrIdent.unreversed, Res.bind, TxEnv.attribute, hreq]
      have hn : (if at_.valueType = ValueType.ref then TransactableValue.asTempid p.v else none) = none := by
        split
        · rename_i hr
          rw [ht] at hr
          cases hv : p.v with
          | ref x => rfl
          | _ => rw [hv] at hr; simp [TypedValue.valueType] at hr
        · rfl
      have hi : TransactableValue.intoTypedValue env.schema p.v at_.valueType = .ok p.v := by
        simp only [TransactableValue.intoTypedValue, ht, if_true]
      simp only [hn, hi, TxEnv.finish]
      by_cases hx : p.a = DB_TX_INSTANT
      · simp only [hx, if_true, TxEnv.termE, TxEnv.txFunction, Res.bind, h2 p (by simp) hx]
      · simp only [hx, if_false, TxEnv.termE, h1 p (by simp), if_true, Res.bind]
    rw [hstep]
    simp only [Res.bind, List.nil_append]
    rw [run_remote r _ (fun q hq => h1 q (List.mem_cons_of_mem _ hq)) (fun q hq => h2 q (List.mem_cons_of_mem _ hq))
      (fun q hq => h3 q (List.mem_cons_of_mem _ hq))]
    simp [Stage1.push]

theorem resolveLookupRefs_lit (st : Store) : ∀ (ps : List TxPart),
    resolveLookupRefs st (ps.map fun p =>
      (⟨if p.added then .add else .retract, .inl p.e, p.a, .inl p.v⟩ : LTerm)) = .ok ((ps.map partTerm).map litTerm)
  | [] => rfl
  | p :: r => by
    simp only [List.map_cons, resolveLookupRefs, replaceLookupRef, Res.bind, resolveLookupRefs_lit st r]
    rfl

/-- One uploaded transaction, applied to a replica of what it was transacted on. -/
theorem applyRemote_replay {b b1 : Db} {now : Int} {terms : List TTerm} {ids : List TempId} {rep : Mentat.Report}
    (hb : ReachKept b) (h : transactTerms b now terms ids = .ok (b1, rep)) (known : KnownTerms b terms)
    (told : MetaTold b terms) (own : ∀ l ∈ b1.store.log, l.tx = rep.txId → l.a = DB_TX_INSTANT → l.e = rep.txId)
    {db : Db} (hR : Replica b db) {tx : Tx}
    (hds : ∀ x, x ∈ tx.parts.map partTerm ↔ ∃ l ∈ b1.store.log, l.tx = rep.txId ∧ x = logTerm l)
    (hp : ∀ d ∈ tx.parts.head?, ∃ q, d.partitions = some q ∧ allocateParts (tx.parts.map (·.e)) Parts.bootstrap = .ok q)
    (now' : Int) :
    ∃ db1, applyRemote db now' tx = .ok (some (db1, rep.txId)) ∧ Replica b1 db1 := by
  obtain ⟨hi, hti⟩ := rowsInv_reach hb
  have hist := histInv_reach hb.reach
  have hist1 : HistInv b1 := histInv_step hist known h
  obtain ⟨T⟩ := transact_trace h
  obtain ⟨t1, t2, t3⟩ := T.txid
  have hap := applySpec hi.uniq T.applied
  obtain ⟨-, -, -, -, -, hlog, -⟩ := apply_ok T.applied
  have hlog' : b1.store.log = b.store.log ++ T.lr := by rw [T.log]; exact hlog rfl
  have hnext : b1.parts.tx.next = rep.txId + 1 := by rw [T.parts, t2, t1]
  have hlr : ∀ l, (l ∈ b1.store.log ∧ l.tx = rep.txId) ↔ l ∈ T.lr := by
    intro l
    rw [hlog', List.mem_append]
    constructor
    · rintro ⟨hl | hl, hx⟩
      · have := hist.logTx l hl; omega
      · exact hl
    · intro hl; exact ⟨.inr hl, (hap.stamp l hl).1⟩
  have hx : SameMem (tx.parts.map partTerm) (T.lr.map logTerm) := by
    intro x
    rw [hds, List.mem_map]
    constructor
    · rintro ⟨l, h1, h2, rfl⟩; exact ⟨l, (hlr l).1 ⟨h1, h2⟩, rfl⟩
    · rintro ⟨l, hl, rfl⟩; exact ⟨l, ((hlr l).2 hl).1, ((hlr l).2 hl).2, rfl⟩
  have hpart : ∀ p ∈ tx.parts, ∃ l ∈ T.lr, l.e = p.e ∧ l.a = p.a ∧ l.v = p.v := by
    intro p hp
    obtain ⟨l, hl, he⟩ := List.mem_map.1 ((hx _).1 (List.mem_map.2 ⟨p, hp, rfl⟩))
    simp only [logTerm, partTerm, Term.mk.injEq] at he
    exact ⟨l, hl, he.2.1, he.2.2.1, he.2.2.2⟩
  -- the instant of the transaction is among its datoms
  obtain ⟨o1, o2, o3, o4⟩ := hist1.parts.tx
  obtain ⟨x1, x2, x3, x4⟩ := hist.parts.tx
  obtain ⟨i, hin, -⟩ := hist1.instants rep.txId (by omega) (by omega)
  have hinst := (hlr _).1 ⟨hin, rfl⟩
  obtain ⟨p0, hp0, hp0e⟩ : ∃ p ∈ tx.parts, p.e = rep.txId := by
    obtain ⟨p, hp, he⟩ := List.mem_map.1 ((hx _).2 (List.mem_map.2 ⟨_, hinst, rfl⟩))
    simp only [logTerm, partTerm, Term.mk.injEq] at he
    exact ⟨p, hp, he.2.1⟩
  -- where its entities are
  have hwhere : ∀ e ∈ tx.parts.map (·.e), (0 ≤ e ∧ e < 41) ∨ (USER0 ≤ e ∧ e < TX0) ∨ (TX0 ≤ e ∧ e ≤ rep.txId) := by
    intro e he
    obtain ⟨p, hp, rfl⟩ := List.mem_map.1 he
    obtain ⟨l, hl, h1, -⟩ := hpart p hp
    have hc := hist1.logE l ((hlr l).2 hl).1
    rw [h1] at hc
    simp only [Parts.containsEntid, Partition.containsEntid, Bool.or_eq_true, decide_eq_true_eq] at hc
    obtain ⟨d1, d2, d3, d4⟩ := hist1.parts.db
    obtain ⟨u1, u2, u3, u4⟩ := hist1.parts.user
    rcases hc with (hc | hc) | hc
    · left; omega
    · right; left; omega
    · right; right; omega
  cases hps : tx.parts with
  | nil => rw [hps] at hp0; cases hp0
  | cons d ds =>
    obtain ⟨q, hq1, hq2⟩ := hp d (by rw [hps]; simp)
    obtain ⟨q', tp, hrew, hall, hu1, hu2, hcont⟩ := uploaded_parts (tx := rep.txId) hq2
      (List.mem_map.2 ⟨p0, hp0, hp0e⟩) (by omega) (by omega) hwhere
    unfold applyRemote
    rw [hps]
    simp only [hq1, hrew, Res.bind]
    rw [← hps]
    have hstep := transact_replay (db' := { db with parts := q' }) T hi hti (told.told hi hti T)
      (by rw [t1]; exact fun v => hist.no_datom_of_next DB_TX_INSTANT v) hR.schema ⟨hR.rows, hR.log⟩
      ⟨hR.idents, hR.attrs⟩ hall ⟨hu1, hu2⟩ hx now'
    obtain ⟨db1, rep', hdo, e1, e2, e3, -, e5, -⟩ := hstep
    have hent : transactEntities { db with parts := q' } now' (tx.parts.map remotePart) = .ok (db1, rep') := by
      unfold transactEntities
      simp only [hall, Res.bind]
      rw [stage1_eq, run_remote]
      · simp only [List.nil_append, resolveLookupRefs_lit]
        exact hdo
      · intro p hp
        exact hcont p.e (List.mem_map.2 ⟨p, hp, rfl⟩)
      · intro p hp ha
        obtain ⟨l, hl, h1, h2, -⟩ := hpart p hp
        have := (hlr l).2 hl
        rw [← h1]
        exact own l this.1 this.2 (h2.trans ha)
      · intro p hp
        obtain ⟨l, hl, h1, h2, h3⟩ := hpart p hp
        simp only [hR.schema]
        rw [← h2, ← h3]
        have hq := T.qok hti
        obtain ⟨-, -, hlre, -⟩ := apply_ok T.applied
        rw [hlre, mem_logRowsOf] at hl
        rcases hl with ⟨q, hm, -, rfl⟩ | ⟨r, hr, -, rfl⟩
        · exact ⟨q.attr, hq.attr q hm, hq.typed q hm⟩
        · obtain ⟨at_, k1, k2, -⟩ := hi.typed r hr
          exact ⟨at_, k1, k2⟩
    rw [hent]
    refine ⟨db1, by simp only [e5], e1, e2.rows, e2.log, e3.idents, e3.schema⟩

/-! ### All the transactions -/

theorem Later.spec {b r : Db} (h : Later b r) (hb : ReachKept b) :
    ReachKept r ∧ b.parts.tx.next ≤ r.parts.tx.next ∧
    ∃ rest, r.store.log = b.store.log ++ rest ∧ ∀ l ∈ rest, b.parts.tx.next ≤ l.tx := by
  induction h with
  | refl db => exact ⟨hb, Int.le_refl _, [], by simp, by simp⟩
  | @step b b1 r now terms ids rep h known kept told own rest ih =>
    obtain ⟨i1, i2, rs, i3, i4⟩ := ih (hb.step ⟨now, terms, ids, rep, known, h⟩ kept)
    obtain ⟨T⟩ := transact_trace h
    obtain ⟨t1, t2, t3⟩ := T.txid
    obtain ⟨hi, -⟩ := rowsInv_reach hb
    have hap := applySpec hi.uniq T.applied
    obtain ⟨-, -, -, -, -, hlog, -⟩ := apply_ok T.applied
    have hnext : b1.parts.tx.next = b.parts.tx.next + 1 := by rw [T.parts, t2]
    refine ⟨i1, by omega, T.lr ++ rs, ?_, ?_⟩
    · rw [i3, T.log, hlog rfl, List.append_assoc]
    · intro l hl
      rcases List.mem_append.1 hl with hl | hl
      · rw [(hap.stamp l hl).1, t1]; exact Int.le_refl _
      · have := i4 l hl; omega

/-- What was downloaded is transaction `t` of the log. -/
def Carried (log : List LogRow) (t : Entid) (tx : Tx) : Prop :=
  List.Forall₂ SameDatom (datomsOfTx log t) tx.parts ∧
  ∀ d ∈ tx.parts.head?, ∃ q, d.partitions = some q ∧
    allocateParts ((datomsOfTx log t).map (·.e)) Parts.bootstrap = .ok q

theorem sameDatom_terms : ∀ {ds ds' : List TxPart}, List.Forall₂ SameDatom ds ds' →
    ds'.map partTerm = ds.map partTerm ∧ ds'.map (·.e) = ds.map (·.e)
  | _, _, .nil => ⟨rfl, rfl⟩
  | _, _, .cons h r => by
    obtain ⟨h1, h2⟩ := sameDatom_terms r
    obtain ⟨a, b, c, -, e⟩ := h
    simp [h1, h2, partTerm, a, b, c, e]

theorem mem_datomsOfTx {log : List LogRow} (hl : ∀ l ∈ log, l.timeline = 0) {t : Entid} {x : RTerm} :
    x ∈ (datomsOfTx log t).map partTerm ↔ ∃ l ∈ log, l.tx = t ∧ x = logTerm l := by
  unfold datomsOfTx
  rw [List.map_map, List.mem_map]
  constructor
  · rintro ⟨l, hm, rfl⟩
    obtain ⟨h1, h2⟩ := List.mem_filter.1 hm
    simp only [decide_eq_true_eq] at h2
    exact ⟨l, h1, h2.2, rfl⟩
  · rintro ⟨l, h1, h2, rfl⟩
    exact ⟨l, List.mem_filter.2 ⟨h1, by simp [hl l h1, h2]⟩, rfl⟩

/-- The last transaction applied, with its UUID. -/
def lastApplied (r : Db) (txs : List Tx) (last : Option (Entid × Nat)) : Option (Entid × Nat) :=
  match txs.getLast? with
  | some tx => some (r.parts.tx.next - 1, tx.uuid)
  | none => last

theorem applyRemotes_replay {b r : Db} (h : Later b r) (hb : ReachKept b) : ∀ {db : Db}, Replica b db →
    ∀ {ts : List Entid} {txs : List Tx}, ts.Pairwise (· < ·) →
    (∀ t, t ∈ ts ↔ b.parts.tx.next ≤ t ∧ t < r.parts.tx.next) → List.Forall₂ (Carried r.store.log) ts txs →
    ∀ (now' : Int) (last), ∃ db1, applyRemotes now' txs db last = .ok (db1, lastApplied r txs last, false) ∧
      Replica r db1 := by
  induction h with
  | refl b =>
    intro db hR ts txs hs hm hc now' last
    have : ts = [] := List.eq_nil_iff_forall_not_mem.2 fun t ht => by have := (hm t).1 ht; omega
    subst this
    cases hc
    exact ⟨db, rfl, hR⟩
  | @step b b1 r now terms ids rep h known kept told own rest ih =>
    intro db hR ts txs hs hm hc now' last
    have hb1 : ReachKept b1 := hb.step ⟨now, terms, ids, rep, known, h⟩ kept
    obtain ⟨hr, hle, rs, hlog, hrs⟩ := rest.spec hb1
    obtain ⟨T⟩ := transact_trace h
    obtain ⟨t1, t2, t3⟩ := T.txid
    have hnext : b1.parts.tx.next = b.parts.tx.next + 1 := by rw [T.parts, t2]
    have hist := histInv_reach hr.reach
    cases hc with
    | nil => have := (hm b.parts.tx.next).2 ⟨Int.le_refl _, by omega⟩; cases this
    | @cons t tx ts txs hcar hc =>
      obtain ⟨hs1, hs2⟩ := List.pairwise_cons.1 hs
      have ht : t = b.parts.tx.next := by
        have h1 := (hm t).1 (by simp)
        rcases List.mem_cons.1 ((hm b.parts.tx.next).2 ⟨Int.le_refl _, by omega⟩) with h2 | h2
        · exact h2.symm
        · have := hs1 _ h2; omega
      obtain ⟨hc1, hc2⟩ := hcar
      obtain ⟨e1, e2⟩ := sameDatom_terms hc1
      obtain ⟨db1, hdo, hR1⟩ := applyRemote_replay (tx := tx) hb h known told own hR (by
          intro x
          rw [e1, mem_datomsOfTx fun l hl => (hist.logTx l hl).2.2, ht, ← t1]
          constructor
          · rintro ⟨l, h1, h2, h3⟩
            rw [hlog, List.mem_append] at h1
            rcases h1 with h1 | h1
            · exact ⟨l, h1, h2, h3⟩
            · have := hrs l h1; omega
          · rintro ⟨l, h1, h2, h3⟩
            exact ⟨l, by rw [hlog]; exact List.mem_append_left _ h1, h2, h3⟩)
        (by rw [e2]; exact hc2) now'
      obtain ⟨db2, hdo2, hR2⟩ := ih hb1 hR1 hs2 (by
        intro t'
        constructor
        · intro ht'
          have h1 := hs1 t' ht'
          have h2 := (hm t').1 (List.mem_cons_of_mem _ ht')
          exact ⟨by omega, h2.2⟩
        · rintro ⟨h1, h2⟩
          rcases List.mem_cons.1 ((hm t').2 ⟨by omega, h2⟩) with h3 | h3
          · omega
          · exact h3) hc now' (some (rep.txId, tx.uuid))
      refine ⟨db2, ?_, hR2⟩
      rw [applyRemotes, hdo]
      simp only [Res.bind, hdo2, Res.ok.injEq, Prod.mk.injEq, true_and, and_true]
      unfold lastApplied
      cases txs with
      | nil =>
        have : r.parts.tx.next = b1.parts.tx.next := by
          cases hc
          apply Int.le_antisymm _ hle
          apply Int.not_lt.1
          intro hlt
          rcases List.mem_cons.1 ((hm b1.parts.tx.next).2 ⟨by omega, hlt⟩) with h3 | h3
          · omega
          · cases h3
        simp only [List.getLast?_nil, List.getLast?_singleton]
        rw [this, hnext, t1, Int.add_sub_cancel]
      | cons y ys =>
        rw [List.getLast?_cons_cons]
        cases hz : (y :: ys).getLast? with
        | none => cases List.getLast?_eq_none_iff.1 hz
        | some z => rfl

/-- The remote ends with transaction `rh`, which is not there twice; or it is empty and `rh` is the nil UUID. -/
def EndsWith (rem : Remote) (rh : Nat) : Prop :=
  (rh = nil ∧ rem.txs = []) ∨
  (rh ≠ nil ∧ ∃ pre x, rem.txs = pre ++ [x] ∧ x.uuid = rh ∧ ∀ y ∈ pre, y.uuid ≠ rh)

theorem after_ends {rem rem' : Remote} {rh : Nat} {new : List RemoteTx} (h : EndsWith rem rh)
    (hn : rem'.txs = rem.txs ++ new) : rem'.after rh = rem'.download new := by
  unfold Remote.after
  rw [hn]
  rcases h with ⟨h1, h2⟩ | ⟨h1, pre, x, h2, h3, h4⟩
  · rw [if_pos h1, h2]; rfl
  · rw [if_neg h1, h2]
    congr 1
    clear h2 hn
    induction pre with
    | nil => simp [h3]
    | cons y pre ih =>
      have hy := h4 y (by simp)
      have := ih fun z hz => h4 z (List.mem_cons_of_mem _ hz)
      simpa [hy] using this

theorem download_all {rem : Remote} {log : List LogRow} : ∀ {ts : List Entid} {new : List RemoteTx},
    List.Forall₂ (fun t (x : RemoteTx) => ∃ ds, rem.parts x.chunks = .ok ds ∧ List.Forall₂ SameDatom (datomsOfTx log t) ds ∧
      ∀ d ∈ ds.head?, ∃ q, d.partitions = some q ∧
        allocateParts ((datomsOfTx log t).map (·.e)) Parts.bootstrap = .ok q) ts new →
    ∃ txs, rem.download new = .ok txs ∧ List.Forall₂ (Carried log) ts txs ∧ txs.map (·.uuid) = new.map (·.uuid)
  | _, _, .nil => ⟨[], rfl, .nil, rfl⟩
  | _, _, .cons (b := x) h r => by
    obtain ⟨ds, h1, h2, h3⟩ := h
    obtain ⟨txs, k1, k2, k3⟩ := download_all r
    refine ⟨⟨x.uuid, ds⟩ :: txs, ?_, .cons ⟨h2, h3⟩ k2, by simp [k3]⟩
    simp [Remote.download, h1, k1, Res.bind]

theorem Chain.last {h l : Nat} {xs : List RemoteTx} (hc : Chain h xs l) :
    ∀ x, xs.getLast? = some x → x.uuid = l := by
  induction hc with
  | nil => simp
  | @cons h l x r hp hc ih =>
    intro y hy
    cases r with
    | nil =>
      simp only [List.getLast?_singleton, Option.some.injEq] at hy
      subst hy
      cases hc; rfl
    | cons z zs => rw [List.getLast?_cons_cons] at hy; exact ih y hy

/-! ### The upload -/

theorem bumpAll_total {L : Partition} : ∀ (es : List Entid) {p : Partition}, p.start = L.start → p.fin = L.fin →
    (∀ e ∈ es, L.start ≤ e → e ≤ L.fin → e < L.fin) → ∃ p', bumpAll L es p = .ok p'
  | [], p, _, _, _ => ⟨p, rfl⟩
  | e :: r, p, h1, h2, h3 => by
    have : ∃ p1, bump L p e = .ok p1 ∧ p1.start = L.start ∧ p1.fin = L.fin := by
      unfold bump
      split
      · rename_i hc
        simp only [Partition.allowsEntid, Bool.and_eq_true, decide_eq_true_eq] at hc
        have := h3 e (by simp) hc.1.1 hc.1.2
        unfold Partition.setNext
        rw [if_pos (by simp only [Partition.allowsEntid, decide_eq_true_eq]; omega)]
        exact ⟨_, rfl, h1, h2⟩
      · exact ⟨p, rfl, h1, h2⟩
    obtain ⟨p1, k1, k2, k3⟩ := this
    obtain ⟨p', k4⟩ := bumpAll_total r k2 k3 fun e he => h3 e (List.mem_cons_of_mem _ he)
    exact ⟨p', by simp [bumpAll, k1, k4, Res.bind]⟩

theorem allocateParts_total {db : Db} (h : HistInv db) {es : List Entid}
    (he : ∀ e ∈ es, db.parts.containsEntid e = true) : ∃ q, allocateParts es Parts.bootstrap = .ok q := by
  have hT : TX0 = 268435456 := rfl
  have hU : USER0 = 65536 := rfl
  have hI : I64MAX = 9223372036854775807 := rfl
  obtain ⟨d1, d2, d3, d4⟩ := h.parts.db
  obtain ⟨u1, u2, u3, u4⟩ := h.parts.user
  obtain ⟨x1, x2, x3, x4⟩ := h.parts.tx
  have hw : ∀ e ∈ es, (0 ≤ e ∧ e < 41) ∨ (USER0 ≤ e ∧ e < TX0 - 1) ∨ (TX0 ≤ e ∧ e < I64MAX) := by
    intro e hm
    have hc := he e hm
    simp only [Parts.containsEntid, Partition.containsEntid, Bool.or_eq_true, decide_eq_true_eq] at hc
    rcases hc with (hc | hc) | hc
    · left; omega
    · right; left; omega
    · right; right; omega
  unfold allocateParts
  obtain ⟨d, hd⟩ := bumpAll_total (L := Parts.bootstrap.db) es rfl rfl (by
    intro e hm h1 h2
    simp only [Parts.bootstrap] at h1 h2 ⊢
    rcases hw e hm with h | h | h <;> omega)
  obtain ⟨u, hu⟩ := bumpAll_total (L := Parts.bootstrap.user) es rfl rfl (by
    intro e hm h1 h2
    simp only [Parts.bootstrap] at h1 h2 ⊢
    rcases hw e hm with h | h | h <;> omega)
  obtain ⟨t, ht⟩ := bumpAll_total (L := Parts.bootstrap.tx) es rfl rfl (by
    intro e hm h1 h2
    simp only [Parts.bootstrap] at h1 h2 ⊢
    rcases hw e hm with h | h | h <;> omega)
  exact ⟨_, by rw [hd, hu, ht]; rfl⟩

/-- C70: uploading from a store reached by transactions does not fail or panic. -/
theorem C70_uploads {gen : Nat → Nat} {up : Local} (h : Reach up.db) (fromTx : Option Entid) (rem : Remote) (rh : Nat) :
    ∃ up' rem', fastForwardRemote gen up fromTx rem rh = .ok (up', rem') := by
  have hist := histInv_reach h
  unfold fastForwardRemote
  obtain ⟨ts, t1, t2, t3⟩ := C57_process up.db.store.log fromTx
  rw [t3]
  have key : ∀ (ts : List Entid) (u : Uploader), (∀ t ∈ ts, ∃ row ∈ up.db.store.log, row.timeline = 0 ∧ row.tx = t) →
      ∃ u', visit (Uploader.tx gen rh Parts.bootstrap) up.db.store.log ts u = .ok u' := by
    intro ts
    induction ts with
    | nil => exact fun u _ => ⟨u, rfl⟩
    | cons t ts ih =>
      intro u ht
      obtain ⟨row, h1, h2, h3⟩ := ht t (by simp)
      have : ∃ u1, Uploader.tx gen rh Parts.bootstrap u t (datomsOfTx up.db.store.log t) = .ok u1 := by
        have hmem : (⟨none, row.e, row.a, row.v, row.tx, row.added⟩ : TxPart) ∈ datomsOfTx up.db.store.log t :=
          List.mem_map.2 ⟨row, List.mem_filter.2 ⟨h1, by simp [h2, h3]⟩, rfl⟩
        obtain ⟨q, hq⟩ := allocateParts_total hist (es := (datomsOfTx up.db.store.log t).map (·.e)) (by
          intro e he
          unfold datomsOfTx at he
          rw [List.map_map, List.mem_map] at he
          obtain ⟨l, hl, rfl⟩ := he
          exact hist.logE l (List.mem_filter.1 hl).1)
        cases hds : datomsOfTx up.db.store.log t with
        | nil => rw [hds] at hmem; cases hmem
        | cons d ds =>
          rw [hds] at hq
          simp only [Uploader.tx, hq, Res.bind]
          exact ⟨_, rfl⟩
      obtain ⟨u1, hu1⟩ := this
      obtain ⟨u', hu'⟩ := ih u1 fun t' h' => ht t' (List.mem_cons_of_mem _ h')
      exact ⟨u', by simp [visit, hu1, hu', Res.bind]⟩
  obtain ⟨u, hu⟩ := key ts { remote := rem } fun t ht => ((t2 t).1 ht).2
  rw [hu]
  simp only [Res.bind]
  cases u.rolling <;> exact ⟨_, _, rfl⟩

/-- C70 (`_partial`: the transactions may undefine no attribute in use, must say unambiguously what they do to
vocabulary, and may give `:db/txInstant` only to themselves): a store that has what another store had, and
downloads what that other store has uploaded since, ends with the same schema, facts, log and views, at the
remote's head, with the last local transaction mapped to it. -/
theorem C70_replicates_partial {gen : Nat → Nat} {b r : Db} {l up up' : Local} {rem rem' : Remote} {rh : Nat}
    (hb : ReachKept b) (hr : Later b r) (hl : Replica b l.db) (hup : up.db = r)
    (hg : ∀ m n, gen m = gen n → m = n) (hc : ∀ c ∈ rem.chunks, ∀ n, gen n ≠ c.1)
    (hd : (rem.chunks.map (·.1)).Nodup) (hm : OneToOne up.map) (he : EndsWith rem rh)
    (h : fastForwardRemote gen up (some (b.parts.tx.next - 1)) rem rh = .ok (up', rem')) (now : Int) :
    ∃ txs l', rem'.after rh = .ok txs ∧ fastForwardLocal l now txs = .ok (l', .localFastForward) ∧
      Replica r l'.db ∧ (b ≠ r → l'.remoteHead = rem'.head ∧ (r.parts.tx.next - 1, rem'.head) ∈ l'.map) := by
  subst hup
  obtain ⟨ts, new, t1, t2, t3, t4⟩ := C58_download hg hc hd hm h
  obtain ⟨ts', new', -, t2', t3', t5, -, -, -, t6⟩ := C58_chain h
  have hnew : new' = new := List.append_cancel_left (t3'.symm.trans t3)
  subst hnew
  obtain ⟨hkr, hle, rs, hlog, hrs⟩ := hr.spec hb
  have hist := histInv_reach hkr.reach
  obtain ⟨txs, k1, k2, k3⟩ := download_all (t4.imp fun _ _ h => h.2)
  have hmem : ∀ t, t ∈ ts ↔ b.parts.tx.next ≤ t ∧ t < up.db.parts.tx.next := by
    intro t
    rw [t2]
    simp only [After]
    constructor
    · rintro ⟨h1, row, h2, -, rfl⟩
      exact ⟨by omega, (hist.logTx row h2).2.1⟩
    · rintro ⟨h1, h2⟩
      have := (histInv_reach hb.reach).parts.tx
      obtain ⟨i, hi, -⟩ := hist.instants t (by omega) h2
      exact ⟨by omega, _, hi, rfl, rfl⟩
  obtain ⟨db1, h1, h2⟩ := applyRemotes_replay hr hb hl t1 hmem k2 now none
  have hlast : fastForwardLocal l now txs = .ok (match lastApplied up.db txs none with
      | some (tx, uuid) => ({ db := db1, map := l.map.set tx uuid, remoteHead := uuid }, .localFastForward)
      | none => ({ l with db := db1 }, .localFastForward)) := by
    unfold fastForwardLocal
    rw [h1]
    simp only [Res.bind]
    cases lastApplied up.db txs none <;> rfl
  unfold lastApplied at hlast
  cases hx : txs.getLast? with
  | none =>
    rw [hx] at hlast
    have : txs = [] := List.getLast?_eq_none_iff.1 hx
    subst this
    cases k2
    refine ⟨[], _, (after_ends he t3).trans k1, hlast, h2, ?_⟩
    intro hne
    exfalso
    cases hr with
    | refl => exact hne rfl
    | @step _ b1 _ now terms ids rep h known kept told own rest =>
      obtain ⟨-, hle', -⟩ := rest.spec (hb.step ⟨now, terms, ids, rep, known, h⟩ kept)
      obtain ⟨T⟩ := transact_trace h
      have hnext : b1.parts.tx.next = b.parts.tx.next + 1 := by rw [T.parts, T.txid.2.1]
      have := (hmem b.parts.tx.next).2 ⟨Int.le_refl _, by omega⟩
      cases this
  | some tx =>
    rw [hx] at hlast
    refine ⟨txs, _, (after_ends he t3).trans k1, hlast, h2, ?_⟩
    intro _
    have hts : ts' ≠ [] := by
      intro he
      subst he
      have : new' = [] := List.length_eq_zero_iff.1 t5
      subst this
      simp only [List.map_nil, List.map_eq_nil_iff] at k3
      subst k3
      cases hx
    rw [if_neg hts] at t6
    have huu : tx.uuid = rem'.head := by
      have h3 : (txs.map (·.uuid)).getLast? = some tx.uuid := by rw [List.getLast?_map, hx]; rfl
      rw [k3, List.getLast?_map] at h3
      obtain ⟨x, hx1, hx2⟩ := Option.map_eq_some_iff.1 h3
      rw [← hx2]
      exact t6.1.last x hx1
    refine ⟨huu, ?_⟩
    rw [← huu]
    exact mem_set.2 (Or.inl ⟨rfl, rfl⟩)

/-- `Later` by computation. -/
def runLater : List Mentat.Tx → Db → Option Db
  | [], db => some db
  | (terms, ids) :: rest, db =>
    if KnownTerms db terms ∧ metaOneB db.schema = true then
      match transactTerms db 0 terms ids with
      | .ok (db', rep) =>
        if KeepsUsedAttributes db db' ∧ ∀ l ∈ db'.store.log, l.tx = rep.txId → l.a = DB_TX_INSTANT → l.e = rep.txId then
          runLater rest db'
        else none
      | _ => none
    else none

theorem runLater_later : ∀ {txs : List Mentat.Tx} {db db' : Db}, runLater txs db = some db' → Later db db' := by
  intro txs
  induction txs with
  | nil =>
    intro db db' h
    simp only [runLater, Option.some.injEq] at h
    subst h
    exact .refl _
  | cons x rest ih =>
    intro db db' h
    obtain ⟨terms, ids⟩ := x
    unfold runLater at h
    split at h
    · rename_i hk
      split at h
      · rename_i db1 rep ht
        split at h
        · rename_i hku
          exact .step ht hk.1 hku.1 (metaOneB_told hk.2 _) hku.2 (ih h)
        · cases h
      · cases h
    · cases h

/-- Two entities; then one changed, an attribute installed and another renamed. -/
def moreTxs : List Mentat.Tx :=
  [([addT "e" xOne (str "a"), addT "f" xOne (str "b")], [tid "e", tid "f"]),
   (addE 65539 xOne (str "c") :: addE xOne DB_IDENT (.keyword (kw "x" "uno")) ::
      install "new" DB_TYPE_LONG DB_CARDINALITY_ONE, [tid "new"])]

/-- A store with two transactions more than the other, which ends with the same facts and attributes. -/
theorem C70_example : ∃ r txs l', Later setupDb r ∧
    (∃ up', (fastForwardRemote (fun n => n + 8) { db := r } (some (TX0 + 1)) { head := 7, txs := [⟨7, 0, []⟩] } 7) = .ok up' ∧
      up'.2.after 7 = .ok txs) ∧ txs.length = 2 ∧
    fastForwardLocal { db := setupDb, remoteHead := 7 } 5 txs = .ok (l', .localFastForward) ∧ Replica r l'.db ∧
    Has l'.db.store.rows 65539 xOne (str "c") ∧ l'.db.schema ≠ setupDb.schema := by
  have hrun : (runLater moreTxs setupDb).any (fun r =>
      hasB r 65539 xOne (str "c") && decide (r.schema ≠ setupDb.schema) &&
      match fastForwardRemote (fun n => n + 8) { db := r } (some (TX0 + 1)) { head := 7, txs := [⟨7, 0, []⟩] } 7 with
      | .ok (_, rem) => match rem.after 7 with
        | .ok txs => decide (txs.length = 2)
        | _ => false
      | _ => false) = true := by decide +kernel
  cases hr : runLater moreTxs setupDb with
  | none => rw [hr] at hrun; cases hrun
  | some r =>
    rw [hr] at hrun
    simp only [Option.any_some, Bool.and_eq_true, hasB_iff, decide_eq_true_eq] at hrun
    obtain ⟨⟨h1, h2⟩, h3⟩ := hrun
    have hlater := runLater_later hr
    split at h3
    · rename_i up' rem' hup
      obtain ⟨txs, l', k1, k2, k3, -⟩ := C70_replicates_partial (gen := fun n => n + 8) (b := setupDb) (r := r)
        (l := { db := setupDb, remoteHead := 7 }) (up := { db := r }) (rem := { head := 7, txs := [⟨7, 0, []⟩] })
        (rh := 7) reachKept_setup hlater ⟨rfl, .refl _, .refl _, .refl _, .refl _⟩ rfl (by intro m n h; simpa using h)
        (by intro c hc; cases hc) (by simp) (by simp [OneToOne])
        (.inr ⟨by decide, [], ⟨7, 0, []⟩, rfl, rfl, by simp⟩) hup 5
      rw [k1] at h3
      simp only [decide_eq_true_eq] at h3
      refine ⟨r, txs, l', hlater, ⟨_, hup, k1⟩, h3, k2, k3, ?_, by rw [k3.schema]; exact h2⟩
      obtain ⟨x, hx, hh⟩ := h1
      exact ⟨x, k3.rows.mem_iff.1 hx, hh⟩
    · cases h3

/-- The full C70 fails: a transaction that corrects the `:db/txInstant` of an earlier transaction cannot be
downloaded: every `:db/txInstant` in it is put on the new transaction, where they conflict. -/
theorem C70_fails_instant : ∃ r rem up' txs, ReachKept r ∧
    r.schema = setupDb.schema ∧
    fastForwardRemote (fun n => n + 8) { db := r } (some (TX0 + 1)) { head := 7, txs := [⟨7, 0, []⟩] } 7 = .ok (up', rem) ∧
    rem.after 7 = .ok txs ∧ txs.length = 1 ∧
    ∃ e, fastForwardLocal { db := setupDb, remoteHead := 7 } 5 txs = .err e := by
  obtain ⟨r, h, hp⟩ := reachKept_of_setup (txs := [([addE (TX0 + 1) DB_TX_INSTANT (.instant 5)], [])]) (p := fun r =>
    decide (r.schema = setupDb.schema) &&
    match fastForwardRemote (fun n => n + 8) { db := r } (some (TX0 + 1)) { head := 7, txs := [⟨7, 0, []⟩] } 7 with
    | .ok (_, rem) => match rem.after 7 with
      | .ok txs => decide (txs.length = 1) && match fastForwardLocal { db := setupDb, remoteHead := 7 } 5 txs with
        | .err _ => true
        | _ => false
      | _ => false
    | _ => false) (by decide +kernel)
  simp only [Bool.and_eq_true, decide_eq_true_eq] at hp
  obtain ⟨h1, hp⟩ := hp
  split at hp
  · rename_i up' rem hup
    split at hp
    · rename_i txs ht
      simp only [Bool.and_eq_true, decide_eq_true_eq] at hp
      obtain ⟨h2, h3⟩ := hp
      split at h3
      · rename_i e he
        exact ⟨r, rem, up', txs, h, h1, hup, ht, h2, e, he⟩
      · cases h3
    · cases hp
  · cases hp

end Mentat.Sync
