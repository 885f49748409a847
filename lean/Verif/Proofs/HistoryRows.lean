import Verif.Proofs.History
/- The bootstrap case, and the row invariant over histories. -/
namespace Mentat

theorem schemaRetractions_go_sub {sus idr} {l : List EAV} {am filt am' filt'}
    (h : schemaRetractions.go idr sus l am filt = .ok (am', filt')) {a : Entid} {at_ : Attribute}
    (hg : AMap.get am' a = some at_) : AMap.get am a = some at_ := by
  induction l generalizing am filt with
  | nil =>
    simp only [schemaRetractions.go, Res.ok.injEq, Prod.mk.injEq] at h
    rw [h.1]; exact hg
  | cons x r ih =>
    obtain ⟨e, b, v⟩ := x
    unfold schemaRetractions.go at h
    simp only at h
    split at h
    · split at h
      · have := ih h
        rw [AMap.get_erase] at this
        split at this
        · simp at this
        · exact this
      · simp at h
    · exact ih h

/-- Updating an empty schema alters nothing, so no row flag changes. -/
theorem applyMetadata_empty {s : Schema} {rows views lr s' rows' views'} (hs : s.attributeMap = [])
    (h : applyMetadata s rows views lr = .ok (s', rows', views')) : rows' = rows := by
  unfold applyMetadata at h
  rw [Res.bind_eq_ok] at h
  obtain ⟨⟨s1, rep⟩, h1, h⟩ := h
  simp only at h
  split at h
  · rw [Res.bind_eq_ok] at h
    obtain ⟨⟨rows1, views1⟩, h2, h⟩ := h
    simp only [Res.pure_eq, Res.ok.injEq, Prod.mk.injEq] at h
    obtain ⟨rfl, rfl, rfl⟩ := h
    obtain ⟨as_, is, am, retr, am', rep0, hc, hr, hu, hs1, -, hrep⟩ := updateSchema_ok h1
    obtain ⟨bs, bs0, -, -, hw, hb⟩ := updateAttributeMap_ok hu
    have ham : ∀ a, AMap.get am a = none := by
      intro a
      cases hg : AMap.get am a with
      | none => rfl
      | some at_ =>
        unfold schemaRetractions at hr
        have := schemaRetractions_go_sub hr hg
        rw [hs] at this; simp at this
    have halt : ∀ e, AMap.get rep.altered e = none := by
      intro e
      have : AMap.get rep.altered e = AMap.get rep0.altered e := by rw [hrep]
      rw [this]
      cases hg : AMap.get bs e with
      | none => rw [(hb.untouched e hg).2.1]; rfl
      | some b => rw [(hb.installed e b hg (ham e)).2.2.2.2]; rfl
    have hwalt : AMap.WF rep.altered := by rw [hrep]; exact hb.wfAltered AMap.wf_nil
    unfold updateMetadata at h2
    simp only at h2
    split at h2
    · rename_i rows2 heq
      simp only [Res.ok.injEq, Prod.mk.injEq] at h2
      obtain ⟨rfl, -⟩ := h2
      obtain ⟨c1, -⟩ := applyAllAlterations_ok hwalt heq
      rw [c1]
      have : reflag s1 rep.altered = id := by funext r; simp [reflag, halt]
      rw [this, List.map_id]
    · simp at h2
    · simp at h2
  · simp only [Res.pure_eq, Res.ok.injEq, Prod.mk.injEq] at h
    exact h.2.1.symm

/-- `:db/txInstant` holds instants. -/
def TxInstantOk (s : Schema) : Prop :=
  ∀ at_, s.attr DB_TX_INSTANT = some at_ → at_.valueType = .instant

theorem bootstrapSchema_txInstant {s : Schema} (h : bootstrapSchema = .ok s) : TxInstantOk s := by
  have key : (match bootstrapSchema with
      | .ok s => decide ((s.attr DB_TX_INSTANT).map (·.valueType) = some .instant)
      | _ => false) = true := by decide +kernel
  rw [h] at key
  simp only [decide_eq_true_eq] at key
  intro at_ hat
  rw [hat] at key
  simpa using key

/-- The database the bootstrap transaction runs on. -/
def preBoot (s : Schema) : Db := { schema := s, parts := Parts.bootstrap, store := {}, views := {} }

theorem create_ok {now : Int} {db : Db} (h : createCurrentVersion now = .ok db) :
    ∃ s db1 rep, bootstrapSchema = .ok s ∧
      transactTermsWith (preBoot s) {} now bootTerms [] .materializeAndCommit = .ok (db1, rep) ∧
      Schema.same db1.schema s = true ∧ db = { db1 with schema := s } := by
  unfold createCurrentVersion at h
  rw [Res.bind_eq_ok] at h
  obtain ⟨s, h1, h⟩ := h
  rw [Res.bind_eq_ok] at h
  obtain ⟨⟨db1, rep⟩, h2, h⟩ := h
  simp only at h
  split at h
  · rename_i hs
    simp only [Res.pure_eq, Res.ok.injEq] at h
    exact ⟨s, db1, rep, h1, h2, hs, h.symm⟩
  · simp at h

theorem bootTerms_known (s : Schema) : KnownTerms (preBoot s) bootTerms := by
  have key : bootTerms.all (fun x => match x.e with
    | .inl e => Parts.bootstrap.containsEntid e
    | .inr _ => true) = true := by decide +kernel
  intro x hx e he
  have := List.all_eq_true.mp key x hx
  rw [he] at this
  exact Or.inl this

theorem histInv_preBoot (s : Schema) : HistInv (preBoot s) := by
  refine ⟨rfl, ?_, ⟨?_, ?_, ?_⟩, ?_, ?_, ?_, ?_, ?_⟩
  · intro e a v tx
    simp [preBoot, lastEntry]
  · simp only [preBoot, Parts.bootstrap]; decide
  · simp only [preBoot, Parts.bootstrap]; decide
  · simp only [preBoot, Parts.bootstrap]; decide
  · intro l hl; simp [preBoot] at hl
  · intro l hl; simp [preBoot] at hl
  · intro tx h1 h2
    have : (preBoot s).parts.tx.next = TX0 := rfl
    omega
  · simp [preBoot]
  · simp [preBoot]

theorem maxEntid_spec (l : List Entid) :
    (maxEntid l = none ↔ l = []) ∧ ∀ m, maxEntid l = some m → m ∈ l ∧ ∀ e ∈ l, e ≤ m := by
  induction l with
  | nil => simp [maxEntid]
  | cons e r ih =>
    unfold maxEntid
    cases hm : maxEntid r with
    | none =>
      have : r = [] := ih.1.mp hm
      subst this
      simp
    | some m =>
      obtain ⟨h1, h2⟩ := ih.2 m hm
      refine ⟨by simp, ?_⟩
      intro m' hm'
      simp only [Option.some.injEq] at hm'
      split at hm'
      · subst hm'
        refine ⟨List.mem_cons_of_mem _ h1, ?_⟩
        intro x hx
        rcases List.mem_cons.mp hx with rfl | hx
        · assumption
        · exact h2 x hx
      · subst hm'
        refine ⟨List.mem_cons_self, ?_⟩
        intro x hx
        rcases List.mem_cons.mp hx with rfl | hx
        · omega
        · have := h2 x hx; omega

/-- A partition read back from the log: its index is one past the largest entity of the log in
its range, or its start. -/
theorem readPart_ok {log : List LogRow} {lo : Option Entid} {start fin : Entid} {p : Partition}
    (h : readPart log lo start fin = .ok p) :
    p.start = start ∧ p.fin = fin ∧ start ≤ p.next ∧ p.next ≤ fin ∧
    (∀ l ∈ log, l.timeline = 0 → l.e ≤ fin → (∀ x, lo = some x → x < l.e) → l.e < p.next) ∧
    (p.next = start ∨ ∃ l ∈ log, l.timeline = 0 ∧ l.e + 1 = p.next ∧ l.e ≤ fin ∧
      ∀ x, lo = some x → x < l.e) := by
  have hmem : ∀ e, e ∈ partEntids log lo fin ↔
      ∃ l ∈ log, l.timeline = 0 ∧ l.e ≤ fin ∧ (∀ x, lo = some x → x < l.e) ∧ l.e = e := by
    intro e
    unfold partEntids
    simp only [List.mem_map, List.mem_filter, Bool.and_eq_true, decide_eq_true_eq]
    constructor
    · rintro ⟨l, ⟨h1, ⟨h2, h3⟩, h4⟩, rfl⟩
      refine ⟨l, h1, h2, h3, ?_, rfl⟩
      rintro x rfl
      simpa using h4
    · rintro ⟨l, h1, h2, h3, h4, rfl⟩
      refine ⟨l, ⟨h1, ⟨h2, h3⟩, ?_⟩, rfl⟩
      cases lo with
      | none => rfl
      | some x => simpa using h4 x rfl
  have hnew : ∀ nx, Partition.new start fin nx = .ok p →
      p.start = start ∧ p.fin = fin ∧ start ≤ p.next ∧ p.next ≤ fin ∧ p.next = nx := by
    intro nx hn
    unfold Partition.new at hn
    split at hn
    · rename_i hb
      simp only [Res.ok.injEq] at hn
      subst hn
      exact ⟨rfl, rfl, hb.1, hb.2, rfl⟩
    · simp at hn
  unfold readPart partIdx at h
  cases hx : maxEntid (partEntids log lo fin) with
  | none =>
    rw [hx] at h
    simp only [Option.map_none] at h
    obtain ⟨k1, k2, k3, k4, k5⟩ := hnew _ h
    refine ⟨k1, k2, k3, k4, ?_, Or.inl k5⟩
    intro l hl h1 h2 h3
    have hm := (hmem l.e).mpr ⟨l, hl, h1, h2, h3, rfl⟩
    rw [(maxEntid_spec _).1.mp hx] at hm
    simp at hm
  | some m =>
    rw [hx] at h
    simp only [Option.map_some] at h
    obtain ⟨k1, k2, k3, k4, k5⟩ := hnew _ h
    refine ⟨k1, k2, k3, k4, ?_, Or.inr ?_⟩
    · intro l hl h1 h2 h3
      have := ((maxEntid_spec _).2 m hx).2 _ ((hmem l.e).mpr ⟨l, hl, h1, h2, h3, rfl⟩)
      omega
    · obtain ⟨l, h1, h2, h3, h4, h5⟩ := (hmem m).mp ((maxEntid_spec _).2 m hx).1
      exact ⟨l, h1, h2, by omega, h3, h4⟩

/-- What `reopen` gives back. -/
theorem reopen_ok {db db' : Db} (h : reopen db = .ok db') :
    db'.store = db.store ∧ db'.views = db.views ∧ readSchema db.views = .ok db'.schema ∧
    readPart db.store.log none 0 (USER0 - 1) = .ok db'.parts.db ∧
    readPart db.store.log (some (USER0 - 1)) USER0 (TX0 - 1) = .ok db'.parts.user ∧
    readPart db.store.log (some (TX0 - 1)) TX0 I64MAX = .ok db'.parts.tx := by
  unfold reopen readParts at h
  rw [Res.bind_eq_ok] at h
  obtain ⟨parts, h1, h⟩ := h
  rw [Res.bind_eq_ok] at h
  obtain ⟨schema, h2, h⟩ := h
  simp only [Res.pure_eq, Res.ok.injEq] at h
  subst h
  rw [Res.bind_eq_ok] at h1
  obtain ⟨p1, h3, h1⟩ := h1
  rw [Res.bind_eq_ok] at h1
  obtain ⟨p2, h4, h1⟩ := h1
  rw [Res.bind_eq_ok] at h1
  obtain ⟨p3, h5, h1⟩ := h1
  simp only [Res.pure_eq, Res.ok.injEq] at h1
  subst h1
  exact ⟨rfl, rfl, h2, h3, h4, h5⟩

theorem histInv_reopen {db db' : Db} (hi : HistInv db) (h : reopen db = .ok db') : HistInv db' := by
  obtain ⟨hst, -, -, h1, h2, h3⟩ := reopen_ok h
  obtain ⟨a1, a2, a3, a4, a5, a6⟩ := readPart_ok h1
  obtain ⟨b1, b2, b3, b4, b5, b6⟩ := readPart_ok h2
  obtain ⟨c1, c2, c3, c4, c5, c6⟩ := readPart_ok h3
  obtain ⟨q1, q2, q3, q4⟩ := hi.parts.db
  obtain ⟨p1, p2, p3, p4⟩ := hi.parts.user
  obtain ⟨x1, x2, x3, x4⟩ := hi.parts.tx
  have hT : TX0 = 268435456 := rfl
  have hU : USER0 = 65536 := rfl
  have hE : ∀ l ∈ db.store.log, (0 ≤ l.e ∧ l.e < 41) ∨ (USER0 ≤ l.e ∧ l.e < TX0 - 1) ∨
      (TX0 ≤ l.e ∧ l.e < db.parts.tx.next) := by
    intro l hl
    have := hi.logE l hl
    simp only [Parts.containsEntid, Partition.containsEntid, Bool.or_eq_true, decide_eq_true_eq] at this
    omega
  have htx : db'.parts.tx.next = db.parts.tx.next := by
    have hle : db'.parts.tx.next ≤ db.parts.tx.next := by
      rcases c6 with h | ⟨l, hl, -, h4, -, h6⟩
      · omega
      · have := h6 _ rfl
        have := hE l hl
        omega
    by_cases hz : db.parts.tx.next = TX0
    · omega
    · obtain ⟨i, hm, -⟩ := hi.instants (db.parts.tx.next - 1) (by omega) (by omega)
      have := c5 _ hm rfl (by simp only; omega) (by intro x hx; cases hx; simp only; omega)
      simp only at this
      omega
  refine ⟨by rw [hst]; exact hi.uniq, by rw [hst]; exact hi.replay, ⟨?_, ?_, ?_⟩, ?_, ?_, ?_,
    by rw [hst]; exact hi.nodup, by rw [hst]; exact hi.sorted⟩
  · refine ⟨a1, a2, a3, ?_⟩
    rcases a6 with h | ⟨l, hl, -, h4, h5, -⟩
    · omega
    · have := hE l hl; omega
  · exact ⟨b1, b2, b3, b4⟩
  · exact ⟨c1, c2, c3, c4⟩
  · rw [hst, htx]; exact hi.logTx
  · intro l hl
    rw [hst] at hl
    have ht := (hi.logTx l hl).2.2
    simp only [Parts.containsEntid, Partition.containsEntid, Bool.or_eq_true, decide_eq_true_eq]
    rcases hE l hl with h | h | h
    · have := a5 l hl ht (by omega) (by intro x hx; cases hx)
      omega
    · have := b5 l hl ht (by omega) (by intro x hx; cases hx; omega)
      omega
    · have := c5 l hl ht (by omega) (by intro x hx; cases hx; omega)
      omega
  · rw [hst, htx]; exact hi.instants

theorem Widens.contains {p q : Parts} (h : Widens p q) {e : Entid} (hc : p.containsEntid e = true) :
    q.containsEntid e = true := by
  obtain ⟨h1, h2, h3, h4, h5, h6⟩ := h
  simp only [Parts.containsEntid, Partition.containsEntid, Bool.or_eq_true, decide_eq_true_eq] at hc ⊢
  rw [h1, h2, h3]
  omega

theorem histInv_widen {db : Db} {p : Parts} (hi : HistInv db) (h : Widens db.parts p) :
    HistInv { db with parts := p } := by
  have hc := @Widens.contains _ _ h
  obtain ⟨h1, h2, h3, h4, h5, h6⟩ := h
  have hu := hi.parts.user
  refine ⟨hi.uniq, hi.replay, ⟨?_, ?_, ?_⟩, ?_, fun l hl => hc (hi.logE l hl), ?_, hi.nodup, hi.sorted⟩
  · show p.db.start = 0 ∧ _
    rw [h1]; exact hi.parts.db
  · show p.user.start = USER0 ∧ p.user.fin = TX0 - 1 ∧ USER0 ≤ p.user.next ∧ p.user.next ≤ TX0 - 1
    omega
  · show p.tx.start = TX0 ∧ _
    rw [h2]; exact hi.parts.tx
  · show ∀ l ∈ db.store.log, TX0 ≤ l.tx ∧ l.tx < p.tx.next ∧ l.timeline = 0
    rw [h2]; exact hi.logTx
  · show ∀ tx, TX0 ≤ tx → tx < p.tx.next → _
    rw [h2]; exact hi.instants

theorem histInv_reach {db : Db} (h : Reach db) : HistInv db := by
  induction h with
  | boot h =>
    obtain ⟨s, db1, rep, h1, h2, h3, rfl⟩ := create_ok h
    have := histInv_step (histInv_preBoot s) (bootTerms_known s) h2
    exact ⟨this.uniq, this.replay, this.parts, this.logTx, this.logE, this.instants, this.nodup,
      this.sorted⟩
  | step _ ht ih =>
    obtain ⟨now, terms, ids, rep, hk, ht⟩ := ht
    exact histInv_step ih hk ht
  | reopen _ h ih => exact histInv_reopen ih h
  | widen _ h ih => exact histInv_widen ih h

/-- The log only grows. -/
theorem log_prefix {db sfm now terms ids db' rep}
    (h : transactTermsWith db sfm now terms ids .materializeAndCommit = .ok (db', rep)) :
    ∃ lr, db'.store.log = db.store.log ++ lr := by
  obtain ⟨T⟩ := transact_trace h
  obtain ⟨-, -, -, -, -, hlog, -⟩ := apply_ok T.applied
  exact ⟨T.lr, by rw [T.log, hlog rfl]⟩

/-! ### The row invariant -/

theorem ReachKept.reach {db : Db} (h : ReachKept db) : Reach db := by
  induction h with
  | boot h => exact .boot h
  | step _ h _ ih => exact .step ih h

theorem rowsInv_step {db now terms ids db' rep} (hh : HistInv db)
    (hi : RowsInv db.schema db.store.rows) (ht : TxInstantOk db.schema)
    (h : transactTerms db now terms ids = .ok (db', rep)) (hk : KeepsUsedAttributes db db') :
    RowsInv db'.schema db'.store.rows ∧ TxInstantOk db'.schema := by
  obtain ⟨T⟩ := transact_trace h
  have hq := T.qok ht
  have h1 := rowsInv_apply hi hq T.applied
  rcases T.md with ⟨hm, -⟩ | ⟨hs, hr, -, -⟩
  · have hst := applyMetadata_step hm
    obtain ⟨f, hf, hf', -⟩ := hst.reflagged
    have hap := applySpec hi.uniq T.applied
    have hnr : ∀ r ∈ T.store.rows, ¬ RetractsValueType T.lr r.a := by
      rintro r hr ⟨l, hl, hle, hla, hadd⟩
      obtain ⟨hb, hn⟩ := hap.retracted l hl hadd
      rw [hle, hla] at hb hn
      refine hk r.a l.v hb ?_ (f r) (by rw [hf]; exact List.mem_map.mpr ⟨r, hr, rfl⟩) (hf' r).2.1
      rw [hf, has_map hf']; exact hn
    refine ⟨rowsInv_metaStep h1 hst hnr, ?_⟩
    obtain ⟨at_, hat⟩ := Option.isSome_iff_exists.mp T.tSpec.attr
    -- some datom uses :db/txInstant: the one just written
    have hused : ∃ r ∈ T.store.rows, r.a = DB_TX_INSTANT := by
      have hqm : (⟨rep.txId, DB_TX_INSTANT, at_, .instant rep.txInstant, true⟩ : Reduced) ∈
          reducedOf db.schema T.t :=
        T.mem_queue.mpr ⟨hat, Or.inl ⟨rfl, Or.inr ⟨rfl, rfl, rfl⟩⟩⟩
      obtain ⟨hrows, -⟩ := apply_ok T.applied
      refine ⟨_, by
        rw [hrows, mem_newRows]
        refine Or.inr ⟨_, hqm, ⟨rfl, Or.inl ?_⟩, rfl⟩
        rintro r hr ⟨he, -, -⟩
        exact hh.no_datom_of_next r.a r.v ⟨r, hr, he.trans T.txid.1, rfl, rfl⟩, rfl⟩
    obtain ⟨r, hr, hra⟩ := hused
    obtain ⟨at', hat', hty, -⟩ := hst.keep _ _ hat (by have := hnr r hr; rwa [hra] at this)
    intro at2 hat2
    rw [hat'] at hat2
    cases hat2
    rw [hty, ht at_ hat]
  · rw [hs, hr]; exact ⟨h1, ht⟩

theorem same_attr {s s' : Schema} (h : Schema.same s s' = true) (a : Entid) :
    s.attr a = s'.attr a := by
  unfold Schema.same AMap.same at h
  simp only [Bool.and_eq_true, List.all_eq_true, decide_eq_true_eq] at h
  obtain ⟨-, h1, h2⟩ := h
  unfold Schema.attr
  cases hg : AMap.get s.attributeMap a with
  | some at_ => exact (h1 _ (AMap.get_some_mem hg)).symm
  | none =>
    cases hg' : AMap.get s'.attributeMap a with
    | none => rfl
    | some at_ =>
      have := h2 _ (AMap.get_some_mem hg')
      rw [hg] at this; simp at this

theorem rowsInv_reach {db : Db} (h : ReachKept db) :
    RowsInv db.schema db.store.rows ∧ TxInstantOk db.schema := by
  induction h with
  | boot h =>
    obtain ⟨s, db1, rep, h1, h2, h3, rfl⟩ := create_ok h
    obtain ⟨T⟩ := transact_trace h2
    have ht := bootstrapSchema_txInstant h1
    have hq := T.qok ht
    have hr := rowsInv_apply (rowsInv_nil s) hq T.applied
    refine ⟨?_, ht⟩
    rcases T.md with ⟨hm, -⟩ | ⟨-, hr', -, -⟩
    · rw [show ({ db1 with schema := s } : Db).store.rows = db1.store.rows from rfl,
        applyMetadata_empty rfl hm]
      exact hr
    · rw [show ({ db1 with schema := s } : Db).store.rows = db1.store.rows from rfl, hr']
      exact hr
  | step hr ht hk ih =>
    obtain ⟨now, terms, ids, rep, -, ht⟩ := ht
    exact rowsInv_step (histInv_reach hr.reach) ih.1 ih.2 ht hk

end Mentat
