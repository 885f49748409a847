import Verif.Proofs.PermuteApply
/-
Helper lemmas for C70: applying again what a transaction wrote into the log.
-/
namespace Mentat

/-- A queue that asks for exactly what the log says. -/
structure LogQueue (s : Schema) (lr : List LogRow) (qs : List Reduced) : Prop where
  nodup : qs.Nodup
  attr : ∀ q ∈ qs, s.attr q.a = some q.attr
  mem : ∀ e a v b, (∃ q ∈ qs, q.e = e ∧ q.a = a ∧ q.v = v ∧ q.added = b) ↔
    ∃ l ∈ lr, l.e = e ∧ l.a = a ∧ l.v = v ∧ l.added = b

theorem uniqueOk_nodup {rows : List Row} (h : uniqueOk rows = true) : rows.Nodup := by
  rw [uniqueOk_iff] at h
  refine List.Pairwise.imp ?_ h
  rintro x y ⟨h1, -⟩ rfl
  exact h1 ⟨rfl, rfl, rfl⟩

theorem length_atMostOne {α : Type} {l : List α} (hn : l.Nodup) (h : ∀ x ∈ l, ∀ y ∈ l, x = y) :
    l.length ≤ 1 := by
  match l, hn, h with
  | [], _, _ => simp
  | [x], _, _ => simp
  | x :: y :: r, hn, h =>
    have := h x (by simp) y (by simp)
    subst this
    simp at hn

/-- With cardinality kept, a search finds at most one row. -/
theorem searchOne_le {s : Schema} {rows : List Row} (hi : RowsInv s rows) {q : Reduced}
    (hq : s.attr q.a = some q.attr) : (searchOne rows q).length ≤ 1 := by
  have hn := uniqueOk_nodup hi.uniq
  have key : ∀ (one : Bool) (p : Row → Bool), (∀ x ∈ rows, ∀ y ∈ rows, p x = true → p y = true → x = y) →
      (leftJoin rows q one p).length ≤ 1 := by
    intro one p hp
    unfold leftJoin
    split
    · simp
    · rw [List.length_map]
      refine length_atMostOne (hn.filter _) ?_
      intro x hx y hy
      rw [List.mem_filter] at hx hy
      exact hp x hx.1 y hy.1 hx.2 hy.2
  unfold searchOne
  split
  · refine key _ _ fun x hx y hy h1 h2 => ?_
    simp only [decide_eq_true_eq] at h1 h2
    exact uniqueOk_eav hi.uniq hx hy (h1.1.trans h2.1.symm) (h1.2.1.trans h2.2.1.symm) (h1.2.2.trans h2.2.2.symm)
  · rename_i hm
    refine key _ _ fun x hx y hy h1 h2 => ?_
    simp only [decide_eq_true_eq] at h1 h2
    exact hi.one x hx y hy q.attr (by rw [h1.2]; exact hq) (by simpa using hm) (h1.1.trans h2.1.symm)
      (h1.2.trans h2.2.symm)

theorem pairwise_of_length {α : Type} {R : α → α → Prop} {l : List α} (h : l.length ≤ 1) : l.Pairwise R := by
  match l, h with
  | [], _ => exact .nil
  | [x], _ => exact List.pairwise_singleton _ _

theorem pairwise_flatMap {α β : Type} {R : β → β → Prop} {l : List α} {f : α → List β}
    (h1 : ∀ x ∈ l, (f x).Pairwise R) (h2 : l.Pairwise fun x y => ∀ b ∈ f x, ∀ c ∈ f y, R b c) :
    (l.flatMap f).Pairwise R := by
  induction l with
  | nil => simp
  | cons x r ih =>
    rw [List.pairwise_cons] at h2
    rw [List.flatMap_cons, List.pairwise_append]
    refine ⟨h1 x (by simp), ih (fun y hy => h1 y (List.mem_cons_of_mem _ hy)) h2.2, ?_⟩
    intro b hb c hc
    rw [List.mem_flatMap] at hc
    obtain ⟨y, hy, hc⟩ := hc
    exact h2.1 y hy b hb c hc

theorem RowsInv.perm {s : Schema} {rows rows' : List Row} (h : rows.Perm rows') (hi : RowsInv s rows) :
    RowsInv s rows' := by
  refine ⟨by rw [← uniqueOk_perm h]; exact hi.uniq, ?_, ?_⟩
  · intro r hr; exact hi.typed r (h.mem_iff.2 hr)
  · intro r hr r' hr'; exact hi.one r (h.mem_iff.2 hr) r' (h.mem_iff.2 hr')

section
variable {s : Schema} {st : Store} {tx : Entid} {qs qs' : List Reduced} {act : TxAction} {st1 : Store}
  {lr : List LogRow}

/-- What the log's queue deletes and inserts is what the original queue did. -/
structure SameWork (rows : List Row) (qs qs' : List Reduced) : Prop where
  del : ∀ r ∈ rows, (∃ q ∈ qs', Deletes q r) ↔ ∃ q ∈ qs, Deletes q r
  ins : ∀ q, (q ∈ qs' ∧ Inserts rows q) ↔ (q ∈ qs ∧ Inserts rows q)

theorem logQueue_added (hq : QOk s qs) (h : st.apply tx qs act = .ok (st1, lr)) (hl : LogQueue s lr qs')
    {q : Reduced} (hm : q ∈ qs') (ha : q.added = true) : q ∈ qs ∧ Inserts st.rows q := by
  obtain ⟨-, -, hlr, -⟩ := apply_ok h
  obtain ⟨l, hl1, h1, h2, h3, h4⟩ := (hl.mem q.e q.a q.v q.added).1 ⟨q, hm, rfl, rfl, rfl, rfl⟩
  rw [hlr, mem_logRowsOf] at hl1
  rcases hl1 with ⟨p, hp, hi, rfl⟩ | ⟨r, -, -, rfl⟩
  · have : p = q := by
      have e1 := hq.attr p hp
      have e2 := hl.attr q hm
      simp only at h1 h2 h3 h4
      rw [h2, e2] at e1
      have e3 := hi.1
      cases p; cases q
      simp_all
    subst this
    exact ⟨hp, hi⟩
  · simp [ha] at h4

theorem logQueue_retracted (h : st.apply tx qs act = .ok (st1, lr)) (hl : LogQueue s lr qs')
    {q : Reduced} (hm : q ∈ qs') (ha : q.added = false) :
    ∃ r ∈ st.rows, (∃ p ∈ qs, Deletes p r) ∧ r.e = q.e ∧ r.a = q.a ∧ r.v = q.v := by
  obtain ⟨-, -, hlr, -⟩ := apply_ok h
  obtain ⟨l, hl1, h1, h2, h3, h4⟩ := (hl.mem q.e q.a q.v q.added).1 ⟨q, hm, rfl, rfl, rfl, rfl⟩
  rw [hlr, mem_logRowsOf] at hl1
  rcases hl1 with ⟨p, -, -, rfl⟩ | ⟨r, hr, hd, rfl⟩
  · simp [ha] at h4
  · exact ⟨r, hr, hd, h1, h2, h3⟩

theorem logQueue_same (hi : RowsInv s st.rows) (hq : QOk s qs) (h : st.apply tx qs act = .ok (st1, lr))
    (hl : LogQueue s lr qs') : SameWork st.rows qs qs' := by
  obtain ⟨-, -, hlr, -⟩ := apply_ok h
  refine ⟨?_, ?_⟩
  · intro r hr
    constructor
    · rintro ⟨q, hm, hd⟩
      cases ha : q.added with
      | true => exact ⟨q, (logQueue_added hq h hl hm ha).1, hd⟩
      | false =>
        obtain ⟨r', hr', hd', e1, e2, e3⟩ := logQueue_retracted h hl hm ha
        have : r' = r := by
          cases hv : q.attr.multival with
          | true =>
            exact uniqueOk_eav hi.uniq hr' hr (e1.trans hd.1.1.symm) (e2.trans hd.1.2.1.symm)
              (e3.trans (hd.1.2.2 hv).symm)
          | false =>
            exact hi.one r' hr' r hr q.attr (by rw [e2]; exact hl.attr q hm) hv (e1.trans hd.1.1.symm)
              (e2.trans hd.1.2.1.symm)
        subst this
        exact hd'
    · intro hd
      have hm : (⟨r.e, r.a, r.v, tx, false, 0⟩ : LogRow) ∈ lr := by
        rw [hlr, mem_logRowsOf]; exact .inr ⟨r, hr, hd, rfl⟩
      obtain ⟨q, hq1, h1, h2, h3, h4⟩ := (hl.mem r.e r.a r.v false).2 ⟨_, hm, rfl, rfl, rfl, rfl⟩
      exact ⟨q, hq1, ⟨h1.symm, h2.symm, fun _ => h3.symm⟩, .inl h4⟩
  · intro q
    constructor
    · rintro ⟨hm, hn⟩
      exact logQueue_added hq h hl hm hn.1
    · rintro ⟨hm, hn⟩
      refine ⟨?_, hn⟩
      have hm' : (⟨q.e, q.a, q.v, tx, true, 0⟩ : LogRow) ∈ lr := by
        rw [hlr, mem_logRowsOf]; exact .inl ⟨q, hm, hn, rfl⟩
      obtain ⟨p, hp, h1, h2, h3, h4⟩ := (hl.mem q.e q.a q.v true).2 ⟨_, hm', rfl, rfl, rfl, rfl⟩
      have : p = q := by
        have e1 := hl.attr p hp
        rw [h2, hq.attr q hm] at e1
        have := hn.1
        cases p; cases q
        simp_all
      exact this ▸ hp

/-- Two different entries of the log's queue are about different datoms. -/
theorem logQueue_distinct (hi : RowsInv s st.rows) (hq : QOk s qs) (h : st.apply tx qs act = .ok (st1, lr))
    (hl : LogQueue s lr qs') {q p : Reduced} (hm : q ∈ qs') (hm' : p ∈ qs') (he : q.e = p.e) (ha : q.a = p.a)
    (hv : q.v = p.v) : q = p := by
  have hat : q.attr = p.attr := by
    have h1 := hl.attr q hm
    rw [ha, hl.attr p hm'] at h1
    exact (Option.some.inj h1).symm
  have clash : ∀ q p : Reduced, q ∈ qs' → p ∈ qs' → q.e = p.e → q.a = p.a → q.v = p.v → q.added = true →
      p.added = false → False := by
    intro q p hm hm' he ha hv h1 h2
    obtain ⟨-, -, hn⟩ := logQueue_added hq h hl hm h1
    obtain ⟨r, hr, -, e1, e2, e3⟩ := logQueue_retracted h hl hm' h2
    rcases hn with hn | ⟨r', hr', hj, hne⟩
    · exact hn r hr ⟨e1.trans he.symm, e2.trans ha.symm, fun _ => e3.trans hv.symm⟩
    · cases hu : q.attr.multival with
      | true => exact hne (hj.2.2 hu).symm
      | false =>
        have : r' = r := hi.one r' hr' r hr q.attr (by rw [hj.2.1]; exact hl.attr q hm) hu
          (hj.1.trans (he.trans e1.symm)) (hj.2.1.trans (ha.trans e2.symm))
        subst this
        exact hne (hv.trans e3.symm)
  have : q.added = p.added := by
    cases h1 : q.added <;> cases h2 : p.added
    · rfl
    · exact (clash p q hm' hm he.symm ha.symm hv.symm h2 h1).elim
    · exact (clash q p hm hm' he ha hv h1 h2).elim
    · rfl
  cases q; cases p; simp_all

/-- Applying what the log says, to a store with the same rows, writes the same rows and the same log. -/
theorem apply_replay {st' : Store} (hi : RowsInv s st.rows) (hq : QOk s qs)
    (h : st.apply tx qs act = .ok (st1, lr)) (hst : SameStore st st') (hl : LogQueue s lr qs') :
    ∃ st1' lr', st'.apply tx qs' act = .ok (st1', lr') ∧ SameStore st1 st1' ∧ lr.Perm lr' := by
  obtain ⟨hrows, hu, hlr, -, -, hc1, hc2⟩ := apply_ok h
  have hi' := RowsInv.perm hst.rows hi
  have hw := logQueue_same hi hq h hl
  have hmem := fun r => hst.rows.mem_iff (a := r)
  have hjoin : ∀ q, Inserts st'.rows q ↔ Inserts st.rows q := by
    intro q; unfold Inserts; simp only [hmem]
  have hfp : (search st'.rows qs').Pairwise fun f f' => ¬ (f'.q.e = f.q.e ∧ f'.q.a = f.q.a ∧ f'.q.v = f.q.v) := by
    refine pairwise_flatMap (fun q hm => pairwise_of_length (searchOne_le hi' (hl.attr q hm))) ?_
    refine List.Pairwise.imp_of_mem ?_ hl.nodup
    intro q p hm hm' hne f hf f' hf' ⟨e1, e2, e3⟩
    rw [mem_searchOne] at hf hf'
    rw [hf.1, hf'.1] at e1 e2 e3
    exact hne (logQueue_distinct hi hq h hl hm hm' e1.symm e2.symm e3.symm)
  have hf : foundUniqueOk (search st'.rows qs') = true := foundUniqueOk_iff.2 hfp
  have hx : inexactUniqueOk qs' = true := by
    rw [inexactUniqueOk_iff]
    refine List.Pairwise.imp_of_mem ?_ hl.nodup
    rintro q p hm hm' hne ⟨h1, h2, h3, h4, h5, h6⟩
    have a1 := logQueue_added hq h hl hm h2
    have a2 := logQueue_added hq h hl hm' h4
    exact hne (logQueue_distinct hi hq h hl hm hm' h5.symm h6.symm (hq.one q a1.1 p a2.1 h2 h4 h1 h5.symm h6.symm))
  have hins : (insertRows tx (search st.rows qs)).Perm (insertRows tx (search st'.rows qs')) := by
    refine SameMem.perm ?_ ?_ ?_
    · intro r
      rw [mem_insertRows, mem_insertRows]
      constructor
      · rintro ⟨q, hm, hn, rfl⟩
        obtain ⟨h1, h2⟩ := (hw.ins q).2 ⟨hm, hn⟩
        exact ⟨q, h1, (hjoin q).2 h2, rfl⟩
      · rintro ⟨q, hm, hn, rfl⟩
        obtain ⟨h1, h2⟩ := (hw.ins q).1 ⟨hm, (hjoin q).1 hn⟩
        exact ⟨q, h1, h2, rfl⟩
    · have := uniqueOk_nodup hu
      rw [hrows] at this
      exact (List.nodup_append.1 this).2.1
    · unfold insertRows
      rw [List.Nodup, List.pairwise_map]
      refine List.Pairwise.imp ?_ (hfp.filter _)
      intro f f' hne heq
      apply hne
      simp only [newRow, Row.mk.injEq] at heq
      exact ⟨heq.1.symm, heq.2.1.symm, heq.2.2.1.symm⟩
  have hdel : (deleteRows st.rows (search st.rows qs)).Perm (deleteRows st'.rows (search st'.rows qs')) := by
    refine SameMem.perm ?_ ?_ ?_
    · intro r
      rw [mem_deleteRows, mem_deleteRows, ← hmem r]
      constructor
      · rintro ⟨hr, hn⟩; exact ⟨hr, fun hd => hn ((hw.del r hr).1 hd)⟩
      · rintro ⟨hr, hn⟩; exact ⟨hr, fun hd => hn ((hw.del r hr).2 hd)⟩
    · exact (uniqueOk_nodup hi.uniq).filter _
    · exact (uniqueOk_nodup hi'.uniq).filter _
  have hr := hdel.append hins
  have hlp : lr.Perm (logRowsOf tx (search st'.rows qs')) := by
    refine SameMem.perm ?_ (applySpec hi.uniq h).nodup ?_
    · intro l
      rw [hlr, mem_logRowsOf, mem_logRowsOf]
      apply or_congr
      · constructor
        · rintro ⟨q, hm, hn, rfl⟩
          obtain ⟨h1, h2⟩ := (hw.ins q).2 ⟨hm, hn⟩
          exact ⟨q, h1, (hjoin q).2 h2, rfl⟩
        · rintro ⟨q, hm, hn, rfl⟩
          obtain ⟨h1, h2⟩ := (hw.ins q).1 ⟨hm, (hjoin q).1 hn⟩
          exact ⟨q, h1, h2, rfl⟩
      · constructor
        · rintro ⟨r, hr, hd, rfl⟩; exact ⟨r, (hmem r).1 hr, (hw.del r hr).2 hd, rfl⟩
        · rintro ⟨r, hr, hd, rfl⟩; exact ⟨r, (hmem r).2 hr, (hw.del r ((hmem r).2 hr)).1 hd, rfl⟩
    · exact nodup_logRowsOf hf
  have hu2 : uniqueOk (deleteRows st'.rows (search st'.rows qs') ++ insertRows tx (search st'.rows qs')) = true := by
    rw [← uniqueOk_perm hr, ← hrows]; exact hu
  unfold Store.apply updateDatoms
  simp only [hx, hf, hu2, Bool.not_true, Bool.or_self, Bool.false_eq_true, if_false, if_true]
  cases act with
  | materialize => exact ⟨_, _, rfl, ⟨by rw [hrows]; exact hr, by rw [hc2 rfl]; exact hst.log⟩, hlp⟩
  | materializeAndCommit =>
    exact ⟨_, _, rfl, ⟨by rw [hrows]; exact hr, by rw [hc1 rfl]; exact hst.log.append hlp⟩, hlp⟩

end

/-! ### Terms without tempids -/

/-- A term without tempids, as it is before resolution. -/
def litTerm (x : RTerm) : TTerm := ⟨x.op, .inl x.e, x.a, .inl x.v⟩

theorem from_literal (s : Schema) : ∀ (xs : List RTerm) g inert,
    Generation.from s (xs.map litTerm) g inert = .ok (g, inert ++ xs)
  | [], g, inert => by simp [Generation.from]
  | x :: r, g, inert => by
    rw [List.map_cons, Generation.from]
    simp only [litTerm]
    have := from_literal s r g (inert ++ [x])
    rw [List.append_assoc] at this
    exact this

theorem resolve_literal {s : Schema} {st : Store} {user : Partition}
    (hu : user.start ≤ user.next ∧ user.next ≤ user.fin) (xs : List RTerm) :
    resolveTempIds s st user (xs.map litTerm) [] = .ok ⟨⟨[], [], []⟩, xs, [], user⟩ := by
  have ha : user.allocate 0 = .ok (user.next, user) := by
    unfold Partition.allocate Partition.setNext Partition.allowsEntid
    simp [hu.1, hu.2]
  unfold resolveTempIds
  rw [from_literal]
  simp only [Res.ok_bind, List.nil_append]
  have he : evolve st {} = .ok ({}, []) := by
    simp [evolve, Generation.measure, evolveLoop, Generation.canEvolve]
  rw [he]
  simp only [Res.ok_bind]
  have hl : (Generation.allocateUnresolved {}).tempIdsInAllocations s = .ok [] := by
    rfl
  rw [hl]
  simp only [Res.ok_bind, List.length_nil]
  rw [ha]
  rfl

/-- An entry of the log as a term. -/
def logTerm (l : LogRow) : RTerm := ⟨if l.added then .add else .retract, l.e, l.a, l.v⟩

theorem mem_logTerms_add {lr : List LogRow} {e a v} :
    (⟨.add, e, a, v⟩ : RTerm) ∈ lr.map logTerm ↔ ∃ l ∈ lr, l.e = e ∧ l.a = a ∧ l.v = v ∧ l.added = true := by
  rw [List.mem_map]
  constructor
  · rintro ⟨l, hl, h⟩
    simp only [logTerm, Term.mk.injEq] at h
    refine ⟨l, hl, h.2.1, h.2.2.1, h.2.2.2, ?_⟩
    have := h.1
    split at this
    · assumption
    · cases this
  · rintro ⟨l, hl, rfl, rfl, rfl, h⟩
    exact ⟨l, hl, by simp [logTerm, h]⟩

theorem mem_logTerms_retract {lr : List LogRow} {e a v} :
    (⟨.retract, e, a, v⟩ : RTerm) ∈ lr.map logTerm ↔
      ∃ l ∈ lr, l.e = e ∧ l.a = a ∧ l.v = v ∧ l.added = false := by
  rw [List.mem_map]
  constructor
  · rintro ⟨l, hl, h⟩
    simp only [logTerm, Term.mk.injEq] at h
    refine ⟨l, hl, h.2.1, h.2.2.1, h.2.2.2, ?_⟩
    have := h.1
    split at this
    · cases this
    · rename_i hb; simpa using hb
  · rintro ⟨l, hl, rfl, rfl, rfl, h⟩
    exact ⟨l, hl, by simp [logTerm, h]⟩

theorem metadata_might {a : Entid} (h : a ∈ metadataList) : mightUpdateMetadata a = true := by
  simp only [metadataList, List.mem_cons, List.not_mem_nil, or_false] at h
  rcases h with rfl | rfl | rfl | rfl | rfl | rfl | rfl <;> decide

/-- Nothing about the schema: nothing changes. -/
theorem applyMetadata_none {s : Schema} {rows : List Row} {views : Views} {lr : List LogRow}
    (h : ∀ l ∈ lr, mightUpdateMetadata l.a = false) : applyMetadata s rows views lr = .ok (s, rows, views) := by
  have : metadataAssertions lr = [] := by
    unfold metadataAssertions
    have : (lr.filter fun l => decide (l.a ∈ metadataList)) = [] := by
      rw [List.filter_eq_nil_iff]
      intro l hl hm
      rw [decide_eq_true_eq] at hm
      have := metadata_might hm
      rw [h l hl] at this
      cases this
    rw [this]; rfl
  unfold applyMetadata
  rw [this]
  have hu : updateSchema s [] = .ok (s, {}) := rfl
  rw [hu]
  simp only [Res.ok_bind]
  split
  · rfl
  · rfl

/-- The log of a transaction, transacted again where the tables have the same rows and the transaction gets
the same id, does the same. -/
theorem transact_replay {db db' : Db} {now : Int} {terms : List TTerm} {ids : List TempId} {db1 : Db} {rep : Report}
    (T : TxTrace db db.schema now terms ids .materializeAndCommit db1 rep)
    (hi : RowsInv db.schema db.store.rows)
    (hti : ∀ at_, db.schema.attr DB_TX_INSTANT = some at_ → at_.valueType = .instant) (htold : Told T.lr)
    (hnew : ∀ v, ¬ Has db.store.rows rep.txId DB_TX_INSTANT v)
    (hs : db'.schema = db.schema) (hst : SameStore db.store db'.store) (hv : SameViews db.views db'.views)
    {tp : Partition} (htx : db'.parts.tx.allocate 1 = .ok (rep.txId, tp))
    (hu : db'.parts.user.start ≤ db'.parts.user.next ∧ db'.parts.user.next ≤ db'.parts.user.fin)
    {xs : List RTerm} (hx : SameMem xs (T.lr.map logTerm)) (now' : Int) :
    ∃ db1' rep', transactTerms db' now' (xs.map litTerm) [] = .ok (db1', rep') ∧ db1'.schema = db1.schema ∧
      SameStore db1.store db1'.store ∧ SameViews db1.views db1'.views ∧ db1'.parts = { db'.parts with tx := tp } ∧
      rep'.txId = rep.txId ∧ rep'.txInstant = rep.txInstant := by
  obtain ⟨schema', parts', store', views'⟩ := db'
  simp only at hs hst hv htx hu
  subst hs
  have hq := T.qok hti
  obtain ⟨-, -, hlr, -⟩ := apply_ok T.applied
  have hap := applySpec hi.uniq T.applied
  have hadd : ∀ l ∈ T.lr, l.added = true → ∃ q ∈ reducedOf db.schema T.t, Inserts db.store.rows q ∧ q.e = l.e ∧
      q.a = l.a ∧ q.v = l.v ∧ q.added = true := by
    intro l hl h
    rw [hlr, mem_logRowsOf] at hl
    rcases hl with ⟨q, hm, hn, rfl⟩ | ⟨r, -, -, rfl⟩
    · exact ⟨q, hm, hn, rfl, rfl, rfl, hn.1⟩
    · cases h
  have htyped : ∀ l ∈ T.lr, ∃ at_, db.schema.attr l.a = some at_ ∧ at_.valueType = l.v.valueType := by
    intro l hl
    have hl0 := hl
    rw [hlr, mem_logRowsOf] at hl
    rcases hl with ⟨q, hm, hn, rfl⟩ | ⟨r, hr, -, rfl⟩
    · exact ⟨q.attr, hq.attr q hm, hq.typed q hm⟩
    · obtain ⟨at_, h1, h2, -⟩ := hi.typed r hr
      exact ⟨at_, h1, h2⟩
  have h3 : (⟨⟨[], [], []⟩, xs, [], parts'.user⟩ : Stage3).terms = xs := by simp [Stage3.terms]
  obtain ⟨t0, ht0⟩ := (intoTrie_isOk (s := db.schema) (s3 := ⟨⟨[], [], []⟩, xs, [], parts'.user⟩)).2 (by
    intro x hm
    rw [h3] at hm
    obtain ⟨l, hl, rfl⟩ := List.mem_map.1 ((hx x).1 hm)
    obtain ⟨at_, h1, -⟩ := htyped l hl
    simp only [logTerm, h1, Option.isSome_some])
  have hspec := intoTrie_spec ht0
  rw [h3] at hspec
  have eadd : ∀ a e v, v ∈ (Trie.entry t0 a e).add ↔ ∃ l ∈ T.lr, l.e = e ∧ l.a = a ∧ l.v = v ∧ l.added = true := by
    intro a e v; rw [hspec.add, hx, mem_logTerms_add]
  have eret : ∀ a e v, v ∈ (Trie.entry t0 a e).retract ↔ ∃ l ∈ T.lr, l.e = e ∧ l.a = a ∧ l.v = v ∧ l.added = false := by
    intro a e v; rw [hspec.ret, hx, mem_logTerms_retract]
  have htypes : typeDisagreements db.schema t0 = [] := by
    cases hd : typeDisagreements db.schema t0 with
    | nil => rfl
    | cons x r =>
      obtain ⟨en, a, v⟩ := x
      have hm : (en, a, v) ∈ typeDisagreements db.schema t0 := by rw [hd]; simp
      rw [typeDisagreements_mem hspec.wf] at hm
      obtain ⟨hm, at_, h1, h2⟩ := hm
      have : ∃ l ∈ T.lr, l.a = a ∧ l.v = v := by
        rcases hm with hm | hm
        · obtain ⟨l, hl, -, e2, e3, -⟩ := (eadd _ _ _).1 hm; exact ⟨l, hl, e2, e3⟩
        · obtain ⟨l, hl, -, e2, e3, -⟩ := (eret _ _ _).1 hm; exact ⟨l, hl, e2, e3⟩
      obtain ⟨l, hl, rfl, rfl⟩ := this
      obtain ⟨at2, k1, k2⟩ := htyped l hl
      rw [h1] at k1
      exact absurd (Option.some.inj k1 ▸ k2) h2
  have hcards : cardinalityConflicts db.schema t0 = [] := by
    rw [cardinalityConflicts_nil hspec.wf]
    refine ⟨?_, ?_⟩
    · intro a e at_ hat hm v hv v' hv'
      obtain ⟨l, hl, rfl, rfl, rfl, ha⟩ := (eadd _ _ _).1 hv
      obtain ⟨l', hl', e1, e2, rfl, ha'⟩ := (eadd _ _ _).1 hv'
      obtain ⟨q, hq1, -, q1, q2, q3, q4⟩ := hadd l hl ha
      obtain ⟨q', hq1', -, q1', q2', q3', q4'⟩ := hadd l' hl' ha'
      have := hq.one q hq1 q' hq1' q4 q4' (by
        have := hq.attr q hq1
        rw [q2, hat] at this
        rw [← Option.some.inj this]; exact hm) (by rw [q1, q1', e1]) (by rw [q2, q2', e2])
      rw [← q3, ← q3', this]
    · rintro a e v ⟨hv, hv'⟩
      obtain ⟨l, hl, rfl, rfl, rfl, ha⟩ := (eadd _ _ _).1 hv
      obtain ⟨l', hl', e1, e2, e3, ha'⟩ := (eret _ _ _).1 hv'
      have k1 := (hap.added l hl ha).2
      have k2 := (hap.retracted l' hl' ha').1
      rw [e1, e2, e3] at k2
      exact k1 k2
  have hinst : getOrInsertTxInstant db.schema t0 rep.txId now' = .ok (rep.txInstant, t0) := by
    obtain ⟨at_, hat⟩ := Option.isSome_iff_exists.1 T.tSpec.attr
    have hin : (TypedValue.instant rep.txInstant) ∈ (Trie.entry t0 DB_TX_INSTANT rep.txId).add := by
      rw [eadd]
      refine ⟨⟨rep.txId, DB_TX_INSTANT, .instant rep.txInstant, rep.txId, true, 0⟩, ?_, rfl, rfl, rfl, rfl⟩
      rw [hlr, mem_logRowsOf]
      left
      refine ⟨⟨rep.txId, DB_TX_INSTANT, at_, .instant rep.txInstant, true⟩,
        T.mem_queue.2 ⟨hat, .inl ⟨rfl, .inr ⟨rfl, rfl, rfl⟩⟩⟩, ⟨rfl, .inl ?_⟩, rfl⟩
      rintro r hr ⟨he, ha, -⟩
      exact hnew r.v ⟨r, hr, he, ha, rfl⟩
    have hall : ∀ v ∈ (Trie.entry t0 DB_TX_INSTANT rep.txId).add, v = .instant rep.txInstant := by
      intro v hv
      obtain ⟨l, hl, e1, e2, e3, ha⟩ := (eadd _ _ _).1 hv
      obtain ⟨q, hq1, -, q1, q2, q3, q4⟩ := hadd l hl ha
      rw [mem_reducedOf T.tSpec.wf] at hq1
      rcases hq1.2 with ⟨-, hm⟩ | ⟨hf, -⟩
      · rw [q1, q2, q3, e1, e2, e3] at hm
        exact T.tSpec.only v hm
      · rw [q4] at hf; cases hf
    have hlist : (Trie.entry t0 DB_TX_INSTANT rep.txId).add = [.instant rep.txInstant] := by
      have hn := hspec.wf.addNodup DB_TX_INSTANT rep.txId
      generalize (Trie.entry t0 DB_TX_INSTANT rep.txId).add = l at hin hall hn
      match l, hin, hall, hn with
      | [x], _, hall, _ => rw [hall x (by simp)]
      | x :: y :: r, _, hall, hn =>
        have h1 := hall x (by simp)
        have h2 := hall y (by simp)
        subst h1; subst h2
        simp at hn
    unfold getOrInsertTxInstant
    rw [hat]
    simp only [hlist]
  have hlq : LogQueue db.schema T.lr (reducedOf db.schema t0) := by
    refine ⟨reducedOf_nodup hspec.wf, fun q hq => ((mem_reducedOf hspec.wf).1 hq).1, ?_⟩
    intro e a v b
    constructor
    · rintro ⟨q, hq, rfl, rfl, rfl, rfl⟩
      rcases ((mem_reducedOf hspec.wf).1 hq).2 with ⟨h1, h2⟩ | ⟨h1, h2⟩
      · rw [h1]; exact (eadd _ _ _).1 h2
      · rw [h1]; exact (eret _ _ _).1 h2
    · rintro ⟨l, hl, rfl, rfl, rfl, rfl⟩
      obtain ⟨at_, h1, -⟩ := htyped l hl
      refine ⟨⟨l.e, l.a, at_, l.v, l.added⟩, (mem_reducedOf hspec.wf).2 ⟨h1, ?_⟩, rfl, rfl, rfl, rfl⟩
      cases ha : l.added with
      | true => exact .inl ⟨rfl, (eadd _ _ _).2 ⟨l, hl, rfl, rfl, rfl, ha⟩⟩
      | false => exact .inr ⟨rfl, (eret _ _ _).2 ⟨l, hl, rfl, rfl, rfl, ha⟩⟩
  obtain ⟨st1, lr1, hap1, hss, hlp⟩ := apply_replay hi hq T.applied hst hlq
  have hmight : (reducedOf db.schema t0).any (fun q => mightUpdateMetadata q.a) = true ↔
      ∃ l ∈ T.lr, mightUpdateMetadata l.a = true := by
    rw [List.any_eq_true]
    constructor
    · rintro ⟨q, hq, h⟩
      obtain ⟨l, hl, -, e2, -⟩ := (hlq.mem q.e q.a q.v q.added).1 ⟨q, hq, rfl, rfl, rfl, rfl⟩
      exact ⟨l, hl, by rw [e2]; exact h⟩
    · rintro ⟨l, hl, h⟩
      obtain ⟨q, hq, -, e2, -⟩ := (hlq.mem l.e l.a l.v l.added).2 ⟨l, hl, rfl, rfl, rfl, rfl⟩
      exact ⟨q, hq, by rw [e2]; exact h⟩
  have hlrq : ∀ l ∈ T.lr, ∃ q ∈ reducedOf db.schema T.t, q.a = l.a := by
    intro l hl
    rw [hlr, mem_logRowsOf] at hl
    rcases hl with ⟨q, hm, -, rfl⟩ | ⟨r, -, ⟨q, hm, hd⟩, rfl⟩
    · exact ⟨q, hm, rfl⟩
    · exact ⟨q, hm, hd.1.2.1.symm⟩
  unfold transactTerms transactTermsWith
  simp only
  rw [htx]
  simp only [Res.ok_bind]
  rw [resolve_literal hu]
  simp only [Res.ok_bind]
  rw [ht0]
  simp only [Res.ok_bind]
  unfold applyTrie
  simp only [htypes, hcards, Res.require, if_true, Res.ok_bind]
  rw [hinst]
  simp only [Res.ok_bind]
  rw [hap1]
  simp only [Res.ok_bind]
  by_cases hm : (reducedOf db.schema t0).any (fun q => mightUpdateMetadata q.a) = true
  · rw [if_pos hm]
    obtain ⟨l, hl, hml⟩ := hmight.1 hm
    rcases T.md with ⟨hmd, -⟩ | ⟨-, -, -, hno⟩
    · obtain ⟨rows1', views1', hm', h3, h4⟩ := applyMetadata_follows hss.rows hv hlp htold hmd
      rw [hm']
      simp only [Res.ok_bind, Res.pure_eq]
      refine ⟨_, _, rfl, rfl, ⟨h3, ?_⟩, h4, rfl, rfl, rfl⟩
      rw [T.log]; exact hss.log
    · obtain ⟨q, hq1, hqa⟩ := hlrq l hl
      have := hno q hq1
      rw [hqa, hml] at this
      cases this
  · rw [if_neg hm]
    have hnone : ∀ l ∈ T.lr, mightUpdateMetadata l.a = false := by
      intro l hl
      cases hb : mightUpdateMetadata l.a
      · rfl
      · exact absurd (hmight.2 ⟨l, hl, hb⟩) hm
    simp only [Res.ok_bind, Res.pure_eq]
    have hres : db1.schema = db.schema ∧ db1.store.rows = T.store.rows ∧ db1.views = db.views := by
      rcases T.md with ⟨hmd, -⟩ | ⟨h1, h2, h3, -⟩
      · rw [applyMetadata_none hnone] at hmd
        simp only [Res.ok.injEq, Prod.mk.injEq] at hmd
        exact ⟨hmd.1.symm, hmd.2.1.symm, hmd.2.2.symm⟩
      · exact ⟨h1, h2, h3⟩
    refine ⟨_, _, rfl, hres.1.symm, ⟨?_, ?_⟩, ?_, rfl, rfl, rfl⟩
    · rw [hres.2.1]; exact hss.rows
    · rw [T.log]; exact hss.log
    · rw [hres.2.2]; exact hv

end Mentat
