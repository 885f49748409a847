import Verif.Proofs.Meta
/- Decomposition of a successful transaction. -/
namespace Mentat

/-- The intermediate results of a successful `transactTermsWith`. -/
structure TxTrace (db : Db) (sfm : Schema) (now : Int) (terms : List TTerm) (ids : List TempId)
    (act : TxAction) (db' : Db) (rep : Report) where
  txPart : Partition
  s3 : Stage3
  t0 : Trie
  t : Trie
  store : Store
  lr : List LogRow
  alloc : db.parts.tx.allocate 1 = .ok (rep.txId, txPart)
  stage3 : resolveTempIds db.schema db.store db.parts.user terms ids = .ok s3
  trie : intoTrie db.schema s3.pops s3.inert = .ok t0
  typesOk : typeDisagreements db.schema t0 = []
  cardsOk : cardinalityConflicts db.schema t0 = []
  instant : getOrInsertTxInstant db.schema t0 rep.txId now = .ok (rep.txInstant, t)
  applied : db.store.apply rep.txId (reducedOf db.schema t) act = .ok (store, lr)
  md : (applyMetadata sfm store.rows db.views lr = .ok (db'.schema, db'.store.rows, db'.views) ∧
      (∃ q ∈ reducedOf db.schema t, mightUpdateMetadata q.a = true)) ∨
    (db'.schema = sfm ∧ db'.store.rows = store.rows ∧ db'.views = db.views ∧
      ∀ q ∈ reducedOf db.schema t, mightUpdateMetadata q.a = false)
  log : db'.store.log = store.log
  parts : db'.parts = { db.parts with tx := txPart, user := s3.user }
  tempids : rep.tempids = externalTempIds s3.tempids

theorem transact_trace {db sfm now terms ids act db' rep}
    (h : transactTermsWith db sfm now terms ids act = .ok (db', rep)) :
    Nonempty (TxTrace db sfm now terms ids act db' rep) := by
  unfold transactTermsWith at h
  rw [Res.bind_eq_ok] at h
  obtain ⟨⟨tx, txPart⟩, h1, h⟩ := h
  simp only at h
  rw [Res.bind_eq_ok] at h
  obtain ⟨s3, h2, h⟩ := h
  rw [Res.bind_eq_ok] at h
  obtain ⟨t0, h3, h⟩ := h
  rw [Res.bind_eq_ok] at h
  obtain ⟨⟨schema, store', views, instant⟩, h4, h⟩ := h
  simp only [Res.pure_eq, Res.ok.injEq, Prod.mk.injEq] at h
  obtain ⟨rfl, rfl⟩ := h
  unfold applyTrie at h4
  rw [Res.bind_eq_ok] at h4
  obtain ⟨_, c1, h4⟩ := h4
  rw [Res.bind_eq_ok] at h4
  obtain ⟨_, c2, h4⟩ := h4
  rw [Res.bind_eq_ok] at h4
  obtain ⟨⟨instant', t⟩, h5, h4⟩ := h4
  simp only at h4
  rw [Res.bind_eq_ok] at h4
  obtain ⟨⟨store, lr⟩, h6, h4⟩ := h4
  simp only at h4
  simp only [Res.require_eq_ok] at c1 c2
  split at h4
  · rename_i hany
    rw [Res.bind_eq_ok] at h4
    obtain ⟨⟨s', rows', views'⟩, h7, h4⟩ := h4
    simp only [Res.pure_eq, Res.ok.injEq, Prod.mk.injEq] at h4
    obtain ⟨rfl, rfl, rfl, rfl⟩ := h4
    exact ⟨⟨txPart, s3, t0, t, store, lr, h1, h2, h3, c1, c2, h5, h6,
      Or.inl ⟨h7, by simpa [List.any_eq_true] using hany⟩, rfl, rfl, rfl⟩⟩
  · rename_i hany
    simp only [Res.pure_eq, Res.ok.injEq, Prod.mk.injEq] at h4
    obtain ⟨rfl, rfl, rfl, rfl⟩ := h4
    refine ⟨⟨txPart, s3, t0, t, store, lr, h1, h2, h3, c1, c2, h5, h6,
      Or.inr ⟨rfl, rfl, rfl, ?_⟩, rfl, rfl, rfl⟩⟩
    intro q hq
    cases hb : mightUpdateMetadata q.a
    · rfl
    · exact absurd (List.any_eq_true.mpr ⟨q, hq, hb⟩) hany

/-- The final terms of a transaction: everything that reaches the trie. -/
def Stage3.terms (s3 : Stage3) : List RTerm := s3.pops.resolved ++ s3.pops.allocated ++ s3.inert

structure TrieOf (s : Schema) (terms : List RTerm) (t : Trie) : Prop where
  wf : TrieWF t
  add : ∀ a e v, v ∈ (Trie.entry t a e).add ↔ (⟨.add, e, a, v⟩ : RTerm) ∈ terms
  ret : ∀ a e v, v ∈ (Trie.entry t a e).retract ↔ (⟨.retract, e, a, v⟩ : RTerm) ∈ terms
  attrs : ∀ x ∈ terms, (s.attr x.a).isSome
  keys : ∀ k ∈ AMap.keys t, ∃ x ∈ terms, k = (x.a, x.e)

theorem intoTrie_spec {s : Schema} {s3 : Stage3} {t : Trie}
    (h : intoTrie s s3.pops s3.inert = .ok t) : TrieOf s s3.terms t := by
  unfold intoTrie at h
  rw [Res.bind_eq_ok] at h
  obtain ⟨t1, h1, h⟩ := h
  rw [Res.bind_eq_ok] at h
  obtain ⟨t2, h2, h3⟩ := h
  have e1 := extendTrie_spec h1
  have e2 := extendTrie_spec h2
  have e3 := extendTrie_spec h3
  refine ⟨e3.wf (e2.wf (e1.wf trieWF_nil)), ?_, ?_, ?_, ?_⟩
  · intro a e v
    rw [e3.add, e2.add, e1.add]
    simp only [Stage3.terms, List.mem_append, Trie.entry, AMap.get_nil, List.not_mem_nil, or_false]
    constructor
    · rintro (h | h | h) <;> simp [h]
    · rintro ((h | h) | h) <;> simp [h]
  · intro a e v
    rw [e3.ret, e2.ret, e1.ret]
    simp only [Stage3.terms, List.mem_append, Trie.entry, AMap.get_nil, List.not_mem_nil, or_false]
    constructor
    · rintro (h | h | h) <;> simp [h]
    · rintro ((h | h) | h) <;> simp [h]
  · intro x hx
    simp only [Stage3.terms, List.mem_append] at hx
    rcases hx with (h | h) | h
    · exact e1.attrs x h
    · exact e2.attrs x h
    · exact e3.attrs x h
  · intro k hk
    simp only [Stage3.terms, List.mem_append]
    rcases e3.keys k hk with hk | ⟨x, hx, rfl⟩
    · rcases e2.keys k hk with hk | ⟨x, hx, rfl⟩
      · rcases e1.keys k hk with hk | ⟨x, hx, rfl⟩
        · simp [AMap.keys] at hk
        · exact ⟨x, Or.inl (Or.inl hx), rfl⟩
      · exact ⟨x, Or.inl (Or.inr hx), rfl⟩
    · exact ⟨x, Or.inr hx, rfl⟩

namespace TxTrace
variable {db : Db} {sfm : Schema} {now : Int} {terms : List TTerm} {ids : List TempId}
    {act : TxAction} {db' : Db} {rep : Report}

theorem t0Spec (T : TxTrace db sfm now terms ids act db' rep) : TrieOf db.schema T.s3.terms T.t0 :=
  intoTrie_spec T.trie

theorem tSpec (T : TxTrace db sfm now terms ids act db' rep) :
    InstantSpec db.schema T.t0 T.t rep.txId rep.txInstant :=
  getOrInsertTxInstant_spec T.t0Spec.wf T.instant

/-- The queue, in terms of the final terms. -/
theorem mem_queue (T : TxTrace db sfm now terms ids act db' rep) {q : Reduced} :
    q ∈ reducedOf db.schema T.t ↔ db.schema.attr q.a = some q.attr ∧
      ((q.added = true ∧ ((⟨.add, q.e, q.a, q.v⟩ : RTerm) ∈ T.s3.terms ∨
          (q.a = DB_TX_INSTANT ∧ q.e = rep.txId ∧ q.v = .instant rep.txInstant))) ∨
       (q.added = false ∧ (⟨.retract, q.e, q.a, q.v⟩ : RTerm) ∈ T.s3.terms)) := by
  rw [mem_reducedOf T.tSpec.wf, T.tSpec.add, T.tSpec.ret, T.t0Spec.add, T.t0Spec.ret]

/-- The queue passed the checks (given that :db/txInstant is an instant attribute). -/
theorem qok (T : TxTrace db sfm now terms ids act db' rep)
    (hti : ∀ at_, db.schema.attr DB_TX_INSTANT = some at_ → at_.valueType = .instant) :
    QOk db.schema (reducedOf db.schema T.t) := by
  have hq0 := qok_reducedOf T.t0Spec.wf T.typesOk T.cardsOk
  have hiff : ∀ q, q ∈ reducedOf db.schema T.t → q ∈ reducedOf db.schema T.t0 ∨
      (q.added = true ∧ db.schema.attr q.a = some q.attr ∧ q.a = DB_TX_INSTANT ∧ q.e = rep.txId ∧
        q.v = .instant rep.txInstant) := by
    intro q hq
    rw [mem_reducedOf T.tSpec.wf, T.tSpec.add, T.tSpec.ret] at hq
    rw [mem_reducedOf T.t0Spec.wf]
    obtain ⟨h1, h2⟩ := hq
    rcases h2 with ⟨h2, h3 | h3⟩ | h2
    · exact Or.inl ⟨h1, Or.inl ⟨h2, h3⟩⟩
    · exact Or.inr ⟨h2, h1, h3⟩
    · exact Or.inl ⟨h1, Or.inr h2⟩
  refine ⟨?_, ?_, ?_⟩
  · intro q hq
    rcases hiff q hq with h | h
    · exact hq0.attr q h
    · exact h.2.1
  · intro q hq
    rcases hiff q hq with h | ⟨-, h1, h2, -, h3⟩
    · exact hq0.typed q h
    · rw [h2] at h1; rw [hti _ h1, h3]; rfl
  · intro q hq q' hq' ha ha' hm he hea
    have onlyTx : ∀ q, q ∈ reducedOf db.schema T.t → q.added = true → q.a = DB_TX_INSTANT →
        q.e = rep.txId → q.v = .instant rep.txInstant := by
      intro q hq ha h1 h2
      rw [mem_reducedOf T.tSpec.wf] at hq
      rcases hq.2 with ⟨_, h⟩ | ⟨h, _⟩
      · rw [h1, h2] at h; exact T.tSpec.only _ h
      · simp [ha] at h
    rcases hiff q hq with h | ⟨-, h1, h2, h2', h3⟩
    · rcases hiff q' hq' with h' | ⟨-, h1', h2', h2'', h3'⟩
      · exact hq0.one q h q' h' ha ha' hm he hea
      · rw [h3']; exact onlyTx q hq ha (by rw [hea, h2']) (by rw [he, h2''])
    · rw [h3]; exact (onlyTx q' hq' ha' (by rw [← hea, h2]) (by rw [← he, h2'])).symm

end TxTrace

theorem foundUniqueOk_pairwise {fs : List Found} (hf : foundUniqueOk fs = true) :
    fs.Pairwise (fun f f' => ¬ (f'.q.e = f.q.e ∧ f'.q.a = f.q.a ∧ f'.q.v = f.q.v)) := by
  induction fs with
  | nil => simp
  | cons f rest ih =>
    unfold foundUniqueOk at hf
    simp only [Bool.and_eq_true, List.all_eq_true, decide_eq_true_eq] at hf
    rw [List.pairwise_cons]
    exact ⟨hf.1, ih hf.2⟩

/-- Each queue entry joins at most one row, and each datom occurs once in the queue: the unique
index on `search_results`. -/
theorem found_unique {st : Store} {tx qs act st' lr} (h : st.apply tx qs act = .ok (st', lr)) :
    (∀ q ∈ qs, ∀ r ∈ st.rows, ∀ r' ∈ st.rows, Joins q r → Joins q r' → r = r') ∧
    (∀ q ∈ qs, ∀ q' ∈ qs, q.e = q'.e → q.a = q'.a → q.v = q'.v → q = q') := by
  obtain ⟨-, -, -, -, hf, -⟩ := apply_ok h
  have hp := foundUniqueOk_pairwise hf
  have key : ∀ f ∈ search st.rows qs, ∀ f' ∈ search st.rows qs,
      f.q.e = f'.q.e → f.q.a = f'.q.a → f.q.v = f'.q.v → f = f' := by
    intro f hf f' hf' h1 h2 h3
    rcases pairwise_mem hp hf hf' with h | h | h
    · exact h
    · exact absurd ⟨h1.symm, h2.symm, h3.symm⟩ h
    · exact absurd ⟨h1, h2, h3⟩ h
  have ex : ∀ q ∈ qs, ∃ f ∈ search st.rows qs, f.q = q := by
    intro q hq
    by_cases hj : ∃ r ∈ st.rows, Joins q r
    · obtain ⟨r, hr, hj⟩ := hj
      exact ⟨⟨q, !q.attr.multival, some r⟩, mem_search.mpr ⟨hq, rfl, Or.inl ⟨r, hr, hj, rfl⟩⟩, rfl⟩
    · refine ⟨⟨q, !q.attr.multival, none⟩, mem_search.mpr ⟨hq, rfl, Or.inr ⟨?_, rfl⟩⟩, rfl⟩
      intro r hr hj'; exact hj ⟨r, hr, hj'⟩
  refine ⟨?_, ?_⟩
  · intro q hq r hr r' hr' hj hj'
    have := key ⟨q, !q.attr.multival, some r⟩ (mem_search.mpr ⟨hq, rfl, Or.inl ⟨r, hr, hj, rfl⟩⟩)
      ⟨q, !q.attr.multival, some r'⟩ (mem_search.mpr ⟨hq, rfl, Or.inl ⟨r', hr', hj', rfl⟩⟩)
      rfl rfl rfl
    simpa using this
  · intro q hq q' hq' h1 h2 h3
    obtain ⟨f, hf, rfl⟩ := ex q hq
    obtain ⟨f', hf', rfl⟩ := ex q' hq'
    rw [key f hf f' hf' h1 h2 h3]

/-- A datom is never both inserted and deleted by one transaction. -/
theorem not_insert_and_delete {st : Store} {tx qs act st' lr}
    (h : st.apply tx qs act = .ok (st', lr)) {q : Reduced} (hq : q ∈ qs)
    (hi : Inserts st.rows q) {r : Row} (hr : r ∈ st.rows) (he : r.e = q.e) (ha : r.a = q.a)
    (hv : r.v = q.v) : False := by
  have hj : Joins q r := ⟨he, ha, fun _ => hv⟩
  obtain ⟨-, hn | ⟨r2, hr2, hj2, hne⟩⟩ := hi
  · exact hn r hr hj
  · have := (found_unique h).1 q hq r hr r2 hr2 hj hj2
    subst this; exact hne hv.symm

end Mentat
