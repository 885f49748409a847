import Verif.Props.Datoms
import Verif.Props.Timelines
import Verif.Proofs.Replay
/-
C105: a transaction is undone by transacting what it changed the other way round.
-/
namespace Mentat

/-- What transaction `tx` changed according to the log, the other way round: additions retracted and
retractions added, except its own `:db/txInstant`. -/
def opposite (log : List LogRow) (tx : Entid) : List TTerm :=
  (log.filter fun l => decide (l.tx = tx ∧ ¬ (l.e = tx ∧ l.a = DB_TX_INSTANT))).map fun l =>
    ⟨if l.added then .retract else .add, .inl l.e, l.a, .inl l.v⟩

theorem mem_opposite {log : List LogRow} {tx : Entid} {x : TTerm} :
    x ∈ opposite log tx ↔ ∃ l ∈ log, l.tx = tx ∧ ¬ (l.e = tx ∧ l.a = DB_TX_INSTANT) ∧
      x = ⟨if l.added then .retract else .add, .inl l.e, l.a, .inl l.v⟩ := by
  unfold opposite
  simp only [List.mem_map, List.mem_filter, decide_eq_true_eq]
  constructor
  · rintro ⟨l, ⟨h1, h2, h3⟩, rfl⟩; exact ⟨l, h1, h2, h3, rfl⟩
  · rintro ⟨l, h1, h2, h3, rfl⟩; exact ⟨l, ⟨h1, h2, h3⟩, rfl⟩

/-- The opposite in terms of the datoms before and after. -/
theorem mem_opposite_iff {db db' : Db} {now terms ids rep} (hr : Reach db)
    (hk : KnownTerms db terms) (h : transactTerms db now terms ids = .ok (db', rep)) :
    ∀ op e a v, (⟨op, .inl e, a, .inl v⟩ : TTerm) ∈ opposite db'.store.log rep.txId ↔
      ¬ (e = rep.txId ∧ a = DB_TX_INSTANT) ∧
      ((op = .retract ∧ ¬ Has db.store.rows e a v ∧ Has db'.store.rows e a v) ∨
       (op = .add ∧ Has db.store.rows e a v ∧ ¬ Has db'.store.rows e a v)) := by
  obtain ⟨new, hlog, -, hnew⟩ := C17_net_change hr h
  obtain ⟨hold, -⟩ := C18_tx_ids hr hk h
  intro op e a v
  rw [mem_opposite]
  constructor
  · rintro ⟨l, hl, htx, hne, hx⟩
    simp only [Term.mk.injEq, Sum.inl.injEq] at hx
    obtain ⟨rfl, rfl, rfl, rfl⟩ := hx
    refine ⟨hne, ?_⟩
    rw [hlog, List.mem_append] at hl
    rcases hl with hl | hl
    · have := hold l hl; omega
    · obtain ⟨-, -, ⟨ha, hc⟩ | ⟨ha, hc⟩⟩ := (hnew l).mp hl
      · exact Or.inl ⟨by simp [ha], hc⟩
      · exact Or.inr ⟨by simp [ha], hc⟩
  · rintro ⟨hne, ⟨rfl, hc⟩ | ⟨rfl, hc⟩⟩
    · refine ⟨⟨e, a, v, rep.txId, true, 0⟩, ?_, rfl, hne, rfl⟩
      rw [hlog, List.mem_append]
      exact Or.inr ((hnew _).mpr ⟨rfl, rfl, Or.inl ⟨rfl, hc⟩⟩)
    · refine ⟨⟨e, a, v, rep.txId, false, 0⟩, ?_, rfl, hne, rfl⟩
      rw [hlog, List.mem_append]
      exact Or.inr ((hnew _).mpr ⟨rfl, rfl, Or.inr ⟨rfl, hc⟩⟩)

/-- C105, when the opposite is accepted (it may be refused: `C105_fails`), and the attributes that are of
cardinality one after the transaction had no two values of an entity, before or after: afterwards exactly the
datoms of before are there, besides the times of the two transactions.  `C105_kept_partial` shows of which
histories the condition holds. -/
theorem C105_undone_partial {db db' db'' : Db} {now now' terms ids rep rep'} (hr : Reach db)
    (hk : KnownTerms db terms) (h : transactTerms db now terms ids = .ok (db', rep))
    (h1 : OneUnder db'.schema db.store.rows) (h1' : OneUnder db'.schema db'.store.rows)
    (h' : transactTerms db' now' (opposite db'.store.log rep.txId) [] = .ok (db'', rep')) :
    ∀ e a v, ¬ (a = DB_TX_INSTANT ∧ (e = rep.txId ∨ e = rep'.txId)) →
      (Has db''.store.rows e a v ↔ Has db.store.rows e a v) := by
  have hopp := mem_opposite_iff hr hk h
  obtain ⟨T⟩ := transact_trace h'
  obtain ⟨U, -, hsound, hcomplete⟩ := T.terms_spec
  -- the terms applied are those of the opposite
  have hterms : ∀ op e a v, (⟨op, e, a, v⟩ : RTerm) ∈ T.s3.terms ↔
      (⟨op, .inl e, a, .inl v⟩ : TTerm) ∈ opposite db'.store.log rep.txId := by
    intro op e a v
    constructor
    · intro hm
      obtain ⟨x, hx, d1, d2, d3, d4⟩ := hsound _ hm
      obtain ⟨l, hl, hl1, hl2, rfl⟩ := mem_opposite.mp hx
      simp only at d1 d2
      have d3 : e = l.e := d3
      have d4 : v = l.v := d4
      rw [d1, d2, d3, d4]; exact hx
    · intro hx
      rcases hcomplete _ hx with ⟨⟨op', e', a', v'⟩, hy, d1, d2, d3, d4⟩ | ⟨-, -, t, n, w, he, -⟩
      · simp only at d1 d2
        have d3 : e' = e := d3
        have d4 : v' = v := d4
        rw [d1, d2, d3, d4] at hy; exact hy
      · simp at he
  have hattr : ∀ y ∈ T.s3.terms, ∃ at_, db'.schema.attr y.a = some at_ := fun y hy =>
    Option.isSome_iff_exists.mp (T.t0Spec.attrs y hy)
  intro e a v hne
  have hne1 : ¬ (e = rep.txId ∧ a = DB_TX_INSTANT) := fun ⟨x, y⟩ => hne ⟨y, Or.inl x⟩
  have hne2 : ¬ (e = rep'.txId ∧ a = DB_TX_INSTANT) := fun ⟨x, y⟩ => hne ⟨y, Or.inr x⟩
  constructor
  · intro hh
    have hh2 := hh
    rw [T.has_iff] at hh2
    obtain ⟨r, hrr, rfl, rfl, rfl⟩ := hh2
    rcases (T.mem_store r).mp hrr with ⟨hrr, -⟩ | ⟨q, hq, hi, rfl⟩
    · apply Classical.byContradiction
      intro hn
      have hm := (hterms _ _ _ _).mpr ((hopp .retract r.e r.a r.v).mpr
        ⟨hne1, Or.inl ⟨rfl, hn, r, hrr, rfl, rfl, rfl⟩⟩)
      obtain ⟨at_, hat⟩ := hattr _ hm
      exact T.retracted_absent (q := ⟨r.e, r.a, at_, r.v, false⟩)
        (T.mem_queue.mpr ⟨hat, Or.inr ⟨rfl, hm⟩⟩) rfl hh
    · rcases (T.mem_queue.mp hq).2 with ⟨-, hm | ⟨x1, x2, -⟩⟩ | ⟨hf, -⟩
      · obtain ⟨-, ⟨hx, -⟩ | ⟨-, hx, -⟩⟩ := (hopp _ _ _ _).mp ((hterms _ _ _ _).mp hm)
        · simp at hx
        · exact hx
      · exact absurd ⟨x2, x1⟩ hne2
      · rw [hi.1] at hf; simp at hf
  · intro hh
    rw [T.has_iff]
    by_cases hh' : Has db'.store.rows e a v
    · obtain ⟨r, hrr, rfl, rfl, rfl⟩ := hh'
      refine ⟨r, (T.mem_store r).mpr (Or.inl ⟨hrr, ?_⟩), rfl, rfl, rfl⟩
      rintro ⟨q, hq, ⟨he, ha, hv⟩, hd⟩
      obtain ⟨hat, hq⟩ := T.mem_queue.mp hq
      -- what the entry takes away or puts in place of the value was there before or after
      have key : (⟨.retract, q.e, q.a, q.v⟩ : RTerm) ∈ T.s3.terms ∨
          ((⟨.add, q.e, q.a, q.v⟩ : RTerm) ∈ T.s3.terms ∧ q.attr.multival = false ∧ q.v ≠ r.v) := by
        rcases hq with ⟨hadd, hm | ⟨x1, x2, -⟩⟩ | ⟨-, hm⟩
        · rcases hd with hd | hd
          · rw [hadd] at hd; simp at hd
          · exact Or.inr ⟨hm, hd⟩
        · exact absurd ⟨he.trans x2, ha.trans x1⟩ hne2
        · exact Or.inl hm
      rcases key with hm | ⟨hm, hmv, hv2⟩
      · obtain ⟨-, ⟨-, hb, hc⟩ | ⟨hx, -⟩⟩ := (hopp _ _ _ _).mp ((hterms _ _ _ _).mp hm)
        · have hvv : r.v = q.v := by
            cases hmv : q.attr.multival with
            | true => exact hv hmv
            | false => exact h1' q.a q.attr hat hmv q.e _ _ ⟨r, hrr, he, ha, rfl⟩ hc
          rw [he, ha, hvv] at hh
          exact hb hh
        · simp at hx
      · obtain ⟨-, ⟨hx, -⟩ | ⟨-, hb, -⟩⟩ := (hopp _ _ _ _).mp ((hterms _ _ _ _).mp hm)
        · simp at hx
        · rw [he, ha] at hh
          exact hv2 (h1 q.a q.attr hat hmv q.e _ _ hb hh)
    · have hm := (hterms _ _ _ _).mpr ((hopp .add e a v).mpr ⟨hne1, Or.inr ⟨rfl, hh, hh'⟩⟩)
      obtain ⟨at_, hat⟩ := hattr _ hm
      refine ⟨newRow rep'.txId ⟨e, a, at_, v, true⟩, (T.mem_store _).mpr (Or.inr ⟨⟨e, a, at_, v, true⟩,
        T.mem_queue.mpr ⟨hat, Or.inl ⟨rfl, Or.inl hm⟩⟩, ⟨rfl, ?_⟩, rfl⟩), rfl, rfl, rfl⟩
      by_cases hj : ∃ r ∈ db'.store.rows, Joins ⟨e, a, at_, v, true⟩ r
      · obtain ⟨r, hrr, hj⟩ := hj
        refine Or.inr ⟨r, hrr, hj, fun hv => hh' ⟨r, hrr, hj.1, hj.2.1, hv.symm⟩⟩
      · exact Or.inl fun r hrr hjr => hj ⟨r, hrr, hjr⟩

/-- C105, for histories that do not undefine an attribute in use and a transaction that undefines only attributes
without datoms, before and after: when the opposite is accepted, it leaves exactly the datoms of before, besides
the times of the two transactions. -/
theorem C105_kept_partial {db db' db'' : Db} {now now' terms ids rep rep'} (hr : ReachKept db)
    (hk : KnownTerms db terms) (h : transactTerms db now terms ids = .ok (db', rep))
    (hu : ∀ a v, Has db.store.rows a DB_VALUE_TYPE v → ¬ Has db'.store.rows a DB_VALUE_TYPE v →
      ∀ e w, ¬ Has db.store.rows e a w ∧ ¬ Has db'.store.rows e a w)
    (h' : transactTerms db' now' (opposite db'.store.log rep.txId) [] = .ok (db'', rep')) :
    ∀ e a v, ¬ (a = DB_TX_INSTANT ∧ (e = rep.txId ∨ e = rep'.txId)) →
      (Has db''.store.rows e a v ↔ Has db.store.rows e a v) := by
  obtain ⟨hi, ht⟩ := rowsInv_reach hr
  have hkept : KeepsUsedAttributes db db' := fun a v h1 h2 r hrr ha =>
    (hu a v h1 h2 r.e r.v).2 ⟨r, hrr, rfl, ha, rfl⟩
  obtain ⟨hi', -⟩ := rowsInv_step (histInv_reach hr.reach) hi ht h hkept
  refine C105_undone_partial hr.reach hk h ?_ ?_ h'
  · -- the cardinality of an attribute in use does not become one
    rintro a at' hat' hm e v v' ⟨r, hrr, rfl, rfl, rfl⟩ ⟨r2, hrr2, he, ha, rfl⟩
    obtain ⟨at_, hat, -⟩ := hi.typed r hrr
    have hm0 : at_.multival = false := by
      obtain ⟨T⟩ := transact_trace h
      rcases T.md with ⟨hmd, -⟩ | ⟨hs, -⟩
      · have hst := applyMetadata_step hmd
        obtain ⟨at2, hat2, -, hm2⟩ := hst.keep _ _ hat (by
          rintro ⟨l, hl, hle, hla, hadd⟩
          obtain ⟨hb, hn⟩ := (applySpec hi.uniq T.applied).retracted l hl hadd
          rw [hle, hla] at hb hn
          exact (hu _ _ hb (by rw [T.has_iff]; exact hn) r.e r.v).1 ⟨r, hrr, rfl, rfl, rfl⟩)
        rw [hat'] at hat2
        cases hat2
        exact hm2 hm
      · rw [hs, hat] at hat'
        cases hat'
        exact hm
    rw [hi.one r hrr r2 hrr2 at_ hat hm0 he.symm ha.symm]
  · rintro a at' hat' hm e v v' ⟨r, hrr, rfl, rfl, rfl⟩ ⟨r2, hrr2, he, ha, rfl⟩
    rw [hi'.one r hrr r2 hrr2 at' hat' hm he.symm ha.symm]

/-! ### Changes of data -/

theorem opposite_literal (log : List LogRow) (tx : Entid) : opposite log tx =
    ((log.filter fun l => decide (l.tx = tx ∧ ¬ (l.e = tx ∧ l.a = DB_TX_INSTANT))).map fun l =>
      (⟨if l.added then .retract else .add, l.e, l.a, l.v⟩ : RTerm)).map litTerm := by
  unfold opposite
  rw [List.map_map]
  rfl

/-- Transacting terms without tempids that turn the datoms `c` of the store into `p`, where nothing is said of the
vocabulary, is accepted: both obey the schema, and `:db/txInstant` is not unique. -/
theorem transact_towards {db : Db} (hp : PartsOk db.parts) {p : List Row} {now : Int} {xs : List RTerm}
    (hroom : db.parts.tx.next < I64MAX) (hi : RowsInv db.schema p) (hc : RowsInv db.schema db.store.rows)
    (hti : ∃ at_, db.schema.attr DB_TX_INSTANT = some at_ ∧ at_.unique = none)
    (hnp : ∀ a v, ¬ Has p db.parts.tx.next a v) (hnc : ∀ a v, ¬ Has db.store.rows db.parts.tx.next a v)
    (hadd : ∀ e a v, (⟨.add, e, a, v⟩ : RTerm) ∈ xs → Has p e a v ∧ ¬ Has db.store.rows e a v)
    (hret : ∀ e a v, (⟨.retract, e, a, v⟩ : RTerm) ∈ xs → ¬ Has p e a v ∧ Has db.store.rows e a v)
    (hall : ∀ e a v, a ≠ DB_TX_INSTANT → ¬ Has p e a v → Has db.store.rows e a v →
      (⟨.retract, e, a, v⟩ : RTerm) ∈ xs)
    (hdata : ∀ x ∈ xs, mightUpdateMetadata x.a = false) :
    ∃ db' rep, transactTerms db now (xs.map litTerm) [] = .ok (db', rep) ∧ db'.schema = db.schema := by
  obtain ⟨schema, parts, store, views⟩ := db
  simp only at *
  obtain ⟨tiAt, htiAt, htiU⟩ := hti
  obtain ⟨x1, x2, x3, x4⟩ := hp.tx
  obtain ⟨u1, u2, u3, u4⟩ := hp.user
  have htx : parts.tx.allocate 1 = .ok (parts.tx.next, { parts.tx with next := parts.tx.next + 1 }) := by
    unfold Partition.allocate Partition.setNext Partition.allowsEntid
    rw [if_pos (by
      rw [decide_eq_true_eq, x1, x2]
      refine ⟨?_, ?_⟩ <;> push_cast <;> omega)]
    rfl
  have h3 : (⟨⟨[], [], []⟩, xs, [], parts.user⟩ : Stage3).terms = xs := by simp [Stage3.terms]
  -- every term is about a datom that obeys the schema
  have htyped : ∀ x ∈ xs, ∃ at_, schema.attr x.a = some at_ ∧ at_.valueType = x.v.valueType := by
    rintro ⟨op, e, a, v⟩ hx
    cases op with
    | add =>
      obtain ⟨⟨r, hr, -, rfl, rfl⟩, -⟩ := hadd _ _ _ hx
      obtain ⟨at_, k1, k2, -⟩ := hi.typed r hr
      exact ⟨at_, k1, k2⟩
    | retract =>
      obtain ⟨-, ⟨r, hr, -, rfl, rfl⟩⟩ := hret _ _ _ hx
      obtain ⟨at_, k1, k2, -⟩ := hc.typed r hr
      exact ⟨at_, k1, k2⟩
  obtain ⟨t0, ht0⟩ := (intoTrie_isOk (s := schema) (s3 := ⟨⟨[], [], []⟩, xs, [], parts.user⟩)).2 (by
    intro x hm
    rw [h3] at hm
    obtain ⟨at_, k1, -⟩ := htyped x hm
    simp only [k1, Option.isSome_some])
  have hspec := intoTrie_spec ht0
  rw [h3] at hspec
  have htypes : typeDisagreements schema t0 = [] := by
    cases hd : typeDisagreements schema t0 with
    | nil => rfl
    | cons x r =>
      obtain ⟨en, a, v⟩ := x
      have hm : (en, a, v) ∈ typeDisagreements schema t0 := by rw [hd]; simp
      rw [typeDisagreements_mem hspec.wf, hspec.add, hspec.ret] at hm
      obtain ⟨hm, at_, k1, k2⟩ := hm
      have : ∃ at_, schema.attr a = some at_ ∧ at_.valueType = v.valueType := by
        rcases hm with hm | hm
        · exact htyped _ hm
        · exact htyped _ hm
      obtain ⟨at2, k3, k4⟩ := this
      rw [k1] at k3
      exact absurd (Option.some.inj k3 ▸ k4) k2
  -- a cardinality-one attribute has one value in `p`
  have hone : ∀ a at_, schema.attr a = some at_ → at_.multival = false → ∀ e v v', Has p e a v → Has p e a v' → v = v' := by
    rintro a at_ hat hm e v v' ⟨r, hr, rfl, rfl, rfl⟩ ⟨r', hr', he, ha, rfl⟩
    rw [hi.one r hr r' hr' at_ hat hm he.symm ha.symm]
  have hcards : cardinalityConflicts schema t0 = [] := by
    rw [cardinalityConflicts_nil hspec.wf]
    refine ⟨?_, ?_⟩
    · intro a e at_ hat hm v hv v' hv'
      rw [hspec.add] at hv hv'
      exact hone a at_ hat hm e v v' (hadd _ _ _ hv).1 (hadd _ _ _ hv').1
    · rintro a e v ⟨hv, hv'⟩
      rw [hspec.add] at hv
      rw [hspec.ret] at hv'
      exact (hret _ _ _ hv').1 (hadd _ _ _ hv).1
  obtain ⟨t, hinst⟩ : ∃ t, getOrInsertTxInstant schema t0 parts.tx.next now = .ok (now, t) := by
    have : (Trie.entry t0 DB_TX_INSTANT parts.tx.next).add = [] := by
      cases hl : (Trie.entry t0 DB_TX_INSTANT parts.tx.next).add with
      | nil => rfl
      | cons v r =>
        have hv : v ∈ (Trie.entry t0 DB_TX_INSTANT parts.tx.next).add := by rw [hl]; simp
        rw [hspec.add] at hv
        exact absurd (hadd _ _ _ hv).1 (hnp _ _)
    unfold getOrInsertTxInstant
    rw [htiAt]
    simp only [this]
    exact ⟨_, rfl⟩
  have hts := getOrInsertTxInstant_spec hspec.wf hinst
  -- the queue
  have hq : ∀ q, q ∈ reducedOf schema t ↔ schema.attr q.a = some q.attr ∧
      ((q.added = true ∧ ((⟨.add, q.e, q.a, q.v⟩ : RTerm) ∈ xs ∨
          (q.a = DB_TX_INSTANT ∧ q.e = parts.tx.next ∧ q.v = .instant now))) ∨
       (q.added = false ∧ (⟨.retract, q.e, q.a, q.v⟩ : RTerm) ∈ xs)) := by
    intro q
    rw [mem_reducedOf hts.wf, hts.add, hts.ret, hspec.add, hspec.ret]
  have hqattr : ∀ q ∈ reducedOf schema t, schema.attr q.a = some q.attr := fun q h => ((hq q).1 h).1
  -- what is added is a datom of `p` or the time
  have qadd : ∀ q ∈ reducedOf schema t, q.added = true →
      (Has p q.e q.a q.v ∧ ¬ Has store.rows q.e q.a q.v) ∨
      (q.a = DB_TX_INSTANT ∧ q.e = parts.tx.next ∧ q.v = .instant now) := by
    intro q h ha
    rcases ((hq q).1 h).2 with ⟨-, h | h⟩ | ⟨h, -⟩
    · exact Or.inl (hadd _ _ _ h)
    · exact Or.inr h
    · rw [ha] at h; cases h
  have qret : ∀ q ∈ reducedOf schema t, q.added = false → ¬ Has p q.e q.a q.v ∧ Has store.rows q.e q.a q.v := by
    intro q h ha
    rcases ((hq q).1 h).2 with ⟨h, -⟩ | ⟨-, h⟩
    · rw [ha] at h; cases h
    · exact hret _ _ _ h
  have clash : ∀ q ∈ reducedOf schema t, ∀ q' ∈ reducedOf schema t, q.e = q'.e → q.a = q'.a → q.v = q'.v →
      q.added = true → q'.added = false → False := by
    intro q h q' h' he ha hv hb hb'
    obtain ⟨k1, k2⟩ := qret q' h' hb'
    rcases qadd q h hb with ⟨k3, -⟩ | ⟨-, k3, -⟩
    · rw [he, ha, hv] at k3; exact k1 k3
    · rw [← he, k3] at k2; exact hnc _ _ k2
  have hdist : ∀ q ∈ reducedOf schema t, ∀ q' ∈ reducedOf schema t, q.e = q'.e → q.a = q'.a → q.v = q'.v → q = q' := by
    intro q h q' h' he ha hv
    have hat : q.attr = q'.attr := by
      have k1 := hqattr q h
      rw [ha, hqattr q' h'] at k1
      exact (Option.some.inj k1).symm
    have hb : q.added = q'.added := by
      cases k1 : q.added <;> cases k2 : q'.added
      · rfl
      · exact (clash q' h' q h he.symm ha.symm hv.symm k2 k1).elim
      · exact (clash q h q' h' he ha hv k1 k2).elim
      · rfl
    cases q; cases q'; simp_all
  have hfp : (search store.rows (reducedOf schema t)).Pairwise fun f f' =>
      ¬ (f'.q.e = f.q.e ∧ f'.q.a = f.q.a ∧ f'.q.v = f.q.v) := by
    refine pairwise_flatMap (fun q hm => pairwise_of_length (searchOne_le hc (hqattr q hm))) ?_
    refine List.Pairwise.imp_of_mem ?_ (reducedOf_nodup hts.wf)
    intro q q' hm hm' hne f hf f' hf' ⟨e1, e2, e3⟩
    rw [mem_searchOne] at hf hf'
    rw [hf.1, hf'.1] at e1 e2 e3
    exact hne (hdist q hm q' hm' e1.symm e2.symm e3.symm)
  have hf : foundUniqueOk (search store.rows (reducedOf schema t)) = true := foundUniqueOk_iff.2 hfp
  have hx : inexactUniqueOk (reducedOf schema t) = true := by
    rw [inexactUniqueOk_iff]
    refine List.Pairwise.imp_of_mem ?_ (reducedOf_nodup hts.wf)
    rintro q q' hm hm' hne ⟨h1, h2, -, h4, h5, h6⟩
    apply hne
    refine hdist q hm q' hm' h5.symm h6.symm ?_
    rcases qadd q hm h2 with ⟨k1, -⟩ | ⟨k1, k2, k3⟩
    · rcases qadd q' hm' h4 with ⟨k4, -⟩ | ⟨-, k5, -⟩
      · rw [h5, h6] at k4
        exact hone _ _ (hqattr q hm) h1 _ _ _ k1 k4
      · rw [← h5, k5] at k1; exact absurd k1 (hnp _ _)
    · rcases qadd q' hm' h4 with ⟨k4, -⟩ | ⟨-, -, k6⟩
      · rw [h5, k2] at k4; exact absurd k4 (hnp _ _)
      · rw [k3, k6]
  -- the unique indices
  have hpu : ∀ a at_, schema.attr a = some at_ → at_.unique.isSome = true → ∀ e e' v, Has p e a v → Has p e' a v → e = e' := by
    rintro a at_ hat hu e e' v ⟨r, hr, rfl, rfl, rfl⟩ ⟨r', hr', rfl, ha, hv⟩
    obtain ⟨at1, k1, -, k2, -⟩ := hi.typed r hr
    obtain ⟨at2, k3, -, k4, -⟩ := hi.typed r' hr'
    rw [ha] at k3
    rw [hat] at k1 k3
    cases k1; cases k3
    rw [uniqueOk_av hi.uniq hr hr' (k2.trans hu) (k4.trans hu) ha.symm hv.symm]
  -- an inserted row with the flag is a datom of `p`
  have hflag : ∀ q ∈ reducedOf schema t, q.added = true → q.attr.unique.isSome = true →
      Has p q.e q.a q.v ∧ q.a ≠ DB_TX_INSTANT := by
    intro q h ha hu
    have hne : q.a ≠ DB_TX_INSTANT := by
      intro hq1
      have := hqattr q h
      rw [hq1, htiAt] at this
      rw [← Option.some.inj this, htiU] at hu
      cases hu
    rcases qadd q h ha with ⟨k, -⟩ | ⟨k, -⟩
    · exact ⟨k, hne⟩
    · exact absurd k hne
  have hu2 : uniqueOk (deleteRows store.rows (search store.rows (reducedOf schema t)) ++
      insertRows parts.tx.next (search store.rows (reducedOf schema t))) = true := by
    rw [uniqueOk_iff, List.pairwise_append]
    refine ⟨(uniqueOk_iff.1 hc.uniq).filter _, ?_, ?_⟩
    · unfold insertRows
      rw [List.pairwise_map]
      refine List.Pairwise.imp_of_mem ?_ (hfp.filter _)
      intro f f' hf1 hf2 hne
      obtain ⟨hf1, hi1⟩ := List.mem_filter.1 hf1
      obtain ⟨hf2, hi2⟩ := List.mem_filter.1 hf2
      have m1 := (mem_search.1 hf1).1
      have m2 := (mem_search.1 hf2).1
      refine ⟨hne, ?_⟩
      rintro ⟨g1, g2, g3, g4⟩
      simp only [newRow] at g1 g2 g3 g4
      unfold Found.inserts at hi1 hi2
      simp only [Bool.and_eq_true] at hi1 hi2
      have k1 := (hflag _ m1 hi1.1 g1).1
      have k2 := (hflag _ m2 hi2.1 g2).1
      rw [g3, g4] at k2
      exact hne ⟨(hpu _ _ (hqattr _ m1) g1 _ _ _ k1 k2).symm, g3, g4⟩
    · intro r hr r' hr'
      rw [mem_deleteRows] at hr
      rw [mem_insertRows] at hr'
      obtain ⟨hr, hnd⟩ := hr
      obtain ⟨q, hm, hins, rfl⟩ := hr'
      refine ⟨?_, ?_⟩
      · rintro ⟨g1, g2, g3⟩
        simp only [newRow] at g1 g2 g3
        rcases qadd q hm hins.1 with ⟨-, k⟩ | ⟨-, k, -⟩
        · exact k ⟨r, hr, g1.symm, g2.symm, g3.symm⟩
        · exact hnc r.a r.v ⟨r, hr, g1.symm.trans k, rfl, rfl⟩
      · rintro ⟨-, g2, g3, g4⟩
        simp only [newRow] at g2 g3 g4
        obtain ⟨k1, k2⟩ := hflag q hm hins.1 g2
        by_cases hpr : Has p r.e r.a r.v
        · have k3 := k1
          rw [g3, g4] at k3
          have he := hpu r.a q.attr (by rw [← g3]; exact hqattr q hm) g2 _ _ _ hpr k3
          rcases qadd q hm hins.1 with ⟨-, k⟩ | ⟨k, -⟩
          · exact k ⟨r, hr, he, g3.symm, g4.symm⟩
          · exact k2 k
        · have hmr := hall r.e r.a r.v (by rw [← g3]; exact k2) hpr ⟨r, hr, rfl, rfl, rfl⟩
          exact hnd ⟨⟨r.e, r.a, q.attr, r.v, false⟩, (hq _).2 ⟨by rw [← g3]; exact hqattr q hm, Or.inr ⟨rfl, hmr⟩⟩,
            ⟨rfl, rfl, fun _ => rfl⟩, Or.inl rfl⟩
  have hno : ¬ (reducedOf schema t).any (fun q => mightUpdateMetadata q.a) = true := by
    rw [List.any_eq_true]
    rintro ⟨q, hm, hmu⟩
    rcases ((hq q).1 hm).2 with ⟨-, h | ⟨h, -⟩⟩ | ⟨-, h⟩
    · have := hdata _ h
      simp only at this
      rw [this] at hmu; cases hmu
    · rw [h] at hmu; exact absurd hmu (by decide)
    · have := hdata _ h
      simp only at this
      rw [this] at hmu; cases hmu
  unfold transactTerms transactTermsWith
  simp only
  rw [htx]
  simp only [Res.ok_bind]
  rw [resolve_literal (by omega)]
  simp only [Res.ok_bind]
  rw [ht0]
  simp only [Res.ok_bind]
  unfold applyTrie
  simp only [htypes, hcards, Res.require, if_true, Res.ok_bind]
  rw [hinst]
  simp only [Res.ok_bind]
  unfold Store.apply updateDatoms
  simp only [hx, hf, hu2, Bool.not_true, Bool.or_self, Bool.false_eq_true, if_false, if_true, Res.ok_bind]
  rw [if_neg hno]
  exact ⟨_, _, rfl, rfl⟩

/-- C105, for transactions that say nothing of the vocabulary: their opposite is accepted and undoes them.  (Where
`:db/txInstant` was made unique, the opposite may be refused for its time; that there are transaction ids left is
assumed.) -/
theorem C105_data_partial {db db' : Db} {now now' terms ids rep} (hr : ReachKept db) (hk : KnownTerms db terms)
    (h : transactTerms db now terms ids = .ok (db', rep))
    (hdata : ∀ l ∈ db'.store.log, l.tx = rep.txId → mightUpdateMetadata l.a = false)
    (hu : ∀ at_, db.schema.attr DB_TX_INSTANT = some at_ → at_.unique = none)
    (hroom : db'.parts.tx.next < I64MAX) :
    ∃ db'' rep', transactTerms db' now' (opposite db'.store.log rep.txId) [] = .ok (db'', rep') ∧
      db''.schema = db.schema ∧
      ∀ e a v, ¬ (a = DB_TX_INSTANT ∧ (e = rep.txId ∨ e = rep'.txId)) →
        (Has db''.store.rows e a v ↔ Has db.store.rows e a v) := by
  obtain ⟨hi, ht⟩ := rowsInv_reach hr
  have hist := histInv_reach hr.reach
  have hist' := histInv_step hist hk h
  have hopp := mem_opposite_iff hr.reach hk h
  obtain ⟨new, hlog, -, hnew⟩ := C17_net_change hr.reach h
  have hnewdata : ∀ l ∈ new, mightUpdateMetadata l.a = false := fun l hl =>
    hdata l (by rw [hlog]; exact List.mem_append_right _ hl) ((hnew l).mp hl).1
  -- nothing about the types of attributes
  have hvt : ∀ a v, Has db.store.rows a DB_VALUE_TYPE v → Has db'.store.rows a DB_VALUE_TYPE v := by
    intro a v h1
    apply Classical.byContradiction
    intro h2
    have := hnewdata ⟨a, DB_VALUE_TYPE, v, rep.txId, false, 0⟩ ((hnew _).mpr ⟨rfl, rfl, Or.inr ⟨rfl, h1, h2⟩⟩)
    exact absurd (show mightUpdateMetadata DB_VALUE_TYPE = false from this) (by decide)
  have hkept : KeepsUsedAttributes db db' := fun a v h1 h2 => absurd (hvt a v h1) h2
  obtain ⟨hi', -⟩ := rowsInv_step hist hi ht h hkept
  obtain ⟨T⟩ := transact_trace h
  have hschema : db'.schema = db.schema := by
    rcases T.md with ⟨hmd, -⟩ | ⟨h1, -⟩
    · obtain ⟨-, -, -, -, -, hl, -⟩ := apply_ok T.applied
      have hnone : ∀ l ∈ T.lr, mightUpdateMetadata l.a = false := by
        have : T.lr = new := by
          have := T.log
          rw [hl rfl, hlog] at this
          exact (List.append_cancel_left this).symm
        rw [this]; exact hnewdata
      rw [applyMetadata_none hnone] at hmd
      simp only [Res.ok.injEq, Prod.mk.injEq] at hmd
      exact hmd.1.symm
    · exact h1
  have hmem : ∀ x, x ∈ ((db'.store.log.filter fun l => decide (l.tx = rep.txId ∧
      ¬ (l.e = rep.txId ∧ l.a = DB_TX_INSTANT))).map fun l =>
        (⟨if l.added then .retract else .add, l.e, l.a, l.v⟩ : RTerm)) ↔
      litTerm x ∈ opposite db'.store.log rep.txId := by
    intro x
    rw [opposite_literal]
    constructor
    · exact fun hx => List.mem_map.2 ⟨x, hx, rfl⟩
    · intro hx
      obtain ⟨y, hy, hxy⟩ := List.mem_map.1 hx
      have : y = x := by
        obtain ⟨o, e, a, v⟩ := x
        obtain ⟨o', e', a', v'⟩ := y
        simp only [litTerm, Term.mk.injEq, Sum.inl.injEq] at hxy
        obtain ⟨rfl, rfl, rfl, rfl⟩ := hxy
        rfl
      rw [← this]; exact hy
  obtain ⟨at_, hat⟩ := Option.isSome_iff_exists.mp T.tSpec.attr
  have hnext : ∀ a v, ¬ Has db.store.rows db'.parts.tx.next a v := by
    intro a v hh
    obtain ⟨l, hl, h1, -⟩ := has_rows_log hist.replay hh
    have := hist'.logE l (by rw [hlog]; exact List.mem_append_left _ hl)
    rw [h1] at this
    obtain ⟨x1, x2, x3, x4⟩ := hist'.parts.tx
    obtain ⟨p1, p2, p3, p4⟩ := hist'.parts.user
    obtain ⟨b1, b2, b3, b4⟩ := hist'.parts.db
    simp only [Parts.containsEntid, Partition.containsEntid, Bool.or_eq_true, decide_eq_true_eq] at this
    have : USER0 = 65536 := rfl
    have : TX0 = 268435456 := rfl
    omega
  obtain ⟨db'', rep', h', hs⟩ := transact_towards (now := now') hist'.parts hroom (hschema ▸ hi) hi'
    ⟨at_, by rw [hschema]; exact hat, hu at_ hat⟩ hnext hist'.no_datom_of_next
    (fun e a v hx => by
      obtain ⟨-, ⟨hx, -⟩ | ⟨-, hx⟩⟩ := (hopp _ _ _ _).mp ((hmem _).1 hx)
      · simp at hx
      · exact hx)
    (fun e a v hx => by
      obtain ⟨-, ⟨-, hx⟩ | ⟨hx, -⟩⟩ := (hopp _ _ _ _).mp ((hmem _).1 hx)
      · exact hx
      · simp at hx)
    (fun e a v ha h1 h2 => (hmem _).2 ((hopp .retract e a v).mpr ⟨fun hx => ha hx.2, Or.inl ⟨rfl, h1, h2⟩⟩))
    (fun x hx => by
      obtain ⟨l, hl, rfl⟩ := List.mem_map.1 hx
      obtain ⟨hl, hl2⟩ := List.mem_filter.1 hl
      rw [decide_eq_true_eq] at hl2
      exact hdata l hl hl2.1)
  rw [← opposite_literal] at h'
  exact ⟨db'', rep', h', hs.trans hschema,
    C105_kept_partial hr hk h (fun a v h1 h2 => absurd (hvt a v h1) h2) h'⟩

/-- A transaction that replaces a value, retracts one and adds one through an upserting tempid, and its opposite. -/
theorem C105_example : ∃ db db' db'' rep rep', ReachKept db ∧ KnownTerms db changeTx.1 ∧
    transactTerms db 0 changeTx.1 changeTx.2 = .ok (db', rep) ∧
    (∀ l ∈ db'.store.log, l.tx = rep.txId → mightUpdateMetadata l.a = false) ∧
    (∀ at_, db.schema.attr DB_TX_INSTANT = some at_ → at_.unique = none) ∧ db'.parts.tx.next < I64MAX ∧
    (∀ a v, Has db.store.rows a DB_VALUE_TYPE v → Has db'.store.rows a DB_VALUE_TYPE v) ∧
    transactTerms db' 0 (opposite db'.store.log rep.txId) [] = .ok (db'', rep') ∧
    Has db.store.rows e1 xOne (str "a") ∧ ¬ Has db'.store.rows e1 xOne (str "a") ∧
    Has db''.store.rows e1 xOne (str "a") ∧ Has db''.store.rows e1 xMany (.long 1) ∧
    ¬ Has db''.store.rows e1 xMany (.long 3) := by
  obtain ⟨db, h, hp⟩ := reachKept_of_setup (txs := [dataTx]) (p := fun db =>
    decide (KnownTerms db changeTx.1) && hasB db e1 xOne (str "a") &&
    match transactTerms db 0 changeTx.1 changeTx.2 with
    | .ok (db', rep) => (db.store.rows.all fun r => decide (r.a ≠ DB_VALUE_TYPE) || hasB db' r.e r.a r.v) &&
      !hasB db' e1 xOne (str "a") &&
      (db'.store.log.all fun l => decide (l.tx ≠ rep.txId) || !mightUpdateMetadata l.a) &&
      ((db.schema.attr DB_TX_INSTANT).all fun at_ => decide (at_.unique = none)) &&
      decide (db'.parts.tx.next < I64MAX) &&
      match transactTerms db' 0 (opposite db'.store.log rep.txId) [] with
      | .ok (db'', _) => hasB db'' e1 xOne (str "a") && hasB db'' e1 xMany (.long 1) &&
        !hasB db'' e1 xMany (.long 3)
      | _ => false
    | _ => false) (by decide +kernel)
  simp only [Bool.and_eq_true, decide_eq_true_eq, hasB_iff] at hp
  obtain ⟨⟨hk, ha⟩, hp⟩ := hp
  split at hp
  · rename_i db' rep ht
    simp only [Bool.and_eq_true, List.all_eq_true, Bool.or_eq_true, decide_eq_true_eq, hasB_iff,
      Bool.not_eq_true'] at hp
    obtain ⟨⟨⟨⟨⟨hv, hn⟩, hl⟩, htu⟩, hroom⟩, hp⟩ := hp
    split at hp
    · rename_i db'' rep' ht'
      simp only [Bool.and_eq_true, hasB_iff, Bool.not_eq_true'] at hp
      refine ⟨db, db', db'', rep, rep', h, hk, ht, ?_, ?_, hroom, ?_, ht', ha, ?_, hp.1.1, hp.1.2, ?_⟩
      · intro l hl1 hl2
        rcases hl l hl1 with h3 | h3
        · exact absurd hl2 h3
        · exact h3
      · intro at_ hat
        rw [hat] at htu
        simpa using htu
      · rintro a v ⟨r, hr, rfl, h2, rfl⟩
        rcases hv r hr with h3 | h3
        · exact absurd h2 h3
        · rw [← h2]; exact h3
      · rw [← hasB_iff, hn]; simp
      · rw [← hasB_iff, hp.2]; simp
    · simp at hp
  · simp at hp

/-- The full property does not hold: that an attribute may have many values from now on cannot be undone, the
opposite is refused. -/
theorem C105_fails : ∃ db db' rep e, ReachKept db ∧
    transactTerms db 0 [addE xOne DB_CARDINALITY (.ref DB_CARDINALITY_MANY)] [] = .ok (db', rep) ∧
    transactTerms db' 0 (opposite db'.store.log rep.txId) [] = .err e := by
  obtain ⟨db, h, hp⟩ := reachKept_of_setup (txs := []) (p := fun db =>
    match transactTerms db 0 [addE xOne DB_CARDINALITY (.ref DB_CARDINALITY_MANY)] [] with
    | .ok (db', rep) =>
      match transactTerms db' 0 (opposite db'.store.log rep.txId) [] with
      | .err _ => true
      | _ => false
    | _ => false) (by decide +kernel)
  split at hp
  · rename_i db' rep ht
    split at hp
    · rename_i e ht'
      exact ⟨db, db', rep, e, h, ht, ht'⟩
    · simp at hp
  · simp at hp

end Mentat
