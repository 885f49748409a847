import Verif.Proofs.Replay
/- What the bootstrap transaction logs. -/
namespace Mentat

/-- The terms of the bootstrap transaction, which have no tempids. -/
def bootFacts : List RTerm := bootTerms.filterMap fun x =>
  match x.e, x.v with
  | .inl e, .inl v => some ⟨x.op, e, x.a, v⟩
  | _, _ => none

theorem bootTerms_eq : bootTerms = bootFacts.map litTerm := by decide +kernel

theorem bootFacts_add : ∀ x ∈ bootFacts, x.op = .add := by
  have : bootFacts.all (fun x => decide (x.op = .add)) = true := by decide +kernel
  intro x hx
  simpa using List.all_eq_true.1 this x hx

/-- The log of a new store: the bootstrap terms and the instant. -/
theorem boot_log {now : Int} {db : Db} (h : createCurrentVersion now = .ok db) :
    db.parts.tx.next = TX0 + 1 ∧
    (∀ l ∈ db.store.log, l.added = true ∧ l.tx = TX0 ∧ l.timeline = 0 ∧
      ((⟨.add, l.e, l.a, l.v⟩ : RTerm) ∈ bootFacts ∨ (l.e = TX0 ∧ l.a = DB_TX_INSTANT ∧ ∃ i, l.v = .instant i))) ∧
    ∀ x ∈ bootFacts, (⟨x.e, x.a, x.v, TX0, true, 0⟩ : LogRow) ∈ db.store.log := by
  obtain ⟨s, db1, rep, h1, h2, h3, rfl⟩ := create_ok h
  obtain ⟨T⟩ := transact_trace h2
  obtain ⟨t1, t2, t3⟩ := T.txid
  have hti : TxInstantOk s := bootstrapSchema_txInstant h1
  have htx : rep.txId = TX0 := t1
  have hst : T.s3.terms = bootFacts := by
    have hlit := resolve_literal (s := (preBoot s).schema) (st := (preBoot s).store) (user := (preBoot s).parts.user)
      (by simp only [preBoot, Parts.bootstrap]; decide) bootFacts
    rw [← bootTerms_eq] at hlit
    rw [← Res.ok.inj (hlit.symm.trans T.stage3)]
    simp [Stage3.terms]
  have hap := applySpec (by rfl) T.applied
  obtain ⟨-, -, -, -, -, hlog, -⟩ := apply_ok T.applied
  have hl : db1.store.log = T.lr := by rw [T.log, hlog rfl]; rfl
  refine ⟨by simp only [T.parts, t2]; rfl, ?_, ?_⟩
  · intro l hm
    simp only [hl] at hm
    obtain ⟨k1, k2⟩ := hap.stamp l hm
    have hadd : l.added = true := by
      cases hx : l.added with
      | true => rfl
      | false =>
        obtain ⟨⟨r, hr, -⟩, -⟩ := hap.retracted l hm hx
        cases hr
    refine ⟨hadd, k1.trans htx, k2, ?_⟩
    obtain ⟨⟨r, hr, r1, r2, r3⟩, -⟩ := hap.added l hm hadd
    rcases (T.mem_store r).1 hr with ⟨hr, -⟩ | ⟨q, hq, hi, rfl⟩
    · cases hr
    · obtain ⟨-, hq⟩ := T.mem_queue.1 hq
      simp only [newRow] at r1 r2 r3
      rcases hq with ⟨-, hq | ⟨q1, q2, q3⟩⟩ | ⟨hq, -⟩
      · left; rw [hst] at hq; rw [← r1, ← r2, ← r3]; exact hq
      · right; exact ⟨r1 ▸ q2.trans htx, r2 ▸ q1, _, r3 ▸ q3⟩
      · rw [hi.1] at hq; cases hq
  · intro x hx
    simp only [hl]
    have hmem : x ∈ T.s3.terms := by rw [hst]; exact hx
    have hxe : x = ⟨.add, x.e, x.a, x.v⟩ := by
      have := bootFacts_add x hx
      cases x; simp only at this; subst this; rfl
    have hat : ∃ at_, (preBoot s).schema.attr x.a = some at_ := by
      have key : (match bootstrapSchema with
          | .ok s => bootFacts.all fun x => (s.attr x.a).isSome
          | _ => false) = true := by decide +kernel
      rw [h1] at key
      exact Option.isSome_iff_exists.1 (List.all_eq_true.1 key x hx)
    obtain ⟨at_, hat⟩ := hat
    have hp := T.added_present (q := ⟨x.e, x.a, at_, x.v, true⟩)
      (T.mem_queue.2 ⟨hat, .inl ⟨rfl, .inl (by rw [← hxe]; exact hmem)⟩⟩) rfl (by
        intro _ q hq hf
        rcases (T.mem_queue.1 hq).2 with ⟨hf', -⟩ | ⟨-, hq⟩
        · rw [hf] at hf'; cases hf'
        · rw [hst] at hq
          have := bootFacts_add _ hq
          cases this)
    rw [T.has_iff] at hp
    have := hap.addedAll _ _ _ hp (by rintro ⟨r, hr, -⟩; cases hr)
    rw [htx] at this
    exact this

end Mentat
