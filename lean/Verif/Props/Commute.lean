import Verif.Props.Undo
/-
C106: transactions about different things can be made in either order, or at once.
-/
namespace Mentat

/-- No term of one is about the same entity and attribute as a term of the other. -/
def Unrelated (xs ys : List RTerm) : Prop := ∀ x ∈ xs, ∀ y ∈ ys, ¬ (x.e = y.e ∧ x.a = y.a)

/-- The values of an entity and attribute after a transaction that adds `A` and retracts `R` there, when they were
`B` before. -/
def valuesAfter (many : Bool) (B A R : TypedValue → Prop) (v : TypedValue) : Prop :=
  (B v ∧ (∀ w, R w → ¬ (many = true → v = w)) ∧ (many = false → ∀ w, A w → w = v)) ∨
  (A v ∧ ((∀ w, B w → ¬ (many = true → w = v)) ∨ ∃ w, B w ∧ (many = true → w = v) ∧ v ≠ w))

theorem valuesAfter_nothing {many : Bool} {B A R : TypedValue → Prop} (hA : ∀ w, ¬ A w) (hR : ∀ w, ¬ R w)
    (v : TypedValue) : valuesAfter many B A R v ↔ B v := by
  unfold valuesAfter
  constructor
  · rintro (⟨h, -⟩ | ⟨h, -⟩)
    · exact h
    · exact absurd h (hA v)
  · exact fun h => Or.inl ⟨h, fun w hw => absurd hw (hR w), fun _ w hw => absurd hw (hA w)⟩

def manyValued (s : Schema) (a : Entid) : Bool := (s.attr a).any (·.multival)

/-- What a transaction of terms without tempids does to the values of an entity and attribute depends on the terms
about them and the values before only. -/
theorem values_transacted {db db' : Db} {now rep} {xs : List RTerm}
    (h : transactTerms db now (xs.map litTerm) [] = .ok (db', rep)) {e a : Entid}
    (hne : ¬ (e = rep.txId ∧ a = DB_TX_INSTANT)) (v : TypedValue) :
    Has db'.store.rows e a v ↔ valuesAfter (manyValued db.schema a) (fun w => Has db.store.rows e a w)
      (fun w => (⟨.add, e, a, w⟩ : RTerm) ∈ xs) (fun w => (⟨.retract, e, a, w⟩ : RTerm) ∈ xs) v := by
  obtain ⟨T⟩ := transact_trace h
  obtain ⟨U, -, hsound, hcomplete⟩ := T.terms_spec
  have hterms : ∀ x : RTerm, x ∈ T.s3.terms ↔ x ∈ xs := by
    rintro ⟨op, e, a, v⟩
    constructor
    · intro hm
      obtain ⟨x, hx, d1, d2, d3, d4⟩ := hsound _ hm
      obtain ⟨⟨op', e', a', v'⟩, hy, rfl⟩ := List.mem_map.1 hx
      simp only [litTerm, DenotesE, DenotesV] at d1 d2 d3 d4
      rw [d1, d2, d3, d4]; exact hy
    · intro hx
      rcases hcomplete _ (List.mem_map.2 ⟨_, hx, rfl⟩) with ⟨⟨op', e', a', v'⟩, hy, d1, d2, d3, d4⟩ | ⟨-, -, t, n, w, he, -⟩
      · simp only [litTerm, DenotesE, DenotesV] at d1 d2 d3 d4
        rw [d1, d2, d3, d4] at hy; exact hy
      · simp [litTerm] at he
  have hq : ∀ q, q.e = e → q.a = a → (q ∈ reducedOf db.schema T.t ↔ db.schema.attr a = some q.attr ∧
      ((q.added = true ∧ (⟨.add, e, a, q.v⟩ : RTerm) ∈ xs) ∨ (q.added = false ∧ (⟨.retract, e, a, q.v⟩ : RTerm) ∈ xs))) := by
    rintro q rfl rfl
    rw [T.mem_queue, hterms, hterms]
    have : ¬ (q.a = DB_TX_INSTANT ∧ q.e = rep.txId ∧ q.v = .instant rep.txInstant) := fun hx => hne ⟨hx.2.1, hx.1⟩
    simp only [this, or_false]
  have hmany : ∀ q : Reduced, db.schema.attr a = some q.attr → manyValued db.schema a = q.attr.multival := by
    intro q h
    simp [manyValued, h]
  have hattr : ∀ op w, (⟨op, e, a, w⟩ : RTerm) ∈ xs → ∃ at_, db.schema.attr a = some at_ := by
    intro op w hx
    exact Option.isSome_iff_exists.mp (T.t0Spec.attrs _ ((hterms _).2 hx))
  rw [T.has_iff]
  constructor
  · rintro ⟨r, hr, rfl, rfl, rfl⟩
    rcases (T.mem_store r).mp hr with ⟨hr, hnd⟩ | ⟨q, hm, hi, rfl⟩
    · refine Or.inl ⟨⟨r, hr, rfl, rfl, rfl⟩, ?_, ?_⟩
      · intro w hw hv
        obtain ⟨at_, hat⟩ := hattr _ _ hw
        exact hnd ⟨⟨r.e, r.a, at_, w, false⟩, (hq _ rfl rfl).2 ⟨hat, Or.inr ⟨rfl, hw⟩⟩,
          ⟨rfl, rfl, fun hm => hv (by rw [hmany ⟨r.e, r.a, at_, w, false⟩ hat]; exact hm)⟩, Or.inl rfl⟩
      · intro hone w hw
        obtain ⟨at_, hat⟩ := hattr _ _ hw
        have hm1 := hmany ⟨r.e, r.a, at_, w, true⟩ hat
        rw [hone] at hm1
        apply Classical.byContradiction
        intro hv
        exact hnd ⟨⟨r.e, r.a, at_, w, true⟩, (hq _ rfl rfl).2 ⟨hat, Or.inl ⟨rfl, hw⟩⟩,
          ⟨rfl, rfl, fun hm => absurd (hm1.trans hm) (by simp)⟩, Or.inr ⟨hm1.symm, hv⟩⟩
    · obtain ⟨hat, hx⟩ := (hq q rfl rfl).1 hm
      have hm1 := hmany q hat
      refine Or.inr ⟨?_, ?_⟩
      · rcases hx with ⟨-, hx⟩ | ⟨hx, -⟩
        · exact hx
        · rw [hi.1] at hx; cases hx
      · rcases hi.2 with hn | ⟨r, hr, hj, hv⟩
        · refine Or.inl ?_
          rintro w ⟨r, hr, h1, h2, rfl⟩ hw
          exact hn r hr ⟨h1, h2, fun hm => hw (hm1.trans hm)⟩
        · exact Or.inr ⟨r.v, ⟨r, hr, hj.1, hj.2.1, rfl⟩, fun hm => hj.2.2 (hm1.symm.trans hm), hv⟩
  · rintro (⟨⟨r, hr, rfl, rfl, rfl⟩, h1, h2⟩ | ⟨hx, h1⟩)
    · refine ⟨r, (T.mem_store r).2 (Or.inl ⟨hr, ?_⟩), rfl, rfl, rfl⟩
      rintro ⟨q, hm, hj, hd⟩
      obtain ⟨hat, hx⟩ := (hq q hj.1.symm hj.2.1.symm).1 hm
      have hm1 := hmany q hat
      rcases hx with ⟨hb, hx⟩ | ⟨-, hx⟩
      · rcases hd with hd | ⟨hd, hv⟩
        · rw [hb] at hd; cases hd
        · exact hv (h2 (hm1.trans hd) _ hx)
      · exact h1 _ hx fun hm => hj.2.2 (hm1.symm.trans hm)
    · obtain ⟨at_, hat⟩ := hattr _ _ hx
      have hm1 := hmany ⟨e, a, at_, v, true⟩ hat
      refine ⟨newRow rep.txId ⟨e, a, at_, v, true⟩, (T.mem_store _).2 (Or.inr ⟨_,
        (hq _ rfl rfl).2 ⟨hat, Or.inl ⟨rfl, hx⟩⟩, ⟨rfl, ?_⟩, rfl⟩), rfl, rfl, rfl⟩
      rcases h1 with hn | ⟨w, ⟨r, hr, e1, e2, rfl⟩, h3, h4⟩
      · refine Or.inl fun r hr hj => hn r.v ⟨r, hr, hj.1, hj.2.1, rfl⟩ fun hm => hj.2.2 (hm1.symm.trans hm)
      · exact Or.inr ⟨r, hr, ⟨e1, e2, fun hm => h3 (hm1.trans hm)⟩, h4⟩

theorem schema_of_data {db db' : Db} {now rep} {xs : List RTerm} (hdata : ∀ x ∈ xs, mightUpdateMetadata x.a = false)
    (h : transactTerms db now (xs.map litTerm) [] = .ok (db', rep)) : db'.schema = db.schema := by
  obtain ⟨T⟩ := transact_trace h
  obtain ⟨U, -, hsound, -⟩ := T.terms_spec
  rcases T.md with ⟨-, q, hm, hq⟩ | ⟨h1, -⟩
  · have key : ∀ op, (⟨op, q.e, q.a, q.v⟩ : RTerm) ∈ T.s3.terms → False := by
      intro op hm
      obtain ⟨x, hx, -, d2, -⟩ := hsound _ hm
      obtain ⟨y, hy, rfl⟩ := List.mem_map.1 hx
      have := hdata y hy
      simp only [litTerm] at d2
      rw [← d2, hq] at this
      cases this
    rcases (T.mem_queue.1 hm).2 with ⟨-, h | ⟨h, -⟩⟩ | ⟨-, h⟩
    · exact (key _ h).elim
    · rw [h] at hq; exact absurd hq (by decide)
    · exact (key _ h).elim
  · exact h1

theorem txId_next {db db' : Db} {now rep terms ids} (h : transactTerms db now terms ids = .ok (db', rep)) :
    rep.txId = db.parts.tx.next ∧ db'.parts.tx.next = db.parts.tx.next + 1 := by
  obtain ⟨T⟩ := transact_trace h
  obtain ⟨h1, h2, -⟩ := T.txid
  exact ⟨h1, by rw [T.parts, h2]⟩

/-- C106, for terms without tempids that say nothing of the vocabulary, when both orders are accepted (one may be
refused: `C106_fails`): both orders leave the same datoms, besides the times of the transactions. -/
theorem C106_commute_partial {db dA dB dAB dBA : Db} {n1 n2 n3 n4 r1 r2 r3 r4} {A B : List RTerm}
    (hun : Unrelated A B) (hdata : ∀ x ∈ A ++ B, mightUpdateMetadata x.a = false)
    (hA : transactTerms db n1 (A.map litTerm) [] = .ok (dA, r1))
    (hAB : transactTerms dA n2 (B.map litTerm) [] = .ok (dAB, r2))
    (hB : transactTerms db n3 (B.map litTerm) [] = .ok (dB, r3))
    (hBA : transactTerms dB n4 (A.map litTerm) [] = .ok (dBA, r4)) :
    r1.txId = r3.txId ∧ r2.txId = r4.txId ∧ dAB.schema = dBA.schema ∧
    ∀ e a v, ¬ (a = DB_TX_INSTANT ∧ (e = r1.txId ∨ e = r2.txId)) →
      (Has dAB.store.rows e a v ↔ Has dBA.store.rows e a v) := by
  have hdA : ∀ x ∈ A, mightUpdateMetadata x.a = false := fun x hx => hdata x (by simp [hx])
  have hdB : ∀ x ∈ B, mightUpdateMetadata x.a = false := fun x hx => hdata x (by simp [hx])
  obtain ⟨t1, t1'⟩ := txId_next hA
  obtain ⟨t2, -⟩ := txId_next hAB
  obtain ⟨t3, t3'⟩ := txId_next hB
  obtain ⟨t4, -⟩ := txId_next hBA
  have e13 : r1.txId = r3.txId := t1.trans t3.symm
  have e24 : r2.txId = r4.txId := by rw [t2, t4, t1', t3']
  have sA := schema_of_data hdA hA
  have sB := schema_of_data hdB hB
  refine ⟨e13, e24, by rw [schema_of_data hdB hAB, schema_of_data hdA hBA, sA, sB], ?_⟩
  intro e a v hne
  have k1 : ¬ (e = r1.txId ∧ a = DB_TX_INSTANT) := fun ⟨x, y⟩ => hne ⟨y, Or.inl x⟩
  have k2 : ¬ (e = r2.txId ∧ a = DB_TX_INSTANT) := fun ⟨x, y⟩ => hne ⟨y, Or.inr x⟩
  have vA := values_transacted hA k1
  have vAB := values_transacted hAB k2
  have vB := values_transacted hB (e13 ▸ k1)
  have vBA := values_transacted hBA (e24 ▸ k2)
  rw [vAB, vBA, sA, sB]
  by_cases hin : ∃ x ∈ A, x.e = e ∧ x.a = a
  · obtain ⟨x, hx, hxe, hxa⟩ := hin
    have none : ∀ op w, (⟨op, e, a, w⟩ : RTerm) ∉ B := fun op w hw => hun x hx _ hw ⟨hxe, hxa⟩
    have vB' : ∀ w, Has dB.store.rows e a w ↔ Has db.store.rows e a w := fun w =>
      (vB w).trans (valuesAfter_nothing (none _) (none _) w)
    rw [valuesAfter_nothing (none _) (none _), vA]
    simp only [vB']
  · have none : ∀ op w, (⟨op, e, a, w⟩ : RTerm) ∉ A := fun op w hw => hin ⟨_, hw, rfl, rfl⟩
    have vA' : ∀ w, Has dA.store.rows e a w ↔ Has db.store.rows e a w := fun w =>
      (vA w).trans (valuesAfter_nothing (none _) (none _) w)
    rw [valuesAfter_nothing (A := fun w => (⟨.add, e, a, w⟩ : RTerm) ∈ A) (none _) (none _), vB]
    simp only [vA']

/-- C106, under the same conditions: making them at once leaves the same datoms. -/
theorem C106_atOnce_partial {db dA dAB dC : Db} {n1 n2 n3 r1 r2 r3} {A B : List RTerm}
    (hun : Unrelated A B) (hdata : ∀ x ∈ A ++ B, mightUpdateMetadata x.a = false)
    (hA : transactTerms db n1 (A.map litTerm) [] = .ok (dA, r1))
    (hAB : transactTerms dA n2 (B.map litTerm) [] = .ok (dAB, r2))
    (hC : transactTerms db n3 ((A ++ B).map litTerm) [] = .ok (dC, r3)) :
    r1.txId = r3.txId ∧ dAB.schema = dC.schema ∧
    ∀ e a v, ¬ (a = DB_TX_INSTANT ∧ (e = r1.txId ∨ e = r2.txId)) →
      (Has dAB.store.rows e a v ↔ Has dC.store.rows e a v) := by
  have hdA : ∀ x ∈ A, mightUpdateMetadata x.a = false := fun x hx => hdata x (by simp [hx])
  have hdB : ∀ x ∈ B, mightUpdateMetadata x.a = false := fun x hx => hdata x (by simp [hx])
  have e13 : r1.txId = r3.txId := (txId_next hA).1.trans (txId_next hC).1.symm
  have sA := schema_of_data hdA hA
  refine ⟨e13, by rw [schema_of_data hdB hAB, schema_of_data hdata hC, sA], ?_⟩
  intro e a v hne
  have k1 : ¬ (e = r1.txId ∧ a = DB_TX_INSTANT) := fun ⟨x, y⟩ => hne ⟨y, Or.inl x⟩
  have k2 : ¬ (e = r2.txId ∧ a = DB_TX_INSTANT) := fun ⟨x, y⟩ => hne ⟨y, Or.inr x⟩
  have vA := values_transacted hA k1
  rw [values_transacted hAB k2, values_transacted hC (e13 ▸ k1), sA]
  by_cases hin : ∃ x ∈ A, x.e = e ∧ x.a = a
  · obtain ⟨x, hx, hxe, hxa⟩ := hin
    have none : ∀ op w, (⟨op, e, a, w⟩ : RTerm) ∉ B := fun op w hw => hun x hx _ hw ⟨hxe, hxa⟩
    rw [valuesAfter_nothing (none _) (none _), vA]
    simp only [List.mem_append, none, or_false]
  · have none : ∀ op w, (⟨op, e, a, w⟩ : RTerm) ∉ A := fun op w hw => hin ⟨_, hw, rfl, rfl⟩
    have vA' : ∀ w, Has dA.store.rows e a w ↔ Has db.store.rows e a w := fun w =>
      (vA w).trans (valuesAfter_nothing (none _) (none _) w)
    simp only [vA', List.mem_append, none, false_or]

/-- A value replaced, and values of another attribute retracted and added: in either order and at once. -/
def unrelatedA : List RTerm := [⟨.add, e1, xOne, str "b"⟩]
def unrelatedB : List RTerm := [⟨.retract, e1, xMany, .long 1⟩, ⟨.add, e1, xMany, .long 3⟩]

theorem C106_example : ∃ db dA dB dAB dBA dC r1 r2 r3 r4 r5, ReachKept db ∧ Unrelated unrelatedA unrelatedB ∧
    (∀ x ∈ unrelatedA ++ unrelatedB, mightUpdateMetadata x.a = false) ∧
    transactTerms db 0 (unrelatedA.map litTerm) [] = .ok (dA, r1) ∧
    transactTerms dA 0 (unrelatedB.map litTerm) [] = .ok (dAB, r2) ∧
    transactTerms db 0 (unrelatedB.map litTerm) [] = .ok (dB, r3) ∧
    transactTerms dB 0 (unrelatedA.map litTerm) [] = .ok (dBA, r4) ∧
    transactTerms db 0 ((unrelatedA ++ unrelatedB).map litTerm) [] = .ok (dC, r5) ∧
    Has dC.store.rows e1 xOne (str "b") ∧ Has dC.store.rows e1 xMany (.long 3) ∧
    ¬ Has dC.store.rows e1 xMany (.long 1) := by
  obtain ⟨db, h, hp⟩ := reachKept_of_setup (txs := [dataTx]) (p := fun db =>
    match transactTerms db 0 (unrelatedA.map litTerm) [], transactTerms db 0 (unrelatedB.map litTerm) [],
      transactTerms db 0 ((unrelatedA ++ unrelatedB).map litTerm) [] with
    | .ok (dA, _), .ok (dB, _), .ok (dC, _) =>
      hasB dC e1 xOne (str "b") && hasB dC e1 xMany (.long 3) && !hasB dC e1 xMany (.long 1) &&
      match transactTerms dA 0 (unrelatedB.map litTerm) [], transactTerms dB 0 (unrelatedA.map litTerm) [] with
      | .ok _, .ok _ => true
      | _, _ => false
    | _, _, _ => false) (by decide +kernel)
  split at hp
  · rename_i dA r1 dB r3 dC r5 hA hB hC
    simp only [Bool.and_eq_true, hasB_iff, Bool.not_eq_true'] at hp
    obtain ⟨⟨⟨p1, p2⟩, p3⟩, hp⟩ := hp
    split at hp
    · rename_i x y hAB hBA
      obtain ⟨dAB, r2⟩ := x
      obtain ⟨dBA, r4⟩ := y
      refine ⟨db, dA, dB, dAB, dBA, dC, r1, r2, r3, r4, r5, h, ?_, ?_, hA, hAB, hB, hBA, hC, p1, p2, ?_⟩
      · unfold Unrelated; decide
      · decide
      · rw [← hasB_iff, p3]; simp
    · simp at hp
  · simp at hp

/-- The full property does not hold: a unique value can be given to another entity after it was retracted from the
first, not before. -/
theorem C106_fails : ∃ db dA dAB r1 r2 err, ∃ A B : List RTerm, ReachKept db ∧ Unrelated A B ∧
    transactTerms db 0 (A.map litTerm) [] = .ok (dA, r1) ∧
    transactTerms dA 0 (B.map litTerm) [] = .ok (dAB, r2) ∧
    transactTerms db 0 (B.map litTerm) [] = .err err := by
  obtain ⟨db, h, hp⟩ := reachKept_of_setup (txs := [dataTx, ([addT "f" xOne (str "z")], [tid "f"])]) (p := fun db =>
    match transactTerms db 0 ([⟨.retract, e1, xId, str "k"⟩].map litTerm) [],
      transactTerms db 0 ([⟨.add, 65540, xId, str "k"⟩].map litTerm) [] with
    | .ok (dA, _), .err _ =>
      hasB db 65540 xOne (str "z") &&
      match transactTerms dA 0 ([⟨.add, 65540, xId, str "k"⟩].map litTerm) [] with
      | .ok _ => true
      | _ => false
    | _, _ => false) (by decide +kernel)
  split at hp
  · rename_i dA r1 err hA hB
    simp only [Bool.and_eq_true] at hp
    obtain ⟨-, hp⟩ := hp
    split at hp
    · rename_i x hAB
      obtain ⟨dAB, r2⟩ := x
      exact ⟨db, dA, dAB, r1, r2, err, _, _, h, by unfold Unrelated; decide, hA, hAB, hB⟩
    · simp at hp
  · simp at hp

end Mentat
