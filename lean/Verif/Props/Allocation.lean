import Verif.Props.Tempids
/- C08, C09: entids handed out are fresh. -/
namespace Mentat

/-! ### C08 -/

/-- Partitions are within their bounds, and the bounds of different partitions do not overlap. -/
structure PMapOk (m : PMap) : Prop where
  names : (m.map (·.1)).Nodup
  bounds : ∀ x ∈ m, x.2.start ≤ x.2.next ∧ x.2.next ≤ x.2.fin
  disjoint : ∀ x ∈ m, ∀ y ∈ m, x.1 ≠ y.1 → x.2.fin < y.2.start ∨ y.2.fin < x.2.start

/-- The entids of an allocation: the Rust range `first..first + n`. -/
def Allocation.Covers (a : Allocation) (e : Entid) : Prop := a.first ≤ e ∧ e < a.first + (a.n : Int)

/-- `e` has been handed out by `m`: it is in some partition, below its next entid. -/
def HandedOut (m : PMap) (e : Entid) : Prop := ∃ x ∈ m, x.2.start ≤ e ∧ e < x.2.next

theorem containsEntid_iff {m : PMap} {e} : m.containsEntid e = true ↔ HandedOut m e := by
  simp [PMap.containsEntid, HandedOut, Partition.containsEntid, List.any_eq_true]

theorem mem_insert_iff {K V : Type} [DecidableEq K] {m : AMap K V} {k : K} {v : V} (hw : AMap.WF m)
    {p : K × V} : p ∈ AMap.insert m k v ↔ p = (k, v) ∨ (p ∈ m ∧ p.1 ≠ k) := by
  have hw' := AMap.wf_insert hw k v
  obtain ⟨k', v'⟩ := p
  constructor
  · intro h
    have := AMap.mem_get hw' h
    rw [AMap.get_insert] at this
    split at this
    · rename_i hk; subst hk; simp at this; subst this; exact Or.inl rfl
    · rename_i hk; exact Or.inr ⟨AMap.get_some_mem this, fun h => hk h.symm⟩
  · rintro (h | ⟨h, hk⟩)
    · cases h; exact AMap.get_some_mem (by simp)
    · apply AMap.get_some_mem
      rw [AMap.get_insert_ne _ _ (fun h => hk h.symm)]
      exact AMap.mem_get hw h

theorem pmap_allocate_ok {m m' : PMap} {name n e} (hm : PMapOk m)
    (h : m.allocate name n = .ok (e, m')) :
    PMapOk m' ∧ (∃ p, (name, p) ∈ m ∧ e = p.next ∧ p.next + (n : Int) ≤ p.fin ∧
      ∃ p', (name, p') ∈ m' ∧ p'.start = p.start ∧ p'.fin = p.fin) ∧
    (∀ x, HandedOut m' x ↔ HandedOut m x ∨ (e ≤ x ∧ x < e + (n : Int))) ∧
    (∀ x, e ≤ x → x < e + (n : Int) → ¬ HandedOut m x) ∧
    (∀ nm p', (nm, p') ∈ m' → ∃ p, (nm, p) ∈ m ∧ p'.start = p.start ∧ p'.fin = p.fin) := by
  unfold PMap.allocate at h
  cases hg : AMap.get m name with
  | none => simp [hg] at h
  | some p =>
    simp only [hg] at h
    cases ha : p.allocate n with
    | err er => simp [ha] at h
    | panic => simp [ha] at h
    | ok q =>
      obtain ⟨e0, p'⟩ := q
      simp only [ha, Res.ok.injEq, Prod.mk.injEq] at h
      obtain ⟨rfl, rfl⟩ := h
      obtain ⟨rfl, rfl, hb1, hb2⟩ := allocate_ok ha
      have hpm := AMap.get_some_mem hg
      have hw : AMap.WF m := hm.names
      have hmem := @mem_insert_iff _ _ _ m name { p with next := p.next + (n : Int) } hw
      have hbp := hm.bounds _ hpm
      simp only at hbp
      refine ⟨⟨AMap.wf_insert hw _ _, ?_, ?_⟩, ⟨p, hpm, rfl, hb2, _, hmem.mpr (Or.inl rfl), rfl, rfl⟩,
        ?_, ?_, ?_⟩
      · intro x hx
        rcases hmem.mp hx with rfl | ⟨hx, -⟩
        · exact ⟨hb1, hb2⟩
        · exact hm.bounds x hx
      · intro x hx y hy hne
        rcases hmem.mp hx with rfl | ⟨hx, hxn⟩
        · rcases hmem.mp hy with rfl | ⟨hy, -⟩
          · exact absurd rfl hne
          · exact hm.disjoint _ hpm y hy hne
        · rcases hmem.mp hy with rfl | ⟨hy, -⟩
          · exact hm.disjoint x hx (name, p) hpm hne
          · exact hm.disjoint x hx y hy hne
      · intro x
        unfold HandedOut
        constructor
        · rintro ⟨y, hy, h1, h2⟩
          rcases hmem.mp hy with rfl | ⟨hy, -⟩
          · simp only at h1 h2
            by_cases hlt : x < p.next
            · exact Or.inl ⟨_, hpm, h1, hlt⟩
            · exact Or.inr ⟨by omega, h2⟩
          · exact Or.inl ⟨y, hy, h1, h2⟩
        · rintro (⟨y, hy, h1, h2⟩ | ⟨h1, h2⟩)
          · by_cases hyn : y.1 = name
            · refine ⟨_, hmem.mpr (Or.inl rfl), ?_⟩
              obtain ⟨y1, y2⟩ := y
              simp only at hyn; subst hyn
              have : y2 = p := by
                have := AMap.mem_get hw hy; rw [hg] at this; exact (Option.some.inj this).symm
              subst this
              simp only at h1 h2 ⊢
              omega
            · exact ⟨y, hmem.mpr (Or.inr ⟨hy, hyn⟩), h1, h2⟩
          · exact ⟨_, hmem.mpr (Or.inl rfl), by simp only; omega⟩
      · rintro x h1 h2 ⟨⟨yn, y⟩, hy, h3, h4⟩
        simp only at h3 h4
        by_cases hyn : yn = name
        · subst hyn
          have : y = p := by
            have := AMap.mem_get hw hy; rw [hg] at this; exact (Option.some.inj this).symm
          subst this
          omega
        · have := hm.bounds _ hy
          rcases hm.disjoint _ hy _ hpm hyn with h | h <;> simp only at h this <;> omega
      · intro nm q hq
        rcases hmem.mp hq with h | ⟨hq, -⟩
        · cases h; exact ⟨p, hpm, rfl, rfl⟩
        · exact ⟨q, hq, rfl, rfl⟩

/-- C08: for any partition map in order and any sequence of allocations that returns, the ranges
handed out are disjoint from each other and from everything handed out before, stay within the
bounds of the partition asked for, and are exactly what the resulting map counts as handed out in
addition. -/
theorem C08_fresh {m m' : PMap} {reqs : List (Text × Nat)} {as_ : List Allocation} (hm : PMapOk m)
    (h : m.allocateAll reqs = .ok (as_, m')) :
    PMapOk m' ∧ as_.map (fun a => (a.name, a.n)) = reqs ∧
    as_.Pairwise (fun a b => ∀ e, ¬ (a.Covers e ∧ b.Covers e)) ∧
    (∀ a ∈ as_, ∀ e, a.Covers e → m.containsEntid e = false) ∧
    (∀ a ∈ as_, ∃ p, (a.name, p) ∈ m ∧ ∀ e, a.Covers e → p.start ≤ e ∧ e ≤ p.fin) ∧
    (∀ e, m'.containsEntid e = true ↔ m.containsEntid e = true ∨ ∃ a ∈ as_, a.Covers e) := by
  induction reqs generalizing m as_ with
  | nil =>
    simp only [PMap.allocateAll, Res.ok.injEq, Prod.mk.injEq] at h
    obtain ⟨rfl, rfl⟩ := h
    exact ⟨hm, by simp, by simp, by simp, by simp, by simp⟩
  | cons x r ih =>
    obtain ⟨name, n⟩ := x
    unfold PMap.allocateAll at h
    cases h1 : m.allocate name n with
    | err er => simp [h1] at h
    | panic => simp [h1] at h
    | ok q =>
      obtain ⟨e0, m1⟩ := q
      simp only [h1] at h
      cases h2 : m1.allocateAll r with
      | err er => simp [h2] at h
      | panic => simp [h2] at h
      | ok q =>
        obtain ⟨as1, m2⟩ := q
        simp only [h2, Res.ok.injEq, Prod.mk.injEq] at h
        obtain ⟨rfl, rfl⟩ := h
        obtain ⟨a1, ⟨p, hp, rfl, hfin, -⟩, a3, a4, a5⟩ := pmap_allocate_ok hm h1
        obtain ⟨b1, b2, b3, b4, b5, b6⟩ := ih a1 h2
        have hc1 : ∀ e, m1.containsEntid e = true ↔ m.containsEntid e = true ∨
            (p.next ≤ e ∧ e < p.next + (n : Int)) := by
          intro e; rw [containsEntid_iff, containsEntid_iff]; exact a3 e
        refine ⟨b1, by simp [b2], ?_, ?_, ?_, ?_⟩
        · rw [List.pairwise_cons]
          refine ⟨?_, b3⟩
          rintro a ha e ⟨he, he'⟩
          have := b4 a ha e he'
          have h3 := (hc1 e).mpr (Or.inr he)
          rw [this] at h3; simp at h3
        · intro a ha e he
          simp only [List.mem_cons] at ha
          cases hc : m.containsEntid e with
          | false => rfl
          | true =>
            exfalso
            rcases ha with rfl | ha
            · exact a4 e he.1 he.2 (containsEntid_iff.mp hc)
            · have := b4 a ha e he
              rw [(hc1 e).mpr (Or.inl hc)] at this; simp at this
        · intro a ha
          simp only [List.mem_cons] at ha
          rcases ha with rfl | ha
          · refine ⟨p, hp, ?_⟩
            rintro e ⟨he1, he2⟩
            have := hm.bounds _ hp
            simp only at this he1 he2
            omega
          · obtain ⟨p', hp', hc⟩ := b5 a ha
            obtain ⟨p0, hp0, hs, hf⟩ := a5 _ _ hp'
            exact ⟨p0, hp0, fun e he => by rw [← hs, ← hf]; exact hc e he⟩
        · intro e
          rw [b6, hc1]
          simp only [List.mem_cons, exists_eq_or_imp]
          show (_ ∨ _) ∨ _ ↔ _ ∨ (p.next ≤ e ∧ e < p.next + (n : Int)) ∨ _
          rw [or_assoc]

/-- C08: an allocation fails loudly (a panic) exactly when the partition is unknown or does not have
that many entids left; otherwise it returns. -/
theorem C08_exhausted {m : PMap} (hm : PMapOk m) (name : Text) (n : Nat) :
    (m.allocate name n = .panic ↔ ∀ p, (name, p) ∈ m → p.fin < p.next + (n : Int)) ∧
    (m.allocate name n ≠ .panic → ∃ e m', m.allocate name n = .ok (e, m')) := by
  have hw : AMap.WF m := hm.names
  unfold PMap.allocate
  cases hg : AMap.get m name with
  | none =>
    simp only [true_iff]
    refine ⟨?_, by simp⟩
    intro p hp; rw [AMap.mem_get hw hp] at hg; simp at hg
  | some p =>
    have hp := AMap.get_some_mem hg
    have hb := hm.bounds _ hp
    simp only at hb
    simp only [Partition.allocate, Partition.setNext, Partition.allowsEntid]
    by_cases hc : p.start ≤ p.next + (n : Int) ∧ p.next + (n : Int) ≤ p.fin
    · simp only [hc, and_self, decide_true, if_true]
      refine ⟨?_, fun _ => ⟨_, _, rfl⟩⟩
      simp only [reduceCtorEq, false_iff]
      intro h; have := h p hp; omega
    · simp only [hc, decide_false, Bool.false_eq_true, if_false]
      refine ⟨?_, fun h => absurd rfl h⟩
      simp only [true_iff]
      intro p' hp'
      have := AMap.mem_get hw hp'
      rw [hg] at this; cases this
      omega

/-- The map a store starts with is in order, and a sequence of allocations on it returns. -/
theorem C08_example : PMapOk PMap.bootstrap ∧
    ∃ m', PMap.bootstrap.allocateAll [(":db.part/user".toList, 3), (":db.part/tx".toList, 1),
      (":db.part/user".toList, 2)] =
      .ok ([⟨":db.part/user".toList, 65536, 3⟩, ⟨":db.part/tx".toList, 268435456, 1⟩,
        ⟨":db.part/user".toList, 65539, 2⟩], m') := by
  refine ⟨⟨by decide, by decide, by decide⟩, _, rfl⟩

/-! ### C09 -/

/-- C09, in part: in every reachable database, reopened or not, a transaction gives its new tempids
entids that are not the entity of any committed datom or log entry, and its own id is likewise new.
(Missing: entids that committed transactions used only as reference values, `C09_fails`.) -/
theorem C09_fresh_partial {db db' : Db} {now terms ids rep} (hr : Reach db)
    (h : transactTerms db now terms ids = .ok (db', rep)) :
    (∀ l ∈ db.store.log, l.e ≠ rep.txId ∧ l.tx ≠ rep.txId) ∧
    ∃ σ : TempIdMap, (∀ s n, AMap.get rep.tempids s = some n ↔ AMap.get σ (.external s) = some n) ∧
      ∀ t n, AMap.get σ t = some n →
        Upserts db.schema db.store.rows terms t n ∨
        ((∀ l ∈ db.store.log, l.e ≠ n ∧ l.tx ≠ n) ∧ ∀ r ∈ db.store.rows, r.e ≠ n) := by
  have hi := histInv_reach hr
  obtain ⟨σ, U, h1, h2, h3, -⟩ := C26_fresh hr h
  obtain ⟨T⟩ := transact_trace h
  have hx := hi.parts.tx
  have hu := hi.parts.user
  have hd := hi.parts.db
  have hid : rep.txId = db.parts.tx.next := (allocate_ok T.alloc).1
  refine ⟨?_, σ, h1, ?_⟩
  · intro l hl
    have e1 := hi.logE l hl
    have e2 := hi.logTx l hl
    rw [hid]
    simp only [Parts.containsEntid, Partition.containsEntid, Bool.or_eq_true, decide_eq_true_eq] at e1
    simp only [TX0, USER0] at *
    constructor
    · rintro h; rw [h] at e1; omega
    · omega
  · intro t n ht
    cases hut : AMap.get U t with
    | some n' =>
      obtain ⟨h4, h5⟩ := h2 t n' hut
      rw [ht] at h4; cases h4
      exact Or.inl h5
    | none =>
      right
      obtain ⟨h4, h5, -⟩ := h3 t n ht hut
      refine ⟨fun l hl => ⟨h5 l hl, ?_⟩, ?_⟩
      · rintro rfl
        have e2 := hi.logTx l hl
        simp only [Parts.containsEntid, Partition.containsEntid, Bool.or_eq_false_iff,
          decide_eq_false_iff_not] at h4
        simp only [TX0, USER0] at *
        omega
      · rintro r hr rfl
        obtain ⟨l, hl, he, -⟩ := has_rows_log hi.replay (e := r.e) (a := r.a) (v := r.v) ⟨r, hr, rfl, rfl, rfl⟩
        exact h5 l hl he

/-- The full C09 fails: an entity known only as the value of a reference (`[:x/one :x/ref "t"]`) is
not counted when the store is reopened (db.rs:298-322 reads entities only), so its entid is handed
out again, and the old reference now points at an unrelated new entity. -/
theorem C09_fails : ∃ db0 db db' now terms ids rep e0 a0 s n, Reach db0 ∧
    Has db0.store.rows e0 a0 (.ref n) ∧ db0.parts.containsEntid n = true ∧
    reopen db0 = .ok db ∧ KnownTerms db terms ∧
    transactTerms db now terms ids = .ok (db', rep) ∧ AMap.get rep.tempids s = some n ∧
    (∀ x ∈ terms, ∀ v, x.v = .inl v → v ≠ .ref n) ∧ (∀ t n', ¬ Upserts db.schema db.store.rows terms t n') := by
  obtain ⟨db0, h, hp⟩ := reach_of_setup
    (txs := [(install "ref" DB_TYPE_REF DB_CARDINALITY_ONE, [tid "ref"]),
      ([addET xOne 65539 "t"], [tid "t"])]) (p := fun db0 =>
    hasB db0 xOne 65539 (.ref 65540) && db0.parts.containsEntid 65540 &&
    match reopen db0 with
    | .ok db => decide (KnownTerms db [addT "u" xOne (str "z")]) &&
      decide ((db.schema.attr xOne).any (fun x => x.unique = none)) &&
      match transactTerms db 0 [addT "u" xOne (str "z")] [tid "u"] with
      | .ok (_, rep) => decide (AMap.get rep.tempids "u".toList = some 65540)
      | _ => false
    | _ => false) (by decide +kernel)
  simp only [Bool.and_eq_true, hasB_iff] at hp
  obtain ⟨⟨hh, hc⟩, hp⟩ := hp
  split at hp
  · rename_i db hre
    simp only [Bool.and_eq_true, decide_eq_true_eq] at hp
    obtain ⟨⟨hk, hu⟩, hp⟩ := hp
    split at hp
    · rename_i db' rep ht
      refine ⟨db0, db, db', 0, _, _, rep, xOne, 65539, "u".toList, 65540, h, hh, hc, hre, hk, ht,
        by simpa using hp, ?_, ?_⟩
      · intro x hx v hv
        simp only [List.mem_singleton] at hx
        subst hx
        simp only [addT, Sum.inl.injEq] at hv
        subst hv; simp [str]
      · intro t n' hup
        cases hup with
        | direct hm hi _ =>
          simp only [List.mem_singleton, addT, Term.mk.injEq] at hm
          obtain ⟨-, -, rfl, -⟩ := hm
          obtain ⟨at_, h1, h2⟩ := hi
          rw [h1] at hu; simp [h2] at hu
        | via hm hi _ _ =>
          simp [addT] at hm
    · simp at hp
  · simp at hp

end Mentat
