import Verif.Props.Rebase
import Verif.Props.SyncFlow
/- C61 and C71: what a merge reports and remembers, and a server of another version. -/
namespace Mentat.Sync

/-- C61: a local transaction that only retracts unique values nobody has, or values of other attributes, is no
change. -/
theorem C61_absent {db : Db} {now : Int} {parts : List TxPart}
    (hret : ∀ p ∈ parts, p.a ≠ DB_TX_INSTANT → p.added = false)
    (hattr : ∀ p ∈ parts, p.a ≠ DB_TX_INSTANT → ∃ at_, db.schema.attr p.a = some at_ ∧
      (at_.unique = none ∨ ∀ n, ¬ Has db.store.rows n p.a p.v))
    (hident : ∀ p ∈ parts, p.a = DB_IDENT → ∃ k, p.v = .keyword k) :
    rebaseOne db now parts = .ok (db, false) := by
  have hclass : ∀ (ps : List TxPart), (∀ p ∈ ps, p.a = DB_IDENT → ∃ k, p.v = .keyword k) → ∀ wn mg,
      ∃ might, classify db.schema ps wn mg = .ok might := by
    intro ps
    induction ps with
    | nil => intro _ wn mg; exact ⟨mg, rfl⟩
    | cons p r ih =>
      intro hk wn mg
      have ih := ih (fun p hp => hk p (List.mem_cons_of_mem _ hp))
      unfold classify
      split
      · rename_i ha
        obtain ⟨k, hv⟩ := hk p (by simp) ha
        rw [hv]
        dsimp only
        split
        · exact ih _ _
        · exact ih _ _
      · split
        · exact ih _ _
        · exact ih _ _
  have hw : ∀ e, willAllocate parts e = false := by
    intro e
    rw [Bool.eq_false_iff]
    intro h
    rw [willAllocate_iff] at h
    obtain ⟨p, hp, h1, h2, -⟩ := h
    rw [hret p hp h2] at h1
    cases h1
  have hpart : ∀ p ∈ parts, rebasePart db parts p = .ok none := by
    intro p hp
    unfold rebasePart
    split
    · rfl
    · rename_i hi
      rw [hw, hret p hp hi]
      obtain ⟨at_, h1, h2⟩ := hattr p hp hi
      simp only [h1, Bool.false_eq_true, if_false]
      split
      · rfl
      · rename_i hu
        rcases h2 with h2 | h2
        · rw [h2] at hu; exact absurd rfl hu
        · rw [if_neg]
          intro h
          rw [List.any_eq_true] at h
          obtain ⟨r, hr, h⟩ := h
          rw [decide_eq_true_eq] at h
          exact h2 r.e ⟨r, hr, rfl, h.1, h.2⟩
  have hparts : ∀ ps : List TxPart, (∀ p ∈ ps, p ∈ parts) → rebaseParts db parts ps = .ok [] := by
    intro ps
    induction ps with
    | nil => intro _; rfl
    | cons p r ih =>
      intro h
      simp [rebaseParts, hpart p (h p (by simp)), ih (fun q hq => h q (List.mem_cons_of_mem _ hq)), Res.bind]
  obtain ⟨might, hm⟩ := hclass parts hident [] []
  simp [rebaseOne, hm, hparts parts (fun _ h => h), Res.bind]

/-- C61: when rebasing a transaction is said to change something, it logs a datom about an entity other than the
transaction; when it is not, the store is as before. -/
theorem C61_changed {db db' : Db} {now : Int} {parts : List TxPart} {ch : Bool}
    (h : rebaseOne db now parts = .ok (db', ch)) :
    (ch = true → ∃ l ∈ db'.store.log, l.timeline = 0 ∧ l.tx = db.parts.tx.next ∧ l.e ≠ l.tx) ∧
    (ch = false → db'.store = db.store) := by
  unfold rebaseOne at h
  simp only [Res.bind_ok_iff] at h
  obtain ⟨might, -, es, -, h⟩ := h
  split at h
  · cases h; exact ⟨nofun, fun _ => rfl⟩
  · rw [Res.bind_ok_iff] at h
    obtain ⟨⟨db1, rep⟩, htx, h⟩ := h
    dsimp only at h
    split at h
    · cases h
    · split at h
      · cases h; exact ⟨nofun, fun _ => rfl⟩
      · rename_i he
        cases h
        refine ⟨fun _ => ?_, nofun⟩
        obtain ⟨-, s, terms, -, -, htt⟩ := transactEntities_ok.1 htx
        obtain ⟨T⟩ := transact_trace htt
        have hid : rep.txId = db.parts.tx.next := (allocate_ok T.alloc).1
        simp only [isTxEmpty, Bool.not_eq_true, Bool.not_eq_false', List.any_eq_true, decide_eq_true_eq] at he
        obtain ⟨l, hl, h1, h2, h3⟩ := he
        exact ⟨l, hl, h1, h2.trans hid, by rw [h2]; exact h3⟩

theorem rebaseAll_clean {now : Int} : ∀ {ts : List LocalTx} {db db' : Db} {c : Bool},
    rebaseAll now ts db c = .ok (db', true) → c = true ∧ db'.store = db.store
  | [], db, db', c, h => by cases h; exact ⟨rfl, rfl⟩
  | t :: r, db, db', c, h => by
    rw [rebaseAll, Res.bind_ok_iff] at h
    obtain ⟨⟨db1, ch⟩, h1, h2⟩ := h
    obtain ⟨h3, h4⟩ := rebaseAll_clean h2
    rw [Bool.and_eq_true] at h3
    obtain ⟨h3, h5⟩ := h3
    have : ch = false := by simpa using h5
    exact ⟨h3, h4.trans ((C61_changed h1).2 this)⟩

theorem applyRemotes_last {now : Int} : ∀ {txs : List Tx} {db db' : Db} {o last : Option (Entid × Nat)},
    applyRemotes now txs db o = .ok (db', last, false) →
    txs = [] ∧ last = o ∨ ∃ t tx, txs.getLast? = some tx ∧ last = some (t, tx.uuid)
  | [], db, db', o, last, h => by cases h; exact .inl ⟨rfl, rfl⟩
  | tx :: r, db, db', o, last, h => by
    rw [applyRemotes, Res.bind_ok_iff] at h
    obtain ⟨x, -, h⟩ := h
    cases x with
    | none => cases h
    | some x =>
      obtain ⟨db1, id⟩ := x
      rcases applyRemotes_last h with ⟨rfl, h0⟩ | ⟨t, tx', h1, h2⟩
      · exact .inr ⟨id, tx, rfl, h0⟩
      · refine .inr ⟨t, tx', ?_, h2⟩
        cases r with
        | nil => cases h1
        | cons y r => simpa using h1

theorem applyRemotes_whole {now : Int} : ∀ {txs : List Tx} {db db' : Db} {o last : Option (Entid × Nat)} {c : Bool},
    missingParts txs = .ok false → applyRemotes now txs db o = .ok (db', last, c) → c = false
  | [], db, db', o, last, c, _, h => by cases h; rfl
  | tx :: r, db, db', o, last, c, hm, h => by
    rw [applyRemotes, Res.bind_ok_iff] at h
    obtain ⟨x, hx, h⟩ := h
    unfold missingParts at hm
    unfold applyRemote at hx
    split at hm
    · cases hm
    · rename_i p ps hps
      rw [hps] at hx
      dsimp only at hx
      split at hm
      · cases hm
      · rename_i hs
        cases hpp : p.partitions with
        | none => rw [hpp] at hs; exact absurd rfl hs
        | some parts =>
          rw [hpp] at hx
          simp only [Res.bind_ok_iff] at hx
          obtain ⟨-, -, ⟨db1, rep⟩, -, hx⟩ := hx
          cases hx
          exact applyRemotes_whole hm h

/-- C61: a merge remembers the last incoming transaction as the head of the server, whose local counterpart the
map knows; and it asks for no further sync only if, after the incoming transactions, the local ones changed nothing. -/
theorem C61_merged {l l' : Local} {now : Int} {incoming : List Tx} {locals : List LocalTx} {again : Bool}
    (h : merge l now incoming locals = .ok (l', .merge again)) :
    (∀ tx, incoming.getLast? = some tx → l'.remoteHead = tx.uuid ∧ ∃ t, l'.map = l.map.set t tx.uuid) ∧
    (again = false → ∃ t db0 db1 last, (∃ x ∈ locals, x.tx = t) ∧ (∀ x ∈ locals, t ≤ x.tx) ∧
      moveFromMain l.db now t (t - 1) = .ok db0 ∧
      applyRemotes now incoming db0 none = .ok (db1, last, false) ∧ l'.db.store = db1.store) := by
  unfold merge at h
  have hsort : ∀ x, x ∈ sortBy (·.tx) locals ↔ x ∈ locals := fun x => mem_sortBy (·.tx) x locals
  have hord := pairwise_sortBy (·.tx) locals
  split at h
  · cases h
  · rename_i t r ht
    rw [ht] at hsort hord
    simp only [Res.bind_ok_iff] at h
    obtain ⟨db0, hmove, bad, hbad, h⟩ := h
    split at h
    · cases h
    · rename_i hb
      rw [Res.bind_ok_iff] at h
      obtain ⟨⟨db1, last, cut⟩, happ, h⟩ := h
      simp only [Res.bind_ok_iff] at h
      obtain ⟨⟨db2, clean⟩, hreb, h⟩ := h
      have hb : bad = false := by simpa using hb
      subst hb
      have hcut := applyRemotes_whole hbad happ
      subst hcut
      have hlast := applyRemotes_last happ
      obtain ⟨h1, h2⟩ := Prod.mk.inj (Res.ok.inj h)
      dsimp only at h1 h2
      injection h2 with h2
      constructor
      · intro tx htx
        rcases hlast with ⟨rfl, -⟩ | ⟨t', tx', h3, h4⟩
        · cases htx
        · rw [htx] at h3
          cases h3
          rw [h4] at h1
          dsimp only at h1
          subst h1
          exact ⟨rfl, t', rfl⟩
      · intro hag
        rw [hag] at h2
        have hc : clean = true := by simpa using h2
        subst hc
        refine ⟨t.tx, db0, db1, last, ⟨t, (hsort _).1 (by simp), rfl⟩, ?_, hmove, happ, ?_⟩
        · intro x hx
          rcases List.mem_cons.1 ((hsort x).2 hx) with rfl | hx
          · exact Int.le_refl _
          · exact (List.pairwise_cons.1 hord).1 x hx
        · rw [← (rebaseAll_clean hreb).2, ← h1]
          cases last <;> rfl

/-- C71: a first sync with a server whose first transaction gives another version of the core schema changes
nothing and says so. -/
theorem C71_incompatible {l : Local} {r : Remote} {gen : Nat → Nat} {now : Int} {root head : Entid} {boot : Tx} {rest : List Tx}
    (hroot : rootAndHead l.db.store.log = .ok (root, head)) (hmap : ∃ o, l.map.get head = .ok o)
    (hl : l.remoteHead = nil) (hr : r.head ≠ nil) (hrem : r.after nil = .ok (boot :: rest)) {e a : Entid} {n : Int}
    (he : ∃ p ∈ boot.parts, p.v = .keyword (kw "db.schema" "core") ∧ p.added = true)
    (he' : ∀ p ∈ boot.parts, p.v = .keyword (kw "db.schema" "core") → p.added = true → p.e = e)
    (ha : ∃ p ∈ boot.parts, p.v = .keyword (kw "db.schema" "version") ∧ p.added = true)
    (ha' : ∀ p ∈ boot.parts, p.v = .keyword (kw "db.schema" "version") → p.added = true → p.e = a)
    (hv : ∃ p ∈ boot.parts, p.e = e ∧ p.a = a ∧ p.added = true)
    (hv' : ∀ p ∈ boot.parts, p.e = e → p.a = a → p.added = true → p.v = .long n) (hn : n ≠ 1) :
    sync gen l r now = .ok (l, r, .incompatibleRemoteBootstrap) := by
  have hver : coreSchemaVersion boot = .ok n := by
    unfold coreSchemaVersion eaLookup
    rw [eLookup_eq he he', eLookup_eq ha ha']
    dsimp only
    obtain ⟨p, hp, h1, h2, h3⟩ := hv
    cases hf : boot.parts.find? fun p => decide (p.e = e ∧ p.a = a) && p.added with
    | none =>
      have := List.find?_eq_none.1 hf p hp
      simp [h1, h2, h3] at this
    | some q =>
      have hq := List.find?_some hf
      simp only [Bool.and_eq_true, decide_eq_true_eq] at hq
      simp [hv' q (List.mem_of_find?_eq_some hf) hq.1.1 hq.1.2 hq.2]
  obtain ⟨o, ho⟩ := hmap
  simp [sync, hroot, ho, Res.bind, hl, hr, firstSync, hrem, hver, CORE_SCHEMA_VERSION, hn]

/-- A server of version 2: the hypotheses hold of it. -/
def otherServer : Remote :=
  { head := 9, txs := [⟨9, 0, [1, 2, 3]⟩],
    chunks := [(1, { e := 50, a := DB_IDENT, v := .keyword (kw "db.schema" "core"), tx := TX0, added := true }),
      (2, { e := 51, a := DB_IDENT, v := .keyword (kw "db.schema" "version"), tx := TX0, added := true }),
      (3, { e := 50, a := 51, v := .long 2, tx := TX0, added := true })] }

theorem C71_example_incompatible : sync (fun n => n) { db := bootDb } otherServer 0 =
    .ok ({ db := bootDb }, otherServer, .incompatibleRemoteBootstrap) := by
  obtain ⟨root, head, h1⟩ : ∃ root head, rootAndHead bootDb.store.log = .ok (root, head) := by
    have hb : (match rootAndHead bootDb.store.log with | .ok _ => true | _ => false) = true := by decide +kernel
    split at hb
    · rename_i p h; exact ⟨p.1, p.2, h⟩
    · cases hb
  refine C71_incompatible (l := { db := bootDb }) (r := otherServer) (boot := ⟨9, otherServer.chunks.map (·.2)⟩) (rest := []) (e := 50) (a := 51) (n := 2)
    h1 ⟨none, rfl⟩ rfl (by decide) (by decide) ?_ ?_ ?_ ?_ ?_ ?_ (by decide)
  all_goals simp [otherServer, DB_IDENT, kw]

/-- Retracting a value of an identity attribute that nobody has: the hypotheses of `C61_absent` hold. -/
theorem C61_example_absent : rebaseOne setupDb 0 [{ e := 70000, a := xId, v := str "gone", tx := TX0 + 2, added := false }] =
    .ok (setupDb, false) := by
  refine C61_absent (by simp) ?_ (by simp [xId, DB_IDENT])
  intro p hp _
  rw [List.mem_singleton] at hp
  subst hp
  cases h : setupDb.schema.attr xId with
  | none => exact absurd h (by decide +kernel)
  | some at_ =>
    refine ⟨at_, rfl, .inr ?_⟩
    rintro n ⟨r, hr, -, h2, h3⟩
    have : (setupDb.store.rows.any fun r => decide (r.a = xId ∧ r.v = str "gone")) = false := by decide +kernel
    rw [List.any_eq_false] at this
    exact this r hr (by simp [h2, h3])

/-- A merge with an incoming transaction and a local one: the hypothesis of `C61_merged` holds. -/
theorem C61_example_merged : ∃ (l l' : Local) (incoming : List Tx) (locals : List LocalTx) (again : Bool) (tx : Tx),
    merge l 0 incoming locals = .ok (l', .merge again) ∧ incoming.getLast? = some tx ∧ l'.remoteHead = tx.uuid := by
  obtain ⟨root, h, hp⟩ := reachKept_of_setup (txs := [dataTx]) (p := fun root =>
    match diverged root otherTx ([addE e1 xMany (.long 9)], []) with
    | some (a, b) =>
      match (fastForwardRemote (fun n => n + 8) { db := a } (some (TX0 + 2)) { head := 7, txs := [⟨7, 0, []⟩] } 7).bind
        fun (_, r) => (r.after 7).bind fun incoming => (localTxs b.store.log (some (TX0 + 2))).bind fun locals =>
        (merge { db := b, remoteHead := 7 } 0 incoming locals).bind fun (_, rep) =>
          .ok (incoming.getLast?.isSome && (match rep with | .merge _ => true | _ => false)) with
      | .ok b => b
      | _ => false
    | none => false) (by decide +kernel)
  split at hp
  · rename_i a b hd
    split at hp
    · rename_i c hm
      subst hp
      simp only [Res.bind_ok_iff] at hm
      obtain ⟨⟨-, r⟩, -, incoming, -, locals, -, ⟨l', rep⟩, hm, h2⟩ := hm
      have h2 := Res.ok.inj h2
      rw [Bool.and_eq_true] at h2
      obtain ⟨h2, h3⟩ := h2
      obtain ⟨tx, htx⟩ := Option.isSome_iff_exists.1 h2
      cases rep <;> simp at h3
      exact ⟨_, l', incoming, locals, _, tx, hm, htx, ((C61_merged hm).1 tx htx).1⟩
    · cases hp
  · cases hp

end Mentat.Sync
