import Verif.Model.StoreSync
import Verif.Props.SyncFlow
/-
C95: syncing a store ends, after two rounds at most.  C96: refused uploads.  C97: clients that sync at the same time.
-/
namespace Mentat.Sync

/-! ### C95 -/

theorem download_uuids {r : Remote} : ∀ {xs : List RemoteTx} {txs : List Tx}, r.download xs = .ok txs →
    txs.map (·.uuid) = xs.map (·.uuid)
  | [], txs, h => by simp only [Remote.download, Res.ok.injEq] at h; subst h; rfl
  | x :: xs, txs, h => by
    rw [Remote.download] at h
    obtain ⟨ds, -, h⟩ := Res.bind_eq_ok.1 h
    obtain ⟨l, h1, h⟩ := Res.bind_eq_ok.1 h
    simp only [Res.ok.injEq] at h
    subst h
    simp only [List.map_cons, download_uuids h1]

theorem applyRemotes_head {now : Int} : ∀ {txs : List Tx} {db db' : Db} {last last' : Option (Entid × Nat)} {cut : Bool},
    missingParts txs = .ok false → applyRemotes now txs db last = .ok (db', last', cut) →
    cut = false ∧ ∀ x, txs.getLast? = some x → ∃ t, last' = some (t, x.uuid)
  | [], db, db', last, last', cut, _, h => by
    simp only [applyRemotes, Res.ok.injEq, Prod.mk.injEq] at h
    exact ⟨h.2.2.symm, by simp⟩
  | tx :: txs, db, db', last, last', cut, hm, h => by
    rw [applyRemotes] at h
    obtain ⟨o, h1, h⟩ := Res.bind_eq_ok.1 h
    unfold missingParts at hm
    unfold applyRemote at h1
    cases hp : tx.parts with
    | nil => rw [hp] at hm; cases hm
    | cons p ps =>
      rw [hp] at hm h1
      simp only at hm h1
      cases hq : p.partitions with
      | none => rw [hq] at hm; simp at hm
      | some parts =>
        rw [hq] at hm h1
        simp only [Option.isNone_some, Bool.false_eq_true, if_false] at hm h1
        obtain ⟨parts', -, h1⟩ := Res.bind_eq_ok.1 h1
        obtain ⟨⟨db1, rep⟩, -, h1⟩ := Res.bind_eq_ok.1 h1
        simp only [Res.ok.injEq] at h1
        subst h1
        simp only at h
        obtain ⟨k1, k2⟩ := applyRemotes_head hm h
        refine ⟨k1, fun x hx => ?_⟩
        cases txs with
        | nil =>
          simp only [applyRemotes, Res.ok.injEq, Prod.mk.injEq] at h
          simp only [List.getLast?_singleton, Option.some.injEq] at hx
          subst hx
          exact ⟨_, h.2.1.symm⟩
        | cons y ys =>
          rw [List.getLast?_cons_cons] at hx
          exact k2 x hx

/-- After a merge the client knows the last transaction downloaded. -/
theorem merge_head {l l' : Local} {now : Int} {incoming : List Tx} {ls : List LocalTx} {b : Bool}
    (h : merge l now incoming ls = .ok (l', .merge b)) {x : Tx} (hx : incoming.getLast? = some x) : l'.remoteHead = x.uuid := by
  unfold merge at h
  split at h
  · cases h
  · obtain ⟨db0, -, h⟩ := Res.bind_eq_ok.1 h
    obtain ⟨bad, hb, h⟩ := Res.bind_eq_ok.1 h
    cases bad with
    | true => simp at h
    | false =>
      simp only [Bool.false_eq_true, if_false] at h
      obtain ⟨⟨db1, last, cut⟩, ha, h⟩ := Res.bind_eq_ok.1 h
      obtain ⟨⟨db2, clean⟩, -, h⟩ := Res.bind_eq_ok.1 h
      obtain ⟨t, rfl⟩ := (applyRemotes_head hb ha).2 x hx
      simp only [Res.ok.injEq, Prod.mk.injEq] at h
      rw [← h.1]

theorem getLast_uuid {xs : List RemoteTx} {txs : List Tx} (h : txs.map (·.uuid) = xs.map (·.uuid)) {x : RemoteTx}
    (hx : xs.getLast? = some x) : ∃ y, txs.getLast? = some y ∧ y.uuid = x.uuid := by
  have h1 : (txs.map (·.uuid)).getLast? = some x.uuid := by rw [h, List.getLast?_map, hx]; rfl
  rw [List.getLast?_map] at h1
  cases hy : txs.getLast? with
  | none => rw [hy] at h1; cases h1
  | some y => rw [hy] at h1; exact ⟨y, rfl, by simpa using h1⟩

/-- The transactions after one that is not the last include the last. -/
theorem after_last {xs : List RemoteTx} {u : Nat} {y : RemoteTx} (hy : xs.getLast? = some y) (hne : y.uuid ≠ u)
    (hu : ∃ x ∈ xs, x.uuid = u) : (xs.dropWhile fun x => decide (x.uuid ≠ u)).tail.getLast? = some y := by
  induction xs with
  | nil => cases hy
  | cons x xs ih =>
    cases xs with
    | nil =>
      obtain ⟨z, hz, he⟩ := hu
      simp only [List.mem_singleton] at hz
      simp only [List.getLast?_singleton, Option.some.injEq] at hy
      subst hz; subst hy
      exact absurd he hne
    | cons x' xs =>
      rw [List.getLast?_cons_cons] at hy
      by_cases hx : x.uuid = u
      · rw [List.dropWhile_cons_of_neg (by simp [hx])]
        exact hy
      · rw [List.dropWhile_cons_of_pos (by simp [hx])]
        obtain ⟨z, hz, he⟩ := hu
        rcases List.mem_cons.1 hz with rfl | hz
        · exact absurd he hx
        · exact ih hy ⟨z, hz, he⟩

/-- A merge that asks for another round leaves the server as it was and the client knowing its head. -/
theorem sync_merge {gen : Nat → Nat} {l l' : Local} {r r' : Remote} {now : Int} {b : Bool} (he : EndsWith r r.head)
    (hk : l.remoteHead = nil ∨ ∃ x ∈ r.txs, x.uuid = l.remoteHead) (h : sync gen l r now = .ok (l', r', .merge b))
    (hb : b = true) : r' = r ∧ l'.remoteHead = r.head ∧ r.head ≠ nil := by
  subst hb
  unfold sync at h
  obtain ⟨⟨root, head⟩, -, h⟩ := Res.bind_eq_ok.1 h
  obtain ⟨mapped, -, h⟩ := Res.bind_eq_ok.1 h
  have hlast : r.head ≠ nil → ∃ y, r.txs.getLast? = some y ∧ y.uuid = r.head := by
    intro hn
    rcases he with ⟨h1, -⟩ | ⟨-, pre, y, h2, h3, -⟩
    · exact absurd h1 hn
    · exact ⟨y, by rw [h2]; simp, h3⟩
  simp only at h
  split at h
  · rename_i hc
    obtain ⟨y, hy1, hy2⟩ := hlast hc.2
    obtain ⟨⟨l1, rep⟩, hf, h⟩ := Res.bind_eq_ok.1 h
    simp only [Res.ok.injEq, Prod.mk.injEq] at h
    obtain ⟨rfl, rfl, rfl⟩ := h
    refine ⟨rfl, ?_, hc.2⟩
    unfold firstSync at hf
    obtain ⟨incoming, hin, hf⟩ := Res.bind_eq_ok.1 hf
    have hall : r.after nil = r.download r.txs := by unfold Remote.after; rw [if_pos rfl]
    rw [hall] at hin
    obtain ⟨z, hz1, hz2⟩ := getLast_uuid (download_uuids hin) hy1
    cases incoming with
    | nil => cases hz1
    | cons boot rest =>
      simp only at hf
      obtain ⟨version, -, hf⟩ := Res.bind_eq_ok.1 hf
      split at hf
      · simp at hf
      · split at hf
        · simp at hf
        · cases hf
        · cases hf
        · obtain ⟨⟨l2, rep2⟩, -, hf⟩ := Res.bind_eq_ok.1 hf
          simp at hf
        · rename_i hw
          obtain ⟨ls, -, hf⟩ := Res.bind_eq_ok.1 hf
          cases rest with
          | nil =>
            simp only [List.isEmpty_nil, if_true] at hw
            split at hw <;> cases hw
          | cons a rest =>
            rw [List.getLast?_cons_cons] at hz1
            rw [merge_head hf hz1, hz2, hy2]
  · rename_i hc
    split at h
    · simp at h
    · obtain ⟨⟨l1, r1⟩, -, h⟩ := Res.bind_eq_ok.1 h
      simp at h
    · obtain ⟨t, -, h⟩ := Res.bind_eq_ok.1 h
      obtain ⟨⟨l1, r1⟩, -, h⟩ := Res.bind_eq_ok.1 h
      simp at h
    · obtain ⟨t, -, h⟩ := Res.bind_eq_ok.1 h
      obtain ⟨⟨l1, r1⟩, -, h⟩ := Res.bind_eq_ok.1 h
      simp at h
    · rename_i hw
      obtain ⟨t, -, h⟩ := Res.bind_eq_ok.1 h
      obtain ⟨ls, -, h⟩ := Res.bind_eq_ok.1 h
      obtain ⟨txs, ht, h⟩ := Res.bind_eq_ok.1 h
      obtain ⟨⟨l1, rep⟩, hm, h⟩ := Res.bind_eq_ok.1 h
      simp only [Res.ok.injEq, Prod.mk.injEq] at h
      obtain ⟨rfl, rfl, rfl⟩ := h
      have hch : r.head ≠ nil ∧ l.remoteHead ≠ r.head := by
        unfold RemoteState.of at hw
        constructor
        · intro hn
          rw [if_pos hn] at hw
          unfold whatDo at hw
          split at hw <;> simp_all
        · intro hn
          rw [hn] at hw
          split at hw
          · unfold whatDo at hw
            split at hw <;> simp_all
          · rw [if_neg (by simp)] at hw
            unfold whatDo at hw
            split at hw <;> simp_all
      obtain ⟨y, hy1, hy2⟩ := hlast hch.1
      have hkn : l.remoteHead ≠ nil := fun hn => hc ⟨hn, hch.1⟩
      have hu := hk.resolve_left hkn
      unfold Remote.after at ht
      rw [if_neg hkn] at ht
      obtain ⟨z, hz1, hz2⟩ := getLast_uuid (download_uuids ht)
        (after_last hy1 (fun e => hch.2 (by rw [← e, hy2])) hu)
      exact ⟨rfl, by rw [merge_head hm hz1, hz2, hy2], hch.1⟩

/-- A client that knows the server's head does not merge, and knows it afterwards. -/
theorem sync_known {gen : Nat → Nat} {l l' : Local} {r r' : Remote} {now : Int} {rep : Report} (hn : r.head ≠ nil)
    (hk : l.remoteHead = r.head) (h : sync gen l r now = .ok (l', r', rep)) :
    (rep = .noChanges ∨ rep = .remoteFastForward) ∧ l'.remoteHead = r'.head := by
  unfold sync at h
  obtain ⟨⟨root, head⟩, -, h⟩ := Res.bind_eq_ok.1 h
  obtain ⟨mapped, -, h⟩ := Res.bind_eq_ok.1 h
  have hst : RemoteState.of l.remoteHead r.head = .unchanged := by
    unfold RemoteState.of
    rw [if_neg hn, hk]; simp
  simp only [hst] at h
  rw [if_neg (by rintro ⟨h1, -⟩; rw [hk] at h1; exact hn h1)] at h
  cases mapped with
  | some u =>
    simp only [LocalState.of, whatDo, Res.ok.injEq, Prod.mk.injEq] at h
    obtain ⟨rfl, rfl, rfl⟩ := h
    exact ⟨.inl rfl, hk⟩
  | none =>
    simp only [LocalState.of, whatDo] at h
    obtain ⟨t, -, h⟩ := Res.bind_eq_ok.1 h
    obtain ⟨⟨l1, r1⟩, hu, h⟩ := Res.bind_eq_ok.1 h
    simp only [Res.ok.injEq, Prod.mk.injEq] at h
    obtain ⟨rfl, rfl, rfl⟩ := h
    refine ⟨.inr rfl, ?_⟩
    obtain ⟨ts, new, -, -, -, -, -, -, -, hh⟩ := C58_chain hu
    split at hh
    · rw [hh.1, hh.2]; exact hk
    · exact hh.2

/-- Nobody else uses the server. -/
def nobody : Nat → Remote → Remote := fun _ r => r

/-- C95: as long as nobody else uses the server, the server's head is its last transaction and the client knows a transaction that
is there (or none), syncing a store ends, after two rounds at most.  If it took two, the first merged and the second uploaded or had
nothing to do, and the client knows the server's head.  Partial: without the condition on the head the bound fails, see
`C95_fails_head`. -/
theorem C95_two_rounds_partial {l : Local} {r : Remote} (he : EndsWith r r.head)
    (hk : l.remoteHead = nil ∨ ∃ x ∈ r.txs, x.uuid = l.remoteHead) (gen : Nat → Nat → Nat) (now : Nat → Int) :
    ∃ l' r' res, (∀ fuel, storeSync gen now nobody (fuel + 2) 0 l r [] = some (l', r', res)) ∧
      (∀ rep, res = .ok (.atomic rep) → rep ≠ .merge true ∧ sync (gen 0) l r (now 0) = .ok (l', r', rep)) ∧
      ∀ rs, res = .ok (.nonAtomic rs) → (rs = [.merge true, .noChanges] ∨ rs = [.merge true, .remoteFastForward]) ∧
        l'.remoteHead = r'.head := by
  have hstop : ∀ {n : Nat} {l1 : Local} {r1 : Remote} {rs : List Report} (f : Nat),
      (∀ l2 r2, sync (gen n) l1 r1 (now n) ≠ .ok (l2, r2, .merge true)) →
      storeSync gen now nobody (f + 1) n l1 r1 rs = storeSync gen now nobody 1 n l1 r1 rs := by
    intro n l1 r1 rs f hne
    unfold storeSync
    simp only [nobody]
    cases hs : sync (gen n) l1 r1 (now n) with
    | err e => rfl
    | panic => rfl
    | ok p =>
      obtain ⟨l2, r2, rep⟩ := p
      have : rep ≠ .merge true := by rintro rfl; exact hne l2 r2 hs
      cases rep with
      | merge b => cases b with
        | true => exact absurd rfl this
        | false => rfl
      | _ => rfl
  by_cases hm : ∃ l1 r1, sync (gen 0) l r (now 0) = .ok (l1, r1, .merge true)
  · obtain ⟨l1, r1, hs⟩ := hm
    obtain ⟨rfl, h2, h3⟩ := sync_merge he hk hs rfl
    have hstep : ∀ f, storeSync gen now nobody (f + 2) 0 l r1 [] = storeSync gen now nobody (f + 1) 1 l1 r1 [.merge true] := by
      intro f
      rw [storeSync]
      simp only [nobody, hs]
      rfl
    have hno : ∀ l2 r2, sync (gen 1) l1 r1 (now 1) ≠ .ok (l2, r2, .merge true) := by
      intro l2 r2 h
      rcases (sync_known h3 h2 h).1 with h | h <;> cases h
    simp only [hstep, hstop _ hno]
    cases hs2 : sync (gen 1) l1 r1 (now 1) with
    | err e => exact ⟨l1, r1, .err e, fun _ => by simp only [storeSync, nobody, hs2], by simp, by simp⟩
    | panic => exact ⟨l1, r1, .panic, fun _ => by simp only [storeSync, nobody, hs2], by simp, by simp⟩
    | ok p =>
      obtain ⟨l2, r2, rep⟩ := p
      obtain ⟨k1, k2⟩ := sync_known h3 h2 hs2
      refine ⟨l2, r2, .ok (.nonAtomic [.merge true, rep]), fun _ => ?_, by simp, ?_⟩
      · rcases k1 with rfl | rfl <;> simp only [storeSync, nobody, hs2] <;> rfl
      · intro rs hrs
        simp only [Res.ok.injEq, SyncResult.nonAtomic.injEq] at hrs
        subst hrs
        exact ⟨by rcases k1 with rfl | rfl <;> simp, k2⟩
  · have hno : ∀ l2 r2, sync (gen 0) l r (now 0) ≠ .ok (l2, r2, .merge true) := fun l2 r2 h => hm ⟨l2, r2, h⟩
    have h1 : ∀ f, storeSync gen now nobody (f + 2) 0 l r [] = storeSync gen now nobody 1 0 l r [] := fun f => hstop (f + 1) hno
    simp only [h1]
    cases hs : sync (gen 0) l r (now 0) with
    | err e => exact ⟨l, r, .err e, fun _ => by simp only [storeSync, nobody, hs], by simp, by simp⟩
    | panic => exact ⟨l, r, .panic, fun _ => by simp only [storeSync, nobody, hs], by simp, by simp⟩
    | ok p =>
      obtain ⟨l2, r2, rep⟩ := p
      have hne : rep ≠ .merge true := by rintro rfl; exact hno l2 r2 hs
      refine ⟨l2, r2, .ok (.atomic rep), fun _ => ?_, ?_, by simp⟩
      · have : storeSync gen now nobody 1 0 l r [] = some (l2, r2, .ok (syncResult ([] ++ [rep]))) := by
          unfold storeSync
          simp only [nobody, hs]
        exact this
      · intro rep' h
        simp only [Res.ok.injEq, SyncResult.atomic.injEq] at h
        subst h
        exact ⟨hne, rfl⟩

/-- Some rounds that merged and asked for another. -/
inductive Rounds (gen : Nat → Nat → Nat) (now : Nat → Int) (others : Nat → Remote → Remote) : Nat → Local → Remote → Nat → Local →
    Remote → Prop
  | none {n : Nat} {l : Local} {r : Remote} : Rounds gen now others n l r n l r
  | more {n m : Nat} {l l1 l' : Local} {r r1 r' : Remote} (h : sync (gen n) l (others n r) (now n) = .ok (l1, r1, .merge true))
      (t : Rounds gen now others (n + 1) l1 r1 m l' r') : Rounds gen now others n l r m l' r'

theorem rounds_spec {gen : Nat → Nat → Nat} {now : Nat → Int} {others : Nat → Remote → Remote} :
    ∀ {fuel n : Nat} {l l' : Local} {r r' : Remote} {rs : List Report} {res : Res SyncResult},
    storeSync gen now others fuel n l r rs = some (l', r', res) → ∃ m l1 r1, n ≤ m ∧ Rounds gen now others n l r m l1 r1 ∧
      match sync (gen m) l1 (others m r1) (now m) with
      | .ok (l2, r2, rep) => rep ≠ .merge true ∧ l' = l2 ∧ r' = r2 ∧
          res = .ok (syncResult (rs ++ List.replicate (m - n) (.merge true) ++ [rep]))
      | .err e => l' = l1 ∧ r' = others m r1 ∧ res = .err e
      | .panic => l' = l1 ∧ r' = others m r1 ∧ res = .panic
  | 0, _, _, _, _, _, _, _, h => by cases h
  | fuel + 1, n, l, l', r, r', rs, res, h => by
    rw [storeSync] at h
    split at h
    · rename_i l1 r1 hs
      obtain ⟨m, l2, r2, h1, h2, h3⟩ := rounds_spec h
      refine ⟨m, l2, r2, by omega, .more hs h2, ?_⟩
      have : rs ++ [Report.merge true] ++ List.replicate (m - (n + 1)) (.merge true) =
          rs ++ List.replicate (m - n) (.merge true) := by
        rw [show m - n = (m - (n + 1)) + 1 by omega, List.replicate_succ]
        simp
      rw [this] at h3
      exact h3
    · rename_i l1 r1 rep hne hs
      simp only [Option.some.injEq, Prod.mk.injEq] at h
      obtain ⟨rfl, rfl, rfl⟩ := h
      refine ⟨n, l, r, Nat.le_refl _, .none, ?_⟩
      rw [hs]
      refine ⟨fun e => hne e, rfl, rfl, by simp⟩
    · rename_i e hs
      simp only [Option.some.injEq, Prod.mk.injEq] at h
      obtain ⟨rfl, rfl, rfl⟩ := h
      refine ⟨n, l, r, Nat.le_refl _, .none, ?_⟩
      rw [hs]
      exact ⟨rfl, rfl, rfl⟩
    · rename_i hs
      simp only [Option.some.injEq, Prod.mk.injEq] at h
      obtain ⟨rfl, rfl, rfl⟩ := h
      refine ⟨n, l, r, Nat.le_refl _, .none, ?_⟩
      rw [hs]
      exact ⟨rfl, rfl, rfl⟩

/-- Whatever others do in between: a sync that is over has merged in all its rounds but the last.  The result is `Atomic` exactly if
there was one round.  If the last round fails, what the rounds before it did stays. -/
theorem C95_reports {gen : Nat → Nat → Nat} {now : Nat → Int} {others : Nat → Remote → Remote} {fuel : Nat} {l l' : Local}
    {r r' : Remote} {res : Res SyncResult} (h : storeSync gen now others fuel 0 l r [] = some (l', r', res)) :
    ∃ m l1 r1, Rounds gen now others 0 l r m l1 r1 ∧
      ((∃ rep, sync (gen m) l1 (others m r1) (now m) = .ok (l', r', rep) ∧ rep ≠ .merge true ∧
          ((m = 0 ∧ res = .ok (.atomic rep)) ∨ (m ≠ 0 ∧ res = .ok (.nonAtomic (List.replicate m (.merge true) ++ [rep]))))) ∨
        (l' = l1 ∧ r' = others m r1 ∧ ((∃ e, sync (gen m) l1 (others m r1) (now m) = .err e ∧ res = .err e) ∨
          (sync (gen m) l1 (others m r1) (now m) = .panic ∧ res = .panic)))) := by
  obtain ⟨m, l1, r1, -, h2, h3⟩ := rounds_spec h
  refine ⟨m, l1, r1, h2, ?_⟩
  cases hs : sync (gen m) l1 (others m r1) (now m) with
  | err e => rw [hs] at h3; exact .inr ⟨h3.1, h3.2.1, .inl ⟨e, rfl, h3.2.2⟩⟩
  | panic => rw [hs] at h3; exact .inr ⟨h3.1, h3.2.1, .inr ⟨rfl, h3.2.2⟩⟩
  | ok p =>
    obtain ⟨l2, r2, rep⟩ := p
    rw [hs] at h3
    obtain ⟨k1, rfl, rfl, k2⟩ := h3
    refine .inl ⟨rep, rfl, k1, ?_⟩
    cases m with
    | zero => exact .inl ⟨rfl, k2⟩
    | succ m =>
      refine .inr ⟨by omega, ?_⟩
      rw [k2]
      simp only [List.nil_append, Nat.sub_zero]
      cases m with
      | zero => rfl
      | succ m => rfl

/-! ### C96 -/

/-- The server that does what it is asked to. -/
def accepting : Serve := fun r p => (r.put p, true)

/-- The server that refuses everything. -/
def refusing : Serve := fun r _ => (r, false)

theorem clientPuts_ok (serve : Serve) : ∀ (ps : List Put) (r : Remote), ∃ r', clientPuts serve ps r = .ok r'
  | [], r => ⟨r, rfl⟩
  | p :: ps, r => by
    obtain ⟨r', h⟩ := clientPuts_ok serve ps (serve r p).1
    exact ⟨r', h⟩

theorem clientPuts_refusing (ps : List Put) (r : Remote) : clientPuts refusing ps r = .ok r := by
  induction ps with
  | nil => rfl
  | cons p ps ih => exact ih

theorem clientPuts_accepting (x : RemoteTx) : ∀ (cs : List (Nat × TxPart)) (r : Remote),
    clientPuts accepting (cs.map (fun c => Put.chunk c.1 c.2) ++ [.tx x]) r =
      .ok { r with chunks := r.chunks ++ cs, txs := r.txs ++ [x] }
  | [], r => by simp [clientPuts, clientPut, accepting, Remote.put, Res.bind]
  | c :: cs, r => by
    have := clientPuts_accepting x cs (r.put (.chunk c.1 c.2))
    show clientPuts accepting (cs.map (fun c => Put.chunk c.1 c.2) ++ [.tx x]) (r.put (.chunk c.1 c.2)) = _
    rw [this]
    simp [Remote.put]

theorem uploadTx_accepting (gen : Nat → Nat) (rh : Nat) (parts : Parts) :
    uploadTx accepting gen rh parts = Uploader.tx gen rh parts := by
  funext u tx ds
  unfold uploadTx Uploader.tx
  cases ds with
  | nil => rfl
  | cons d r =>
    simp only
    congr 1
    funext p
    rw [clientPuts_accepting]
    rfl

/-- With a server that accepts every request the requests of an upload have the effect the other theorems about uploads speak
of (C58). -/
theorem C96_accepting_partial (gen : Nat → Nat) (l : Local) (fromTx : Option Entid) (r : Remote) (rh : Nat) :
    uploadVia accepting gen l fromTx r rh = fastForwardRemote gen l fromTx r rh := by
  unfold uploadVia fastForwardRemote
  rw [uploadTx_accepting]
  congr 1

/-- What the client remembers of an upload. -/
def Uploader.Same (u v : Uploader) : Prop := u.tempUuids = v.tempUuids ∧ u.rolling = v.rolling ∧ u.made = v.made

theorem uploadTx_same (serve serve' : Serve) {gen : Nat → Nat} {rh : Nat} {parts : Parts} {u v u' : Uploader} {t : Entid}
    {ds : List TxPart} (hs : u.Same v) (h : uploadTx serve gen rh parts u t ds = .ok u') :
    ∃ v', uploadTx serve' gen rh parts v t ds = .ok v' ∧ u'.Same v' := by
  obtain ⟨h1, h2, h3⟩ := hs
  unfold uploadTx at h ⊢
  cases ds with
  | nil => cases h
  | cons d r =>
    simp only at h ⊢
    obtain ⟨p, hp, h⟩ := Res.bind_eq_ok.1 h
    obtain ⟨rem, -, h⟩ := Res.bind_eq_ok.1 h
    simp only [Res.ok.injEq] at h
    subst h
    rw [hp]
    simp only [Res.bind]
    obtain ⟨rem', hr'⟩ := clientPuts_ok serve' _ v.remote
    exact ⟨_, by rw [hr'], by rw [h1, h3], by rw [h3], by rw [h3]⟩

theorem visit_same (serve serve' : Serve) {gen : Nat → Nat} {rh : Nat} {parts : Parts} {log : List LogRow} :
    ∀ (ts : List Entid) {u v u' : Uploader}, u.Same v → visit (uploadTx serve gen rh parts) log ts u = .ok u' →
    ∃ v', visit (uploadTx serve' gen rh parts) log ts v = .ok v' ∧ u'.Same v'
  | [], u, v, u', hs, h => by
    simp only [visit, Res.ok.injEq] at h
    subst h
    exact ⟨v, rfl, hs⟩
  | t :: ts, u, v, u', hs, h => by
    rw [visit] at h
    obtain ⟨u1, h1, h⟩ := Res.bind_eq_ok.1 h
    obtain ⟨v1, k1, k2⟩ := uploadTx_same serve serve' hs h1
    obtain ⟨v', k3, k4⟩ := visit_same serve serve' ts k2 h
    exact ⟨v', by rw [visit, k1]; exact k3, k4⟩

/-- What a client thinks of its upload does not depend on the server: not on what is refused, and not on what is done with what is
accepted. -/
theorem C96_blind (serve serve' : Serve) {gen : Nat → Nat} {l l' : Local} {fromTx : Option Entid} {r s r' : Remote} {rh : Nat}
    (h : uploadVia serve gen l fromTx r rh = .ok (l', r')) : ∃ s', uploadVia serve' gen l fromTx s rh = .ok (l', s') := by
  unfold uploadVia at h ⊢
  obtain ⟨ts, t1, t2, t3⟩ := C57_process l.db.store.log fromTx
  rw [t3] at h ⊢
  obtain ⟨u, hu, h⟩ := Res.bind_eq_ok.1 h
  obtain ⟨v, hv, k1, k2, k3⟩ := visit_same serve serve' (u := { remote := r }) (v := { remote := s }) ts ⟨rfl, rfl, rfl⟩ hu
  rw [hv]
  simp only [Res.bind]
  rw [← k2]
  cases hr : u.rolling with
  | none =>
    rw [hr] at h
    simp only [Res.ok.injEq, Prod.mk.injEq] at h
    exact ⟨v.remote, by rw [h.1]⟩
  | some hd =>
    rw [hr] at h
    simp only [clientPut, Res.bind, Res.ok.injEq, Prod.mk.injEq] at h ⊢
    exact ⟨_, by rw [← k1]; exact h.1, rfl⟩

theorem uploadTx_refusing {gen : Nat → Nat} {rh : Nat} {parts : Parts} {u u' : Uploader} {t : Entid} {ds : List TxPart}
    (h : uploadTx refusing gen rh parts u t ds = .ok u') : u'.remote = u.remote := by
  unfold uploadTx at h
  cases ds with
  | nil => cases h
  | cons d r =>
    simp only at h
    obtain ⟨p, hp, h⟩ := Res.bind_eq_ok.1 h
    rw [clientPuts_refusing] at h
    simp only [Res.bind, Res.ok.injEq] at h
    rw [← h]

theorem visit_refusing {gen : Nat → Nat} {rh : Nat} {parts : Parts} {log : List LogRow} : ∀ (ts : List Entid) {u u' : Uploader},
    visit (uploadTx refusing gen rh parts) log ts u = .ok u' → u'.remote = u.remote
  | [], u, u', h => by
    simp only [visit, Res.ok.injEq] at h
    rw [h]
  | t :: ts, u, u', h => by
    rw [visit] at h
    obtain ⟨u1, h1, h⟩ := Res.bind_eq_ok.1 h
    rw [visit_refusing ts h, uploadTx_refusing h1]

theorem upload_refusing {gen : Nat → Nat} {l l' : Local} {fromTx : Option Entid} {r r' : Remote} {rh : Nat}
    (h : uploadVia refusing gen l fromTx r rh = .ok (l', r')) : r' = r := by
  unfold uploadVia at h
  obtain ⟨ts, t1, t2, t3⟩ := C57_process l.db.store.log fromTx
  rw [t3] at h
  obtain ⟨u, hu, h⟩ := Res.bind_eq_ok.1 h
  have := visit_refusing ts hu
  split at h
  · simp only [clientPut, refusing, Res.bind, Res.ok.injEq, Prod.mk.injEq] at h
    rw [← h.2, this]
  · simp only [Res.ok.injEq, Prod.mk.injEq] at h
    rw [← h.2, this]

theorem dropWhile_nil {α : Type} {p : α → Bool} : ∀ {l : List α}, (∀ x ∈ l, p x = true) → l.dropWhile p = []
  | [], _ => rfl
  | x :: l, h => by
    rw [List.dropWhile_cons_of_pos (h x (by simp))]
    exact dropWhile_nil fun y hy => h y (List.mem_cons_of_mem _ hy)

/-- The full C96 fails, for every store: if the server refuses an upload, the client takes it as done, and all its later syncs with
the server, which now may do what it is asked to, are reported as successes and change nothing on either side: the transactions after
`t` are never uploaded. -/
theorem C96_fails_refused {gen : Nat → Nat} {l : Local} {r : Remote} {t : Entid} (hg : FreshGen gen r)
    (hd : (r.chunks.map (·.1)).Nodup) (hm : OneToOne l.map) (hr : ReachKept l.db) (ht : TX0 ≤ t) (hlt : t + 1 < l.db.parts.tx.next)
    (hn : r.head ≠ nil) (hh : ∀ n, gen n ≠ r.head) :
    ∃ l', uploadVia refusing gen l (some t) r r.head = .ok (l', r) ∧ l'.db = l.db ∧
      ∀ gen' now, sync gen' l' r now = .ok (l', r, .localFastForward) := by
  obtain ⟨l', r1, hup⟩ := C70_uploads (gen := gen) hr.reach (some t) r r.head
  have hup' := hup
  rw [← C96_accepting_partial] at hup'
  obtain ⟨s, hs⟩ := C96_blind accepting refusing (s := r) hup'
  obtain rfl := upload_refusing hs
  obtain ⟨u1, u2, u3, u4, new, u5, u6, u7, u8, ⟨y, u9, u10, u11, u12⟩, u13⟩ := upload_spec (S := t + 1) hg hd hm hr
    (by intro t' _; simp only [After]; omega) (by omega) hlt hup
  refine ⟨l', hs, u1, fun gen' now => ?_⟩
  have hroot : rootAndHead l'.db.store.log = .ok (TX0, l.db.parts.tx.next - 1) := by
    rw [u1]
    exact rootAndHead_replica (histInv_reach hr.reach) (by omega) (.refl _)
  obtain ⟨k, hk⟩ := u7 y (List.mem_of_getLast? u9)
  have hne : l'.remoteHead ≠ nil := by rw [u11, ← u10, hk]; exact hg.nil k
  have hch : RemoteState.of l'.remoteHead s.head = .changed := by
    unfold RemoteState.of
    rw [if_neg hn, if_pos]
    rw [u11, ← u10, hk]
    exact (hh k).symm
  have haf : s.after l'.remoteHead = .ok [] := by
    unfold Remote.after
    rw [if_neg hne]
    have : s.txs.dropWhile (fun x => decide (x.uuid ≠ l'.remoteHead)) = [] := by
      apply dropWhile_nil
      intro x hx
      rw [u11, ← u10, hk]
      simpa using (hg.txs x hx k).symm
    rw [this]
    rfl
  unfold sync
  rw [hroot]
  simp only [Res.bind, (get_iff u2 _ _).2 u12]
  rw [if_neg (fun h => hne h.1)]
  simp only [hch, LocalState.of, whatDo, haf]
  rfl

/-! ### C97 -/

/-- What the server holds after any syncs of any clients, one after the other. -/
inductive Served : Remote → Prop
  | empty : Served {}
  | sync {gen : Nat → Nat} {l l' : Local} {r r' : Remote} {now : Int} {rep : Report} (s : Served r)
      (h : sync gen l r now = .ok (l', r', rep)) : Served r'

/-- The head that is seen is the only thing asked of the server before the rest. -/
theorem syncSeen_head (gen : Nat → Nat) (l : Local) (r : Remote) (now : Int) : syncSeen gen l r.head r now = sync gen l r now := rfl

theorem chain_upload {gen : Nat → Nat} {l l' : Local} {fromTx : Option Entid} {r r' : Remote}
    (hc : Chain nil r.txs r.head) (h : fastForwardRemote gen l fromTx r r.head = .ok (l', r')) : Chain nil r'.txs r'.head := by
  obtain ⟨ts, new, -, -, h3, h4, -, -, -, h8⟩ := C58_chain h
  rw [h3]
  split at h8
  · rename_i he
    subst he
    have : new = [] := List.length_eq_zero_iff.1 h4
    rw [this, List.append_nil, h8.1]
    exact hc
  · exact hc.append h8.1

/-- C97, for clients that sync one after the other: the server's transactions are one chain, each with the one before it as parent,
that ends with the head. -/
theorem C97_chain_partial {r : Remote} (h : Served r) : Chain nil r.txs r.head := by
  induction h with
  | empty => exact .nil _
  | @sync gen l l' r r' now rep _ h ih =>
    unfold sync at h
    obtain ⟨⟨root, head⟩, -, h⟩ := Res.bind_eq_ok.1 h
    obtain ⟨mapped, -, h⟩ := Res.bind_eq_ok.1 h
    simp only at h
    split at h
    · obtain ⟨⟨l1, rep1⟩, -, h⟩ := Res.bind_eq_ok.1 h
      simp only [Res.ok.injEq, Prod.mk.injEq] at h
      rw [← h.2.1]; exact ih
    · split at h
      · simp only [Res.ok.injEq, Prod.mk.injEq] at h
        rw [← h.2.1]; exact ih
      · obtain ⟨⟨l1, r1⟩, hu, h⟩ := Res.bind_eq_ok.1 h
        simp only [Res.ok.injEq, Prod.mk.injEq] at h
        rw [← h.2.1]; exact chain_upload ih hu
      · obtain ⟨t, -, h⟩ := Res.bind_eq_ok.1 h
        obtain ⟨⟨l1, r1⟩, hu, h⟩ := Res.bind_eq_ok.1 h
        simp only [Res.ok.injEq, Prod.mk.injEq] at h
        rw [← h.2.1]; exact chain_upload ih hu
      · obtain ⟨txs, -, h⟩ := Res.bind_eq_ok.1 h
        obtain ⟨⟨l1, rep1⟩, -, h⟩ := Res.bind_eq_ok.1 h
        simp only [Res.ok.injEq, Prod.mk.injEq] at h
        rw [← h.2.1]; exact ih
      · obtain ⟨t, -, h⟩ := Res.bind_eq_ok.1 h
        obtain ⟨ls, -, h⟩ := Res.bind_eq_ok.1 h
        obtain ⟨txs, -, h⟩ := Res.bind_eq_ok.1 h
        obtain ⟨⟨l1, rep1⟩, -, h⟩ := Res.bind_eq_ok.1 h
        simp only [Res.ok.injEq, Prod.mk.injEq] at h
        rw [← h.2.1]; exact ih

theorem Chain.split {h l m : Nat} {a b : List RemoteTx} (ha : Chain h a m) (hab : Chain h (a ++ b) l) : Chain m b l := by
  induction ha with
  | nil => exact hab
  | cons _ _ ih =>
    cases hab with
    | cons _ h2 => exact ih h2

theorem Chain.parent {h l : Nat} {x : RemoteTx} {a : List RemoteTx} (hc : Chain h (x :: a) l) : x.parent = h := by
  cases hc with
  | cons h _ => exact h

/-- The full C97 fails, for every store: a client that saw the head `seen` and uploads when another has moved it breaks the chain and
afterwards has nothing to sync: it never hears of what the other uploaded. -/
theorem C97_fails_race {gen : Nat → Nat} {l : Local} {r : Remote} {t : Entid} {seen : Nat} (hg : FreshGen gen r)
    (hd : (r.chunks.map (·.1)).Nodup) (hm : OneToOne l.map) (hr : ReachKept l.db) (ht : TX0 ≤ t) (hlt : t + 1 < l.db.parts.tx.next)
    (hk : l.remoteHead = seen) (hn : seen ≠ nil) (ht' : (t, seen) ∈ l.map) (hnew : ∀ u, (l.db.parts.tx.next - 1, u) ∉ l.map)
    (hc : Chain nil r.txs r.head) (hmoved : r.head ≠ seen) (now : Int) :
    ∃ l' r', syncSeen gen l seen r now = .ok (l', r', .remoteFastForward) ∧ l'.db = l.db ∧ ¬ Chain nil r'.txs r'.head ∧
      (∃ new, r'.txs = r.txs ++ new) ∧ ∀ gen' now', sync gen' l' r' now' = .ok (l', r', .noChanges) := by
  obtain ⟨l', r', hup⟩ := C70_uploads (gen := gen) hr.reach (some t) r seen
  obtain ⟨u1, u2, u3, u4, new, u5, u6, u7, u8, ⟨y, u9, u10, u11, u12⟩, u13⟩ := upload_spec (S := t + 1) hg hd hm hr
    (by intro t' _; simp only [After]; omega) (by omega) hlt hup
  have hroot : ∀ db : Db, db = l.db → rootAndHead db.store.log = .ok (TX0, l.db.parts.tx.next - 1) := by
    rintro _ rfl
    exact rootAndHead_replica (histInv_reach hr.reach) (by omega) (.refl _)
  obtain ⟨k, hk'⟩ := u7 y (List.mem_of_getLast? u9)
  have hne : r'.head ≠ nil := by rw [← u10, hk']; exact hg.nil k
  refine ⟨l', r', ?_, u1, ?_, ⟨new, u5⟩, fun gen' now' => ?_⟩
  · unfold syncSeen
    rw [hroot l.db rfl]
    have hget : l.map.get (l.db.parts.tx.next - 1) = .ok none := by
      obtain ⟨o, ho⟩ := get_ok hm (l.db.parts.tx.next - 1)
      cases o with
      | none => exact ho
      | some u => exact absurd ((get_iff hm _ _).1 ho) (hnew u)
    have hst : RemoteState.of seen seen = .unchanged := by
      unfold RemoteState.of
      rw [if_neg hn]; simp
    have htx : localTxForUuid l.map seen = .ok t := by
      unfold localTxForUuid
      rw [(getTx_iff hm _ _).2 ht']
      rfl
    simp only [Res.bind, hget, hk]
    rw [if_neg (fun h => hn h.1)]
    simp only [hst, LocalState.of, whatDo, htx, hup]
  · intro hch
    rw [u5] at hch
    have h1 := hc.split hch
    obtain ⟨ts, new', -, -, c3, c4, -, -, -, c8⟩ := C58_chain hup
    have hnn : new' = new := List.append_cancel_left (c3.symm.trans u5)
    subst hnn
    split at c8
    · rename_i he
      subst he
      have : new' = [] := List.length_eq_zero_iff.1 c4
      subst this
      cases u9
    · have h2 := c8.1
      cases new' with
      | nil => cases u9
      | cons z zs => exact hmoved (h1.parent.symm.trans h2.parent)
  · unfold sync
    rw [hroot l'.db u1]
    have hst : RemoteState.of r'.head r'.head = .unchanged := by
      unfold RemoteState.of
      rw [if_neg hne]; simp
    simp only [Res.bind, (get_iff u2 _ _).2 u12, u11]
    rw [if_neg (fun h => hne h.1)]
    simp only [hst, LocalState.of, whatDo]

/-! ### Concrete cases -/

/-- The store after a further fact. -/
def grown (e : Entid) (v : String) : Option Db := runLater [([addE e xOne (str v)], [])] setupDb

/-- A client that has synced up to the transaction with UUID 7. -/
def upTo7 (db : Db) : Local := { db := db, map := [(TX0 + 1, 7)], remoteHead := 7 }

def at7 : Remote := { head := 7, txs := [⟨7, 0, []⟩] }

def genA (n : Nat) : Nat := 8 + 3 * n
def genB (n : Nat) : Nat := 9 + 3 * n
def genC (n : Nat) : Nat := 10 + 3 * n

def okAnd {α : Type} (x : Res α) (p : α → Bool) : Bool := match x with
  | .ok a => p a
  | _ => false

theorem okAnd_spec {α : Type} {x : Res α} {p : α → Bool} (h : okAnd x p = true) : ∃ a, x = .ok a ∧ p a = true := by
  cases x with
  | ok a => exact ⟨a, rfl, h⟩
  | err e => cases h
  | panic => cases h

theorem any_spec {α : Type} {x : Option α} {p : α → Bool} (h : x.any p = true) : ∃ a, x = some a ∧ p a = true := by
  cases x with
  | some a => exact ⟨a, rfl, h⟩
  | none => cases h

/-- Whether the server's head is its last transaction, and there is another. -/
def endsB (r : Remote) (first : Nat) (second : Nat) : Bool :=
  decide (r.txs.map (·.uuid) = [first, second]) && decide (r.head = second)

theorem endsB_spec {r : Remote} {a b : Nat} (hab : a ≠ b) (hb : b ≠ nil) (h : endsB r a b = true) :
    EndsWith r r.head ∧ ∃ x ∈ r.txs, x.uuid = a := by
  simp only [endsB, Bool.and_eq_true, decide_eq_true_eq] at h
  obtain ⟨h1, h2⟩ := h
  obtain ⟨x, t, e1, rfl, e2⟩ := List.map_eq_cons_iff.1 h1
  obtain ⟨y, t', rfl, rfl, e3⟩ := List.map_eq_cons_iff.1 e2
  have : t' = [] := List.map_eq_nil_iff.1 e3
  subst this
  rw [e1, h2]
  refine ⟨.inr ⟨hb, [x], y, e1, rfl, ?_⟩, x, by simp, rfl⟩
  intro z hz
  simp only [List.mem_singleton] at hz
  rw [hz]; exact hab

/-- A client that does not know the head makes no UUIDs. -/
theorem sync_changed (gen gen' : Nat → Nat) {l : Local} {r : Remote} {now : Int} (hn : r.head ≠ nil) (hk : l.remoteHead ≠ r.head) :
    sync gen l r now = sync gen' l r now := by
  have hst : RemoteState.of l.remoteHead r.head = .changed := by
    unfold RemoteState.of
    rw [if_neg hn, if_pos (Ne.symm hk)]
  unfold sync
  congr 1
  funext ⟨root, head⟩
  simp only
  congr 1
  funext mapped
  cases mapped <;> simp only [hst, LocalState.of, whatDo]

/-- One client uploads a fact; another merges it with its own and uploads that, in two rounds. -/
theorem C95_example : ∃ a b a1 b1 r1 r2, Later setupDb a ∧ Later setupDb b ∧
    sync genA (upTo7 a) at7 5 = .ok (a1, r1, .remoteFastForward) ∧ EndsWith r1 r1.head ∧ (∃ x ∈ r1.txs, x.uuid = (upTo7 b).remoteHead) ∧
    storeSync (fun n k => 1000 * (n + 1) + k) (fun _ => 5) nobody 2 0 (upTo7 b) r1 [] =
      some (b1, r2, .ok (.nonAtomic [.merge true, .remoteFastForward])) ∧
    Has b1.db.store.rows xId xOne (str "a") ∧ r2.txs.length = 3 := by
  have h : ((grown xId "a").any fun a => (grown xMany "b").any fun b => okAnd (sync genA (upTo7 a) at7 5) fun p =>
      decide (p.2.2 = .remoteFastForward) && (endsB p.2.1 7 8 &&
      (storeSync (fun n k => 1000 * (n + 1) + k) (fun _ => 5) nobody 2 0 (upTo7 b) p.2.1 []).any fun q =>
        okAnd q.2.2 fun res => decide (res = .nonAtomic [.merge true, .remoteFastForward]) &&
          (hasB q.1.db xId xOne (str "a") && decide (q.2.1.txs.length = 3)))) = true := by decide +kernel
  obtain ⟨a, ha, h⟩ := any_spec h
  obtain ⟨b, hb, h⟩ := any_spec h
  obtain ⟨⟨a1, r1, rep⟩, hs, h⟩ := okAnd_spec h
  simp only [Bool.and_eq_true, decide_eq_true_eq] at h
  obtain ⟨rfl, he, h⟩ := h
  obtain ⟨⟨b1, r2, res⟩, hss, h⟩ := any_spec h
  obtain ⟨res', rfl, h⟩ := okAnd_spec h
  simp only [Bool.and_eq_true, decide_eq_true_eq, hasB_iff] at h
  obtain ⟨rfl, h1, h2⟩ := h
  obtain ⟨e1, e2⟩ := endsB_spec (by decide) (by decide) he
  exact ⟨a, b, a1, b1, r1, r2, runLater_later ha, runLater_later hb, hs, e1, e2, hss, h1, h2⟩

/-- The bound fails if an upload of another client was cut off before it set the head: the sync goes on after the second round, fails
in the third, and every later one fails as well. -/
theorem C95_fails_head : ∃ a b c a1 c1 b1 r1 r2, Later setupDb a ∧ Later setupDb b ∧ Later a c ∧
    sync genA (upTo7 a) at7 5 = .ok (a1, r1, .remoteFastForward) ∧
    sync genC { a1 with db := c } r1 5 = .ok (c1, r2, .remoteFastForward) ∧
    storeSync (fun n k => 1000 * (n + 1) + k) (fun _ => 5) nobody 2 0 (upTo7 b) { r2 with head := r1.head } [] = none ∧
    storeSync (fun n k => 1000 * (n + 1) + k) (fun _ => 5) nobody 3 0 (upTo7 b) { r2 with head := r1.head } [] =
      some (b1, { r2 with head := r1.head }, .err .timelinesMoveToNonEmpty) ∧
    ∀ gen, sync gen b1 { r2 with head := r1.head } 5 = .err .timelinesMoveToNonEmpty := by
  have h : ((grown xId "a").any fun a => (grown xMany "b").any fun b =>
      (runLater [([addE xId xOne (str "c")], [])] a).any fun c =>
      okAnd (sync genA (upTo7 a) at7 5) fun p => decide (p.2.2 = .remoteFastForward) &&
      okAnd (sync genC { p.1 with db := c } p.2.1 5) fun q => decide (q.2.2 = .remoteFastForward) &&
      (decide (storeSync (fun n k => 1000 * (n + 1) + k) (fun _ => 5) nobody 2 0 (upTo7 b) { q.2.1 with head := p.2.1.head } [] = none) &&
      (storeSync (fun n k => 1000 * (n + 1) + k) (fun _ => 5) nobody 3 0 (upTo7 b) { q.2.1 with head := p.2.1.head } []).any fun x =>
        decide (x.2 = ({ q.2.1 with head := p.2.1.head }, .err .timelinesMoveToNonEmpty)) &&
        (decide (p.2.1.head ≠ nil ∧ x.1.remoteHead ≠ p.2.1.head) &&
        decide (sync genA x.1 { q.2.1 with head := p.2.1.head } 5 = .err .timelinesMoveToNonEmpty)))) = true := by decide +kernel
  obtain ⟨a, ha, h⟩ := any_spec h
  obtain ⟨b, hb, h⟩ := any_spec h
  obtain ⟨c, hc, h⟩ := any_spec h
  obtain ⟨⟨a1, r1, rep⟩, hs, h⟩ := okAnd_spec h
  simp only [Bool.and_eq_true, decide_eq_true_eq] at h
  obtain ⟨rfl, h⟩ := h
  obtain ⟨⟨c1, r2, rep⟩, hs2, h⟩ := okAnd_spec h
  simp only [Bool.and_eq_true, decide_eq_true_eq] at h
  obtain ⟨rfl, h1, h⟩ := h
  obtain ⟨⟨b1, p1⟩, h2, h⟩ := any_spec h
  simp only [Bool.and_eq_true, decide_eq_true_eq] at h
  obtain ⟨rfl, ⟨h3, h4⟩, h5⟩ := h
  exact ⟨a, b, c, a1, c1, b1, r1, r2, runLater_later ha, runLater_later hb, runLater_later hc, hs, hs2, h1, h2,
    fun gen => (sync_changed gen genA (r := { r2 with head := r1.head }) h3 h4).trans h5⟩

/-- Two clients that see the head 7 and upload at the same time: then the first gets what the second uploaded, the second never
what the first did. -/
theorem C97_example : ∃ a b a1 a2 b1 r1 r2, Later setupDb a ∧ Later setupDb b ∧
    syncSeen genA (upTo7 a) 7 at7 5 = .ok (a1, r1, .remoteFastForward) ∧
    syncSeen genB (upTo7 b) 7 r1 5 = .ok (b1, r2, .remoteFastForward) ∧
    sync genC a1 r2 5 = .ok (a2, r2, .localFastForward) ∧ sync genC b1 r2 5 = .ok (b1, r2, .noChanges) ∧
    Has a2.db.store.rows xId xOne (str "a") ∧ Has a2.db.store.rows xMany xOne (str "b") ∧
    Has b1.db.store.rows xMany xOne (str "b") ∧ ¬ Has b1.db.store.rows xId xOne (str "a") := by
  have h : ((grown xId "a").any fun a => (grown xMany "b").any fun b => okAnd (syncSeen genA (upTo7 a) 7 at7 5) fun p =>
      decide (p.2.2 = .remoteFastForward) && okAnd (syncSeen genB (upTo7 b) 7 p.2.1 5) fun q =>
      decide (q.2.2 = .remoteFastForward) && (okAnd (sync genC p.1 q.2.1 5) fun a2 =>
        decide (a2.2 = (q.2.1, .localFastForward)) && (hasB a2.1.db xId xOne (str "a") && hasB a2.1.db xMany xOne (str "b"))) &&
      (okAnd (sync genC q.1 q.2.1 5) fun b2 => decide (b2 = (q.1, q.2.1, .noChanges))) &&
      (hasB q.1.db xMany xOne (str "b") && !hasB q.1.db xId xOne (str "a"))) = true := by decide +kernel
  obtain ⟨a, ha, h⟩ := any_spec h
  obtain ⟨b, hb, h⟩ := any_spec h
  obtain ⟨⟨a1, r1, rep⟩, hs, h⟩ := okAnd_spec h
  simp only [Bool.and_eq_true, decide_eq_true_eq] at h
  obtain ⟨rfl, h⟩ := h
  obtain ⟨⟨b1, r2, rep⟩, hs2, h⟩ := okAnd_spec h
  simp only [Bool.and_eq_true, decide_eq_true_eq, Bool.not_eq_true'] at h
  obtain ⟨⟨⟨rfl, h1⟩, h2⟩, h3, h4⟩ := h
  obtain ⟨⟨a2, p2⟩, h5, h6⟩ := okAnd_spec h1
  simp only [Bool.and_eq_true, decide_eq_true_eq, hasB_iff] at h6
  obtain ⟨rfl, h7, h8⟩ := h6
  obtain ⟨p3, h9, h10⟩ := okAnd_spec h2
  simp only [decide_eq_true_eq] at h10
  subst h10
  refine ⟨a, b, a1, a2, b1, r1, r2, runLater_later ha, runLater_later hb, hs, hs2, h5, h9, h7, h8, hasB_iff.1 h3, ?_⟩
  rw [← hasB_iff, h4]
  exact Bool.false_ne_true

/-- A client with one new fact, a server and UUIDs as `C96_fails_refused` and `C97_fails_race` ask for. -/
theorem C96_example : ∃ a, Later setupDb a ∧ ReachKept (upTo7 a).db ∧ FreshGen genA at7 ∧ (at7.chunks.map (·.1)).Nodup ∧
    OneToOne (upTo7 a).map ∧ TX0 + 1 + 1 < (upTo7 a).db.parts.tx.next ∧ at7.head ≠ nil ∧ (∀ n, genA n ≠ at7.head) ∧
    (TX0 + 1, at7.head) ∈ (upTo7 a).map ∧ (∀ u, ((upTo7 a).db.parts.tx.next - 1, u) ∉ (upTo7 a).map) ∧
    Chain nil at7.txs at7.head := by
  have h : ((grown xId "a").any fun a => decide (a.parts.tx.next = TX0 + 3)) = true := by decide +kernel
  obtain ⟨a, ha, h⟩ := any_spec h
  simp only [decide_eq_true_eq] at h
  have hl := runLater_later ha
  refine ⟨a, hl, (hl.spec reachKept_setup).1, ⟨?_, ?_, ?_, ?_⟩, ?_, ?_, ?_, ?_, ?_, ?_, ?_, ?_⟩
  · intro m n h; unfold genA at h; omega
  · intro n h; unfold genA nil at h; omega
  · intro c hc; cases hc
  · intro x hx n h
    simp only [at7, List.mem_singleton] at hx
    subst hx
    unfold genA at h
    simp only at h
    omega
  · exact .nil
  · simp [upTo7, OneToOne]
  · simp only [upTo7]; omega
  · decide
  · intro n h; simp only [at7] at h; unfold genA at h; omega
  · simp [upTo7, at7]
  · intro u hu
    simp only [upTo7, List.mem_singleton, Prod.mk.injEq] at hu
    omega
  · exact .cons rfl (.nil _)

end Mentat.Sync
