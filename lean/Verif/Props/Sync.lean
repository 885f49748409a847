import Verif.Model.Sync
/- C56-C59: what a sync does, which transactions it uploads, and the transaction map. -/
namespace Mentat.Sync

/-! ### C56 -/

/-- What happens to the changes of the two sides. -/
def Action.uploads : Action → Bool
  | .populateRemote | .remoteFastForward => true
  | _ => false
def Action.downloads : Action → Bool
  | .localFastForward => true
  | _ => false
def Action.merges : Action → Bool
  | .combineChanges => true
  | _ => false

/-- C56.  `known` is the remote head recorded by the last sync, `actual` the remote's head, and
`mapped` the UUID recorded for the last local transaction, if it was synced.  Local changes exist
when it was not; remote changes exist when the remote is not empty and its head moved. -/
theorem C56_action (known actual : Nat) (mapped : Option Nat) :
    let act := whatDo (.of known actual) (.of mapped)
    let localChanges := mapped = none
    let remoteChanges := actual ≠ nil ∧ actual ≠ known
    (localChanges → act.uploads ∨ act.merges) ∧
    (remoteChanges → act.downloads ∨ act.merges) ∧
    (act.merges ↔ localChanges ∧ remoteChanges) ∧
    (act.downloads ↔ ¬ localChanges ∧ remoteChanges) ∧
    (act.uploads ↔ actual = nil ∨ (localChanges ∧ ¬ remoteChanges)) ∧
    (act = .noOp ↔ ¬ localChanges ∧ ¬ remoteChanges ∧ actual ≠ nil) := by
  by_cases h1 : actual = nil
  · subst h1
    cases mapped <;> simp [RemoteState.of, LocalState.of, whatDo, Action.uploads, Action.merges,
      Action.downloads]
  · by_cases h2 : actual = known
    · subst h2
      cases mapped <;> simp [RemoteState.of, LocalState.of, whatDo, h1, Action.uploads,
        Action.merges, Action.downloads]
    · cases mapped <;> simp [RemoteState.of, LocalState.of, whatDo, h1, h2, Action.uploads,
        Action.merges, Action.downloads]

/-- The action depends on nothing else. -/
theorem C56_depends (known actual known' actual' : Nat) (mapped mapped' : Option Nat)
    (h1 : actual = nil ↔ actual' = nil) (h2 : actual = known ↔ actual' = known')
    (h3 : mapped = none ↔ mapped' = none) :
    whatDo (.of known actual) (.of mapped) = whatDo (.of known' actual') (.of mapped') := by
  have e1 : RemoteState.of known actual = RemoteState.of known' actual' := by
    unfold RemoteState.of
    by_cases ha : actual = nil
    · rw [if_pos ha, if_pos (h1.1 ha)]
    · rw [if_neg ha, if_neg fun h => ha (h1.2 h)]
      by_cases hb : actual = known
      · rw [if_neg (by simpa using hb), if_neg (by simpa using h2.1 hb)]
      · rw [if_pos hb, if_pos fun h => hb (h2.2 h)]
  have e2 : LocalState.of mapped = LocalState.of mapped' := by
    cases mapped <;> cases mapped' <;> simp_all [LocalState.of]
  rw [e1, e2]

/-- Both sides changed: merge. -/
theorem C56_example : whatDo (.of 5 7) (.of none) = .combineChanges := by decide

/-! ### C57 -/

/-- `t` is after the starting point. -/
def After : Option Entid → Entid → Prop
  | none, _ => True
  | some f, t => f < t

/-- The datoms of transaction `t` on the main timeline, in the order of the log. -/
def datomsOfTx (log : List LogRow) (t : Entid) : List TxPart :=
  (log.filter fun l => decide (l.timeline = 0 ∧ l.tx = t)).map fun l => ⟨none, l.e, l.a, l.v, l.tx, l.added⟩

/-- Giving a receiver some transactions one after another. -/
def visit {S : Type} (recv : S → Entid → List TxPart → Res S) (log : List LogRow) :
    List Entid → S → Res S
  | [], s => .ok s
  | t :: r, s => (recv s t (datomsOfTx log t)).bind fun s' => visit recv log r s'

theorem filter_insertSortedBy {α : Type} (key : α → Int) (x : α) (t : Int) (p : α → Bool)
    (hp : ∀ y, p y = true → key y = t) (l : List α) :
    (insertSortedBy key x l).filter p = (x :: l).filter p := by
  induction l with
  | nil => rfl
  | cons y r ih =>
    unfold insertSortedBy
    split
    · rfl
    · rename_i h
      rw [List.filter_cons, ih]
      simp only [List.filter_cons]
      by_cases hx : p x = true
      · have hy : ¬ p y = true := by
          intro hy; apply h; rw [hp _ hx, hp _ hy]; exact Int.le_refl _
        simp [hx, hy]
      · simp [hx]

theorem filter_sortBy {α : Type} (key : α → Int) (t : Int) (p : α → Bool)
    (hp : ∀ y, p y = true → key y = t) (l : List α) : (sortBy key l).filter p = l.filter p := by
  induction l with
  | nil => rfl
  | cons x r ih =>
    unfold sortBy
    rw [filter_insertSortedBy key x t p hp, List.filter_cons, List.filter_cons, ih]

theorem pairwise_insertSortedBy {α : Type} (key : α → Int) (x : α) (l : List α)
    (h : l.Pairwise fun a b => key a ≤ key b) :
    (insertSortedBy key x l).Pairwise fun a b => key a ≤ key b := by
  induction l with
  | nil => simp [insertSortedBy]
  | cons y r ih =>
    unfold insertSortedBy
    rw [List.pairwise_cons] at h
    split
    · rename_i hxy
      rw [List.pairwise_cons]
      refine ⟨?_, List.pairwise_cons.2 h⟩
      intro z hz
      rcases List.mem_cons.1 hz with rfl | hz
      · exact hxy
      · exact Int.le_trans hxy (h.1 z hz)
    · rename_i hxy
      rw [List.pairwise_cons]
      refine ⟨?_, ih h.2⟩
      intro z hz
      rcases (mem_insertSortedBy key x z r).1 hz with rfl | hz
      · omega
      · exact h.1 z hz

theorem pairwise_sortBy {α : Type} (key : α → Int) (l : List α) :
    (sortBy key l).Pairwise fun a b => key a ≤ key b := by
  induction l with
  | nil => simp [sortBy]
  | cons x r ih => exact pairwise_insertSortedBy key x _ ih

theorem following_eq (d : TxPart) (l : List LogRow) (h : l.Pairwise fun a b => a.tx ≤ b.tx)
    (hd : ∀ x ∈ l, d.tx ≤ x.tx) :
    following d (l.map fun l => Res.ok (toTxPart l)) =
      ((l.filter fun x => decide (x.tx = d.tx)).map toTxPart,
       (l.filter fun x => decide (d.tx < x.tx)).map fun l => Res.ok (toTxPart l)) := by
  induction l with
  | nil => rfl
  | cons x r ih =>
    rw [List.pairwise_cons] at h
    have hr := ih h.2 fun y hy => hd y (List.mem_cons_of_mem _ hy)
    have hx := hd x (by simp)
    simp only [List.map_cons]
    rw [following]
    by_cases he : x.tx = d.tx
    · rw [if_neg (by simpa [toTxPart] using he), hr]
      simp [he, toTxPart]
    · rw [if_pos (by simpa [toTxPart] using he)]
      have hall : ∀ y ∈ x :: r, d.tx < y.tx := by
        intro y hy
        rcases List.mem_cons.1 hy with rfl | hy
        · omega
        · have := h.1 y hy; omega
      have h1 : (x :: r).filter (fun y => decide (y.tx = d.tx)) = [] := by
        rw [List.filter_eq_nil_iff]
        intro y hy; have := hall y hy; simp; omega
      have h2 : (x :: r).filter (fun y => decide (d.tx < y.tx)) = x :: r := by
        rw [List.filter_eq_self]
        intro y hy; simpa using hall y hy
      rw [h1, h2]; rfl

theorem processRows_eq (log : List LogRow) : ∀ (n : Nat) (l : List LogRow) (cur : Option Entid),
    l.length ≤ n → l.Pairwise (fun a b => a.tx ≤ b.tx) → (∀ x ∈ l, cur ≠ some x.tx) →
    (∀ x ∈ l, l.filter (fun y => decide (y.tx = x.tx)) =
      log.filter (fun y => decide (y.timeline = 0 ∧ y.tx = x.tx))) →
    ∃ ts : List Entid, ts.Pairwise (· < ·) ∧ (∀ t, t ∈ ts ↔ ∃ x ∈ l, x.tx = t) ∧
      ∀ (S : Type) (recv : S → Entid → List TxPart → Res S) (s : S),
        processRows recv n cur (l.map fun l => Res.ok (toTxPart l)) s = visit recv log ts s := by
  intro n
  induction n with
  | zero =>
    intro l cur hl _ _ _
    have : l = [] := List.length_eq_zero_iff.1 (by omega)
    subst this
    exact ⟨[], List.Pairwise.nil, by simp, fun S recv s => by simp [processRows, visit]⟩
  | succ n ih =>
    intro l cur hl hs hc hf
    cases l with
    | nil => exact ⟨[], List.Pairwise.nil, by simp, fun S recv s => by simp [processRows, visit]⟩
    | cons x r =>
      have hs' := List.pairwise_cons.1 hs
      have hfol := following_eq (toTxPart x) r hs'.2 (fun y hy => hs'.1 y hy)
      obtain ⟨ts, h1, h2, h3⟩ := ih (r.filter fun y => decide (x.tx < y.tx)) (some x.tx)
        (by have := List.length_filter_le (fun y : LogRow => decide (x.tx < y.tx)) r
            simp only [List.length_cons] at hl; omega)
        (hs'.2.filter _)
        (by intro y hy; have := (List.mem_filter.1 hy).2
            simp only [decide_eq_true_eq] at this
            intro h; injection h with h; omega)
        (by intro y hy
            have hy' := List.mem_filter.1 hy
            have hlt : x.tx < y.tx := by simpa using hy'.2
            rw [← hf y (List.mem_cons_of_mem _ hy'.1), List.filter_filter, List.filter_cons,
              if_neg (by simp; omega)]
            apply List.filter_congr
            intro z _
            rw [Bool.eq_iff_iff]
            simp only [Bool.and_eq_true, decide_eq_true_eq]
            constructor
            · exact fun h => h.1
            · intro h; exact ⟨h, by omega⟩)
      refine ⟨x.tx :: ts, ?_, ?_, ?_⟩
      · rw [List.pairwise_cons]
        refine ⟨?_, h1⟩
        intro t ht
        obtain ⟨y, hy, rfl⟩ := (h2 t).1 ht
        simpa using (List.mem_filter.1 hy).2
      · intro t
        simp only [List.mem_cons, h2, List.mem_filter, decide_eq_true_eq]
        constructor
        · rintro (rfl | ⟨y, ⟨hy, -⟩, rfl⟩)
          · exact ⟨x, Or.inl rfl, rfl⟩
          · exact ⟨y, Or.inr hy, rfl⟩
        · rintro ⟨y, rfl | hy, rfl⟩
          · exact Or.inl rfl
          · have := hs'.1 y hy
            by_cases he : y.tx = x.tx
            · exact Or.inl he
            · exact Or.inr ⟨y, ⟨hy, by omega⟩, rfl⟩
      · intro S recv s
        have hd : toTxPart x :: (following (toTxPart x) (r.map fun l => Res.ok (toTxPart l))).1 =
            datomsOfTx log x.tx := by
          rw [hfol]
          unfold datomsOfTx
          rw [← hf x (by simp)]
          rw [List.filter_cons, if_pos (by simp), List.map_cons]
          rfl
        simp only [List.map_cons]
        have hc' : ¬ cur = some (toTxPart x).tx := hc x (by simp)
        rw [processRows, if_neg hc', hd, visit]
        cases hr : recv s x.tx (datomsOfTx log x.tx) with
        | ok s' =>
          have hr' : recv s (toTxPart x).tx (datomsOfTx log x.tx) = .ok s' := hr
          rw [hr', hfol]
          exact h3 S recv s'
        | err e => simp [toTxPart, hr, Res.bind]
        | panic => simp [toTxPart, hr, Res.bind]

/-- C57: processing visits each main-timeline transaction after the starting point exactly once, in
increasing order, with exactly its datoms in log order, for any receiver. -/
theorem C57_process (log : List LogRow) (fromTx : Option Entid) :
    ∃ ts : List Entid, ts.Pairwise (· < ·) ∧
      (∀ t, t ∈ ts ↔ After fromTx t ∧ ∃ l ∈ log, l.timeline = 0 ∧ l.tx = t) ∧
      ∀ (S : Type) (recv : S → Entid → List TxPart → Res S) (s : S),
        process log fromTx recv s = visit recv log ts s := by
  have hmem : ∀ x, x ∈ selectRows log fromTx ↔ x ∈ log ∧ x.timeline = 0 ∧ After fromTx x.tx := by
    intro x
    unfold selectRows
    rw [mem_sortBy, List.mem_filter]
    cases fromTx <;> simp [After]
  obtain ⟨ts, h1, h2, h3⟩ := processRows_eq log (selectRows log fromTx).length (selectRows log fromTx)
    none (Nat.le_refl _) (pairwise_sortBy _ _) (by simp) (by
      intro x hx
      have hx' := (hmem x).1 hx
      unfold selectRows
      rw [filter_sortBy (fun l : LogRow => l.tx) x.tx (fun y => decide (y.tx = x.tx)) (by simp), List.filter_filter]
      apply List.filter_congr
      intro y _
      cases fromTx with
      | none => simp [And.comm]
      | some f =>
        have := hx'.2.2
        simp only [After] at this
        rw [Bool.eq_iff_iff]
        simp only [gt_iff_lt, Bool.and_eq_true, decide_eq_true_eq]
        constructor
        · rintro ⟨h, h', -⟩; exact ⟨h', h⟩
        · rintro ⟨h, h'⟩; exact ⟨h', h, by omega⟩)
  refine ⟨ts, h1, ?_, ?_⟩
  · intro t
    rw [h2]
    constructor
    · rintro ⟨x, hx, rfl⟩
      have := (hmem x).1 hx
      exact ⟨this.2.2, x, this.1, this.2.1, rfl⟩
    · rintro ⟨ha, x, hx, h0, rfl⟩
      exact ⟨x, (hmem x).2 ⟨hx, h0, ha⟩, rfl⟩
  · intro S recv s
    simp only [process, List.length_map]
    exact h3 S recv s

/-- An unordered log with a row of another timeline, from transaction 1. -/
theorem C57_example :
    process [⟨10, 1, .long 1, 3, true, 0⟩, ⟨11, 1, .long 1, 2, true, 0⟩, ⟨12, 1, .long 2, 3, true, 0⟩,
      ⟨13, 1, .long 2, 4, true, 7⟩, ⟨14, 1, .long 2, 1, true, 0⟩] (some 1) collectTxs [] =
    .ok [(2, [⟨none, 11, 1, .long 1, 2, true⟩]),
         (3, [⟨none, 10, 1, .long 1, 3, true⟩, ⟨none, 12, 1, .long 2, 3, true⟩])] := by decide

/-! ### C58 -/

/-- `txs` hang one after another from `first`, ending at `last`. -/
inductive Chain : Nat → List RemoteTx → Nat → Prop
  | nil (h : Nat) : Chain h [] h
  | cons {h last : Nat} {x : RemoteTx} {r : List RemoteTx} : x.parent = h → Chain x.uuid r last →
      Chain h (x :: r) last

/-- The server has, under the chunk ids of `x`, the datoms `ds` (the first with a partition map, that of their
entities). -/
def Carries (parts : Parts) (chunks : List (Nat × TxPart)) (x : RemoteTx) (ds : List TxPart) : Prop :=
  x.chunks.length = ds.length ∧
  ∀ (i : Nat) (c : Nat) (d : TxPart), x.chunks[i]? = some c → ds[i]? = some d →
    ∃ p, (c, { d with partitions := p }) ∈ chunks ∧
      (i = 0 → ∃ q, p = some q ∧ allocateParts (ds.map (·.e)) parts = .ok q)

theorem Chain.append {h m l : Nat} {a b : List RemoteTx} (ha : Chain h a m) (hb : Chain m b l) :
    Chain h (a ++ b) l := by
  induction ha with
  | nil => exact hb
  | cons e _ ih => exact .cons e (ih hb)

theorem Carries.mono {parts} {cs cs' : List (Nat × TxPart)} {x ds} (h : Carries parts cs x ds)
    (hs : ∀ c ∈ cs, c ∈ cs') : Carries parts cs' x ds :=
  ⟨h.1, fun i c d h1 h2 => (h.2 i c d h1 h2).imp fun _ hp => ⟨hs _ hp.1, hp.2⟩⟩

theorem putChunks_snd (gen : Nat → Nat) (ds : List TxPart) (n : Nat) :
    (putChunks gen ds n).map (·.2) = ds := by
  induction ds generalizing n with
  | nil => rfl
  | cons d r ih => simp [putChunks, ih]

theorem visit_append {S : Type} (recv : S → Entid → List TxPart → Res S) (log) (ts ts' : List Entid) (s : S) :
    visit recv log (ts ++ ts') s = (visit recv log ts s).bind fun s' => visit recv log ts' s' := by
  induction ts generalizing s with
  | nil => rfl
  | cons t r ih =>
    simp only [List.cons_append, visit]
    cases recv s t (datomsOfTx log t) with
    | ok s' => exact ih s'
    | err e => rfl
    | panic => rfl

/-- What one uploaded transaction is. -/
def Uploaded (parts : Parts) (log : List LogRow) (u : Uploader) (x : RemoteTx) (t : Entid) : Prop :=
  AMap.get u.tempUuids t = some x.uuid ∧ Carries parts u.remote.chunks x (datomsOfTx log t)

theorem Uploader.tx_ok {gen rh parts u t ds u'} (h : Uploader.tx gen rh parts u t ds = .ok u') :
    ∃ x : RemoteTx, u'.remote.txs = u.remote.txs ++ [x] ∧
      x.parent = (match u.rolling with | some h => h | none => rh) ∧ u'.rolling = some x.uuid ∧
      u'.tempUuids = AMap.insert u.tempUuids t x.uuid ∧ (∀ c ∈ u.remote.chunks, c ∈ u'.remote.chunks) ∧
      u'.remote.head = u.remote.head ∧ Carries parts u'.remote.chunks x ds := by
  cases ds with
  | nil => simp [Uploader.tx] at h
  | cons d r =>
    simp only [Uploader.tx] at h
    cases hp : allocateParts (List.map (fun x => x.e) (d :: r)) parts with
    | err e => rw [hp] at h; simp [Res.bind] at h
    | panic => rw [hp] at h; simp [Res.bind] at h
    | ok p =>
      rw [hp] at h
      simp only [Res.bind, Res.ok.injEq] at h
      subst h
      refine ⟨_, rfl, rfl, rfl, rfl, fun c hc => List.mem_append_left _ hc, rfl, ?_⟩
      have hs := putChunks_snd gen ({ d with partitions := some p } :: r) (u.made + 1)
      generalize hcs : putChunks gen ({ d with partitions := some p } :: r) (u.made + 1) = cs at hs
      simp only
      constructor
      · have := congrArg List.length hs
        simpa using this
      · intro i c d' hc hd'
        simp only [List.getElem?_map, Option.map_eq_some_iff] at hc
        obtain ⟨⟨c', d2⟩, hc, rfl⟩ := hc
        have h2 : (cs.map (·.2))[i]? = some d2 := by simp [hc]
        rw [hs] at h2
        have hm : (c', d2) ∈ u.remote.chunks ++ cs := List.mem_append_right _ (List.mem_of_getElem? hc)
        cases i with
        | zero =>
          simp only [List.getElem?_cons_zero, Option.some.injEq] at h2 hd'
          subst h2 hd'
          exact ⟨some p, hm, fun _ => ⟨p, rfl, hp⟩⟩
        | succ i =>
          simp only [List.getElem?_cons_succ] at h2 hd'
          rw [hd'] at h2
          injection h2 with h2; subst h2
          exact ⟨d'.partitions, hm, fun h => absurd h (by omega)⟩

theorem visit_upload {gen rh parts log} : ∀ (ts : List Entid) (u u' : Uploader), ts.Nodup →
    visit (Uploader.tx gen rh parts) log ts u = .ok u' →
    ∃ new : List RemoteTx, u'.remote.txs = u.remote.txs ++ new ∧
      Chain (u.rolling.getD rh) new (u'.rolling.getD rh) ∧
      (u'.rolling = none ↔ u.rolling = none ∧ ts = []) ∧ u'.remote.head = u.remote.head ∧
      (∀ c ∈ u.remote.chunks, c ∈ u'.remote.chunks) ∧ new.length = ts.length ∧
      (∀ (i : Nat) x t, new[i]? = some x → ts[i]? = some t → Uploaded parts log u' x t) ∧
      ∀ t, t ∉ ts → AMap.get u'.tempUuids t = AMap.get u.tempUuids t := by
  intro ts
  induction ts with
  | nil =>
    intro u u' _ h
    simp only [visit, Res.ok.injEq] at h
    subst h
    exact ⟨[], by simp, .nil _, by simp, rfl, fun c hc => hc, rfl, by simp, by simp⟩
  | cons t r ih =>
    intro u u' hn h
    rw [List.nodup_cons] at hn
    simp only [visit] at h
    cases h1 : Uploader.tx gen rh parts u t (datomsOfTx log t) with
    | err e => rw [h1] at h; simp [Res.bind] at h
    | panic => rw [h1] at h; simp [Res.bind] at h
    | ok u1 =>
      rw [h1] at h
      simp only [Res.bind] at h
      obtain ⟨x, hx1, hx2, hx3, hx4, hx5, hx6, hx7⟩ := Uploader.tx_ok h1
      obtain ⟨new, n1, n2, n3, n4, n5, n6, n7, n8⟩ := ih u1 u' hn.2 h
      refine ⟨x :: new, ?_, ?_, ?_, ?_, ?_, ?_, ?_, ?_⟩
      · rw [n1, hx1]; simp
      · refine .cons ?_ ?_
        · rw [hx2]; cases u.rolling <;> rfl
        · rw [hx3] at n2; exact n2
      · rw [n3, hx3]; simp
      · rw [n4, hx6]
      · exact fun c hc => n5 c (hx5 c hc)
      · simp [n6]
      · intro i x' t' h2 h3
        cases i with
        | zero =>
          simp only [List.getElem?_cons_zero, Option.some.injEq] at h2 h3
          subst h2 h3
          refine ⟨?_, hx7.mono n5⟩
          rw [n8 t hn.1, hx4, AMap.get_insert_self]
        | succ i =>
          simp only [List.getElem?_cons_succ] at h2 h3
          exact n7 i x' t' h2 h3
      · intro t' ht'
        simp only [List.mem_cons, not_or] at ht'
        rw [n8 t' ht'.2, hx4, AMap.get_insert_ne _ _ (Ne.symm ht'.1)]

/-- C58: the transactions uploaded are those after the starting point, each once and in order; the
first has the remote head as parent, each later one the one before it; the remote's head becomes the
last; nothing else on the remote changes; the new ids are recorded. -/
theorem C58_chain {gen : Nat → Nat} {l : Local} {fromTx : Option Entid} {r r' : Remote} {l' : Local}
    {rh : Nat} (h : fastForwardRemote gen l fromTx r rh = .ok (l', r')) :
    ∃ (ts : List Entid) (new : List RemoteTx), ts.Pairwise (· < ·) ∧
      (∀ t, t ∈ ts ↔ After fromTx t ∧ ∃ row ∈ l.db.store.log, row.timeline = 0 ∧ row.tx = t) ∧
      r'.txs = r.txs ++ new ∧ new.length = ts.length ∧
      (∀ (i : Nat) x t, new[i]? = some x → ts[i]? = some t →
        Carries Parts.bootstrap r'.chunks x (datomsOfTx l.db.store.log t)) ∧
      (∀ c ∈ r.chunks, c ∈ r'.chunks) ∧ l'.db = l.db ∧
      (if ts = [] then r'.head = r.head ∧ l' = l
       else Chain rh new r'.head ∧ l'.remoteHead = r'.head) := by
  unfold fastForwardRemote at h
  obtain ⟨ts, t1, t2, t3⟩ := C57_process l.db.store.log fromTx
  rw [t3] at h
  cases hv : visit (Uploader.tx gen rh Parts.bootstrap) l.db.store.log ts { remote := r } with
  | err e => rw [hv] at h; simp [Res.bind] at h
  | panic => rw [hv] at h; simp [Res.bind] at h
  | ok u =>
    rw [hv] at h
    simp only [Res.bind] at h
    have hnd : ts.Nodup := t1.imp (fun h => by omega)
    obtain ⟨new, n1, n2, n3, n4, n5, n6, n7, -⟩ := visit_upload ts _ _ hnd hv
    refine ⟨ts, new, t1, t2, ?_⟩
    cases hr : u.rolling with
    | none =>
      rw [hr] at h
      simp only [Res.ok.injEq, Prod.mk.injEq] at h
      obtain ⟨rfl, rfl⟩ := h
      refine ⟨n1, n6, fun i x t h1 h2 => (n7 i x t h1 h2).2, n5, rfl, ?_⟩
      rw [if_pos (n3.1 hr).2]
      exact ⟨n4, rfl⟩
    | some hd =>
      rw [hr] at h n2
      simp only [Res.ok.injEq, Prod.mk.injEq] at h
      obtain ⟨rfl, rfl⟩ := h
      have hne : ts ≠ [] := by
        intro he; have := n3.2 ⟨rfl, he⟩; rw [hr] at this; cases this
      refine ⟨n1, n6, fun i x t h1 h2 => (n7 i x t h1 h2).2, n5, rfl, ?_⟩
      rw [if_neg hne]
      exact ⟨n2, rfl⟩

/-! ### C59 -/

/-- No transaction maps to two UUIDs and no UUID to two transactions. -/
def OneToOne (m : TxMap) : Prop :=
  m.Pairwise fun p q => p.1 ≠ q.1 ∧ p.2 ≠ q.2

/-- Updates of the transaction map. -/
inductive Update where
  | set (l : List (Entid × Nat))
  | getOrSet (tx : Entid) (fresh : Nat)

def Update.run (m : TxMap) : Update → Res TxMap
  | .set l => .ok (m.setAll l)
  | .getOrSet tx fresh => (m.getOrSet tx fresh).bind fun p => .ok p.2

def runUpdates : List Update → TxMap → Res TxMap
  | [], m => .ok m
  | x :: r, m => (x.run m).bind fun m' => runUpdates r m'

theorem OneToOne.set {m : TxMap} (h : OneToOne m) (tx uuid) : OneToOne (m.set tx uuid) := by
  unfold TxMap.set OneToOne
  rw [List.pairwise_append]
  refine ⟨h.filter _, by simp, ?_⟩
  intro p hp q hq
  simp only [List.mem_singleton] at hq
  subst hq
  simpa using (List.mem_filter.1 hp).2

theorem OneToOne.setAll {m : TxMap} (h : OneToOne m) (l) : OneToOne (m.setAll l) := by
  unfold TxMap.setAll
  induction l generalizing m with
  | nil => exact h
  | cons p r ih => exact ih (h.set p.1 p.2)

theorem filter_fst {m : TxMap} (h : OneToOne m) (tx : Entid) :
    (m.filter fun p => decide (p.1 = tx)) = [] ∧ (∀ u, (tx, u) ∉ m) ∨
    ∃ u, (m.filter fun p => decide (p.1 = tx)) = [(tx, u)] ∧ (tx, u) ∈ m := by
  induction m with
  | nil => simp
  | cons p r ih =>
    obtain ⟨t, u⟩ := p
    have h' := List.pairwise_cons.1 h
    by_cases ht : t = tx
    · subst ht
      right
      refine ⟨u, ?_, by simp⟩
      rw [List.filter_cons, if_pos (by simp)]
      congr 1
      rw [List.filter_eq_nil_iff]
      intro q hq
      have := (h'.1 q hq).1
      simpa using Ne.symm this
    · rw [List.filter_cons, if_neg (by simpa using ht)]
      rcases ih h'.2 with ⟨h1, h2⟩ | ⟨v, h1, h2⟩
      · left
        refine ⟨h1, fun v hv => ?_⟩
        rcases List.mem_cons.1 hv with he | hv
        · injection he with he _; exact ht he.symm
        · exact h2 v hv
      · right
        exact ⟨v, h1, List.mem_cons_of_mem _ h2⟩

theorem filter_snd {m : TxMap} (h : OneToOne m) (u : Nat) :
    (m.filter fun p => decide (p.2 = u)) = [] ∧ (∀ t, (t, u) ∉ m) ∨
    ∃ t, (m.filter fun p => decide (p.2 = u)) = [(t, u)] ∧ (t, u) ∈ m := by
  induction m with
  | nil => simp
  | cons p r ih =>
    obtain ⟨t, v⟩ := p
    have h' := List.pairwise_cons.1 h
    by_cases ht : v = u
    · subst ht
      right
      refine ⟨t, ?_, by simp⟩
      rw [List.filter_cons, if_pos (by simp)]
      congr 1
      rw [List.filter_eq_nil_iff]
      intro q hq
      have := (h'.1 q hq).2
      simpa using Ne.symm this
    · rw [List.filter_cons, if_neg (by simpa using ht)]
      rcases ih h'.2 with ⟨h1, h2⟩ | ⟨s, h1, h2⟩
      · left
        refine ⟨h1, fun s hs => ?_⟩
        rcases List.mem_cons.1 hs with he | hs
        · injection he with _ he; exact ht he.symm
        · exact h2 s hs
      · right
        exact ⟨s, h1, List.mem_cons_of_mem _ h2⟩

theorem get_iff {m : TxMap} (h : OneToOne m) (tx : Entid) (u : Nat) :
    m.get tx = .ok (some u) ↔ (tx, u) ∈ m := by
  unfold TxMap.get
  rcases filter_fst h tx with ⟨h1, h2⟩ | ⟨v, h1, h2⟩
  · rw [h1]; simp [h2 u]
  · rw [h1]
    simp only [List.map_cons, List.map_nil, Res.ok.injEq, Option.some.injEq]
    constructor
    · rintro rfl; exact h2
    · intro hu
      have : (tx, u) ∈ m.filter fun p => decide (p.1 = tx) := List.mem_filter.2 ⟨hu, by simp⟩
      rw [h1] at this
      simp only [List.mem_singleton, Prod.mk.injEq, true_and] at this
      exact this.symm

theorem getTx_iff {m : TxMap} (h : OneToOne m) (tx : Entid) (u : Nat) :
    m.getTx u = .ok (some tx) ↔ (tx, u) ∈ m := by
  unfold TxMap.getTx
  rcases filter_snd h u with ⟨h1, h2⟩ | ⟨t, h1, h2⟩
  · rw [h1]; simp [h2 tx]
  · rw [h1]
    simp only [List.map_cons, List.map_nil, Res.ok.injEq, Option.some.injEq]
    constructor
    · rintro rfl; exact h2
    · intro hu
      have : (tx, u) ∈ m.filter fun p => decide (p.2 = u) := List.mem_filter.2 ⟨hu, by simp⟩
      rw [h1] at this
      simp only [List.mem_singleton, Prod.mk.injEq, and_true] at this
      exact this.symm

theorem get_ok {m : TxMap} (h : OneToOne m) (tx : Entid) : ∃ o, m.get tx = .ok o := by
  unfold TxMap.get
  rcases filter_fst h tx with ⟨h1, h2⟩ | ⟨v, h1, h2⟩ <;> rw [h1] <;> simp

theorem getTx_ok {m : TxMap} (h : OneToOne m) (u) : ∃ o, m.getTx u = .ok o := by
  unfold TxMap.getTx
  rcases filter_snd h u with ⟨h1, h2⟩ | ⟨v, h1, h2⟩ <;> rw [h1] <;> simp

theorem oneToOne_run {m m' : TxMap} (h : OneToOne m) {x : Update} (hr : x.run m = .ok m') :
    OneToOne m' := by
  cases x with
  | set l => simp only [Update.run, Res.ok.injEq] at hr; subst hr; exact h.setAll l
  | getOrSet tx fresh =>
    simp only [Update.run, TxMap.getOrSet] at hr
    obtain ⟨o, ho⟩ := get_ok h tx
    rw [ho] at hr
    cases o with
    | some u => simp only [Res.bind, Res.ok.injEq] at hr; subst hr; exact h
    | none =>
      simp only [Res.bind] at hr
      by_cases hn : (List.any m fun p => decide (p.fst = tx ∨ p.snd = fresh)) = true
      · rw [if_pos hn] at hr; cases hr
      · rw [if_neg hn] at hr
        simp only [Res.ok.injEq] at hr
        subst hr
        unfold OneToOne
        rw [List.pairwise_append]
        refine ⟨h, by simp, ?_⟩
        intro p hp q hq
        simp only [List.mem_singleton] at hq
        subst hq
        simp only [List.any_eq_true, decide_eq_true_eq, not_exists, not_and, not_or] at hn
        exact hn p hp

theorem oneToOne_updates {us : List Update} {m m' : TxMap} (h : OneToOne m)
    (hr : runUpdates us m = .ok m') : OneToOne m' := by
  induction us generalizing m with
  | nil => simp only [runUpdates, Res.ok.injEq] at hr; subst hr; exact h
  | cons x r ih =>
    simp only [runUpdates] at hr
    cases h1 : x.run m with
    | ok m1 => rw [h1] at hr; exact ih (oneToOne_run h h1) hr
    | err e => rw [h1] at hr; cases hr
    | panic => rw [h1] at hr; cases hr

/-- C59: after any sequence of updates the map is one to one, so neither lookup fails, and the two
lookups are inverse. -/
theorem C59_one_to_one {us : List Update} {m : TxMap} (hr : runUpdates us [] = .ok m) :
    (∀ tx, ∃ o, m.get tx = .ok o) ∧ (∀ u, ∃ o, m.getTx u = .ok o) ∧
    ∀ tx u, m.get tx = .ok (some u) ↔ m.getTx u = .ok (some tx) := by
  have h : OneToOne m := oneToOne_updates (by simp [OneToOne]) hr
  exact ⟨get_ok h, getTx_ok h, fun tx u => by rw [get_iff h, getTx_iff h]⟩

theorem mem_set {m : TxMap} {tx tx' : Entid} {u u' : Nat} :
    (tx', u') ∈ m.set tx u ↔ (tx' = tx ∧ u' = u) ∨ (tx' ≠ tx ∧ u' ≠ u ∧ (tx', u') ∈ m) := by
  unfold TxMap.set
  simp only [List.mem_append, List.mem_filter, decide_eq_true_eq, List.mem_singleton, Prod.mk.injEq]
  constructor
  · rintro (⟨h1, h2, h3⟩ | h)
    · exact Or.inr ⟨h2, h3, h1⟩
    · exact Or.inl h
  · rintro (h | ⟨h1, h2, h3⟩)
    · exact Or.inr h
    · exact Or.inl ⟨h3, h1, h2⟩

/-- C59, the most recent mapping wins: after more updates, mapping `tx` to `u` makes exactly that
pair correspond and leaves every other pair that shares neither side. -/
theorem C59_latest {us : List Update} {m : TxMap} (hr : runUpdates us [] = .ok m) (tx : Entid) (u : Nat) :
    (m.set tx u).get tx = .ok (some u) ∧ (m.set tx u).getTx u = .ok (some tx) ∧
    ∀ tx' u', tx' ≠ tx → u' ≠ u →
      ((m.set tx u).get tx' = .ok (some u') ↔ m.get tx' = .ok (some u')) := by
  have h : OneToOne m := oneToOne_updates (by simp [OneToOne]) hr
  refine ⟨(get_iff (h.set tx u) _ _).2 (mem_set.2 (Or.inl ⟨rfl, rfl⟩)),
    (getTx_iff (h.set tx u) _ _).2 (mem_set.2 (Or.inl ⟨rfl, rfl⟩)), ?_⟩
  intro tx' u' h1 h2
  rw [get_iff (h.set tx u), get_iff h, mem_set]
  constructor
  · rintro (⟨h3, -⟩ | ⟨-, -, h3⟩)
    · exact absurd h3 h1
    · exact h3
  · exact fun h3 => Or.inr ⟨h1, h2, h3⟩

/-- Remapping a transaction and reusing its old UUID. -/
theorem C59_example : runUpdates [.set [(1, 10), (2, 20)], .getOrSet 3 30, .set [(1, 11), (4, 20)]] [] =
    .ok [(3, 30), (1, 11), (4, 20)] := by decide

end Mentat.Sync
