import Verif.Proofs.CacheInv
import Verif.Proofs.SessionRun
import Verif.Proofs.Late
/- C21 (a failed transaction has no effect), C42 (connection metadata moves only at commit). -/
namespace Mentat

/-! ### Outcomes -/

theorem commitTo_no_err {p : ProgCache} {d : Caches} {b : Bool} {e : Err} : p.commitTo d b ≠ .err e := by
  unfold ProgCache.commitTo
  split
  · simp
  · split <;> simp

theorem accumulateRuns_no_err {fb : Option Caches} {s b} {e : Err} :
    ∀ {l c}, Caches.accumulateRuns fb s b l c ≠ .err e := by
  intro l
  induction l with
  | nil => intro c; simp [Caches.accumulateRuns]
  | cons r rest ih =>
    intro c
    rw [Caches.accumulateRuns]
    cases h : c.accumulateRun fb s b r with
    | ok k => exact ih
    | panic => simp [Res.bind]
    | err er =>
      exfalso
      unfold Caches.accumulateRun at h
      split at h
      · simp at h
      · simp only at h; split at h <;> simp at h

theorem watch_no_err {p : ProgCache} {s shown} {e : Err} : p.watch s shown ≠ .err e := by
  unfold ProgCache.watch ProgCache.update Caches.update Caches.accumulate
  simp only
  generalize runs _ = l1
  generalize runs _ = l2
  cases h1 : Caches.accumulateRuns (some p.inner) s .remove l1 p.overlay with
  | err er => exact absurd h1 accumulateRuns_no_err
  | panic => simp [Res.bind]
  | ok c1 =>
    simp only [Res.bind]
    cases h2 : Caches.accumulateRuns (some p.inner) s (.add false) l2 c1 with
    | err er => exact absurd h2 accumulateRuns_no_err
    | panic => simp
    | ok c2 => simp

/-- The state a failed `transact` leaves. -/
theorem InProgress.transact_fail {p p' : InProgress} {now terms ids e}
    (h : p.transact now terms ids = (.err e, p')) :
    transactTerms p.db now terms ids = .err e ∧
    ((transactRun p.db now terms ids).done = none →
      p' = { p with store := (transactRun p.db now terms ids).store
                    views := (transactRun p.db now terms ids).views
                    collected := ((transactRun p.db now terms ids).shown.map (·.a)).foldl setInsert p.collected }) := by
  unfold InProgress.transact at h
  simp only at h
  cases hd : (transactRun p.db now terms ids).done with
  | none =>
    rw [hd] at h
    simp only at h
    cases hres : (transactRun p.db now terms ids).result with
    | ok x => rw [hres] at h; simp at h
    | panic => rw [hres] at h; simp at h
    | err er =>
      rw [hres] at h
      simp only [Prod.mk.injEq, Res.err.injEq] at h
      rw [transactRun_result] at hres
      exact ⟨h.1 ▸ hres, fun _ => h.2.symm⟩
  | some tx =>
    rw [hd] at h
    simp only at h
    cases hw : p.cache.watch p.schema (transactRun p.db now terms ids).shown with
    | err er => exact absurd hw watch_no_err
    | panic => rw [hw] at h; simp [Res.bind] at h
    | ok k =>
      rw [hw] at h
      simp only [Res.bind] at h
      cases hres : (transactRun p.db now terms ids).result with
      | ok x => rw [hres] at h; simp at h
      | panic => rw [hres] at h; simp at h
      | err er =>
        rw [hres] at h
        simp only [Prod.mk.injEq, Res.err.injEq] at h
        rw [transactRun_result] at hres
        exact ⟨h.1 ▸ hres, by simp⟩

/-! ### C21 -/

/-- C21 for `Conn::transact`: an error leaves the connection as it was, whatever the stage. -/
theorem C21_conn {c c' : Conn} {now terms ids e} (h : c.transact now terms ids = (.err e, c')) :
    c' = c := by
  unfold Conn.transact at h
  split at h
  · rename_i rep p hp
    split at h
    · simp at h
    · rename_i er c1 hc
      obtain ⟨_, _, _, _, hg⟩ := InProgress.transact_ok hp
      have hg : p.generation = c.generation := hg
      unfold Conn.commit at hc
      rw [if_neg (by simp [hg])] at hc
      simp only at hc
      split at hc
      · simp at hc
      · rename_i hx; exact absurd hx commitTo_no_err
      · simp at hc
    · simp at h
  · simp only [Prod.mk.injEq] at h; exact h.2.symm
  · simp at h

/-- C21 inside a transaction in progress, for the errors of the transactor's own checks: type and
cardinality errors, conflicting upserts, unsupported input.  Nothing at all has changed. -/
theorem C21_checks_partial {p p' : InProgress} {now terms ids e}
    (h : p.transact now terms ids = (.err e, p'))
    (he : e = .typeDisagreements ∨ e = .cardinalityConflicts ∨ e = .conflictingUpserts ∨
      e = .notYetImplemented) : p' = p := by
  obtain ⟨ht, hp⟩ := InProgress.transact_fail h
  rcases transactRun_err ht with ⟨h1, h2, h3, h4⟩ | ⟨h1, -⟩ | ⟨hl, -⟩
  · rw [hp h4, h1, h2, h3]; rfl
  · subst h1; simp at he
  · exfalso
    rcases he with rfl | rfl | rfl | rfl <;> simp [Res.Late] at hl

/-- C21 inside a transaction in progress, for every error: the schema and the partition map are those
of before; when the write was refused by a constraint, so are the log, the caches, the tables of the
schema and what observers will be told, and no datom was added. -/
theorem C21_inProgress_partial {p p' : InProgress} {now terms ids e}
    (h : p.transact now terms ids = (.err e, p')) :
    p'.schema = p.schema ∧ p'.parts = p.parts ∧ p'.generation = p.generation ∧
    (e = .sqlConstraint → p'.store.log = p.store.log ∧ p'.cache = p.cache ∧ p'.views = p.views ∧
      p'.txes = p.txes ∧ ∀ r ∈ p'.store.rows, r ∈ p.store.rows) := by
  obtain ⟨h1, h2, h3, -⟩ := InProgress.transact_err h
  refine ⟨h1, h2, h3, ?_⟩
  rintro rfl
  obtain ⟨ht, hp⟩ := InProgress.transact_fail h
  rcases transactRun_err ht with ⟨k1, k2, -, k4⟩ | ⟨-, k2, k3, k4, qs, -, k6⟩ | ⟨hl, -⟩
  · rw [hp k4]
    exact ⟨by show (transactRun p.db now terms ids).store.log = _; rw [k1]; rfl, rfl, k2, rfl,
      fun r hr => by
        have hr : r ∈ (transactRun p.db now terms ids).store.rows := hr
        rw [k1] at hr; exact hr⟩
  · rw [hp k4]
    refine ⟨k2, rfl, k3, rfl, fun r hr => ?_⟩
    have hr : r ∈ (transactRun p.db now terms ids).store.rows := hr
    rw [k6] at hr
    unfold Store.applyLeft at hr
    simp only at hr
    split at hr
    · exact hr
    · unfold deleteRows at hr
      exact (List.mem_filter.mp hr).1
  · simp [Res.Late] at hl

/-- Two entities with identities. -/
def twoIds : COp := .session [.tx dataTx, .tx ([addT "f" xId (str "m")], [tid "f"])]

/-- A failing check inside a session with work in it. -/
theorem C21_example : ∃ c p p', Connected xOne AnyTx c ∧ Session xOne AnyTx c p ∧
    p.transact 0 [addE e1 xMany (str "no")] [] = (.err .typeDisagreements, p') ∧
    Has p.store.rows e1 xOne (str "b") := by
  obtain ⟨c, p, hc, hs, hp⟩ := session_of_setup (a := xOne) (Q := AnyTx) (Qb := fun _ _ _ => true)
    (fun _ _ _ _ => trivial) [twoIds] [.tx changeTx]
    (pr := fun _ p => (match p.transact 0 [addE e1 xMany (str "no")] [] with
      | (.err .typeDisagreements, _) => true
      | _ => false) && hasB p.db e1 xOne (str "b")) (by decide +kernel)
  rw [Bool.and_eq_true, hasB_iff] at hp
  obtain ⟨h1, h2⟩ := hp
  split at h1
  · rename_i p' ht
    exact ⟨c, p, p', hc, hs, ht, h2⟩
  · simp at h1

/-- The full C21 fails inside a transaction in progress: when the write is refused because of a unique
value, the values that were to be replaced are already deleted; if the session then commits, they are
lost without a trace in the log. -/
theorem C21_fails : ∃ c p p' txes c', Connected xOne AnyTx c ∧ Session xOne AnyTx c p ∧
    p.transact 0 [addE e1 xOne (str "b"), addE 65540 xId (str "k")] [] = (.err .sqlConstraint, p') ∧
    c.commit p' = (.ok txes, c') ∧ Has c.store.rows e1 xOne (str "a") ∧
    (∀ v, ¬ Has c'.store.rows e1 xOne v) ∧ c'.store.log = c.store.log := by
  obtain ⟨c, p, hc, hs, hp⟩ := session_of_setup (a := xOne) (Q := AnyTx) (Qb := fun _ _ _ => true)
    (fun _ _ _ _ => trivial) [twoIds] []
    (pr := fun c p => match p.transact 0 [addE e1 xOne (str "b"), addE 65540 xId (str "k")] [] with
      | (.err .sqlConstraint, p') =>
        match c.commit p' with
        | (.ok _, c') => hasB c.db e1 xOne (str "a") &&
            (c'.store.rows.all fun r => decide (¬ (r.e = e1 ∧ r.a = xOne))) &&
            decide (c'.store.log = c.store.log)
        | _ => false
      | _ => false) (by decide +kernel)
  split at hp
  · rename_i p' ht
    split at hp
    · rename_i txes c' hcm
      simp only [Bool.and_eq_true, decide_eq_true_eq, List.all_eq_true, hasB_iff] at hp
      refine ⟨c, p, p', txes, c', hc, hs, ht, hcm, hp.1.1, ?_, hp.2⟩
      rintro v ⟨r, hr, h1, h2, -⟩
      exact hp.1.2 r hr ⟨h1, h2⟩
    · simp at hp
  · simp at hp

/-- The full C21 fails inside a transaction in progress: when a change of the schema is refused, the
datoms of the transaction and its log are already written, and its id is not used up: the next
transaction has the same one. -/
theorem C21_fails_metadata : ∃ c p p' rep p'', Connected xOne AnyTx c ∧ Session xOne AnyTx c p ∧
    p.transact 0 [addE e1 xMany (.long 7), addE xMany DB_CARDINALITY (.ref DB_CARDINALITY_ONE)] [] =
      (.err .schemaAlterationFailed, p') ∧
    ¬ Has p.store.rows e1 xMany (.long 7) ∧ Has p'.store.rows e1 xMany (.long 7) ∧
    p'.transact 0 [addE e1 xMany (.long 8)] [] = (.ok rep, p'') ∧
    (∃ r ∈ p'.store.log, r.tx = rep.txId) := by
  obtain ⟨c, p, hc, hs, hp⟩ := session_of_setup (a := xOne) (Q := AnyTx) (Qb := fun _ _ _ => true)
    (fun _ _ _ _ => trivial) [twoIds] []
    (pr := fun c p => match p.transact 0 [addE e1 xMany (.long 7),
        addE xMany DB_CARDINALITY (.ref DB_CARDINALITY_ONE)] [] with
      | (.err .schemaAlterationFailed, p') =>
        match p'.transact 0 [addE e1 xMany (.long 8)] [] with
        | (.ok rep, _) => !hasB p.db e1 xMany (.long 7) && hasB p'.db e1 xMany (.long 7) &&
            (p'.store.log.any fun r => decide (r.tx = rep.txId))
        | _ => false
      | _ => false) (by decide +kernel)
  split at hp
  · rename_i p' ht
    split at hp
    · rename_i rep p'' hcm
      simp only [Bool.and_eq_true, decide_eq_true_eq, List.any_eq_true, hasB_iff] at hp
      refine ⟨c, p, p', rep, p'', hc, hs, ht, ?_, hp.1.2, hcm, hp.2⟩
      intro hn
      have := hp.1.1
      rw [hasB_iff.mpr hn] at this
      simp at this
    · simp at hp
  · simp at hp

/-! ### C42 -/

theorem step1_generation {p p' : InProgress} (h : Step1 p p') : p'.generation = p.generation := by
  cases h with
  | transact h => obtain ⟨_, _, _, _, hg⟩ := InProgress.transact_ok h; exact hg
  | failed h => exact (InProgress.transact_err h).2.2.1
  | savepoint name => rfl
  | rollbackTo h =>
    unfold InProgress.rollbackTo at h
    split at h
    · obtain rfl := Res.ok.inj h; rfl
    · simp at h
  | release h =>
    unfold InProgress.release at h
    split at h
    · obtain rfl := Res.ok.inj h; rfl
    · simp at h
  | @register _ a d h =>
    unfold InProgress.register at h
    cases hr : p.cache.register p.schema p.store.rows a d with
    | ok k => rw [hr] at h; obtain rfl := Res.ok.inj h; rfl
    | err e => rw [hr] at h; simp [Res.bind] at h
    | panic => rw [hr] at h; simp [Res.bind] at h
  | unregister a => rfl

theorem commit_err {c c' : Conn} {p : InProgress} {e} (h : c.commit p = (.err e, c')) :
    p.generation ≠ c.generation ∧ c' = c := by
  unfold Conn.commit at h
  split at h
  · rename_i hg
    simp only [Prod.mk.injEq] at h
    exact ⟨hg, h.2.symm⟩
  · simp only at h
    split at h
    · simp at h
    · rename_i hx; exact absurd hx commitTo_no_err
    · simp at h

theorem commit_step {c c' : Conn} {p : InProgress} {txes} (h : c.commit p = (.ok txes, c')) :
    p.generation = c.generation ∧ c'.generation = c.generation + 1 ∧ c'.schema = p.schema ∧
    c'.parts = p.parts ∧ c'.store = p.store ∧ c'.views = p.views := by
  unfold Conn.commit at h
  split at h
  · simp at h
  · rename_i hg
    simp only at h
    split at h
    · simp only [Prod.mk.injEq] at h
      obtain ⟨-, rfl⟩ := h
      exact ⟨Decidable.not_not.mp hg, rfl, rfl, rfl, rfl, rfl⟩
    · simp at h
    · simp at h

/-- The events since transaction `i` last began. -/
def since (i : Nat) (t : List Event) : List Event :=
  t.takeWhile fun ev => match ev with
    | .began j => decide (j ≠ i)
    | _ => true

def commits (t : List Event) : Nat := (t.filter Event.isCommit).length

theorem commits_cons (ev : Event) (t : List Event) :
    commits (ev :: t) = (if ev.isCommit then 1 else 0) + commits t := by
  unfold commits
  rw [List.filter_cons]
  split <;> simp [Nat.add_comm]

/-- The schema last committed, or else the one the connection was opened with. -/
def lastSchema (s0 : Schema) : List Event → Schema
  | [] => s0
  | .committed _ s :: _ => s
  | _ :: t => lastSchema s0 t

/-- C42, generations: the generation counts the commits, neither more nor less. -/
theorem C42_generation {c0 c : Conn} {t o} (h : History1 c0 t c o) :
    c.generation = c0.generation + commits t := by
  induction h with
  | start => simp [commits]
  | began i h hn ih => simpa [commits_cons, Event.isCommit] using ih
  | worked h hp hs ih => simpa [commits_cons, Event.isCommit] using ih
  | committed h hp hc ih =>
    rw [(commit_step hc).2.1, ih]
    simp [commits_cons, Event.isCommit]; omega
  | refused h hp hc ih =>
    rw [(commit_err hc).2, ih]
    simp [commits_cons, Event.isCommit]
  | dropped h hp ih => simpa [commits_cons, Event.isCommit] using ih
  | read h ih => simpa [commits_cons, Event.isCommit] using ih

/-- An open transaction has the generation of its beginning. -/
theorem open_generation {c0 c : Conn} {t o} (h : History1 c0 t c o) :
    ∀ i p, o i = some p → p.generation + commits (since i t) = c.generation := by
  induction h with
  | start => simp
  | began i h hn ih =>
    intro j p hj
    by_cases hji : j = i
    · subst hji
      simp only [if_true, Option.some.injEq] at hj
      subst hj
      simp [since, commits, Conn.begin]
    · simp only [if_neg hji] at hj
      have := ih j p hj
      have hs : since j (.began i :: ‹List Event›) = .began i :: since j ‹List Event› := by
        simp [since, Ne.symm hji]
      rw [hs]
      simpa [commits_cons, Event.isCommit] using this
  | @worked t c o i p p' h hp hs ih =>
    intro j q hj
    have hsn : since j (.worked i :: t) = .worked i :: since j t := by simp [since]
    rw [hsn]
    have key : ∀ q, o j = some q → q.generation + commits (.worked i :: since j t) = c.generation := by
      intro q hq
      simpa [commits_cons, Event.isCommit] using ih j q hq
    by_cases hji : j = i
    · subst hji
      simp only [if_true, Option.some.injEq] at hj
      subst hj
      rw [step1_generation hs]
      exact key p hp
    · simp only [if_neg hji] at hj
      exact key q hj
  | @committed t c o i p txes c' h hp hc ih =>
    intro j q hj
    by_cases hji : j = i
    · simp [hji] at hj
    · simp only [if_neg hji] at hj
      have hsn : since j (.committed i p.schema :: t) = .committed i p.schema :: since j t := by
        simp [since]
      rw [hsn, (commit_step hc).2.1, ← ih j q hj]
      simp [commits_cons, Event.isCommit]; omega
  | @refused t c o i p e c' h hp hc ih =>
    intro j q hj
    by_cases hji : j = i
    · simp [hji] at hj
    · simp only [if_neg hji] at hj
      have hsn : since j (.refused i :: t) = .refused i :: since j t := by simp [since]
      rw [hsn, (commit_err hc).2, ← ih j q hj]
      simp [commits_cons, Event.isCommit]
  | @dropped t c o i p h hp ih =>
    intro j q hj
    by_cases hji : j = i
    · simp [hji] at hj
    · simp only [if_neg hji] at hj
      have hsn : since j (.dropped i :: t) = .dropped i :: since j t := by simp [since]
      rw [hsn, ← ih j q hj]
      simp [commits_cons, Event.isCommit]
  | @read t c o h ih =>
    intro j q hj
    have hsn : since j (.read c.schema :: t) = .read c.schema :: since j t := by simp [since]
    rw [hsn, ← ih j q hj]
    simp [commits_cons, Event.isCommit]

/-- C42, stale snapshots: a transaction commits only if nothing else was committed since it began, and
is refused only if something was; then the connection is as before. -/
theorem C42_stale {c0 c : Conn} {t o i p r c'} (h : History1 c0 t c o) (hp : o i = some p)
    (hc : c.commit p = (r, c')) :
    (∀ txes, r = .ok txes → commits (since i t) = 0) ∧
    (∀ e, r = .err e → 0 < commits (since i t) ∧ c' = c) := by
  have hg := open_generation h i p hp
  constructor
  · rintro txes rfl
    have := (commit_step hc).1
    omega
  · rintro e rfl
    have := commit_err hc
    exact ⟨by omega, this.2⟩

/-- C42, readers: between events readers see the schema of the last commit. -/
theorem C42_readers {c0 c : Conn} {t o} (h : History1 c0 t c o) : c.schema = lastSchema c0.schema t := by
  induction h with
  | start => rfl
  | began i h hn ih => exact ih
  | worked h hp hs ih => exact ih
  | committed h hp hc ih => exact (commit_step hc).2.2.1
  | refused h hp hc ih => rw [(commit_err hc).2]; exact ih
  | dropped h hp ih => exact ih
  | read h ih => exact ih

/-- Two interleaved transactions: the second to commit is refused. -/
theorem C42_example : ∃ c0 c t o p e, History1 c0 t c o ∧ o 1 = some p ∧ c.commit p = (.err e, c) ∧
    commits (since 1 t) = 1 ∧ c.generation = 1 := by
  have h0 := History1.start (c0 := Conn.connect setupDb)
  have h1 := h0.began 0 rfl
  have h2 := h1.began 1 rfl
  obtain ⟨rep, p', hw⟩ : ∃ rep p', (Conn.connect setupDb).begin.transact 0 dataTx.1 dataTx.2 = (.ok rep, p') := by
    have : (match (Conn.connect setupDb).begin.transact 0 dataTx.1 dataTx.2 with
      | (.ok _, _) => true
      | _ => false) = true := by decide +kernel
    split at this
    · exact ⟨_, _, ‹_›⟩
    · simp at this
  have h3 := h2.worked (i := 0) (p' := p') rfl (Step1.transact hw)
  obtain ⟨_, _, _, _, hg⟩ := InProgress.transact_ok hw
  obtain ⟨txes, c', hc⟩ : ∃ txes c', (Conn.connect setupDb).commit p' = (.ok txes, c') := by
    unfold Conn.commit
    rw [if_neg (by rw [hg]; simp [Conn.begin])]
    exact ⟨_, _, rfl⟩
  have h4 := h3.committed (i := 0) rfl hc
  have hg' : c'.generation = 1 := (commit_step hc).2.1
  refine ⟨_, c', _, _, (Conn.connect setupDb).begin, .other, h4, rfl, ?_, rfl, hg'⟩
  unfold Conn.commit
  rw [if_pos (by rw [hg']; simp [Conn.begin, Conn.connect])]

/-- Readers of the last committed schema can see an attribute whose installation was rolled back to a
savepoint: the rollback undoes the tables only.  (The committed schema is not that of the committed
datoms.) -/
theorem C42_savepoint_leak : ∃ db t c o at_, ReachKept db ∧ History1 (Conn.connect db) t c o ∧
    c.schema.attr 65539 = some at_ ∧ ∀ a v, ¬ Has c.store.rows 65539 a v := by
  let n : Text := "s".toList
  have hb : (match ((Conn.connect setupDb).begin.savepoint n).transact 0
        (install "new" DB_TYPE_LONG DB_CARDINALITY_ONE) [tid "new"] with
      | (.ok _, p2) => match p2.rollbackTo n with
        | .ok p3 => match (Conn.connect setupDb).commit p3 with
          | (.ok _, c') => (c'.schema.attr 65539).isSome &&
              c'.store.rows.all fun r => decide (r.e ≠ 65539)
          | _ => false
        | _ => false
      | _ => false) = true := by decide +kernel
  have h1 := (History1.start (c0 := Conn.connect setupDb)).began 0 rfl
  have h2 := h1.worked (i := 0) rfl (Step1.savepoint _ n)
  split at hb
  · rename_i rep p2 hp2
    have h3 := h2.worked (i := 0) rfl (Step1.transact hp2)
    split at hb
    · rename_i p3 hp3
      have h4 := h3.worked (i := 0) rfl (Step1.rollbackTo hp3)
      split at hb
      · rename_i txes c' hc
        have h5 := h4.committed (i := 0) rfl hc
        rw [Bool.and_eq_true, Option.isSome_iff_exists, List.all_eq_true] at hb
        obtain ⟨⟨at_, hat⟩, hall⟩ := hb
        refine ⟨setupDb, _, c', _, at_, reachKept_setup, h5, hat, ?_⟩
        rintro a v ⟨r, hr, he, -⟩
        have := hall r hr
        simp [he] at this
      · simp at hb
    · simp at hb
  · simp at hb

/-- The generation protects one `Conn` only.  With two connections on one file, the second commits
over the first from its stale metadata: its transaction gets the id of the first one's, which is
already in the log, and the readers of the second miss the attribute installed by the first. -/
theorem C42_two_connections : ∃ db rep1 txes1 c1 rep2 txes2 c2, ReachKept db ∧
    (Conn.connect db).transact 0 (install "new" DB_TYPE_LONG DB_CARDINALITY_ONE) [tid "new"] =
      (.ok (rep1, txes1), c1) ∧
    ({ Conn.connect db with store := c1.store, views := c1.views } : Conn).transact 0 dataTx.1 dataTx.2 =
      (.ok (rep2, txes2), c2) ∧
    rep2.txId = rep1.txId ∧ (∃ r ∈ c1.store.log, r.tx = rep2.txId) ∧ (c1.schema.attr 65539).isSome ∧
    c2.schema.attr 65539 = none := by
  have hb : (match (Conn.connect setupDb).transact 0 (install "new" DB_TYPE_LONG DB_CARDINALITY_ONE) [tid "new"] with
      | (.ok (rep1, _), c1) =>
        match ({ Conn.connect setupDb with store := c1.store, views := c1.views } : Conn).transact 0 dataTx.1 dataTx.2 with
        | (.ok (rep2, _), c2) => decide (rep2.txId = rep1.txId) &&
            (c1.store.log.any fun r => decide (r.tx = rep2.txId)) && (c1.schema.attr 65539).isSome &&
            decide (c2.schema.attr 65539 = none)
        | _ => false
      | _ => false) = true := by decide +kernel
  split at hb
  · rename_i rep1 txes1 c1 h1
    split at hb
    · rename_i rep2 txes2 c2 h2
      simp only [Bool.and_eq_true, decide_eq_true_eq, List.any_eq_true] at hb
      exact ⟨setupDb, rep1, txes1, c1, rep2, txes2, c2, reachKept_setup, h1, h2, hb.1.1.1, hb.1.1.2,
        hb.1.2, hb.2⟩
    · simp at hb
  · simp at hb

end Mentat
