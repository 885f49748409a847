import Verif.Model.Observer
import Verif.Props.Datoms
import Verif.Props.Session
/- C40 (observers see exactly the commits that touch their attributes), C41 (rolled-back work is never
observed). -/
namespace Mentat

/-! ### Delivery -/

/-- The batches the observer under `k` was called with, in order. -/
def told (k : Text) (s : ObsService) : List Reports :=
  s.notified.filterMap fun n => if n.1 = k then some n.2 else none

/-- What the observer under `k`, which observes `cur` now, should be told of the events to come: each
committed batch reduced to the transactions that touch its attributes, unless there is none. -/
def expected (k : Text) : Option (List Entid) → List ObsOp → List Reports
  | _, [] => []
  | cur, .register k' as_ :: ops => expected k (if k' = k then some as_ else cur) ops
  | cur, .deregister k' :: ops => expected k (if k' = k then none else cur) ops
  | some as_, .commit txes :: ops =>
    match txes.filter fun t => t.2.any fun a => decide (a ∈ as_) with
    | [] => expected k (some as_) ops
    | r => r :: expected k (some as_) ops
  | none, .commit _ :: ops => expected k none ops
  | cur, .work :: ops => expected k cur ops
  | cur, .drop :: ops => expected k cur ops

/-- What a batch means for an observer. -/
def batchFor (cur : Option (List Entid)) (txes : Reports) : List Reports :=
  match cur with
  | none => []
  | some as_ => let r := applicableReports as_ txes
    if r.isEmpty then [] else [r]

theorem expected_commit (k : Text) (cur) (txes : Reports) (ops : List ObsOp) :
    expected k cur (.commit txes :: ops) = batchFor cur txes ++ expected k cur ops := by
  cases cur with
  | none => rfl
  | some as_ =>
    rw [expected]
    unfold batchFor applicableReports
    simp only
    split
    · rename_i h; rw [h]; simp
    · rename_i r h
      rw [if_neg (by simpa using h)]
      rfl

theorem told_notifications {k : Text} : ∀ {m : AMap Text (List Entid)} {txes : Reports}, AMap.WF m →
    ((notifications m txes).filterMap fun n => if n.1 = k then some n.2 else none) =
      batchFor (AMap.get m k) txes := by
  intro m txes
  induction m with
  | nil => intro _; rfl
  | cons x r ih =>
    intro hw
    obtain ⟨k', as_⟩ := x
    have hnd : k' ∉ AMap.keys r ∧ (AMap.keys r).Nodup := by
      have : (k' :: AMap.keys r).Nodup := hw
      rw [List.nodup_cons] at this
      exact this
    have ih := ih hnd.2
    have hcons : notifications ((k', as_) :: r) txes =
        (if (applicableReports as_ txes).isEmpty then [] else [(k', applicableReports as_ txes)]) ++
          notifications r txes := by
      unfold notifications
      rw [List.filterMap_cons]
      simp only
      by_cases he : (applicableReports as_ txes).isEmpty = true
      · simp [he]
      · simp [he]
    rw [hcons, List.filterMap_append, ih]
    by_cases hk : k' = k
    · subst hk
      have hn : AMap.get r k' = none := AMap.get_eq_none_iff.mpr hnd.1
      rw [hn, AMap.get, if_pos rfl]
      unfold batchFor
      simp only [List.append_nil]
      split <;> simp
    · rw [AMap.get, if_neg hk]
      have : (List.filterMap (fun n : Text × Reports => if n.1 = k then some n.2 else none)
          (if (applicableReports as_ txes).isEmpty then [] else [(k', applicableReports as_ txes)])) = [] := by
        split <;> simp [hk]
      rw [this]
      rfl

/-- What is waiting for `k` and can still be delivered. -/
def pend (k : Text) (s : ObsService) : List Reports :=
  (s.queue.filter fun c => s.alive && decide (c.arc = s.arc)).flatMap fun c =>
    batchFor (AMap.get s.observers k) c.reports

structure ObsInv (s : ObsService) : Prop where
  wf : AMap.WF s.observers
  arcs : ∀ c ∈ s.queue, c.arc ≤ s.arc

theorem pend_makeMut {k : Text} {s : ObsService} (hi : ObsInv s) (m : AMap Text (List Entid)) :
    pend k { s.makeMut with observers := m } = [] := by
  unfold pend ObsService.makeMut
  split
  · rw [List.filter_eq_nil_iff.mpr]
    · rfl
    · intro c hc
      have := hi.arcs c hc
      simp only [Bool.and_eq_true, decide_eq_true_eq, not_and]
      intro _; omega
  · rename_i hn
    rw [List.filter_eq_nil_iff.mpr]
    · rfl
    · intro c hc
      simp only [Bool.and_eq_true, decide_eq_true_eq, not_and]
      intro _ ha
      apply hn
      rw [List.any_eq_true]
      exact ⟨c, hc, by simpa using ha⟩

theorem makeMut_inv {s : ObsService} (hi : ObsInv s) {m : AMap Text (List Entid)} (hm : AMap.WF m) :
    ObsInv { s.makeMut with observers := m } := by
  refine ⟨hm, ?_⟩
  intro c hc
  unfold ObsService.makeMut at hc ⊢
  split
  · rename_i h
    rw [if_pos h] at hc
    have := hi.arcs c hc
    show c.arc ≤ s.arc + 1
    omega
  · rename_i h
    rw [if_neg h] at hc
    exact hi.arcs c hc

theorem told_makeMut {k : Text} {s : ObsService} (m : AMap Text (List Entid)) :
    told k { s.makeMut with observers := m } = told k s := by
  unfold told ObsService.makeMut
  split <;> rfl

theorem obsStep_inv {s : ObsService} (hi : ObsInv s) (op : ObsOp) : ObsInv (s.step op) := by
  cases op with
  | register k as_ => exact makeMut_inv hi (AMap.wf_insert hi.wf k as_)
  | deregister k => exact makeMut_inv hi (AMap.wf_erase hi.wf k)
  | commit txes =>
    show ObsInv (s.didCommit txes)
    unfold ObsService.didCommit
    split
    · exact hi
    · refine ⟨hi.wf, ?_⟩
      intro c hc
      rcases List.mem_append.mp hc with hc | hc
      · exact hi.arcs c hc
      · rw [List.mem_singleton] at hc
        subst hc
        exact Nat.le_refl _
  | work =>
    show ObsInv s.work
    unfold ObsService.work
    split
    · exact hi
    · rename_i c rest hq
      have : ∀ x ∈ rest, x.arc ≤ s.arc := fun x hx => hi.arcs x (by rw [hq]; exact List.mem_cons_of_mem _ hx)
      split
      · exact ⟨hi.wf, this⟩
      · exact ⟨hi.wf, this⟩
  | drop => exact ⟨hi.wf, hi.arcs⟩

/-- What is delivered or can still be, after one event. -/
def news (k : Text) (s : ObsService) : ObsOp → List Reports
  | .commit txes => if s.alive then batchFor (AMap.get s.observers k) txes else []
  | _ => []

theorem told_step {k : Text} {s : ObsService} (hi : ObsInv s) (op : ObsOp) :
    (told k (s.step op) ++ pend k (s.step op)).Sublist (told k s ++ pend k s ++ news k s op) ∧
    ((match op with
      | .register _ _ => s.queue = []
      | .deregister _ => s.queue = []
      | .drop => s.queue = []
      | _ => True) →
      told k (s.step op) ++ pend k (s.step op) = told k s ++ pend k s ++ news k s op) := by
  have hnil : s.queue = [] → pend k s = [] := by intro h; unfold pend; rw [h]; rfl
  cases op with
  | register k' as_ =>
    have h1 : told k (s.step (.register k' as_)) = told k s := told_makeMut _
    have h2 : pend k (s.step (.register k' as_)) = [] := pend_makeMut hi _
    rw [h1, h2]
    refine ⟨by simp [news], fun hq => by rw [hnil hq]; simp [news]⟩
  | deregister k' =>
    have h1 : told k (s.step (.deregister k')) = told k s := told_makeMut _
    have h2 : pend k (s.step (.deregister k')) = [] := pend_makeMut hi _
    rw [h1, h2]
    refine ⟨by simp [news], fun hq => by rw [hnil hq]; simp [news]⟩
  | commit txes =>
    have key : told k (s.didCommit txes) ++ pend k (s.didCommit txes) =
        told k s ++ pend k s ++ news k s (.commit txes) := by
      unfold ObsService.didCommit
      split
      · rename_i he
        have : AMap.get s.observers k = none := by
          cases ho : s.observers with
          | nil => rfl
          | cons x r => rw [ho] at he; simp at he
        simp [news, this, batchFor]
      · unfold pend news told
        simp only
        rw [List.filter_append, List.flatMap_append]
        cases hb : s.alive <;> simp
    exact ⟨by show List.Sublist (told k (s.didCommit txes) ++ _) _; rw [← key]; exact List.Sublist.refl _,
      fun _ => key⟩
  | work =>
    have key : told k s.work ++ pend k s.work = told k s ++ pend k s ++ news k s .work := by
      unfold ObsService.work
      split
      · simp [news]
      · rename_i c rest hq
        have hp : pend k s = (if s.alive && decide (c.arc = s.arc) then
            batchFor (AMap.get s.observers k) c.reports else []) ++ pend k { s with queue := rest } := by
          unfold pend
          rw [hq, List.filter_cons]
          split <;> simp
        split
        · rename_i hc
          rw [hp, if_pos hc]
          have : told k { s with queue := rest, notified := s.notified ++ notifications s.observers c.reports } =
              told k s ++ batchFor (AMap.get s.observers k) c.reports := by
            unfold told
            rw [List.filterMap_append, told_notifications hi.wf]
          rw [this]
          simp only [news, List.append_nil, List.append_assoc]
          rfl
        · rename_i hc
          rw [hp, if_neg hc]
          simp only [news, List.append_nil, List.nil_append]
          rfl
    exact ⟨by show List.Sublist (told k s.work ++ _) _; rw [← key]; exact List.Sublist.refl _,
      fun _ => key⟩
  | drop =>
    have h1 : told k (s.step .drop) = told k s := rfl
    have h2 : pend k (s.step .drop) = [] := by
      unfold pend
      rw [List.filter_eq_nil_iff.mpr]
      · rfl
      · intro c hc
        show ¬ ((false && _) = true)
        simp
    rw [h1, h2]
    refine ⟨by simp [news], fun hq => by rw [hnil hq]; simp [news]⟩

theorem get_step {k : Text} {s : ObsService} (ops : List ObsOp) (op : ObsOp) :
    expected k (AMap.get s.observers k) (op :: ops) =
      (match op with
        | .commit txes => batchFor (AMap.get s.observers k) txes
        | _ => []) ++ expected k (AMap.get (s.step op).observers k) ops := by
  cases op with
  | register k' as_ =>
    rw [expected]
    show _ = [] ++ expected k (AMap.get (AMap.insert s.observers k' as_) k) ops
    rw [AMap.get_insert]
    rfl
  | deregister k' =>
    rw [expected]
    show _ = [] ++ expected k (AMap.get (AMap.erase s.observers k') k) ops
    rw [AMap.get_erase]
    rfl
  | commit txes =>
    rw [expected_commit]
    have : (s.step (.commit txes)).observers = s.observers := by
      show (s.didCommit txes).observers = _
      unfold ObsService.didCommit
      split <;> rfl
    rw [this]
  | work =>
    have : (s.step .work).observers = s.observers := by
      show s.work.observers = _
      unfold ObsService.work
      split
      · rfl
      · split <;> rfl
    rw [this]
    cases AMap.get s.observers k <;> rfl
  | drop =>
    have : (s.step .drop).observers = s.observers := rfl
    rw [this]
    cases AMap.get s.observers k <;> rfl

theorem told_run_sub {k : Text} : ∀ (ops : List ObsOp) {s : ObsService}, ObsInv s →
    (told k (s.run ops)).Sublist (told k s ++ pend k s ++ expected k (AMap.get s.observers k) ops) := by
  intro ops
  induction ops with
  | nil => intro s _; rw [List.append_assoc]; exact List.sublist_append_left _ _
  | cons op ops ih =>
    intro s hi
    have h := ih (obsStep_inv hi op)
    refine List.Sublist.trans (l₂ := told k (s.step op) ++ pend k (s.step op) ++
      expected k (AMap.get (s.step op).observers k) ops) h ?_
    rw [get_step, ← List.append_assoc]
    refine List.Sublist.append ?_ (List.Sublist.refl _)
    refine (told_step hi op).1.trans (List.Sublist.append (List.Sublist.refl _) ?_)
    cases op with
    | commit txes =>
      simp only [news]
      split
      · exact List.Sublist.refl _
      · exact List.nil_sublist _
    | _ => exact List.Sublist.refl _

/-- C40, soundness, for every schedule: whatever the observer under `k` is told is part of what it
should be told, each batch reduced to the transactions touching its attributes as registered at the
commit, and in the order of the commits. -/
theorem C40_sound (k : Text) (ops : List ObsOp) :
    (told k (ObsService.run {} ops)).Sublist (expected k none ops) := by
  have := told_run_sub (k := k) ops (s := {}) ⟨by simp [AMap.WF, AMap.keys], by simp⟩
  simpa [told, pend, AMap.get] using this

/-- No batch is waiting when observers are registered or deregistered, and the connection is alive. -/
def Calm (s : ObsService) (ops : List ObsOp) : Prop :=
  ∀ pre op post, ops = pre ++ op :: post → match op with
    | .register _ _ => (s.run pre).queue = []
    | .deregister _ => (s.run pre).queue = []
    | .drop => False
    | _ => True

theorem told_run_eq {k : Text} : ∀ (ops : List ObsOp) {s : ObsService}, ObsInv s → s.alive = true →
    Calm s ops → told k (s.run ops) ++ pend k (s.run ops) =
      told k s ++ pend k s ++ expected k (AMap.get s.observers k) ops := by
  intro ops
  induction ops with
  | nil => intro s _ _ _; simp [ObsService.run, expected]
  | cons op ops ih =>
    intro s hi ha hc
    have hop := hc [] op ops rfl
    have ha' : (s.step op).alive = true := by
      cases op with
      | register k' as_ =>
        show (s.makeMut).alive = true
        unfold ObsService.makeMut; split <;> exact ha
      | deregister k' =>
        show (s.makeMut).alive = true
        unfold ObsService.makeMut; split <;> exact ha
      | commit txes =>
        show (s.didCommit txes).alive = true
        unfold ObsService.didCommit; split <;> exact ha
      | work =>
        show s.work.alive = true
        unfold ObsService.work
        split
        · exact ha
        · split <;> exact ha
      | drop => exact absurd hop (by simp)
    have hc' : Calm (s.step op) ops := by
      intro pre o post h
      have := hc (op :: pre) o post (by rw [h]; rfl)
      exact this
    have h := ih (obsStep_inv hi op) ha' hc'
    show told k ((s.step op).run ops) ++ pend k ((s.step op).run ops) = _
    rw [h, get_step, (told_step hi op).2 ?_]
    · rw [← List.append_assoc]
      congr 2
      cases op with
      | commit txes => simp [news, ha]
      | _ => rfl
    · cases op with
      | register k' as_ => exact hop
      | deregister k' => exact hop
      | drop => exact absurd hop (by simp)
      | _ => trivial

/-- C40, completeness, as far as it is true: if no batch is waiting for delivery whenever observers
are registered or deregistered, then once nothing is waiting each observer has been told exactly what
it should. -/
theorem C40_complete_partial (k : Text) (ops : List ObsOp) (hc : Calm {} ops)
    (hq : (ObsService.run {} ops).queue = []) :
    told k (ObsService.run {} ops) = expected k none ops := by
  have := told_run_eq (k := k) ops (s := {}) ⟨by simp [AMap.WF, AMap.keys], by simp⟩ rfl hc
  have hp : pend k (ObsService.run {} ops) = [] := by unfold pend; rw [hq]; rfl
  rw [hp] at this
  simpa [told, pend, AMap.get] using this

/-- Two observers, three commits, delivery lagging behind. -/
def calmOps : List ObsOp :=
  [.register "a".toList [1, 2], .register "b".toList [3], .commit [(10, [1, 9]), (11, [9])],
   .commit [(12, [3]), (13, [2, 3])], .work, .commit [(14, [9])], .work, .work]

theorem C40_example : Calm {} calmOps ∧ (ObsService.run {} calmOps).queue = [] ∧
    expected "a".toList none calmOps = [[(10, [1, 9])], [(13, [2, 3])]] ∧
    told "b".toList (ObsService.run {} calmOps) = [[(12, [3]), (13, [2, 3])]] := by
  refine ⟨?_, by decide +kernel, by decide +kernel, by decide +kernel⟩
  intro pre op post h
  rcases pre with _ | ⟨x1, _ | ⟨x2, pre⟩⟩
  · simp only [calmOps, List.nil_append, List.cons.injEq] at h
    obtain ⟨rfl, -⟩ := h
    rfl
  · simp only [calmOps, List.cons_append, List.nil_append, List.cons.injEq] at h
    obtain ⟨rfl, rfl, -⟩ := h
    rfl
  · simp only [calmOps, List.cons_append, List.cons.injEq] at h
    obtain ⟨-, -, h⟩ := h
    have : op ∈ ([.commit [(10, [1, 9]), (11, [9])],
      .commit [(12, [3]), (13, [2, 3])], .work, .commit [(14, [9])], .work, .work] : List ObsOp) := by
      rw [h]; simp
    simp only [List.mem_cons, List.not_mem_nil, or_false] at this
    rcases this with rfl | rfl | rfl | rfl | rfl | rfl <;> trivial

/-- The full C40 fails: registering another observer, or deregistering a name that is not even in
use, while a batch waits for delivery, loses the batch. -/
theorem C40_fails : ∃ ops, (ObsService.run {} ops).queue = [] ∧ (ObsService.run {} ops).alive = true ∧
    expected "a".toList none ops = [[(10, [1])]] ∧ told "a".toList (ObsService.run {} ops) = [] :=
  ⟨[.register "a".toList [1], .commit [(10, [1])], .deregister "zz".toList, .work],
    by decide +kernel, by decide +kernel, by decide +kernel, by decide +kernel⟩

/-- The full C40 fails: closing the connection loses the batches that wait. -/
theorem C40_fails_drop : ∃ ops, (ObsService.run {} ops).queue = [] ∧
    expected "a".toList none ops = [[(10, [1])]] ∧ told "a".toList (ObsService.run {} ops) = [] :=
  ⟨[.register "a".toList [1], .commit [(10, [1])], .drop, .work],
    by decide +kernel, by decide +kernel, by decide +kernel⟩

/-! ### What is reported -/

theorem mem_foldl_setInsert {l acc : List Entid} {x : Entid} :
    x ∈ l.foldl setInsert acc ↔ x ∈ l ∨ x ∈ acc := by
  induction l generalizing acc with
  | nil => simp
  | cons y l ih =>
    rw [List.foldl_cons, ih, mem_setInsert, List.mem_cons]
    constructor
    · rintro (h | h | h)
      · exact Or.inl (Or.inr h)
      · exact Or.inl (Or.inl h)
      · exact Or.inr h
    · rintro ((h | h) | h)
      · exact Or.inr (Or.inl h)
      · exact Or.inl h
      · exact Or.inr (Or.inr h)

theorem InProgress.transact_txes {p p' : InProgress} {now terms ids rep}
    (h : p.transact now terms ids = (.ok rep, p')) :
    p'.txes = AMap.insert p.txes rep.txId
      (((transactRun p.db now terms ids).shown.map (·.a)).foldl setInsert p.collected) ∧
    p'.collected = [] := by
  obtain ⟨db', ht, -, hw, -⟩ := InProgress.transact_ok h
  obtain ⟨T⟩ := transact_trace ht
  unfold InProgress.transact at h
  rw [transactRun_ok T ht] at hw h
  rw [transactRun_ok T ht]
  have hw : p.cache.watch p.schema (shownOf (reducedOf p.db.schema T.t)) = .ok p'.cache := hw
  simp only [hw, Res.bind, Prod.mk.injEq] at h
  rw [← h.2]
  exact ⟨rfl, rfl⟩

/-- C40, what is reported of a transaction: every attribute of which a datom appeared or went away,
and, provided nothing was left over from a failed attempt, only attributes the transaction
mentions. -/
theorem C40_touched_partial {p p' : InProgress} {now terms ids rep}
    (h : p.transact now terms ids = (.ok rep, p')) :
    ∃ as_, AMap.get p'.txes rep.txId = some as_ ∧ p'.collected = [] ∧
      (∀ e a v, ¬ (Has p.store.rows e a v ↔ Has p'.store.rows e a v) → a ∈ as_) ∧
      (∀ a ∈ as_, a = DB_TX_INSTANT ∨ a ∈ p.collected ∨ ∃ x ∈ terms, x.a = a) := by
  obtain ⟨h1, h2⟩ := InProgress.transact_txes h
  obtain ⟨db', ht, hdb, -⟩ := InProgress.transact_ok h
  obtain ⟨T⟩ := transact_trace ht
  rw [transactRun_ok T ht] at h1
  refine ⟨_, by rw [h1, AMap.get_insert_self], h2, ?_, ?_⟩
  · intro e a v hc
    rw [mem_foldl_setInsert]
    left
    apply Classical.byContradiction
    intro hn
    apply hc
    have := (T.shownSpec a).frame e v (fun b v' hm => hn (List.mem_map.mpr ⟨_, hm, rfl⟩))
    rw [← hdb] at this
    exact this.symm
  · intro a ha
    rw [mem_foldl_setInsert] at ha
    rcases ha with ha | ha
    · obtain ⟨d, hd, rfl⟩ := List.mem_map.mp ha
      obtain ⟨q, hq, rfl⟩ := List.mem_map.mp hd
      obtain ⟨U, -, hs, -⟩ := T.terms_spec
      rcases (T.mem_queue.mp hq).2 with ⟨-, hy | hy⟩ | ⟨-, hy⟩
      · obtain ⟨x, hx, hd⟩ := hs _ hy
        exact Or.inr (Or.inr ⟨x, hx, hd.2.1.symm⟩)
      · exact Or.inl hy.1
      · obtain ⟨x, hx, hd⟩ := hs _ hy
        exact Or.inr (Or.inr ⟨x, hx, hd.2.1.symm⟩)
    · exact Or.inr (Or.inl ha)

/-! ### C41 -/

/-- A connection with its observers: sessions commit, observers are registered and deregistered, the
delivery thread works, in any order; `ops` is what the service saw.  The sessions have no rollback to
a savepoint, and failed attempts in them left nothing behind. -/
inductive Observed (a : Entid) : Conn → List ObsOp → Prop
  | connect {db} : ReachKept db → Observed a (Conn.connect db) []
  | commit {c ops p txes c'} : Observed a c ops → Session a AnyTx c p → c.commit p = (.ok txes, c') →
      Observed a c' (ops ++ [.commit txes])
  | refused {c ops p e c'} : Observed a c ops → Session a AnyTx c p → c.commit p = (.err e, c') →
      Observed a c' ops
  | service {c ops op} : Observed a c ops → (∀ txes, op ≠ .commit txes) → Observed a c (ops ++ [op])
  | register {c ops c' b d} : Observed a c ops → c.register b d = .ok c' → Observed a c' ops
  | unregister {c ops} (b) : Observed a c ops → Observed a (c.unregister b) ops
  | share {c ops} (x) : Observed a c ops → Observed a { c with shared := x } ops

theorem Observed.connected {a : Entid} {c : Conn} {ops} (h : Observed a c ops) : Connected a AnyTx c := by
  induction h with
  | connect hr => exact .connect hr
  | commit _ hs hc ih => exact .commit ih hs hc
  | refused _ _ hc ih => rw [(commit_err hc).2]; exact ih
  | service _ _ ih => exact ih
  | register _ hr ih => exact .register ih hr
  | unregister b _ ih => exact .unregister b ih
  | share x _ ih => exact .share x ih

/-- The log grows by the reported transactions. -/
theorem session_log {a : Entid} {c : Conn} {p : InProgress} (h : Connected a AnyTx c)
    (hs : Session a AnyTx c p) : (∀ l ∈ c.store.log, l ∈ p.store.log) ∧
    ∀ {t as_}, AMap.get p.txes t = some as_ →
      ∃ i, (⟨t, DB_TX_INSTANT, .instant i, t, true, 0⟩ : LogRow) ∈ p.store.log := by
  have hi : ConnInv False sSingle a c := connected_inv laws_single shaped_single
    (fun x => x.elim) (fun x => x.elim) (fills_single a) h
  induction hs with
  | begin => exact ⟨fun l hl => hl, by intro t as_ h; simp [Conn.begin] at h⟩
  | @transact p p' now terms ids rep hs hk ht hu hq ih =>
    have hr : ReachKept p.db := (session_inv laws_single shaped_single
      (fun x : False => x.elim) (fun x => x.elim) (fills_single a) hi hs).reach
    obtain ⟨db', h1, hdb, -⟩ := InProgress.transact_ok ht
    obtain ⟨-, new, hlog, -, hm, -⟩ := C18_tx_ids hr.reach hk h1
    have hlog' : p'.store.log = p.store.log ++ new := by
      have : p'.db.store.log = p.db.store.log ++ new := by rw [hdb, hlog]
      exact this
    rw [hlog']
    refine ⟨fun l hl => List.mem_append_left _ (ih.1 l hl), ?_⟩
    intro t as_ hg
    rw [(InProgress.transact_txes ht).1, AMap.get_insert] at hg
    split at hg
    · rename_i he
      subst he
      exact ⟨_, List.mem_append_right _ hm⟩
    · obtain ⟨i, hmem⟩ := ih.2 hg
      exact ⟨i, List.mem_append_left _ hmem⟩
  | failed hs ht h1 h2 h3 h4 ih =>
    rw [h1, h4]
    exact ih
  | savepoint name hs ih => exact ih
  | release name hs hr ih =>
    unfold InProgress.release at hr
    split at hr
    · obtain rfl := Res.ok.inj hr
      exact ih
    · simp at hr
  | @register p p' b d hs hr hb ih =>
    unfold InProgress.register at hr
    cases hk : p.cache.register p.schema p.store.rows b d with
    | ok k => rw [hk] at hr; obtain rfl := Res.ok.inj hr; exact ih
    | err e => rw [hk] at hr; simp [Res.bind] at hr
    | panic => rw [hk] at hr; simp [Res.bind] at hr
  | unregister b hs ih => exact ih

/-- Everything an observer should be told is in a committed batch. -/
theorem expected_mem {k : Text} {r : Reports} : ∀ {ops : List ObsOp} {cur}, r ∈ expected k cur ops →
    ∃ txes, ObsOp.commit txes ∈ ops ∧ ∀ x ∈ r, x ∈ txes := by
  intro ops
  induction ops with
  | nil => intro cur h; simp [expected] at h
  | cons op ops ih =>
    intro cur h
    have skip : ∀ cur', r ∈ expected k cur' ops → ∃ txes, ObsOp.commit txes ∈ op :: ops ∧ ∀ x ∈ r, x ∈ txes := by
      intro cur' h
      obtain ⟨txes, h1, h2⟩ := ih h
      exact ⟨txes, List.mem_cons_of_mem _ h1, h2⟩
    cases op with
    | register k' as_ => rw [expected] at h; exact skip _ h
    | deregister k' => rw [expected] at h; exact skip _ h
    | work => cases cur <;> exact skip _ h
    | drop => cases cur <;> exact skip _ h
    | commit txes =>
      rw [expected_commit, List.mem_append] at h
      rcases h with h | h
      · refine ⟨txes, List.mem_cons_self, ?_⟩
        unfold batchFor at h
        split at h
        · simp at h
        · simp only at h
          split at h
          · simp at h
          · rw [List.mem_singleton] at h
            subst h
            intro x hx
            exact (List.mem_filter.mp hx).1
      · exact skip _ h

/-- C41, as far as it is true: whatever the interleaving of sessions, (de)registrations and delivery,
every transaction an observer is told of is committed: its instant is in the committed log. -/
theorem C41_partial {a : Entid} {c : Conn} {ops : List ObsOp} (h : Observed a c ops) {k : Text}
    {r : Reports} (hr : r ∈ told k (ObsService.run {} ops)) {t : Entid} {as_ : List Entid}
    (ht : (t, as_) ∈ r) :
    ∃ i, (⟨t, DB_TX_INSTANT, .instant i, t, true, 0⟩ : LogRow) ∈ c.store.log := by
  have key : ∀ txes, ObsOp.commit txes ∈ ops → ∀ t as_, (t, as_) ∈ txes →
      ∃ i, (⟨t, DB_TX_INSTANT, .instant i, t, true, 0⟩ : LogRow) ∈ c.store.log := by
    clear hr ht
    induction h with
    | connect _ => intro txes h; simp at h
    | @commit c ops p txes c' hc hs hcm ih =>
      obtain ⟨hlog, hnew⟩ := session_log hc.connected hs
      obtain ⟨-, rfl, k, -, rfl⟩ := commit_ok hcm
      intro txes h t as_ ht
      rcases List.mem_append.mp h with h | h
      · obtain ⟨i, hi⟩ := ih txes h t as_ ht
        exact ⟨i, hlog _ hi⟩
      · rw [List.mem_singleton, ObsOp.commit.injEq] at h
        subst h
        have hk : (AMap.get p.txes t).isSome = true := by
          rw [AMap.get_isSome_iff]
          exact List.mem_map.mpr ⟨_, ht, rfl⟩
        obtain ⟨as', hg⟩ := Option.isSome_iff_exists.mp hk
        exact hnew hg
    | refused _ _ hcm ih => rw [(commit_err hcm).2]; exact ih
    | service _ hop ih =>
      intro txes h
      rcases List.mem_append.mp h with h | h
      · exact ih txes h
      · rw [List.mem_singleton] at h
        exact absurd h.symm (hop txes)
    | @register c ops c' b d _ hreg ih =>
      unfold Conn.register at hreg
      cases hk : c.cache.register c.schema c.store.rows b d with
      | ok k => rw [hk] at hreg; obtain rfl := Res.ok.inj hreg; exact ih
      | err e => rw [hk] at hreg; simp [Res.bind] at hreg
      | panic => rw [hk] at hreg; simp [Res.bind] at hreg
    | unregister b _ ih => exact ih
    | share x _ ih => exact ih
  obtain ⟨txes, h1, h2⟩ := expected_mem ((C40_sound k ops).subset hr)
  exact key txes h1 t as_ (h2 _ ht)

/-- A session with two transactions, delivered to one of two observers. -/
theorem C41_example : ∃ c ops r as_, Observed xOne c ops ∧ r ∈ told "o".toList (ObsService.run {} ops) ∧
    (TX0 + 2, as_) ∈ r := by
  obtain ⟨c, p, hc, hs, hp⟩ := session_of_setup (a := xOne) (Q := AnyTx) (Qb := fun _ _ _ => true)
    (fun _ _ _ _ => trivial) [] [.tx dataTx, .tx changeTx]
    (pr := fun c p => decide (c = Conn.connect setupDb) && match c.commit p with
      | (.ok txes, _) =>
        (told "o".toList (ObsService.run {} [.register "o".toList [xOne], .register "q".toList [99],
          .commit txes, .work])).any fun r => r.any fun x => decide (x.1 = TX0 + 2)
      | _ => false) (by decide +kernel)
  rw [Bool.and_eq_true, decide_eq_true_eq] at hp
  obtain ⟨rfl, hp⟩ := hp
  split at hp
  · rename_i txes c' hcm
    rw [List.any_eq_true] at hp
    obtain ⟨r, hr, hp⟩ := hp
    rw [List.any_eq_true] at hp
    obtain ⟨⟨t, as_⟩, hx, hp⟩ := hp
    obtain rfl : t = TX0 + 2 := of_decide_eq_true hp
    have h0 := Observed.connect (a := xOne) reachKept_setup
    have h1 := h0.service (op := .register "o".toList [xOne]) (by simp)
    have h2 := h1.service (op := .register "q".toList [99]) (by simp)
    have h3 := (h2.commit hs hcm).service (op := .work) (by simp)
    exact ⟨c', _, r, as_, h3, hr, hx⟩
  · simp at hp

/-- The full C41 fails: a transaction undone by rolling back to a savepoint is still reported. -/
theorem C41_fails : ∃ db p1 p2 rep p3 txes c' as_, ReachKept db ∧
    p1 = (Conn.connect db).begin.savepoint "s".toList ∧
    p1.transact 0 dataTx.1 dataTx.2 = (.ok rep, p2) ∧ p2.rollbackTo "s".toList = .ok p3 ∧
    (Conn.connect db).commit p3 = (.ok txes, c') ∧ AMap.get txes rep.txId = some as_ ∧ xOne ∈ as_ ∧
    ∀ l ∈ c'.store.log, l.tx ≠ rep.txId := by
  have hb : (match ((Conn.connect setupDb).begin.savepoint "s".toList).transact 0 dataTx.1 dataTx.2 with
      | (.ok rep, p2) => match p2.rollbackTo "s".toList with
        | .ok p3 => match (Conn.connect setupDb).commit p3 with
          | (.ok txes, c') => (AMap.get txes rep.txId).any (fun l => decide (xOne ∈ l)) &&
              c'.store.log.all fun l => decide (l.tx ≠ rep.txId)
          | _ => false
        | _ => false
      | _ => false) = true := by decide +kernel
  split at hb
  · rename_i rep p2 h1
    split at hb
    · rename_i p3 h2
      split at hb
      · rename_i txes c' h3
        rw [Bool.and_eq_true, List.all_eq_true] at hb
        obtain ⟨as_, k1, k2⟩ := any_some' hb.1
        exact ⟨setupDb, _, p2, rep, p3, txes, c', as_, reachKept_setup, rfl, h1, h2, h3, k1,
          of_decide_eq_true k2, fun l hl => of_decide_eq_true (hb.2 l hl)⟩
      · simp at hb
    · simp at hb
  · simp at hb

/-- The full C40 fails: attributes of a failed attempt are reported with the next transaction, which
does not touch them. -/
theorem C40_fails_leak : ∃ c p p1 e rep p2 as_, Connected xOne AnyTx c ∧ Session xOne AnyTx c p ∧
    p.transact 0 [addE e1 xMany (.long 7), addE 65540 xId (str "k")] [] = (.err e, p1) ∧
    p1.transact 0 [addE e1 xOne (str "z")] [] = (.ok rep, p2) ∧
    AMap.get p2.txes rep.txId = some as_ ∧ xMany ∈ as_ := by
  obtain ⟨c, p, hc, hs, hp⟩ := session_of_setup (a := xOne) (Q := AnyTx) (Qb := fun _ _ _ => true)
    (fun _ _ _ _ => trivial) [twoIds] []
    (pr := fun _ p => match p.transact 0 [addE e1 xMany (.long 7), addE 65540 xId (str "k")] [] with
      | (.err _, p1) => match p1.transact 0 [addE e1 xOne (str "z")] [] with
        | (.ok rep, p2) => (AMap.get p2.txes rep.txId).any (fun l => decide (xMany ∈ l))
        | _ => false
      | _ => false) (by decide +kernel)
  split at hp
  · rename_i e p1 h1
    split at hp
    · rename_i rep p2 h2
      obtain ⟨as_, k1, k2⟩ := any_some' hp
      exact ⟨c, p, p1, e, rep, p2, as_, hc, hs, h1, h2, k1, of_decide_eq_true k2⟩
    · simp at hp
  · simp at hp

/-- The full C40 fails: asserting a datom that is there already is reported as touching its
attribute, although no datom of the attribute changes. -/
theorem C40_fails_noop : ∃ c p rep p' as_, Connected xOne AnyTx c ∧ Session xOne AnyTx c p ∧
    p.transact 0 [addE e1 xOne (str "a")] [] = (.ok rep, p') ∧
    AMap.get p'.txes rep.txId = some as_ ∧ xOne ∈ as_ ∧
    ∀ e v, Has p.store.rows e xOne v ↔ Has p'.store.rows e xOne v := by
  obtain ⟨c, p, hc, hs, hp⟩ := session_of_setup (a := xOne) (Q := AnyTx) (Qb := fun _ _ _ => true)
    (fun _ _ _ _ => trivial) [twoIds] []
    (pr := fun _ p => match p.transact 0 [addE e1 xOne (str "a")] [] with
      | (.ok rep, p') => (AMap.get p'.txes rep.txId).any (fun l => decide (xOne ∈ l)) &&
          decide ((p.store.rows.filter fun r => decide (r.a = xOne)) =
            p'.store.rows.filter fun r => decide (r.a = xOne))
      | _ => false) (by decide +kernel)
  split at hp
  · rename_i rep p' h1
    rw [Bool.and_eq_true, decide_eq_true_eq] at hp
    obtain ⟨as_, k1, k2⟩ := any_some' hp.1
    refine ⟨c, p, rep, p', as_, hc, hs, h1, k1, of_decide_eq_true k2, ?_⟩
    have hh : ∀ (rows : List Row) e v, Has rows e xOne v ↔
        Has (rows.filter fun r => decide (r.a = xOne)) e xOne v := by
      intro rows e v
      constructor
      · rintro ⟨r, hr, h1, h2, h3⟩
        exact ⟨r, List.mem_filter.mpr ⟨hr, by simp [h2]⟩, h1, h2, h3⟩
      · rintro ⟨r, hr, h⟩
        exact ⟨r, (List.mem_filter.mp hr).1, h⟩
    intro e v
    rw [hh, hp.2, ← hh]
  · simp at hp

end Mentat
