import Verif.Model.Session
/-
db/src/tx_observer.rs: observers, the commands queued for the delivery thread, and the thread.
-/
namespace Mentat

/-- What an observer is told: transaction ids with the attributes each touched. -/
abbrev Reports := AMap Entid (List Entid)

/-- tx_observer.rs:48-56 `applicable_reports` for an observer of the attributes `as_`. -/
def applicableReports (as_ : List Entid) (reports : Reports) : Reports :=
  reports.filter fun r => r.2.any fun a => decide (a ∈ as_)

/-- tx_observer.rs:67-82 `TxCommand`: the reports, and a `Weak` reference to the map of observers,
here the number of the allocation it points to. -/
structure TxCommand where
  reports : Reports
  arc : Nat
  deriving DecidableEq, Repr

/-- tx_observer.rs:97-101 `TxObservationService`, with the channel to the delivery thread and the
calls of `notify_fn` made so far, in order.  `arc` numbers the allocation that holds the map;
`alive` until the service is dropped. -/
structure ObsService where
  observers : AMap Text (List Entid) := []
  arc : Nat := 0
  alive : Bool := true
  queue : List TxCommand := []
  notified : List (Text × Reports) := []
  deriving DecidableEq, Repr

/-- `Arc::make_mut` (116-122): when a queued command has a `Weak` reference to the map, the map moves
to a new allocation and the reference no longer upgrades. -/
def ObsService.makeMut (s : ObsService) : ObsService :=
  if s.queue.any fun c => decide (c.arc = s.arc) then { s with arc := s.arc + 1 } else s

/-- 116-118 `register` -/
def ObsService.register (s : ObsService) (key : Text) (as_ : List Entid) : ObsService :=
  { s.makeMut with observers := AMap.insert s.observers key as_ }

/-- 120-122 `deregister` -/
def ObsService.deregister (s : ObsService) (key : Text) : ObsService :=
  { s.makeMut with observers := AMap.erase s.observers key }

/-- 128-151 `in_progress_did_commit` -/
def ObsService.didCommit (s : ObsService) (txes : Reports) : ObsService :=
  if s.observers.isEmpty then s else { s with queue := s.queue ++ [⟨txes, s.arc⟩] }

/-- 84-95 `TxCommand::execute` on the map: the calls it makes. -/
def notifications (observers : AMap Text (List Entid)) (reports : Reports) : List (Text × Reports) :=
  observers.filterMap fun o =>
    let r := applicableReports o.2 reports
    if r.isEmpty then none else some (o.1, r)

/-- 200-215 the delivery thread takes one command and executes it.  The `upgrade` fixes the map for
the whole execution, and there is one thread, so executing it in one step loses no behaviour. -/
def ObsService.work (s : ObsService) : ObsService :=
  match s.queue with
  | [] => s
  | c :: rest =>
    if s.alive && decide (c.arc = s.arc) then
      { s with queue := rest, notified := s.notified ++ notifications s.observers c.reports }
    else { s with queue := rest }

/-- 154-158 `drop`, and the end of the `Arc`. -/
def ObsService.drop (s : ObsService) : ObsService := { s with alive := false }

/-- What happens to a service, in the order of the schedule. -/
inductive ObsOp where
  | register (key : Text) (as_ : List Entid)
  | deregister (key : Text)
  | commit (txes : Reports)
  | work
  | drop
  deriving Repr

/-- One thing that happens. -/
def ObsService.step (s : ObsService) : ObsOp → ObsService
  | .register k as_ => s.register k as_
  | .deregister k => s.deregister k
  | .commit txes => s.didCommit txes
  | .work => s.work
  | .drop => s.drop

/-- What happens, in order. -/
def ObsService.run (s : ObsService) (ops : List ObsOp) : ObsService := ops.foldl ObsService.step s

end Mentat
