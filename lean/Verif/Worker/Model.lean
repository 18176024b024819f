/-
Model of the jobs of a worker: `JobQueueRemote`, Code/Tools/FBuild/FBuildCore/WorkerPool/JobQueueRemote.cpp ("Q" below), the main loop of
WorkerThreadRemote.cpp:39-79, and what `Server` does with jobs, Code/Tools/FBuild/FBuildCore/Protocol/Server.cpp ("S" below).

Threads: one for each connection, the workers, and one of the server. A step is what a thread does while it holds a mutex. Jobs, connections and
workers are numbers that are not used again; the states of clients are at addresses, which are used again when the memory is free.
Whether a tool is there is left open, as is the result of a build.
-/
namespace Verif.Worker

/-- `Node::BuildResult` of a job -/
inductive Res
  | ok | failed | aborted
  deriving DecidableEq

/-- what a worker thread is at -/
inductive Hand
  | idle
  /-- `DoBuild` -/
  | building (j : Nat)
  /-- Q:276, not in flight any more -/
  | removed (j : Nat) (r : Res)
  /-- Q:284, with a user -/
  | push (j : Nat) (r : Res)
  deriving DecidableEq

/-- how far the thread of a connection is in `OnDisconnected` -/
inductive Phase
  | up
  /-- S:126, after the pending jobs, Q:211 -/
  | pendingGone
  /-- after the completed jobs, Q:227 -/
  | doneGone
  /-- after the jobs in flight, Q:240 -/
  | flightGone
  deriving DecidableEq

structure State where
  /-- `m_ClientList`: the connection of the client whose state is at an address -/
  client : Nat → Option Nat := fun _ => none
  phase : Nat → Phase := fun _ => .up
  /-- connections there have been -/
  used : Nat → Bool := fun _ => false
  /-- `m_WaitingJobs` of the client at an address -/
  waiting : Nat → List Nat := fun _ => []
  /-- `m_PendingJobs` -/
  pending : List Nat := []
  /-- `m_InFlightJobs` -/
  flight : List Nat := []
  /-- `m_CompletedJobs`, `m_CompletedJobsFailed`, `m_CompletedJobsAborted` -/
  done : Res → List Nat := fun _ => []
  worker : Nat → Hand := fun _ => .idle
  /-- the job in `FinalizeCompletedJobs` -/
  server : Option (Nat × Res) := none
  /-- `GetUserData` of a job: an address -/
  data : Nat → Option Nat := fun _ => none
  born : Nat → Bool := fun _ => false
  freed : Nat → Bool := fun _ => false
  /-- results sent: the job and the connection -/
  sent : List (Nat × Nat) := []
  /-- not in the code: the connection a job has come from, and the address of its client then -/
  source : Nat → Nat := fun _ => 0
  addr : Nat → Nat := fun _ => 0
  /-- not in the code: jobs that were aborted and thrown away -/
  dropped : Nat → Bool := fun _ => false

def upd {α β : Type} [DecidableEq α] (f : α → β) (p : α) (x : β) : α → β := fun q => if q = p then x else f q

inductive Act
  | connect (a c : Nat)
  /-- a job comes; `ready`: its tool is there -/
  | job (a j : Nat) (ready : Bool)
  /-- the tool of a waiting job is there now -/
  | ready (a j : Nat)
  | take (w : Nat)
  | built (w : Nat) (r : Res)
  | check (w : Nat)
  | push (w : Nat)
  | pop
  | finalize
  | cancelPending (a : Nat)
  | cancelDone (a : Nat)
  | cancelFlight (a : Nat)
  | erase (a : Nat)
  deriving DecidableEq

/-- the jobs of a client -/
def State.mine (s : State) (a j : Nat) : Bool := s.data j = some a

/-- what a thread does; `none`: it cannot -/
def act (s : State) : Act → Option State
  -- S:106-113
  | .connect a c => if s.client a = none ∧ s.used c = false then
      some { s with client := upd s.client a (some c), used := upd s.used c true, phase := upd s.phase a .up } else none
  -- S:335-428; in the thread of the connection, so not after it is gone
  | .job a j ready => match s.client a with
    | none => none
    | some c => if s.phase a = .up ∧ s.born j = false then
        let s := { s with born := upd s.born j true, data := upd s.data j (some a), source := upd s.source j c, addr := upd s.addr j a }
        if ready then some { s with pending := s.pending ++ [j] } else some { s with waiting := upd s.waiting a (s.waiting a ++ [j]) }
      else none
  -- `CheckWaitingJobs`, S:563-600; in the thread of any connection
  | .ready a j => if s.client a ≠ none ∧ j ∈ s.waiting a then
      some { s with waiting := upd s.waiting a ((s.waiting a).erase j), pending := s.pending ++ [j] } else none
  -- `GetJobToProcess`, Q:244-262
  | .take w => match s.worker w, s.pending with
    | .idle, j :: l => some { s with pending := l, flight := s.flight ++ [j], worker := upd s.worker w (.building j) }
    | _, _ => none
  -- `FinishedProcessingJob`, Q:268-274
  | .built w r => match s.worker w with
    | .building j => some { s with flight := s.flight.erase j, worker := upd s.worker w (.removed j r) }
    | _ => none
  -- Q:276-281
  | .check w => match s.worker w with
    | .removed j r => if s.data j = none then some { s with freed := upd s.freed j true, worker := upd s.worker w .idle }
      else some { s with worker := upd s.worker w (.push j r) }
    | _ => none
  -- Q:283-293
  | .push w => match s.worker w with
    | .push j r => some { s with done := upd s.done r (s.done r ++ [j]), worker := upd s.worker w .idle }
    | _ => none
  -- `GetCompletedJob`, Q:157-191
  | .pop => match s.server with
    | some _ => none
    | none => match s.done .ok with
      | j :: l => some { s with done := upd s.done .ok l, server := some (j, .ok) }
      | [] => match s.done .failed with
        | j :: l => some { s with done := upd s.done .failed l, server := some (j, .failed) }
        | [] => match s.done .aborted with
          | j :: l => some { s with done := upd s.done .aborted l, server := some (j, .aborted) }
          | [] => none
  -- S:725-777
  | .finalize => match s.server with
    | none => none
    | some (j, r) =>
      let s' := { s with freed := upd s.freed j true, server := none }
      if r = .aborted then some { s' with dropped := upd s.dropped j true }
      else match (s.data j).bind s.client with
        | some c => some { s' with sent := s.sent ++ [(j, c)] }
        | none => some s'
  -- `CancelJobsWithUserData`, Q:197-211
  | .cancelPending a => if s.client a ≠ none ∧ s.phase a = .up then
      some { s with phase := upd s.phase a .pendingGone, pending := s.pending.filter fun j => !s.mine a j
                    freed := fun j => s.freed j || (j ∈ s.pending && s.mine a j) } else none
  -- Q:213-227
  | .cancelDone a => if s.client a ≠ none ∧ s.phase a = .pendingGone then
      some { s with phase := upd s.phase a .doneGone, done := upd s.done .ok ((s.done .ok).filter fun j => !s.mine a j)
                    freed := fun j => s.freed j || (j ∈ s.done .ok && s.mine a j) } else none
  -- Q:229-239
  | .cancelFlight a => if s.client a ≠ none ∧ s.phase a = .doneGone then
      some { s with phase := upd s.phase a .flightGone, data := fun j => if j ∈ s.flight && s.mine a j then none else s.data j } else none
  -- S:147-180
  | .erase a => if s.client a ≠ none ∧ s.phase a = .flightGone then
      some { s with client := upd s.client a none, waiting := upd s.waiting a [], freed := fun j => s.freed j || j ∈ s.waiting a } else none

def run (s : State) : List Act → Option State
  | [] => some s
  | a :: l => (act s a).bind (run · l)

end Verif.Worker
