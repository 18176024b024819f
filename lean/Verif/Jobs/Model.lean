import Verif.Sort.Model
/-
Model of the client side job queue: staging and concurrency groups, the local queue, distribution,
racing, completion and finalisation, as an interleaving of critical sections.

Sources (relative to /repo/Code/Tools/FBuild/FBuildCore):
  WorkerPool/JobQueue.cpp  JobSubQueue, JobQueue
  WorkerPool/Job.h, Job.cpp  DistributionState, CancelDueToRemoteRaceWin, OnSystemError
  WorkerPool/WorkerThread.cpp  Update
  Protocol/Client.cpp  OnDisconnected, Process( MsgRequestJob ), ProcessJobResultCommon

Jobs are numbers (one job per node, Scheduler property C02). ASSERTs are compiled out in release
builds: the model follows the release behaviour and records a failed assertion in the flag
`asserted`. Any access to a freed job sets `uaf`.
Not modelled: the contents of jobs and results, `m_NumLocalJobsActive` (statistics), semaphores
(who wakes up whom), the shut-down path in `~JobQueue`.
-/
namespace Verif.Jobs
open Verif.Sort

/-- `Job::DistributionState`, WorkerPool/Job.h:83-100. -/
inductive Dist where
  | none | available | buildingRemotely | completedRemotely | buildingLocally | completedLocally
  | racing | raceWonLocally | raceWonRemotelyCancelLocal | raceWonRemotely
  deriving DecidableEq, Repr

/-- What a worker thread is doing with a job (program counter of `WorkerThread::Update`,
WorkerPool/WorkerThread.cpp:150-226). -/
inductive Loc where
  | idle
  /-- between `GetJobToProcess` and `FinishedProcessingJob`/`QueueDistributableJob` -/
  | first
  /-- between `GetDistributableJobToProcess` and `FinishedProcessingJob` -/
  | second
  /-- between `GetDistributableJobToRace` and `FinishedProcessingJob` -/
  | race
  deriving DecidableEq, Repr

/-- What a worker connection is doing with a job (Protocol/Client.cpp). -/
inductive Rem where
  | idle
  /-- in `m_Jobs` of the connection -/
  | sent
  /-- in the wait loop of `OnReturnRemoteJob` -/
  | wait
  /-- `OnReturnRemoteJob` returned the job; the flag tells whether it was a system error -/
  | own (systemError : Bool)
  deriving DecidableEq, Repr

/-- `Node::BuildResult` without `eNeedSecondPass` -/
inductive Res where
  | ok | aborted | failed
  deriving DecidableEq, Repr

/-- Fixed data: costs, concurrency groups and their limits, number of worker threads. -/
structure Cfg where
  /-- `Node::GetRecursiveCost` -/
  cost : Nat → Nat
  /-- `Node::GetConcurrencyGroupIndex` -/
  group : Nat → Nat
  /-- `ConcurrencyGroup::GetLimit` -/
  limit : Nat → Nat
  /-- `FBuildOptions::m_NumWorkerThreads` -/
  workers : Nat

/-- State of `JobQueue` (WorkerPool/JobQueue.h) together with the positions of the threads.
`fin`, `freed`, `flushed`, `asserted` and `uaf` are ghosts. -/
structure Q where
  /-- size of `m_ConcurrencyGroupsState` -/
  groups : Nat := 0
  /-- `m_LocalJobs_Staging` -/
  staging : Nat → List Nat := fun _ => []
  /-- `m_ActiveJobs` -/
  active : Nat → Nat := fun _ => 0
  /-- `m_LocalJobs_Available.m_Jobs` -/
  queue : List Nat := []
  dist : Nat → Dist := fun _ => .none
  /-- `m_SystemErrorCount` -/
  sysErr : Nat → Nat := fun _ => 0
  /-- `m_Abort` -/
  abort : Nat → Bool := fun _ => false
  loc : Nat → Loc := fun _ => .idle
  rem : Nat → Rem := fun _ => .idle
  /-- `m_DistributableJobs_Available` -/
  avail : List Nat := []
  /-- `m_DistributableJobs_InProgress` -/
  inProg : List Nat := []
  /-- `m_CompletedJobs`, `m_CompletedJobsAborted`, `m_CompletedJobsFailed` -/
  done : Res → List Nat := fun _ => []
  /-- `m_CompletedJobs2`, ... -/
  done2 : Res → List Nat := fun _ => []
  /-- results applied to nodes, newest first -/
  fin : List (Nat × Res) := []
  freed : List Nat := []
  /-- jobs made available by `FlushJobBatch` -/
  flushed : List Nat := []
  asserted : Bool := false
  uaf : Bool := false

/-- function update -/
def set {α : Type} (f : Nat → α) (n : Nat) (v : α) : Nat → α := fun x => if x = n then v else f x

/-- `ASSERT( c )` in a release build, with a record of the failure. -/
def Q.assert (s : Q) (c : Bool) : Q := { s with asserted := s.asserted || !c }

/-- Dereference job pointers. -/
def Q.access (s : Q) (l : List Nat) : Q := { s with uaf := s.uaf || l.any (fun n => s.freed.contains n) }

/-- `FDELETE job` -/
def Q.free (s : Q) (n : Nat) : Q := { s with freed := n :: s.freed }

/-- `JobCostSorter`, WorkerPool/JobQueue.cpp:27-34. -/
def cheaper (c : Cfg) (a b : Nat) : Bool := decide (c.cost a < c.cost b)

/-- Merge loops of `JobSubQueue::QueueJobs`, JobQueue.cpp:86-112. -/
def merge (c : Cfg) : List Nat → List Nat → List Nat
  | [], l2 => l2
  | l1, [] => l1
  | a :: l1, b :: l2 =>
    if cheaper c a b then a :: merge c l1 (b :: l2) else b :: merge c (a :: l1) l2

/-- `JobSubQueue::QueueJobs`, JobQueue.cpp:60-116. The sort cannot fail (C35); `getD` is only there to
make the function total. -/
def queueJobs (c : Cfg) (q nodes : List Nat) : List Nat :=
  let jobs := (shellSort (cheaper c) nodes).getD nodes
  if q = [] then jobs else merge c q jobs

/-- `JobSubQueue::RemoveJob`, JobQueue.cpp:120-143: the last element. -/
def removeJob (q : List Nat) : Option (Nat × List Nat) :=
  match q.getLast? with
  | none => none
  | some n => some (n, q.dropLast)

/-- `JobQueue::AddJobToBatch`, JobQueue.cpp:300-321. -/
def addJob (c : Cfg) (s : Q) (n : Nat) : Q :=
  let g := c.group n
  { s with groups := max s.groups (g + 1), staging := set s.staging g (s.staging g ++ [n]) }

/-- `ConcurrencyGroup::eUnlimited`, Graph/SettingsNode.h:72. -/
def unlimited : Nat := 0xFFFFFFFF

/-- Limit of a configured group from its two settings (0: not set) and the memory of the machine in MiB;
`none` for a group without limits, which is an error. `SettingsNode::ProcessConcurrencyGroups`,
Graph/SettingsNode.cpp:268-295. -/
def groupLimit (jobs perJobMiB totalMiB : Nat) : Option Nat :=
  let memoryLimit := if perJobMiB > 0 then max (totalMiB / perJobMiB) 1 else unlimited
  let jobLimit := if jobs > 0 then jobs else unlimited
  let limit := min memoryLimit jobLimit
  if limit = unlimited then none else some limit

/-- Body of the loop of `JobQueue::FlushJobBatch`, JobQueue.cpp:332-389. -/
def flushGroup (c : Cfg) (s : Q) (g : Nat) : Q :=
  if s.staging g = [] then s
  else
    let maxJobs := if c.limit g ≥ c.workers then unlimited else c.limit g
    if s.active g ≥ maxJobs then s
    else
      let k := maxJobs - s.active g
      let st := s.staging g
      if k ≥ st.length then
        { s with queue := queueJobs c s.queue st, staging := set s.staging g [],
                 active := set s.active g (s.active g + st.length), flushed := s.flushed ++ st }
      else
        let jobs := st.drop (st.length - k)
        { s with queue := queueJobs c s.queue jobs, staging := set s.staging g (st.take (st.length - k)),
                 active := set s.active g (s.active g + k), flushed := s.flushed ++ jobs }

/-- `JobQueue::FlushJobBatch`, JobQueue.cpp:325-390. -/
def flush (c : Cfg) (s : Q) : Q := (List.range s.groups).foldl (flushGroup c) s

/-- Append to the list of completed jobs, JobQueue.cpp:871-879. -/
def complete (s : Q) (n : Nat) (r : Res) : Q :=
  { s with done := fun x => if x = r then s.done x ++ [n] else s.done x }

/-- `JobQueue::FinishedProcessingJob` with `wasARemoteJob == true`, JobQueue.cpp:799-883. -/
def finishDist (s : Q) (n : Nat) (r : Res) : Q :=
  let s := (s.access [n]).assert (s.inProg.contains n)
  match s.dist n with
  | .raceWonRemotelyCancelLocal =>
    let s := s.assert (s.abort n)
    if r ≠ .ok then { s with dist := set s.dist n .raceWonRemotely }
    else complete { s with inProg := s.inProg.erase n, dist := set s.dist n .completedLocally } n r
  | .completedRemotely => complete { s with inProg := s.inProg.erase n } n r
  | .raceWonRemotely => complete { s with inProg := s.inProg.erase n } n r
  | .buildingLocally =>
    complete { s with inProg := s.inProg.erase n, dist := set s.dist n .completedLocally } n r
  | d => complete (s.assert (d = .racing)) n r

/-- `JobQueue::QueueDistributableJob`, JobQueue.cpp:405-433. -/
def queueDist (c : Cfg) (s : Q) (n : Nat) : Q :=
  let s := (s.access (n :: s.avail)).assert (s.dist n = .none)
  { s with avail := (shellSort (cheaper c) (s.avail ++ [n])).getD (s.avail ++ [n]),
           dist := set s.dist n .available }

/-- Last element satisfying `p`, used for the searches from the end of an array. -/
def findLast (p : Nat → Bool) (l : List Nat) : Option Nat := l.reverse.find? p

/-- `JobQueue::GetDistributableJobToProcess`, JobQueue.cpp:437-501. `compat` is the test for old
workers (always true for new ones, in which case the last job is taken). -/
def takeDist (s : Q) (remote : Bool) (compat : Nat → Bool) : Option (Nat × Q) :=
  match findLast compat s.avail with
  | none => none
  | some n =>
    let s := (s.access s.avail).assert (s.dist n = .available)
    some (n, { s with avail := s.avail.erase n, inProg := s.inProg ++ [n],
                      dist := set s.dist n (if remote then .buildingRemotely else .buildingLocally) })

/-- `JobQueue::GetDistributableJobToRace`, JobQueue.cpp:505-532. -/
def takeRace (s : Q) : Option (Nat × Q) :=
  let s := s.access s.inProg
  match findLast (fun n => s.dist n = .buildingRemotely) s.inProg with
  | none => none
  | some n => some (n, { s with dist := set s.dist n .racing })

/-- `JobQueue::OnReturnRemoteJob` up to the wait loop, JobQueue.cpp:536-623. Sets the position of the
connection thread: it owns the job, waits for the cancellation, or is done with it. -/
def onReturn (s : Q) (n : Nat) (systemError : Bool) : Q :=
  let s := s.access s.inProg
  if s.inProg.contains n then
    let d := s.dist n
    let s := if systemError then { s with sysErr := set s.sysErr n (s.sysErr n + 1) } else s
    if systemError = true ∧ d = .racing then
      { s with dist := set s.dist n .buildingLocally, rem := set s.rem n .idle }
    else
      match d with
      | .buildingRemotely =>
        { s with dist := set s.dist n .completedRemotely, rem := set s.rem n (.own systemError) }
      | .raceWonLocally =>
        { s.free n with inProg := s.inProg.erase n, rem := set s.rem n .idle }
      | .racing =>
        -- Job::CancelDueToRemoteRaceWin, WorkerPool/Job.cpp:70-82
        let s := s.assert (s.abort n = false)
        { s with dist := set s.dist n .raceWonRemotelyCancelLocal, abort := set s.abort n true,
                 rem := set s.rem n .wait }
      | _ => { s.assert false with rem := set s.rem n .idle }
  else { s.assert false with rem := set s.rem n .idle }

/-- One round of the wait loop of `OnReturnRemoteJob`, JobQueue.cpp:598-620. -/
def pollReturn (s : Q) (n : Nat) : Q :=
  let s := s.access s.inProg
  if s.inProg.contains n then
    let s := s.access [n]
    match s.dist n with
    | .raceWonRemotelyCancelLocal => s
    | .raceWonRemotely => { s with rem := set s.rem n (.own false) }
    | _ => { s with rem := set s.rem n .idle }
  else { s with rem := set s.rem n .idle }

/-- `JobQueue::ReturnUnfinishedDistributableJob`, JobQueue.cpp:627-673. -/
def returnUnfinished (s : Q) (n : Nat) : Q :=
  let s := s.access [n]
  if s.dist n = .racing then { s with dist := set s.dist n .buildingLocally }
  else
    let s := s.assert (s.inProg.contains n)
    let s := { s with inProg := s.inProg.erase n }
    if s.dist n = .raceWonLocally then s.free n
    else
      let s := if s.dist n = .completedRemotely then s.assert (decide (s.sysErr n > 0))
               else s.assert (s.dist n = .buildingRemotely)
      { s with avail := s.avail ++ [n], dist := set s.dist n .available }

/-- The body of the loop of `JobQueue::FinalizeCompletedJobs` for one job, JobQueue.cpp:697-765. -/
def finalizeJob (c : Cfg) (s : Q) (n : Nat) (r : Res) : Q :=
  let s := s.access [n]
  let s := { s with active := set s.active (c.group n) (s.active (c.group n) - 1),
                    fin := (n, r) :: s.fin }
  match s.dist n with
  | .none => s.free n
  | .completedLocally => s.free n
  | .completedRemotely => s.free n
  | .raceWonRemotely => s.free n
  | d =>
    if r = .ok ∧ d = .raceWonRemotelyCancelLocal then
      { (s.assert (s.inProg.contains n)).free n with inProg := s.inProg.erase n }
    else { s.assert (d = .racing) with dist := set s.dist n .raceWonLocally }

/-- The next job of the finalisation loop: completed, then aborted, then failed,
JobQueue.cpp:688-697. -/
def nextDone (s : Q) : Option (Nat × Res × Q) :=
  match s.done2 .ok, s.done2 .aborted, s.done2 .failed with
  | n :: l, _, _ => some (n, .ok, { s with done2 := fun x => if x = .ok then l else s.done2 x })
  | [], n :: l, _ => some (n, .aborted, { s with done2 := fun x => if x = .aborted then l else s.done2 x })
  | [], [], n :: l => some (n, .failed, { s with done2 := fun x => if x = .failed then l else s.done2 x })
  | [], [], [] => none

/-- `SYSTEM_ERROR_ATTEMPT_COUNT`, Protocol/Client.cpp:34. -/
def attempts : Nat := 3

/-- Events: critical sections of the main thread, the worker threads and the connection threads. -/
inductive Ev where
  /-- main thread: `AddJobToBatch` -/
  | add (n : Nat)
  /-- main thread: `FlushJobBatch` -/
  | flush
  /-- worker: `GetJobToProcess` -/
  | take
  /-- worker: `FinishedProcessingJob( job, r, false )` -/
  | firstDone (n : Nat) (r : Res)
  /-- worker: `QueueDistributableJob` -/
  | second (n : Nat)
  /-- worker: `GetDistributableJobToProcess( false )` -/
  | consume
  /-- connection: `GetDistributableJobToProcess( true )` and `m_Jobs.Append` -/
  | send (compat : Nat → Bool)
  /-- worker: `GetDistributableJobToRace` -/
  | race
  /-- worker: `FinishedProcessingJob( job, r, true )` -/
  | localDone (n : Nat) (r : Res)
  /-- connection: result message, `OnReturnRemoteJob` -/
  | ret (n : Nat) (systemError : Bool)
  /-- connection: wait loop of `OnReturnRemoteJob` -/
  | poll (n : Nat)
  /-- connection: `FinishedProcessingJob( job, r, true )` -/
  | remoteDone (n : Nat) (r : Res)
  /-- connection: system error, `ReturnUnfinishedDistributableJob` -/
  | retry (n : Nat)
  /-- connection: `OnDisconnected`, `ReturnUnfinishedDistributableJob` -/
  | disconnect (n : Nat)
  /-- main thread: start of `FinalizeCompletedJobs` -/
  | swap
  /-- main thread: one iteration of `FinalizeCompletedJobs` -/
  | finalize

/-- One event; `none` if no thread is at that position. -/
def step (c : Cfg) (s : Q) : Ev → Option Q
  | .add n =>
    if n ∈ s.flushed ∨ n ∈ s.staging (c.group n) then none else some (addJob c s n)
  | .flush => some (flush c s)
  | .take =>
    match removeJob s.queue with
    | none => none
    | some (n, q) => some { s.access [n] with queue := q, loc := set s.loc n .first }
  | .firstDone n r =>
    if s.loc n = .first then some (complete { s.access [n] with loc := set s.loc n .idle } n r) else none
  | .second n =>
    if s.loc n = .first then some (queueDist c { s with loc := set s.loc n .idle } n) else none
  | .consume => (takeDist s false (fun _ => true)).map fun (n, s) => { s with loc := set s.loc n .second }
  | .send compat => (takeDist s true compat).map fun (n, s) => { s with rem := set s.rem n .sent }
  | .race => (takeRace s).map fun (n, s) => { s with loc := set s.loc n .race }
  | .localDone n r =>
    if s.loc n = .second ∨ s.loc n = .race then some (finishDist { s with loc := set s.loc n .idle } n r)
    else none
  | .ret n e => if s.rem n = .sent then some (onReturn s n e) else none
  | .poll n => if s.rem n = .wait then some (pollReturn s n) else none
  | .remoteDone n r =>
    -- ProcessJobResultCommon, Protocol/Client.cpp:863-1046
    if s.rem n = .own false ∨ (s.rem n = .own true ∧ (r = .ok ∨ s.sysErr n ≥ attempts)) then
      if r = .aborted then none else some (finishDist { s with rem := set s.rem n .idle } n r)
    else none
  | .retry n =>
    -- Protocol/Client.cpp:1022-1030
    if s.rem n = .own true ∧ s.sysErr n < attempts then
      some (returnUnfinished { s with rem := set s.rem n .idle } n)
    else none
  | .disconnect n =>
    -- Protocol/Client.cpp:192-206
    if s.rem n = .sent then some (returnUnfinished { s with rem := set s.rem n .idle } n) else none
  | .swap =>
    if (s.done2 .ok = [] ∧ s.done2 .aborted = [] ∧ s.done2 .failed = []) then
      some { s with done2 := s.done, done := fun _ => [] }
    else none
  | .finalize => (nextDone s).map fun (n, r, s) => finalizeJob c s n r

/-- Run a list of events. -/
def run (c : Cfg) : Q → List Ev → Option Q
  | s, [] => some s
  | s, ev :: evs =>
    match step c s ev with
    | none => none
    | some s1 => run c s1 evs

end Verif.Jobs
