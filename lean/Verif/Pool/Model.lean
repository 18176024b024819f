/-
The pool of threads.

* Code/Core/Process/ThreadPool.cpp (P),
* Code/Core/Process/Semaphore.cpp (S).

A state of all threads and the actions they take one at a time, in any order.  What is done under
the mutex of the queue is one action, and so is a read or write of an atomic or a call of the
operating system's semaphore.

Simplifications: a job is a number (its function is never null); jobs end whenever they like and
may themselves enqueue jobs.
-/
namespace Verif.Pool

/-- Where a thread is. -/
inductive T
  /-- not created yet -/
  | unborn
  /-- the first thread, about to create thread `i` (P:139-149) -/
  | creating (i : Nat)
  /-- about to look at the queue (P:79-93) -/
  | look
  /-- within job `j` (P:99); has put a job into the queue and not signalled yet if `owes` -/
  | running (j : Nat) (owes : Bool)
  /-- there was no job, about to look whether to quit (P:107) -/
  | check
  /-- about to wait, or waiting (P:113) -/
  | sleep
  /-- the first thread, about to join thread `i` (P:155-168) -/
  | joining (i : Nat)
  | over
  deriving DecidableEq

/-- The owner: uses the pool; in the destructor with so many signals to give (P:41-42), or waiting
for the first thread (P:45); has destroyed it. -/
inductive Phase
  | alive
  | quitting (signals : Nat)
  | gone
  deriving DecidableEq

structure St where
  /-- the limit of the semaphore, if any (P:16-20, S:25-31) -/
  cap : Option Nat
  queue : List Nat := []
  count : Nat := 0
  threads : List T
  /-- calls of `EnqueueJob` from outside that have not signalled yet -/
  owed : Nat := 0
  phase : Phase := .alive
  /-- what was enqueued, taken from the queue and finished, in this order -/
  enqueued : List Nat := []
  started : List Nat := []
  finished : List Nat := []
  deriving DecidableEq

/-- The constructor (P:14-32), for `n + 1` threads. -/
def init (win : Bool) (n : Nat) : St :=
  { cap := if win then some (n + 1) else none, threads := .creating 1 :: List.replicate n .unborn }

/-- `Signal()` (S:66-80). -/
def post (cap : Option Nat) (c : Nat) : Nat :=
  match cap with
  | none => c + 1
  | some m => if c < m then c + 1 else c

inductive Act
  | create | take (i : Nat) | empty (i : Nat) | finish (i : Nat) | pushIn (i j : Nat)
  | signalIn (i : Nat) | quit (i : Nat) | doze (i : Nat) | wake (i : Nat) | join
  | push (j : Nat) | signal | destroy | signalAll | joined
  deriving DecidableEq

/-- `s` with thread `i` at `t`. -/
def St.at (s : St) (i : Nat) (t : T) : St := { s with threads := s.threads.set i t }

/-- One action; `none` where it cannot happen now. -/
def step (s : St) : Act → Option St
  -- P:139-149
  | .create =>
      match (s.threads[0]? : Option T) with
      | some (.creating i) =>
          if i < s.threads.length then some ((s.at i .look).at 0 (.creating (i + 1)))
          else some (s.at 0 .look)
      | _ => none
  -- P:82-91
  | .take i =>
      match s.threads[i]?, s.queue with
      | some .look, j :: q =>
          some { s.at i (.running j false) with queue := q, started := s.started ++ [j] }
      | _, _ => none
  | .empty i =>
      match s.threads[i]?, s.queue with
      | some .look, [] => some (s.at i .check)
      | _, _ => none
  -- P:96-104
  | .finish i =>
      match s.threads[i]? with
      | some (.running j false) => some { s.at i .look with finished := s.finished ++ [j] }
      | _ => none
  -- P:52-66, called within a job
  | .pushIn i j =>
      match s.threads[i]? with
      | some (.running k false) =>
          some { s.at i (.running k true) with queue := s.queue ++ [j], enqueued := s.enqueued ++ [j] }
      | _ => none
  | .signalIn i =>
      match s.threads[i]? with
      | some (.running k true) => some { s.at i (.running k false) with count := post s.cap s.count }
      | _ => none
  -- P:107-110
  | .quit i =>
      match s.threads[i]? with
      | some .check => if s.phase ≠ .alive then some (s.at i (if i = 0 then .joining 1 else .over)) else none
      | _ => none
  | .doze i =>
      match s.threads[i]? with
      | some .check => if s.phase = .alive then some (s.at i .sleep) else none
      | _ => none
  -- P:113, S:109-118
  | .wake i =>
      match s.threads[i]? with
      | some .sleep => if 0 < s.count then some { s.at i .look with count := s.count - 1 } else none
      | _ => none
  -- P:155-168
  | .join =>
      match (s.threads[0]? : Option T) with
      | some (.joining i) =>
          if i < s.threads.length then
            if s.threads[i]? = some .over then some (s.at 0 (.joining (i + 1))) else none
          else some (s.at 0 .over)
      | _ => none
  -- P:52-66, called from outside
  | .push j =>
      if s.phase = .alive then
        some { s with queue := s.queue ++ [j], enqueued := s.enqueued ++ [j], owed := s.owed + 1 }
      else none
  | .signal =>
      if 0 < s.owed then some { s with owed := s.owed - 1, count := post s.cap s.count } else none
  -- P:36-49, after all calls of `EnqueueJob` have returned
  | .destroy =>
      if s.phase = .alive ∧ s.owed = 0 then some { s with phase := .quitting s.threads.length } else none
  | .signalAll =>
      match s.phase with
      | .quitting (k + 1) => some { s with phase := .quitting k, count := post s.cap s.count }
      | _ => none
  | .joined =>
      if s.phase = .quitting 0 ∧ s.threads[0]? = some .over then some { s with phase := .gone } else none

/-- Actions one after the other. -/
def run (s : St) : List Act → Option St
  | [] => some s
  | a :: as => (step s a).bind fun s => run s as

end Verif.Pool
