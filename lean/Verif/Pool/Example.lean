/-
C106: cases that meet the hypotheses, and what does not hold.
-/
import Verif.Pool.Props

namespace Verif.Pool

/-- Two threads and three jobs, the second of which is added by the first; the pool is destroyed
while the first runs. -/
def exRun : List Act :=
  [.create, .create, .push 5, .take 0, .signal, .pushIn 0 6, .empty 1]

def exRun2 : List Act :=
  [.create, .create, .push 5, .push 7, .signal, .take 0, .signal, .pushIn 0 6, .signalIn 0]

def exEnd : List Act :=
  [.signalAll, .finish 0, .take 0, .take 1, .signalAll, .finish 1, .finish 0, .empty 1, .quit 1, .empty 0, .quit 0,
    .join, .join, .joined]

example : (run (init true 1) exRun2).isSome := by decide +kernel
example : (run (init true 1) exRun).isSome = false := by decide +kernel
example : ((run (init true 1) exRun2).map fun s => (s.queue, s.started, s.enqueued)) =
    some ([7, 6], [5], [5, 7, 6]) := by decide +kernel

/-- Signals above the number of threads are dropped on Windows only. -/
example : ((run (init true 1) ((List.replicate 3 [.push 1, .signal]).flatten)).map (·.count)) = some 2 := by
  decide +kernel
example : ((run (init false 1) ((List.replicate 3 [.push 1, .signal]).flatten)).map (·.count)) = some 3 := by
  decide +kernel

/-- All hypotheses are met by a run that ends. -/
theorem ex_meets : ∃ s s1 s' : St, run (init true 1) exRun2 = some s ∧ s.phase = .alive ∧ s.queue = [7, 6] ∧
    idle s = 1 ∧ step s .destroy = some s1 ∧ (∀ t ∈ s.threads, t ≠ .check) ∧ run s1 exEnd = some s' ∧
    s'.phase = .gone ∧ s'.finished = [5, 6, 7] := by
  have h : ((run (init true 1) exRun2).bind fun s => (step s .destroy).bind fun s1 => (run s1 exEnd).map fun s' =>
      decide (s.phase = .alive ∧ s.queue = [7, 6] ∧ idle s = 1 ∧ (∀ t ∈ s.threads, t ≠ .check) ∧
        s'.phase = .gone ∧ s'.finished = [5, 6, 7])) = some true := by decide +kernel
  obtain ⟨s, hs, h⟩ := Option.bind_eq_some_iff.1 h
  obtain ⟨s1, hs1, h⟩ := Option.bind_eq_some_iff.1 h
  obtain ⟨s', hs', h⟩ := Option.map_eq_some_iff.1 h
  have h := of_decide_eq_true h
  exact ⟨s, s1, s', hs, h.1, h.2.1, h.2.2.1, hs1, h.2.2.2.1, hs', h.2.2.2.2.1, h.2.2.2.2.2⟩

/-- A job is lost: the only thread finds the queue empty; a job is given and the call returns; the
pool is destroyed; the thread sees that it is to quit.  The destructor returns (the assertion P:48
fails) and the job was never run. -/
theorem C106_lost_false : ∃ s : St, Reach false 0 s ∧ s.phase = .gone ∧ s.queue = [5] ∧ s.finished = [] := by
  have h : ((run (init false 0) [.create, .empty 0, .push 5, .signal, .destroy, .quit 0, .signalAll, .join, .joined]).map
      fun s => decide (s.phase = .gone ∧ s.queue = [5] ∧ s.finished = [])) = some true := by decide +kernel
  obtain ⟨s, hs, h⟩ := Option.map_eq_some_iff.1 h
  have h := of_decide_eq_true h
  exact ⟨s, ⟨_, hs⟩, h.1, h.2.1, h.2.2⟩

end Verif.Pool
