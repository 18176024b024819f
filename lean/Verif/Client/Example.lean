import Verif.Client.Props
/-
Builds that meet the hypotheses of C109, and what does not hold.
-/
namespace Verif.Client

def steps (nf : Nat → Nat) : Sys → List Op → Option Sys
  | s, [] => some s
  | s, o :: os =>
      match step nf s o with
      | .ok s => steps nf s os
      | _ => none

theorem steps_reach {nf jobs} : ∀ (os : List Op) (s s' : Sys), Reach nf jobs s → steps nf s os = some s' → Reach nf jobs s'
  | [], s, s', h, e => by cases e; exact h
  | o :: os, s, s', h, e => by
      simp only [steps] at e
      split at e
      · rename_i s1 h1; exact steps_reach os s1 s' (.step h h1) e
      · exact nomatch e

/-- Two jobs that use the same tool of two files. -/
def twoJobs : List Job := [⟨1, 7⟩, ⟨2, 7⟩]
def files : Nat → Nat := fun _ => 2

/-- Connect, ask for a job, get it with its tool, build it. -/
def build : List Op :=
  [.connect 0, .greet 0 2, .wRecv 0 false, .wRequest 0, .recv 0 (some ⟨1, 7⟩) false, .signal 0, .take 0, .send 0,
   .wRecv 0 true, .wAsk 0 7, .recv 0 none false, .signal 0, .take 0, .send 0, .wRecv 0 false,
   .wAskFile 0 7 1, .recv 0 none false, .signal 0, .take 0, .send 0, .wRecv 0 false, .wStart 0 7,
   .wFinish 0 ⟨1, 7⟩ true false, .recv 0 none false]

example : (twoJobs.map Job.id).Nodup := by decide

example : ∃ s, steps files (start twoJobs) build = some s ∧ s.done = [⟨1, 7⟩] ∧ s.pool = [⟨2, 7⟩] ∧
    (s.conns.map (·.jobs)) = [[]] := ⟨_, rfl, by decide, by decide, by decide⟩

/-- The job is at the worker when the connection is lost. -/
example : ∃ s, steps files (start twoJobs) (build.take 9 ++ [.disconnect 0]) = some s ∧ s.pool = [⟨1, 7⟩, ⟨2, 7⟩] ∧
    (s.conns.map (·.phase)) = [.down] := ⟨_, rfl, by decide, by decide⟩

/-- A system error: the job waits again and the worker gets no more. -/
example : ∃ s, steps files (start twoJobs) (build.take 8 ++ [.wRecv 0 false, .wFinish 0 ⟨1, 7⟩ false true, .recv 0 none false,
      .wRequest 0, .recv 0 (some ⟨2, 7⟩) false]) = some s ∧
    s.pool = [⟨1, 7⟩, ⟨2, 7⟩] ∧ s.deny = [0] ∧ s.errs 1 = 1 ∧ (s.conns.map (·.sendQ)) = [[.noJob]] :=
  ⟨_, rfl, by decide, by decide, by decide, by decide⟩

/-- An offer overtakes a job. -/
example : ∃ s, steps files (start twoJobs) (build.take 5 ++ [.signal 0, .offer 0 1, .take 0, .send 0]) = some s ∧
    (s.conns.map (·.out)) = [[.status 1]] ∧ (s.conns.map (·.sendQ)) = [[.job ⟨1, 7⟩]] ∧ (s.conns.map (·.owed)) = [1] :=
  ⟨_, rfl, by decide, by decide, by decide⟩

/-- Three workers, two connections: the worker after the first is used, one that fails is left alone for a while. -/
example : (mrun 2 (register 3 0 2) [.pass 0, .ended 5 true 0, .pass 6, .pass 10004, .ended 10005 false 0, .pass 10006]).map
    (·.conns) = some [(1, false), (2, false)] := by decide

/-- A deny listed worker is not connected to. -/
example : (mrun 2 (register 2 0 0) [.deny 0, .pass 0]).map (·.conns) = some [(1, false)] := by decide

example : communicate false 3 0 = some 3 ∧ communicate false 3 2 = none ∧ communicate true 3 2 = some 3 := by decide

/-- The pause of ten seconds is only for workers that do not answer: one that answers and closes the connection, as
those of another version do, is connected to again with every pass. -/
theorem C109_pause_false :
    (mrun 1 (register 1 0 0) [.pass 0, .ended 0 false 0, .pass 1, .ended 1 false 0, .pass 2]).map (·.conns) = some [(0, false)] ∧
    (mrun 1 (register 1 0 0) [.pass 0, .ended 0 true 0, .pass 1, .pass 9999]).map (·.conns) = some [] := by decide

/-- Jobs that are offered while the connection is being made are told after the first message: the worker believes there
are none, the client believes it has said five, and if there are five nothing more is said. -/
theorem C109_told_false : ∃ s k, Reach files twoJobs s ∧ s.conns[0]? = some k ∧ k.phase = .up ∧ k.pend = [] ∧
    k.status = none ∧ k.avail = 0 ∧ k.told = 5 ∧ ∀ timer, communicate timer 5 k.told = none := by
  refine ⟨_, _, steps_reach [.connect 0, .offer 0 3, .signal 0, .offer 0 0, .signal 0, .greet 0 5, .take 0, .send 0, .wRecv 0 false,
    .wRecv 0 false] _ _ .start rfl, rfl, rfl, rfl, rfl, rfl, rfl, by decide⟩

end Verif.Client
