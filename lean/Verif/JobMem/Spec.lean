import Verif.JobMem.Model
/-
What is expected of the memory of jobs.
-/
namespace Verif.JobMem

/-- the bytes of data of the jobs that `p` selects -/
def bytes (p : Job → Bool) : List Job → Nat
  | [] => 0
  | j :: l => (if p j then j.size else 0) + bytes p l

/-- no thread is inside `OwnData` -/
def Quiet (w : World) : Prop := ∀ j ∈ w.jobs, j.pc = .idle ∨ j.pc = .gone

/-- the buffers of jobs, in the order of the jobs -/
def buffers : List Job → List Nat
  | [] => []
  | j :: l => j.data.toList ++ buffers l

/-- a local job that waits for another computer, or is built by one -/
def Job.waits (j : Job) : Bool := j.stage = .sent

/-- What the program does: any event that is possible there, where files have at most `B` bytes and what is compressed has at most `h` bytes
more than before. -/
inductive Reach (c : Cfg) (B h : Nat) : World → Prop
  | init : Reach c B h World.init
  | step {w w' : World} {e : Ev} : Reach c B h w → exec c w e = some (.ok w') →
      (∀ i b s p, e = .own i b s p → s ≤ B) →
      (∀ i b s, e = .compress i b s → ∀ j : Job, w.jobs[i]? = some j → s ≤ j.size + h) → Reach c B h w'

end Verif.JobMem
