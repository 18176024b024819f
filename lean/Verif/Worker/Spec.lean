import Verif.Worker.Model
/-
What is said about the jobs of a worker.
-/
namespace Verif.Worker

/-- who has a job -/
inductive Holder
  | waiting (a : Nat)
  | pending
  | worker (w : Nat)
  | done (r : Res)
  | server
  deriving DecidableEq

def Hand.job : Hand → Option Nat
  | .idle => none
  | .building j | .removed j _ | .push j _ => some j

/-- the holder has a pointer to the job -/
def Holds (s : State) (j : Nat) : Holder → Prop
  | .waiting a => j ∈ s.waiting a
  | .pending => j ∈ s.pending
  | .worker w => (s.worker w).job = some j
  | .done r => j ∈ s.done r
  | .server => ∃ r, s.server = some (j, r)

/-- what can be reached -/
inductive Reach : State → Prop
  | init : Reach {}
  | step {s s' : State} {a : Act} : Reach s → act s a = some s' → Reach s'

/-- no memory of a client is used again -/
inductive ReachNew : State → (Nat → Bool) → Prop
  | init : ReachNew {} (fun _ => false)
  | step {s s' : State} {a : Act} {old : Nat → Bool} : ReachNew s old → act s a = some s' → (∀ x c, a = .connect x c → old x = false) →
      ReachNew s' (fun x => old x || s'.client x ≠ none)

end Verif.Worker
