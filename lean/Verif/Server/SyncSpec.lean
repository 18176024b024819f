import Verif.Server.SyncModel
/-
What C38 is stated with.
-/
namespace Verif.Server

/-- job `j` of client `c` waits for tool `t` -/
def Sync.waits (s : Sync) (c j t : Nat) : Prop := ∃ x ∈ s.clients, x.id = c ∧ (j, t) ∈ x.waiting

/-- all waiting jobs: client, job, tool -/
def Sync.waiting (s : Sync) : List (Nat × Nat × Nat) := s.clients.flatMap fun x => x.waiting.map fun w => (x.id, w.1, w.2)

/-- states reached by any interleaving of the threads -/
inductive SReach (dbg : Bool) : Sync → Prop
  | init : SReach dbg .initial
  | step {s s' : Sync} (op : SOp) : SReach dbg s → sstep dbg s op = .ok s' → SReach dbg s'

/-- states reached when the two parts of handling a disconnection are not interrupted -/
inductive SReachA (dbg : Bool) : Sync → Prop
  | init : SReachA dbg .initial
  | step {s s' : Sync} (op : SOp) : SReachA dbg s → (∀ c, op ≠ .leave c) → (∀ c, op ≠ .left c) → sstep dbg s op = .ok s' → SReachA dbg s'
  | disconnect {s s₁ s' : Sync} (c : Nat) : SReachA dbg s → sstep dbg s (.leave c) = .ok s₁ → sstep dbg s₁ (.left c) = .ok s' → SReachA dbg s'

/-- every file of the tool is there -/
def Man.complete (m : Man) : Prop := m.files ≠ [] ∧ ∀ f ∈ m.files, f = .present

def srun (dbg : Bool) (s : Sync) : List SOp → Out Sync
  | [] => .ok s
  | op :: r => match sstep dbg s op with
    | .ok s => srun dbg s r
    | .off => .off
    | .assert => .assert

end Verif.Server
