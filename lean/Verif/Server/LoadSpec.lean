import Verif.Server.LoadModel
/-! Specification for C37. -/
namespace Verif.Server.Spec

/-- jobs asked for or received and not reported yet, of one client -/
def _root_.Verif.Server.Counts.inUse (x : Counts) : Nat := x.requested + x.active + (if x.moving then 1 else 0)

/-- ... of all clients -/
def inUse (s : Load) : Nat := (s.clients.map Counts.inUse).sum

/-- All states of a worker that never uses more than `cpus` CPUs and never has more than `clients` connections. With
`torn = false` a received job is moved from the requested to the active jobs in one step. -/
inductive Reach (cpus clients : Nat) (torn : Bool) : Load → Prop
  | init : Reach cpus clients torn initial
  | op {s s' : Load} (o : Op) : Reach cpus clients torn s → step s o = .ok s' →
      (∀ n, o = .find n → n ≤ cpus) → (torn = false → ∀ i, o ≠ .job1 i ∧ o ≠ .job2 i) → s'.clients.length ≤ clients →
      Reach cpus clients torn s'
  | job {s s₁ s' : Load} (i : Nat) : Reach cpus clients torn s → step s (.job1 i) = .ok s₁ → step s₁ (.job2 i) = .ok s' →
      Reach cpus clients torn s'

end Verif.Server.Spec
