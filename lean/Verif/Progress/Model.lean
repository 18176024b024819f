/-!
The progress of a build: `NodeGraph::UpdateBuildStatus` (Graph/NodeGraph.cpp:1523-1589) and the smoothing of it in `FBuild::UpdateBuildStatus`
(FBuild.cpp:693-715). Times are natural numbers (their 32 bits are left out). Nodes are numbers.
-/
namespace Verif.Progress

/-- Node.h, `State`: those before `BUILDING` are one -/
inductive State
  | waiting | building | failed | upToDate
deriving DecidableEq

/-- what is read of a node; `deps`: pre-build, static and dynamic dependencies, one after the other -/
structure Node where
  state : State
  time : Nat
  deps : List Nat := []

/-- `m_ProgressAccumulator` of all nodes, and the nodes with the tag of this pass -/
structure St where
  acc : Nat → Nat
  tagged : List Nat

/-- the loop, NodeGraph.cpp:1581-1589, with the two sums; `none` when the stack is used up -/
def each (f : Nat → St → Option (St × Nat × Nat)) : List Nat → St → Option (St × Nat × Nat)
  | [], s => some (s, 0, 0)
  | n :: l, s => match f n s with
    | none => none
    | some (s, p, t) => match each f l s with
      | none => none
      | some (s, p', t') => some (s, p + p', t + t')

/-- NodeGraph.cpp:1538-1540 -/
def own (g : Nat → Node) (n : Nat) : Nat := if (g n).state = .upToDate then (g n).time else 0

/-- `UpdateBuildStatusRecurse`, NodeGraph.cpp:1533-1577: what it adds to the time of built nodes and to the time of all nodes -/
def visit (g : Nat → Node) : Nat → Nat → St → Option (St × Nat × Nat)
  | 0, _, _ => none
  | fuel + 1, n, s =>
    if 0 < s.acc n then some (s, own g n + s.acc n, (g n).time + s.acc n)
    else if n ∈ s.tagged then some (s, own g n, (g n).time)
    else match each (visit g fuel) (g n).deps { s with tagged := n :: s.tagged } with
      | none => none
      | some (s, p, t) =>
        some (if (g n).state ≠ .waiting then { s with acc := fun m => if m = n then t else s.acc m } else s, own g n + p, (g n).time + t)

/-- `UpdateBuildStatus`, NodeGraph.cpp:1523-1529 -/
def update (g : Nat → Node) (fuel root : Nat) (acc : Nat → Nat) : Option (St × Nat × Nat) := visit g fuel root ⟨acc, []⟩

/-- `m_SmoothedProgressTarget` and `m_SmoothedProgressCurrent`, in percent -/
structure Shown where
  target : Rat
  current : Rat

/-- FBuild.cpp:705-712: a new estimate; `rnd`: rounding to a float; `limit`: the float `99.9f` -/
def estimate (rnd : Rat → Rat) (limit : Rat) (p t : Nat) (s : Shown) : Shown :=
  { s with target := max (min (rnd (rnd (p / t : Rat) * 100)) limit) s.target }

/-- FBuild.cpp:715 -/
def smooth (rnd : Rat → Rat) (s : Shown) : Shown := { s with current := rnd (rnd (1 / 2 * s.current) + rnd (s.target * (1 / 2))) }

end Verif.Progress
