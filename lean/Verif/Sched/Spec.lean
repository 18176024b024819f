import Verif.Sched.Model
import Mathlib.Logic.Relation
/-! Independent vocabulary for the scheduler properties C01-C08. -/
namespace Verif.Sched

/-- A graph state that occurs in a build: the run of some events from an initial state. -/
def Occurs (fuel : Nat) (targets : List Nat) (g0 : G) (evs : List Ev) (g : G) : Prop :=
  Init g0 ∧ run fuel targets g0 evs = some g

/-- `b` is a direct dependency of `a`. -/
def DependsOn (g : G) (a b : Nat) : Prop :=
  b ∈ ids (g.node a).pre ∨ b ∈ ids (g.node a).static ∨ b ∈ ids (g.node a).dyn

/-- Final states. -/
def Finished (s : St) : Prop := s = .upToDate ∨ s = .failed

/-- The node has not been handed to the job queue and is not finished. -/
def Unfinished (g : G) (n : Nat) : Prop :=
  (g.node n).st = .notProcessed ∨ (g.node n).st = .staticDeps ∨ (g.node n).st = .dynamicDeps

/-- Dependency edge between unfinished nodes. -/
def OpenEdge (g : G) (a b : Nat) : Prop := Unfinished g a ∧ Unfinished g b ∧ DependsOn g a b

/-- A cycle of unfinished nodes is reachable from the targets. -/
def CycleReachable (g : G) (targets : List Nat) : Prop :=
  ∃ t ∈ targets, ∃ x, Unfinished g t ∧ Relation.ReflTransGen (OpenEdge g) t x ∧
    Relation.TransGen (OpenEdge g) x x

/-- Node `n` failed through its own fault at some point of the event list: its job failed, its
finalisation failed, or generating its dynamic dependencies failed in a sweep. -/
def OwnFailure (evs : List Ev) (n : Nat) : Prop :=
  (∃ z, .finish n (.failed z) ∈ evs) ∨ (∃ s pd, .finish n (.finalizeFailed s pd) ∈ evs) ∨
  ∃ e g, .sweep e ∈ evs ∧ e.doDyn g n = none

/-- All nodes have numbers below `N`, and so have all their dependencies. -/
def Within (N : Nat) (g : G) : Prop := ∀ n b, DependsOn g n b → b < N

/-- Dynamic dependencies that a node generates have numbers below `N`. -/
def EnvWithin (N : Nat) (e : Env) : Prop := ∀ g n ds, e.doDyn g n = some ds → ∀ d ∈ ids ds, d < N

/-- The events only mention nodes below `N`. -/
def EvWithin (N : Nat) : Ev → Prop
  | .sweep e => EnvWithin N e
  | .finish n (.ok _ (some ds) _) => n < N ∧ ∀ d ∈ ids ds, d < N
  | .finish n (.finalizeFailed _ (some ds)) => n < N ∧ ∀ d ∈ ids ds, d < N
  | .finish n _ => n < N

/-- Number of "useless looking" sweeps of a run: sweeps that start while no job is in flight, do not
finish the root and after which no cycle is reported. -/
def idleSweeps (N fuel : Nat) (targets : List Nat) : G → List Ev → Nat
  | _, [] => 0
  | g, .finish n o :: evs =>
    match step fuel targets g (.finish n o) with
    | none => 0
    | some g1 => idleSweeps N fuel targets g1 evs
  | g, .sweep e :: evs =>
    match step fuel targets g (.sweep e) with
    | none => 0
    | some g1 =>
      (if (∀ x < N, (g.node x).st ≠ .building) ∧ g1.proxy.rank < 3 ∧ cyclicCheck g1 fuel targets ≠ some true
       then 1 else 0) + idleSweeps N fuel targets g1 evs

/-- Nodes whose job completed (successfully or not) in a list of events, in order. -/
def completed : List Ev → List Nat
  | [] => []
  | .finish _ .aborted :: evs => completed evs
  | .finish n _ :: evs => n :: completed evs
  | .sweep _ :: evs => completed evs

/-- Along the run, the dependencies discovered while finalising a job (`ObjectNode::Finalize`) are
already up to date, e.g. because they are source files in the graph or declared dependencies. -/
def DiscoveredReady (fuel : Nat) (targets : List Nat) : G → List Ev → Prop
  | _, [] => True
  | g, ev :: evs =>
    (match ev with
     | .finish _ (.ok _ (some ds) _) => ∀ d ∈ ids ds, (g.node d).st = .upToDate
     | _ => True) ∧
    match step fuel targets g ev with
    | none => True
    | some g1 => DiscoveredReady fuel targets g1 evs

end Verif.Sched
