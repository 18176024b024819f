/-
Model of the build scheduler of FASTBuild: graph sweeps and job completion.

Sources (relative to /repo/Code/Tools/FBuild/FBuildCore):
  Graph/NodeGraph.cpp  DoBuildPass, BuildRecurse, CheckDependencies,
                       CheckForCyclicDependencies(+Recurse)
  Graph/Node.h         enum State
  WorkerPool/JobQueue.cpp  AddJobToBatch, FinalizeCompletedJobs
  FBuild.cpp           Build( Node * )
-/
namespace Verif.Sched

/-- `Node::State`, Graph/Node.h:135-143 (`enum State : uint8_t`), in declaration order. -/
inductive St where
  | notProcessed | staticDeps | dynamicDeps | building | failed | upToDate
  deriving DecidableEq, Repr

/-- Numeric value of the enumerators of `Node::State` (Graph/Node.h:135-143); the code compares
states with `<` (e.g. `state < Node::BUILDING`). -/
def St.rank : St → Nat
  | .notProcessed => 0
  | .staticDeps => 1
  | .dynamicDeps => 2
  | .building => 3
  | .failed => 4
  | .upToDate => 5

/-- `class Dependency`, Graph/Dependencies.h: node, recorded stamp, weak flag. Nodes are
identified by numbers instead of pointers. -/
structure Dep where
  node : Nat
  stamp : Nat := 0
  weak : Bool := false
  deriving DecidableEq, Repr

/-- The part of `class Node` (Graph/Node.h) that the scheduler reads or writes.
Simplifications: recursive cost (only a priority), statistics flags and build time are dropped;
`m_BuildPassTag` and stamps are unbounded naturals. -/
structure Node where
  st : St := .notProcessed
  /-- `m_BuildPassTag` -/
  tag : Nat := 0
  /-- `m_Stamp` -/
  stamp : Nat := 0
  /-- `m_PreBuildDependencies` -/
  pre : List Dep := []
  /-- `m_StaticDependencies` -/
  static : List Dep := []
  /-- `m_DynamicDependencies` -/
  dyn : List Dep := []
  /-- ghost: this node's own work failed (job, finalisation or dynamic dependency generation) -/
  selfFailed : Bool := false

/-- The node graph during a build. Nodes that `DoDynamicDependencies` creates on the fly are
represented by nodes that are present from the start in state `notProcessed` (they cannot be
observed before something depends on them). -/
structure G where
  node : Nat → Node
  /-- `s_BuildPassTag`, Graph/NodeGraph.cpp:974 -/
  tag : Nat
  /-- state of the `NodeProxy` root created in FBuild.cpp:322-328 -/
  proxy : St
  /-- ghost: nodes handed to `JobQueue::AddJobToBatch`, newest first -/
  log : List Nat
  /-- ghost: for each node the dependencies it had when its dependency checks last succeeded -/
  used : Nat → List Nat

/-- Everything the sweep consults but does not compute: options and the virtual functions of the
node classes. All are arbitrary functions of the graph and the node.
`needStatic` is `DetermineNeedToBuildStatic`, `needDyn` is `DetermineNeedToBuildDynamic`,
`doDyn` is `DoDynamicDependencies` (none = returned false). -/
structure Env where
  forceClean : Bool
  stopOnFirstError : Bool
  needStatic : G → Nat → Bool
  needDyn : G → Nat → Bool
  doDyn : G → Nat → Option (List Dep)

/-- In-place update of one node. -/
def G.upd (g : G) (n : Nat) (f : Node → Node) : G :=
  { g with node := fun x => if x = n then f (g.node x) else g.node x }

/-- `Node::SetState`, Graph/Node.h -/
def G.setSt (g : G) (n : Nat) (s : St) : G := g.upd n (fun nd => { nd with st := s })

/-- `Node::SetBuildPassTag`, Graph/Node.h, with the current pass tag -/
def G.setTag (g : G) (n : Nat) : G := g.upd n (fun nd => { nd with tag := g.tag })

/-- `JobQueue::AddJobToBatch`, WorkerPool/JobQueue.cpp:302-321: state becomes BUILDING and the
node is appended to a staging queue (the ghost log). -/
def G.enqueue (g : G) (n : Nat) : G :=
  { g.setSt n .building with log := n :: g.log }

/-- dependency targets of a list of dependencies -/
def ids (l : List Dep) : List Nat := l.map Dep.node

/-- all dependencies of a node: pre-build, static, dynamic -/
def Node.allDeps (nd : Node) : List Nat := ids nd.pre ++ ids nd.static ++ ids nd.dyn

/-- Recursion into a dependency, Graph/NodeGraph.cpp:1155-1166: only into nodes that are not yet
BUILDING and not yet tagged in this pass; the tag is set before the recursion. -/
def visit (rec : G → Nat → Option G) (g : G) (d : Nat) : Option G :=
  if (g.node d).st.rank < 3 ∧ (g.node d).tag ≠ g.tag then rec (g.setTag d) d else some g

/-- The loop of `CheckDependencies`, Graph/NodeGraph.cpp:1149-1200. Returns the graph,
`allDependenciesUpToDate`, `numberNodesUpToDate`, `numberNodesFailed`. -/
def checkLoop (rec : G → Nat → Option G) (stop : Bool) (n : Nat) :
    G → List Nat → Bool → Nat → Nat → Option (G × Bool × Nat × Nat)
  | g, [], ok, u, f => some (g, ok, u, f)
  | g, d :: ds, ok, u, f =>
    match visit rec g d with
    | none => none
    | some g1 =>
      match (g1.node d).st with
      | .upToDate => checkLoop rec stop n g1 ds ok (u + 1) f
      | .failed =>
        if stop then some (g1.setSt n .failed, false, u, f + 1)
        else checkLoop rec stop n g1 ds false u (f + 1)
      | _ => checkLoop rec stop n g1 ds false u f

/-- `NodeGraph::CheckDependencies`, Graph/NodeGraph.cpp:1138-1214. -/
def checkDeps (rec : G → Nat → Option G) (stop : Bool) (g : G) (n : Nat) (deps : List Nat) :
    Option (G × Bool) :=
  match checkLoop rec stop n g deps true 0 0 with
  | none => none
  | some (g1, ok, u, f) =>
    if stop = false ∧ f + u = deps.length ∧ 0 < f then some (g1.setSt n .failed, ok)
    else some (g1, ok)

/-- Case `DYNAMIC_DEPS` of `BuildRecurse`, Graph/NodeGraph.cpp:1093-1120. -/
def fromDynamic (e : Env) (rec : G → Nat → Option G) (g : G) (n : Nat) : Option G :=
  match checkDeps rec e.stopOnFirstError g n (ids (g.node n).dyn) with
  | none => none
  | some (g1, false) => some g1
  | some (g1, true) =>
    let g2 := { g1 with used := fun x => if x = n then (g1.node n).allDeps else g1.used x }
    if (g2.node n).stamp = 0 ∨ e.needDyn g2 n = true then some (g2.enqueue n)
    else some (g2.setSt n .upToDate)

/-- Case `STATIC_DEPS` of `BuildRecurse`, Graph/NodeGraph.cpp:1054-1092. -/
def fromStatic (e : Env) (rec : G → Nat → Option G) (g : G) (n : Nat) : Option G :=
  match checkDeps rec e.stopOnFirstError g n (ids (g.node n).static) with
  | none => none
  | some (g1, false) => some g1
  | some (g1, true) =>
    if e.forceClean = true ∨ e.needStatic g1 n = true then
      let g2 := g1.upd n (fun nd => { nd with stamp := 0, dyn := [] })
      match e.doDyn g2 n with
      | none => some (g2.upd n (fun nd => { nd with st := .failed, selfFailed := true }))
      | some ds => fromDynamic e rec (g2.upd n (fun nd => { nd with st := .dynamicDeps, dyn := ds })) n
    else fromDynamic e rec (g1.setSt n .dynamicDeps) n

/-- Case `NOT_PROCESSED` of `BuildRecurse`, Graph/NodeGraph.cpp:1042-1053. -/
def fromPre (e : Env) (rec : G → Nat → Option G) (g : G) (n : Nat) : Option G :=
  match checkDeps rec e.stopOnFirstError g n (ids (g.node n).pre) with
  | none => none
  | some (g1, false) => some g1
  | some (g1, true) => fromStatic e rec (g1.setSt n .staticDeps) n

/-- The switch of `BuildRecurse`, Graph/NodeGraph.cpp:1040-1128, with the recursive calls abstracted
as `rec`. The ASSERT(false) cases return the graph unchanged (as a release build does). -/
def body (e : Env) (rec : G → Nat → Option G) (g : G) (n : Nat) : Option G :=
  match (g.node n).st with
  | .notProcessed => fromPre e rec g n
  | .staticDeps => fromStatic e rec g n
  | .dynamicDeps => fromDynamic e rec g n
  | _ => some g

/-- `NodeGraph::BuildRecurse`, Graph/NodeGraph.cpp:1028-1134. The fuel bounds the recursion depth;
`none` means the fuel was exhausted (theorem C08 shows this never happens with enough fuel). -/
def buildRecurse (e : Env) : Nat → G → Nat → Option G
  | 0, _, _ => none
  | f + 1, g, n => body e (buildRecurse e f) g n

/-- The loop over targets of `DoBuildPass` for a proxy root, Graph/NodeGraph.cpp:981-998. Returns the
graph, `upToDateCount` and `failedCount`. -/
def targetLoop (e : Env) (fuel : Nat) : G → List Nat → Nat → Nat → Option (G × Nat × Nat)
  | g, [], u, f => some (g, u, f)
  | g, t :: ts, u, f =>
    match (if (g.node t).st.rank < 3 then buildRecurse e fuel g t else some g) with
    | none => none
    | some g1 =>
      match (g1.node t).st with
      | .upToDate => targetLoop e fuel g1 ts (u + 1) f
      | .failed => targetLoop e fuel g1 ts u (f + 1)
      | _ => targetLoop e fuel g1 ts u f

/-- `NodeGraph::DoBuildPass` for the proxy root (FBuild.cpp:320-342 always builds a proxy),
Graph/NodeGraph.cpp:970-1006. The cycle check of lines 1015-1019 is `cyclicCheck` below; flushing
the batch (1023) does not touch nodes and is modelled in `Verif.Jobs`. -/
def doBuildPass (e : Env) (fuel : Nat) (targets : List Nat) (g : G) : Option G :=
  match targetLoop e fuel { g with tag := g.tag + 1 } targets 0 0 with
  | none => none
  | some (g1, u, f) =>
    if u + f = targets.length then some { g1 with proxy := if f ≠ 0 then .failed else .upToDate }
    else some g1

/-- What can happen to a job, as seen by `JobQueue::FinalizeCompletedJobs`
(WorkerPool/JobQueue.cpp:697-721). -/
inductive Outcome where
  /-- job succeeded and `Node::Finalize` returned true: new stamp, the new dynamic dependencies
  if the node class replaces them in `Finalize` (`ObjectNode::Finalize`, Graph/ObjectNode.cpp:237),
  and stamps recorded for newly discovered files -/
  | ok (stamp : Nat) (discovered : Option (List Dep)) (fileStamps : List (Nat × Nat))
  /-- job succeeded but `Finalize` returned false (only `ObjectNode::Finalize` can): the stamp is the
  new one, and the dynamic dependencies are the ones added before the failure
  (Graph/ObjectNode.cpp:239-266) -/
  | finalizeFailed (stamp : Nat) (partialDyn : Option (List Dep))
  /-- job failed; some failures also reset `m_Stamp` (e.g. Graph/CopyFileNode.cpp:84) -/
  | failed (resetStamp : Bool)
  /-- job was aborted: the node state is left alone (JobQueue.cpp:705-721 handles only the other two) -/
  | aborted

/-- set the stamps of discovered files (`FileNode::DoBuild` called from `ObjectNode::Finalize`) -/
def G.setStamps (g : G) : List (Nat × Nat) → G
  | [] => g
  | (f, s) :: l => (g.upd f (fun nd => { nd with stamp := s })).setStamps l

/-- Stamping of dependencies in `Node::Finalize`, Graph/Node.cpp:283-301: every dependency records
the current stamp of its node. -/
def stampDeps (g : G) (l : List Dep) : List Dep :=
  l.map (fun d => { d with stamp := (g.node d.node).stamp })

/-- Completion of the job of node `n`; WorkerPool/JobQueue.cpp:697-721 and `Node::Finalize`,
Graph/Node.cpp:283-301 (static and dynamic dependencies are stamped, pre-build ones are not). -/
def finish (g : G) (n : Nat) : Outcome → G
  | .ok s disc fs =>
    (g.setStamps fs).upd n (fun nd =>
      { nd with st := .upToDate, stamp := s,
                static := stampDeps (g.setStamps fs) nd.static,
                dyn := stampDeps (g.setStamps fs) (disc.getD nd.dyn) })
  | .finalizeFailed s pd =>
    g.upd n (fun nd => { nd with st := .failed, stamp := s, dyn := pd.getD nd.dyn, selfFailed := true })
  | .failed z =>
    g.upd n (fun nd => { nd with st := .failed, stamp := if z then 0 else nd.stamp, selfFailed := true })
  | .aborted => g

/-- Events of one build: a graph sweep by the main thread, or a job completion. -/
inductive Ev where
  | sweep (e : Env)
  | finish (n : Nat) (o : Outcome)

/-- One event. A completion is only possible for a node whose job was queued (state BUILDING).
`none`: the event cannot happen (or fuel exhausted in a sweep). -/
def step (fuel : Nat) (targets : List Nat) (g : G) : Ev → Option G
  | .sweep e => doBuildPass e fuel targets g
  | .finish n o => if (g.node n).st = .building then some (finish g n o) else none

/-- Run a list of events. -/
def run (fuel : Nat) (targets : List Nat) : G → List Ev → Option G
  | g, [] => some g
  | g, ev :: evs =>
    match step fuel targets g ev with
    | none => none
    | some g1 => run fuel targets g1 evs

/-- State of the graph when `FBuild::Build` starts: every node NOT_PROCESSED
(nodes are created or loaded with `m_State = NOT_PROCESSED`, Graph/Node.h), tags not larger than
the current pass tag, empty job queue. Stamps and dependency lists are arbitrary. -/
structure Init (g : G) : Prop where
  st : ∀ n, (g.node n).st = .notProcessed
  tag : ∀ n, (g.node n).tag ≤ g.tag
  self : ∀ n, (g.node n).selfFailed = false
  proxy : g.proxy = .notProcessed
  log : g.log = []

/-! ### Cyclic dependency check -/

/-- Tags of the DFS: the set of visited nodes (`m_BuildPassTag == s_BuildPassTag` after the
increment in line 1641). -/
abbrev Tags := List Nat

/-- Loop over dependencies of `CheckForCyclicDependenciesRecurse`, Graph/NodeGraph.cpp:1700-1711.
The three calls at 1685-1687 short-circuit, which is the same as one loop over all dependencies. -/
def cycLoop (rec : Tags → Nat → Option (Bool × Tags)) : Tags → List Nat → Option (Bool × Tags)
  | t, [] => some (false, t)
  | t, d :: ds =>
    match rec t d with
    | none => none
    | some (true, t1) => some (true, t1)
    | some (false, t1) => cycLoop rec t1 ds

/-- `CheckForCyclicDependenciesRecurse`, Graph/NodeGraph.cpp:1648-1696, with explicit fuel.
`stack` is `dependencyStack`, newest first. The error text is not modelled. -/
def cycRecurse (g : G) : Nat → List Nat → Tags → Nat → Option (Bool × Tags)
  | 0, _, _, _ => none
  | f + 1, stack, t, n =>
    if 3 ≤ (g.node n).st.rank then some (false, t)
    else if n ∈ stack then some (true, t)
    else if n ∈ t then some (false, t)
    else cycLoop (cycRecurse g f (n :: stack)) (n :: t) (g.node n).allDeps

/-- `CheckForCyclicDependencies` for the proxy root, Graph/NodeGraph.cpp:1593-1644, after the early
outs about queued jobs (1613-1637) have not applied: root state check, then the DFS from the proxy,
whose only dependencies are the targets. The proxy itself is no dependency of anything, so it is
not kept on the stack. -/
def cyclicCheck (g : G) (fuel : Nat) (targets : List Nat) : Option Bool :=
  if 3 ≤ g.proxy.rank then some false
  else (cycLoop (cycRecurse g fuel []) [] targets).map Prod.fst

end Verif.Sched
