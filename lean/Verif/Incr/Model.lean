import Verif.Sched.Context
/-
Model of incremental builds: time stamps, need-to-build decisions, job outputs on disk, and
histories of builds with edits, interruptions, lost databases and changed build files in between.

Sources (relative to /repo/Code/Tools/FBuild/FBuildCore):
  Graph/Node.cpp       DetermineNeedToBuildStatic, DetermineNeedToBuildDynamic,
                       DetermineNeedToBuild, Finalize, RecordStampFromBuiltFile
  Graph/ObjectNode.cpp Finalize
  Graph/FileNode.cpp   DoBuild
  Graph/NodeGraph.cpp  Initialize, MigrateNode
  FBuild.cpp           Build, SaveDependencyGraph
-/
namespace Verif.Incr
open Verif.Sched

/-- Classification of nodes. -/
structure Kinds where
  /-- `Node::IsAFile`, Graph/Node.h:157 and overrides -/
  isFile : Nat → Bool
  /-- `FLAG_ALWAYS_BUILD` (Graph/Node.h), or `ExecAlways` / `TextFileAlways` -/
  always : Nat → Bool
  /-- inputs of the build: `FileNode` (Graph/NodeGraph.cpp:878 sets FLAG_ALWAYS_BUILD) and
  `DirectoryListNode`; their job only looks at external state -/
  source : Nat → Bool
  source_always : ∀ n, source n = true → always n = true

/-- Modification time of every file node on disk; 0 means the file does not exist
(`FileIO::GetFileLastWriteTime`). -/
abbrev Disk := Nat → Nat

/-- `Node::DetermineNeedToBuild`, Graph/Node.cpp:231-262. -/
def needDeps (g : G) (deps : List Dep) : Bool :=
  deps.any fun d =>
    !d.weak && ((g.node d.node).stamp == 0 || (g.node d.node).stamp != d.stamp)

/-- `Node::DetermineNeedToBuildStatic`, Graph/Node.cpp:174-215. -/
def needStatic (K : Kinds) (fs : Disk) (g : G) (n : Nat) : Bool :=
  K.always n || (g.node n).stamp == 0 ||
    (K.isFile n && (fs n == 0 || fs n != (g.node n).stamp)) ||
    needDeps g (g.node n).static

/-- `Node::DetermineNeedToBuildDynamic`, Graph/Node.cpp:219-227. -/
def needDyn (g : G) (n : Nat) : Bool := needDeps g (g.node n).dyn

/-- What a sweep consults. `extra` stands for the additional reasons of the overrides of
`DetermineNeedToBuildStatic` (all of the form `if (..) return true; .. return Node::Determine..`):
UnityNode (Graph/UnityNode.cpp:251-286). -/
structure SweepIn where
  forceClean : Bool
  stopOnFirstError : Bool
  extra : G → Nat → Bool
  doDyn : G → Nat → Option (List Dep)

/-- The environment of a sweep while the disk is `fs`. -/
def envOf (K : Kinds) (fs : Disk) (i : SweepIn) : Env where
  forceClean := i.forceClean
  stopOnFirstError := i.stopOnFirstError
  needStatic := fun g n => i.extra g n || needStatic K fs g n
  needDyn := needDyn
  doDyn := i.doDyn

/-- How a job ends (`JobQueue::FinalizeCompletedJobs`, WorkerPool/JobQueue.cpp:697-721). -/
inductive Res where
  /-- success. `virt` is the stamp computed by nodes that are not files; `disc` the dependencies
  found by `ObjectNode::Finalize`; -/
  | ok (virt : Nat) (disc : Option (List Dep))
  | finalizeFailed (partialDyn : Option (List Dep))
  | failed (resetStamp : Bool)
  | aborted

/-- Files first seen in `ObjectNode::Finalize` get their modification time recorded
(Graph/ObjectNode.cpp:255-263; `FileNode::DoBuild`, Graph/FileNode.cpp:40-51).
Simplification: the `STATS_BUILT` test is dropped; it only avoids a repeated stat. -/
def firstSeen (K : Kinds) (fs : Disk) (g : G) (disc : Option (List Dep)) : List (Nat × Nat) :=
  ((disc.getD []).filter fun d =>
    K.source d.node && K.isFile d.node && (g.node d.node).stamp == 0).map
      fun d => (d.node, fs d.node)

/-- The completion seen by the scheduler. A file node takes its stamp from the disk
(`RecordStampFromBuiltFile`, Graph/Node.cpp:1269-1312). -/
def outcome (K : Kinds) (fs : Disk) (g : G) (n : Nat) : Res → Outcome
  | .ok virt disc => .ok (if K.isFile n then fs n else virt) disc (firstSeen K fs g disc)
  | .finalizeFailed pd => .finalizeFailed (fs n) pd
  | .failed z => .failed z
  | .aborted => .aborted

/-- Graph and disk. -/
structure World where
  g : G
  fs : Disk

/-- Events of a build. -/
inductive IEv where
  | sweep (i : SweepIn)
  /-- the running job of `n` writes (or deletes, `s = 0`) its output file, giving it time `s` -/
  | write (n s : Nat)
  | finish (n : Nat) (r : Res)

/-- One event. Jobs write only their own output, only while they run, and never write inputs. -/
def istep (K : Kinds) (fuel : Nat) (targets : List Nat) (w : World) : IEv → Option World
  | .sweep i => (doBuildPass (envOf K w.fs i) fuel targets w.g).map fun g => { w with g }
  | .write n s =>
    if (w.g.node n).st = .building ∧ K.isFile n = true ∧ K.source n = false then
      some { w with fs := fun x => if x = n then s else w.fs x }
    else none
  | .finish n r =>
    if (w.g.node n).st = .building then
      some { w with g := finish w.g n (outcome K w.fs w.g n r) }
    else none

/-- Run a list of events. -/
def irun (K : Kinds) (fuel : Nat) (targets : List Nat) : World → List IEv → Option World
  | w, [] => some w
  | w, ev :: evs =>
    match istep K fuel targets w ev with
    | none => none
    | some w1 => irun K fuel targets w1 evs

/-- Graph at the start of a build, from the data kept in the database: all nodes NOT_PROCESSED
(`Node::LoadNode`, Graph/Node.cpp; node constructors), stamps and dependencies as stored. -/
def load (db : G) : G where
  node := fun n => { (db.node n) with st := .notProcessed, tag := 0, selfFailed := false }
  tag := 0
  proxy := .notProcessed
  log := []
  used := fun _ => []

/-- Graph freshly created from the build files (`NodeGraph::ParseFromRoot`): nothing built. -/
structure Fresh (db : G) : Prop where
  stamp : ∀ n, (db.node n).stamp = 0

end Verif.Incr
