import Verif.Incr.Model
import Verif.Sched.Spec
/-! Independent vocabulary for the incremental build properties C09-C12. -/
namespace Verif.Incr
open Verif.Sched

/-- What a job does, as far as its result is concerned: it reads nodes one after the other, each
choice depending on what was read before, and finally produces a content. -/
inductive Tool (C : Type) where
  | ret (c : C)
  | read (r : Nat) (k : C → Tool C)

/-- Result of a job when node contents are `w`, and the nodes it reads. -/
def Tool.eval {C : Type} (w : Nat → C) : Tool C → C × List Nat
  | .ret c => (c, [])
  | .read r k => (((k (w r)).eval w).1, r :: ((k (w r)).eval w).2)

/-- What the files mean and what the rules are. `content n s` is the content of node `n` when its
version (time stamp) is `s`: versions identify contents. `prog n` is the job of node `n`. -/
structure Sem (C : Type) where
  content : Nat → Nat → C
  prog : Nat → Tool C

/-- Content and reads of the job of `n`. -/
def Sem.tool {C : Type} (S : Sem C) (n : Nat) (w : Nat → C) : C × List Nat := (S.prog n).eval w

variable {C : Type}

/-- Current version of a node: files have the version on disk, other nodes their stamp. -/
def ver (K : Kinds) (fs : Disk) (g : G) (r : Nat) : Nat :=
  if K.isFile r then fs r else (g.node r).stamp

/-- Current content of every node. -/
def view (S : Sem C) (K : Kinds) (fs : Disk) (g : G) (r : Nat) : C := S.content r (ver K fs g r)

/-- The assumptions on a job completion:
* a successful job leaves the output its tool computes from the current contents, and everything the
  tool read is a non-weak dependency of the node after finalisation;
* dependencies discovered by the compiler are up to date, or are input files whose recorded time is
  not older than this build (never recorded, or equal to the time on disk);
* `Finalize` does not fail. -/
def Honest (S : Sem C) (K : Kinds) (w : World) : IEv → Prop
  | .finish n (.ok virt disc) =>
    (∀ d ∈ ids (disc.getD []), (w.g.node d).st = .upToDate ∨
      (K.source d = true ∧ K.isFile d = true ∧
        ((w.g.node d).stamp = 0 ∨ (w.g.node d).stamp = w.fs d))) ∧
    (K.source n = false →
      S.content n (if K.isFile n then w.fs n else virt) = (S.tool n (view S K w.fs w.g)).1 ∧
      ∀ r ∈ (S.tool n (view S K w.fs w.g)).2,
        ∃ d ∈ (w.g.node n).static ++ disc.getD (w.g.node n).dyn, d.weak = false ∧ d.node = r)
  | .finish _ (.finalizeFailed _) => False
  | _ => True

/-- Every event of the run is honest. -/
def HonestRun (S : Sem C) (K : Kinds) (fuel : Nat) (ts : List Nat) : World → List IEv → Prop
  | _, [] => True
  | w, ev :: evs => Honest S K w ev ∧
    match istep K fuel ts w ev with
    | none => True
    | some w1 => HonestRun S K fuel ts w1 evs

/-- One build: events starting from the graph stored in the database. The build may be at any point:
complete, failed, or interrupted. -/
structure Builds (S : Sem C) (K : Kinds) (ts : List Nat) (db : G) (fs : Disk) (w : World) : Prop where
  run : ∃ fuel evs, HonestRun S K fuel ts ⟨load db, fs⟩ evs ∧ irun K fuel ts ⟨load db, fs⟩ evs = some w

/-- A node keeps its state when the build files are parsed again only if its rule is unchanged
(`NodeGraph::MigrateNode`, Graph/NodeGraph.cpp:1849-1992; that the code has this effect is theorem
`C61_history` in Verif/Mig). -/
def Migrated (K K' : Kinds) (S S' : Sem C) (db db' : G) (n : Nat) : Prop :=
  (K'.source n = false → (db'.node n).stamp = 0) ∨
  (K'.source n = K.source n ∧ S'.prog n = S.prog n ∧ (db'.node n).stamp = (db.node n).stamp ∧
    (db'.node n).static = (db.node n).static ∧ (db'.node n).dyn = (db.node n).dyn)

/-- Histories of a workspace: the kinds of the nodes, the current rules, the database on disk, and the
files. -/
inductive History : Kinds → Sem C → G → Disk → Prop where
  /-- a workspace that was never built -/
  | fresh {K S db fs} : Fresh db → History K S db fs
  /-- a build that ended (finished, failed or aborted) and saved its database -/
  | built {K S db fs ts w} : History K S db fs → Builds S K ts db fs w → History K S w.g w.fs
  /-- a build that was killed, or could not save its database -/
  | killed {K S db fs ts w} : History K S db fs → Builds S K ts db fs w → History K S db w.fs
  /-- any change to the files between builds -/
  | edited {K S db fs fs'} : History K S db fs → History K S db fs'
  /-- the database was deleted, or rejected as corrupt -/
  | lost {K S db db' fs} : History K S db fs → Fresh db' → History K S db' fs
  /-- the build files changed; versions keep their meaning -/
  | reparsed {K K' S S' db db' fs} : History K S db fs → S'.content = S.content →
      (∀ n, Migrated K K' S S' db db' n) → History K' S' db' fs

/-- A direct dependency of a node that is not an input. -/
def BuildEdge (K : Kinds) (g : G) (a b : Nat) : Prop := K.source a = false ∧ DependsOn g a b

/-- The content of `n` is what its rule produces from the current contents. -/
def Consistent (S : Sem C) (K : Kinds) (w : World) (n : Nat) : Prop :=
  view S K w.fs w.g n = (S.tool n (view S K w.fs w.g)).1

/-- The recorded dependency `d` differs from the present: its node is missing or has another version. -/
def Changed (g : G) (d : Dep) : Prop :=
  (g.node d.node).stamp = 0 ∨ (g.node d.node).stamp ≠ d.stamp

/-- Why node `n` has to be rebuilt, given the database `db` and disk `fs0` at the start of the build
and the graph `g` at its end: it is always built, was never built (successfully), its output is missing
or was modified, or a recorded non-weak dependency changed. -/
def Reason (K : Kinds) (db : G) (fs0 : Disk) (g : G) (n : Nat) : Prop :=
  K.always n = true ∨ (db.node n).stamp = 0 ∨
  (K.isFile n = true ∧ (fs0 n = 0 ∨ fs0 n ≠ (db.node n).stamp)) ∨
  ∃ d ∈ (db.node n).static ++ (db.node n).dyn, d.weak = false ∧ Changed g d

/-- A rebuild of `n` is forced by an option (`-clean`) or by a special reason of its node class. -/
def Forced (evs : List IEv) (n : Nat) : Prop :=
  ∃ i, .sweep i ∈ evs ∧ (i.forceClean = true ∨ ∃ g, i.extra g n = true)

end Verif.Incr
