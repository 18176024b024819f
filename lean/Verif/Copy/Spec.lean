/- What is said about copies and lists, without the functions of the model. -/
import Verif.Copy.Model
import Verif.Dirs.Spec

namespace Verif.Copy
open Unity (Name)

/-- Node `i` is the one that is called `n`; names in either case are the same. -/
def Called (g : Graph) (i : Nat) (n : Name) : Prop := ∃ m k, g[i]? = some (m, k) ∧ Dirs.Same false m n

/-- Names are different, and aliases stand for nodes made before. -/
structure WF (g : Graph) : Prop where
  names : ∀ i j n, Called g i n → Called g j n → i = j
  before : ∀ i n ts, g[i]? = some (n, Kind.alias ts) → ∀ t ∈ ts, t < i

/-- The files a node stands for: itself, or those of the nodes of an alias in their order. -/
inductive Files (g : Graph) : Nat → List Nat → Prop
  | file {i n k} : g[i]? = some (n, k) → k.isAFile = true → Files g i [i]
  | alias {i n ts} (ls : List (List Nat)) : g[i]? = some (n, Kind.alias ts) → ls.length = ts.length →
      (∀ (k t : Nat) (l : List Nat), ts[k]? = some t → ls[k]? = some l → Files g t l) → Files g i ls.flatten

/-- Node `j` is `i`, or in an alias that is reached from `i`. -/
inductive Reach (g : Graph) : Nat → Nat → Prop
  | refl {i} : Reach g i i
  | step {i n ts t j} : g[i]? = some (n, Kind.alias ts) → t ∈ ts → Reach g t j → Reach g i j

/-- `p` ends with a slash. -/
def Folder (p : Name) : Prop := ∃ q c, p = q ++ [c] ∧ (c = '/' ∨ c = '\\')

/-- `dst` is where `src` is copied: into a folder with its path below the base path, or with its file
name if there is no base path or it is not below it. -/
def DestIs (linux : Bool) (sl : Char) (dest base src dst : Name) : Prop :=
  (¬ Folder dest ∧ dst = dest) ∨
  (Folder dest ∧ ∃ r, dst = dest ++ r ∧
    ((base ≠ [] ∧ ∃ x, src = x ++ r ∧ Dirs.Same linux x base) ∨
     ((base = [] ∨ ¬ Dirs.Begins linux src base) ∧ sl ∉ r ∧ (src = r ∨ ∃ d, src = d ++ sl :: r))))

/-- The sources: `g'` is `g` with files, and source `s` stands for node `j`, which is the one called so if
there was one, and otherwise is called by the clean path; `ns` are their files. -/
def SourcesAre (clean : Name → Name) (g g' : Graph) (srcs : List Name) (ns : List Nat) : Prop :=
  (∃ new, g' = g ++ new ∧ ∀ e ∈ new, e.2 = Kind.file ∧ ∃ s ∈ srcs, e.1 = clean s) ∧
  ∃ (js : List Nat) (ls : List (List Nat)), js.length = srcs.length ∧ ls.length = srcs.length ∧ ns = ls.flatten ∧
    ∀ (k j : Nat) (s : Name) (l : List Nat), srcs[k]? = some s → js[k]? = some j → ls[k]? = some l →
      Files g' j l ∧ (Called g' j s ∨ ((∀ i, ¬ Called g i s) ∧ Called g' j (clean s)))

/-- There is a way in three steps from a source to the file. -/
def Below (g : Nat → Node) (srcs : List Dep) (f : Nat) : Prop :=
  ∃ s ∈ srcs, s.weak = false ∧
  ∃ d ∈ (g s.node).static ++ (g s.node).dynamic, d.weak = false ∧
  ∃ e ∈ (g d.node).static ++ (g d.node).dynamic, e.weak = false ∧ e.node = f ∧ (g f).isFile = true

end Verif.Copy
