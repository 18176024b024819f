import Verif.Report.Libs
/-!
What C122 is stated with.
-/
namespace Verif.Report

/-- `m` is a dependency of `n`; what is needed for an object is left aside -/
def Dep (g : Nat → Node) (n m : Nat) : Prop :=
  (g n).kind ≠ .object ∧ (m ∈ (g n).preBuild ∨ m ∈ (g n).static_ ∨ m ∈ (g n).dynamic_)

/-- `m` is `n` or needed for it -/
inductive Needs (g : Nat → Node) (n : Nat) : Nat → Prop
  | refl : Needs g n n
  | step {m k : Nat} : Needs g n m → Dep g m k → Needs g n k

/-- the graph has the nodes below `N` -/
def Closed (g : Nat → Node) (N : Nat) : Prop :=
  ∀ n < N, ∀ m, m ∈ (g n).preBuild ∨ m ∈ (g n).static_ ∨ m ∈ (g n).dynamic_ → m < N

def IsObject (g : Nat → Node) (n : Nat) : Prop := (g n).kind = .object

/-- static libraries, DLLs, lists of objects, and C# assemblies that are DLLs -/
def IsLib (g : Nat → Node) (n : Nat) : Prop :=
  (g n).kind = .library ∨ (g n).kind = .dll ∨ (g n).kind = .objectList ∨ (g n).kind = .cs true

/-- objects found in the cache, or looked for in it -/
def Cacheable (nd : Node) : Prop := nd.hit = true ∨ nd.miss = true
def OutOfDate (nd : Node) : Prop := nd.hit = true ∨ nd.miss = true ∨ nd.built = true

instance (nd : Node) : Decidable (Cacheable nd) := inferInstanceAs (Decidable (_ ∨ _))
instance (nd : Node) : Decidable (OutOfDate nd) := inferInstanceAs (Decidable (_ ∨ _))

/-- how many are so -/
def number (g : Nat → Node) (L : List Nat) (p : Node → Prop) [DecidablePred p] : Nat := (L.filter fun n => decide (p (g n))).length
/-- the time of those that are so -/
def timeOf (g : Nat → Node) (L : List Nat) (p : Node → Prop) [DecidablePred p] (t : Node → Nat) : Nat :=
  ((L.filter fun n => decide (p (g n))).map fun n => t (g n)).sum

/-- what the report says of library `n` with the objects `L` -/
def row (g : Nat → Node) (n : Nat) (L : List Nat) : LibStats where
  node := n
  time := (if (g n).built = true ∨ (g n).failed = true then (g n).time else 0) + timeOf g L OutOfDate (·.time)
  objects := L.length
  outOfDate := number g L OutOfDate
  cacheable := number g L Cacheable
  hits := number g L (·.hit = true)
  stores := number g L fun x => Cacheable x ∧ x.store = true
  cacheTime := timeOf g L (fun x => Cacheable x ∧ x.store = true) (·.caching)

/-- sorting by time, the longest first -/
structure Sorts (sort : List LibStats → List LibStats) : Prop where
  perm : ∀ l, (sort l).Perm l
  ordered : ∀ l, (sort l).Pairwise fun a b => b.time ≤ a.time

/-- objects belong to libraries: whatever depends on an object is a library -/
def InLibs (g : Nat → Node) (root : Nat) : Prop :=
  ¬ IsObject g root ∧ ∀ n m, Needs g root n → Dep g n m → IsObject g m → IsLib g n

end Verif.Report
