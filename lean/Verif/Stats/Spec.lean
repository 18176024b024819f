import Verif.Stats.Model
/-! What C115 is stated with. -/
namespace Verif.Stats

/-- `n` is the target that is built or needed for it -/
inductive Needed (g : Nat → Node) (root : Nat) : Nat → Prop
  | root : Needed g root root
  | preBuild {n m : Nat} : Needed g root n → m ∈ (g n).preBuild → Needed g root m
  | static_ {n m : Nat} : Needed g root n → m ∈ (g n).static_ → Needed g root m
  | dynamic_ {n m : Nat} : Needed g root n → m ∈ (g n).dynamic_ → Needed g root m

/-- the graph has the nodes below `N` -/
def Closed (g : Nat → Node) (N : Nat) : Prop :=
  ∀ n < N, ∀ m, m ∈ (g n).preBuild ∨ m ∈ (g n).static_ ∨ m ∈ (g n).dynamic_ → m < N

/-- `L` has the needed targets, each once -/
def Lists (g : Nat → Node) (root : Nat) (L : List Nat) : Prop := L.Nodup ∧ ∀ n, n ∈ L ↔ Needed g root n

/-- how many of `L` are so, in 32 bits -/
def number (g : Nat → Node) (L : List Nat) (p : Node → Prop) [DecidablePred p] : BitVec 32 :=
  BitVec.ofNat 32 (L.filter fun n => decide (p (g n))).length

/-- the time of those of `L` that are so, in 32 bits -/
def timeOf (g : Nat → Node) (L : List Nat) (p : Node → Prop) [DecidablePred p] (time : Node → BitVec 32) : BitVec 32 :=
  BitVec.ofNat 32 ((L.filter fun n => decide (p (g n))).map fun n => (time (g n)).toNat).sum

/-- sorting by time, the longest first -/
structure Sorts (g : Nat → Node) (sort : List Nat → List Nat) : Prop where
  perm : ∀ l, (sort l).Perm l
  ordered : ∀ l, (sort l).Pairwise fun a b => (g b).time ≤ (g a).time

end Verif.Stats
