import Verif.Progress.Model
/-! What C129 is stated with. -/
namespace Verif.Progress

/-- `n` is the target that is built or needed for it -/
inductive Needed (g : Nat → Node) (root : Nat) : Nat → Prop
  | root : Needed g root root
  | dep {n m : Nat} : Needed g root n → m ∈ (g n).deps → Needed g root m

/-- the same, but not below a node whose time below is known -/
inductive Reached (g : Nat → Node) (acc : Nat → Nat) (root : Nat) : Nat → Prop
  | root : Reached g acc root root
  | dep {n m : Nat} : Reached g acc root n → acc n = 0 → m ∈ (g n).deps → Reached g acc root m

/-- what is left -/
def left (g : Nat → Node) (L : List Nat) : Nat := ((L.filter fun n => (g n).state ≠ .upToDate).map fun n => (g n).time).sum

/-- rounding to a float keeps the order -/
structure Rounds (rnd : Rat → Rat) : Prop where
  mono : ∀ a b, a ≤ b → rnd a ≤ rnd b

end Verif.Progress
