import Verif.Report.Libs
/-!
What C126 is stated with.
-/
namespace Verif.Report.Incl
open Verif.Report

/-- the objects below a node, in each way they can be reached; what is needed for an object is left aside -/
inductive Ways (g : Nat → Node) : Nat → List Nat → Prop
  | object {n : Nat} : (g n).kind = .object → Ways g n [n]
  | other {n : Nat} {ls : List (List Nat)} : (g n).kind ≠ .object → ls.length = ((g n).static_ ++ (g n).dynamic_).length →
      (∀ (i m : Nat) (l : List Nat), ((g n).static_ ++ (g n).dynamic_)[i]? = some m → ls[i]? = some l → Ways g m l) → Ways g n ls.flatten

/-- `m` is a dependency -/
def DepOf (g : Nat → Node) (n m : Nat) : Prop := (g n).kind ≠ .object ∧ (m ∈ (g n).static_ ∨ m ∈ (g n).dynamic_)

/-- `m` can be reached -/
inductive Below (g : Nat → Node) (n : Nat) : Nat → Prop
  | refl : Below g n n
  | step {m k : Nat} : Below g n m → DepOf g m k → Below g n k

/-- how often a header is a dependency of these objects -/
def times (g : Nat → Node) (L : List Nat) (h : Nat) : Nat := (L.map fun o => (g o).dynamic_.count h).sum

/-- one of these objects makes a precompiled header of it -/
def InPch (g : Nat → Node) (pch : Nat → Bool) (L : List Nat) (h : Nat) : Prop := ∃ o ∈ L, pch o = true ∧ h ∈ (g o).dynamic_

end Verif.Report.Incl
