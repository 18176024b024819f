import Verif.StrFind.Model
/-
What the answers should be.
-/
namespace Verif.StrFind

/-- No zero bytes. -/
def Text (s : Bytes) : Prop := ∀ c ∈ s, c ≠ 0

/-- Exactly the same bytes. -/
def exact : UInt8 → UInt8 := fun c => c

/-- The same letters, in either case. -/
def sameLetter (a b : UInt8) : Prop :=
  a = b ∨ (65 ≤ a.toNat ∧ a.toNat ≤ 90 ∧ b.toNat = a.toNat + 32) ∨ (65 ≤ b.toNat ∧ b.toNat ≤ 90 ∧ a.toNat = b.toNat + 32)

/-- Two strings of the same length that agree byte by byte. -/
inductive Agree (R : UInt8 → UInt8 → Prop) : Bytes → Bytes → Prop
  | nil : Agree R [] []
  | cons {x y a b} : R x y → Agree R a b → Agree R (x :: a) (y :: b)

/-- The two ways to compare: exactly, and with letters in either case. -/
def Kind (f : UInt8 → UInt8) (R : UInt8 → UInt8 → Prop) : Prop := (f = exact ∧ R = (· = ·)) ∨ (f = low ∧ R = sameLetter)

/-- `t` is at position `i` of `s`. -/
def At (R : UInt8 → UInt8 → Prop) (s t : Bytes) (i : Nat) : Prop := ∃ a b c, s = a ++ b ++ c ∧ a.length = i ∧ Agree R b t

/-- The first position with a property. -/
def First (P : Nat → Prop) : Option Nat → Prop
  | some i => P i ∧ ∀ j, j < i → ¬ P j
  | none => ∀ j, ¬ P j

/-- The last one. -/
def Last (P : Nat → Prop) : Option Nat → Prop
  | some i => P i ∧ ∀ j, i < j → ¬ P j
  | none => ∀ j, ¬ P j

/-- Alphabetical order. -/
def Before (f : UInt8 → UInt8) (s t : Bytes) : Prop :=
  (∃ a b y d, s = a ∧ t = b ++ y :: d ∧ a.map f = b.map f) ∨
  (∃ a b x y c d, s = a ++ x :: c ∧ t = b ++ y :: d ∧ a.map f = b.map f ∧ (f x).toNat < (f y).toNat)

end Verif.StrFind
