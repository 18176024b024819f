import Verif.CompInfo.Model
/-! What C113 is stated with: the output of compilers asked for their include paths. -/
namespace Verif.CompInfo

/-- `s` begins with one of the two lines that start a list -/
def Heads (s : Text) : Prop :=
  (∃ r, s = "#include \"...\" search starts here:".toList ++ r) ∨ (∃ r, s = "#include <...> search starts here:".toList ++ r)

/-- nothing that starts a list begins inside of `pre`, followed by `rest` -/
def Before (pre rest : Text) : Prop := ∀ p q, pre = p ++ q → q ≠ [] → ¬ Heads (q ++ rest)

/-- lines of a list: either of the starting lines, or a path `p` indented by one or more blanks -/
inductive Line : Text → Option Text → Prop
  | headA : Line "#include \"...\" search starts here:".toList none
  | headB : Line "#include <...> search starts here:".toList none
  | path {p : Text} (a b : Nat) : p ≠ [] → p.head? ≠ some ' ' → p.getLast? ≠ some ' ' → '"' ∉ p → '\n' ∉ p →
      Line (List.replicate (a + 1) ' ' ++ p ++ List.replicate b ' ') (some p)

/-- lines and the paths in them -/
inductive Lines : Text → List Text → Prop
  | nil : Lines [] []
  | head {l s : Text} {ps : List Text} : Line l none → Lines s ps → Lines (l ++ '\n' :: s) ps
  | path {l s p : Text} {ps : List Text} : Line l (some p) → Lines s ps → Lines (l ++ '\n' :: s) (p :: ps)

/-- a line that is none of them, nor the last one -/
def Odd (l : Text) : Prop :=
  l ≠ [] ∧ '"' ∉ l ∧ '\n' ∉ l ∧ l.head? ≠ some ' ' ∧ ¬ Heads l ∧ ¬ ∃ r, l = "End of search list.".toList ++ r

end Verif.CompInfo
