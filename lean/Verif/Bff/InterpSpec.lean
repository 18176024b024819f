import Verif.Bff.Token
/-
What the theorems about build files say, without reference to how they are evaluated.
-/
namespace Verif.Bff.Interp

/-- no variable of a parent scope is assigned or modified: wherever `^Name` is followed by `=`, `+` or `-`, it is itself
the right side of an operator (as in `.A = ^B + 'x'`, which adds to `.A`) -/
def NoParentWrite (ts : List Tok) : Prop :=
  ∀ pre v o post, ts = pre ++ .var ('^' :: v) :: .op o :: post → (o = .assign ∨ o = .plus ∨ o = .minus) →
    ∃ pre' o', pre = pre' ++ [.op o']

end Verif.Bff.Interp
