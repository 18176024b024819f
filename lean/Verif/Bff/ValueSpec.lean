import Verif.Bff.Token
/-
What a user expects of `=`, `+` and `-` on the values of a build file, without the model's helpers. The theorems are in
Verif/Bff/ValueTheorems.lean.
-/
namespace Verif.Bff.Value

/-- the type of a value -/
inductive Kind | str | bool | int | strs | struct | structs
  deriving DecidableEq

def kind : Val → Kind
  | .str _ => .str
  | .bool _ => .bool
  | .int _ => .int
  | .strs _ => .strs
  | .struct _ => .struct
  | .structs _ => .structs

/-- an array without elements: what it may hold is still open -/
def Open (v : Val) : Prop := v = .strs [] ∨ v = .structs []

/-- an array -/
def Arr (v : Val) : Prop := kind v = .strs ∨ kind v = .structs

/-- the type of a variable before and after: the same, or it was an array without elements and is an array -/
def Keeps (old new : Val) : Prop := kind new = kind old ∨ Open old ∧ Arr new

/-- the names of members, in order -/
def names (ms : List (Str × Val)) : List Str := ms.map (·.1)

/-- Structs `a` and `b` put together give `r`: the members of `a`, then the members only `b` has; members both have are put together by
`plus`, others are as they were. -/
structure Merged (plus : Val → Val → Val → Prop) (a b r : List (Str × Val)) : Prop where
  order : names r = names a ++ (names b).filter (fun n => decide (n ∉ names a))
  left : ∀ n x, (n, x) ∈ a → n ∉ names b → (n, x) ∈ r
  right : ∀ n y, (n, y) ∈ b → n ∉ names a → (n, y) ∈ r
  both : ∀ n x y, (n, x) ∈ a → (n, y) ∈ b → ∃ z, plus x y z ∧ (n, z) ∈ r

/-- Two values that are not structs put together. Arrays without elements take the type of the other. -/
inductive Plus : Val → Val → Val → Prop
  | str (a b : Str) : Plus (.str a) (.str b) (.str (a ++ b))
  | int (a b : Int) : -2147483648 ≤ a + b → a + b ≤ 2147483647 → Plus (.int a) (.int b) (.int (a + b))
  | bool (a b : Bool) : Plus (.bool a) (.bool b) (.bool (a || b))
  | strs (a b : List Str) : Plus (.strs a) (.strs b) (.strs (a ++ b))
  | structs (a b : List (List (Str × Val))) : Plus (.structs a) (.structs b) (.structs (a ++ b))
  | strsOne (a : List Str) (b : Str) : Plus (.strs a) (.str b) (.strs (a ++ [b]))
  | structsOne (a : List (List (Str × Val))) (b : List (Str × Val)) : Plus (.structs a) (.struct b) (.structs (a ++ [b]))
  | openOne (b : List (Str × Val)) : Plus (.strs []) (.struct b) (.structs [b])
  | strsOpen (a : List Str) : Plus (.strs a) (.structs []) (.strs a)
  | structsOpen (a : List (List (Str × Val))) : Plus (.structs a) (.strs []) (.structs a)
  | openStructs (b : List (List (Str × Val))) : b ≠ [] → Plus (.strs []) (.structs b) (.structs b)
  | openStrs (b : List Str) : b ≠ [] → Plus (.structs []) (.strs b) (.strs b)

end Verif.Bff.Value
