import Verif.Str.MatchModel
/-
Model of Code/Core/Strings/LevenshteinDistance.cpp. `column` is a list; its numbers never exceed the string
lengths, so 32 bit arithmetic is exact and naturals are used.
-/
namespace Verif.Str

/-- `( a < b ) ? ( a < c ? a : c ) : ( b < c ? b : c )`, LevenshteinDistance.cpp:89 -/
def min3 (a b c : Nat) : Nat := if a < b then (if a < c then a else c) else (if b < c then b else c)

/-- The inner loop, LevenshteinDistance.cpp:81-92: `left` is `column[ y - 1 ]`, the first list holds
`column[ y ]` and following, the second `str1[ y - 1 ]` and following. -/
def levInner (eq : Char → Char → Bool) (ch : Char) : Nat → Nat → List Nat → List Char → List Nat
  | lastDiag, left, old :: col, s :: str1 =>
    let v := min3 (old + 1) (left + 1) (lastDiag + (if eq s ch then 0 else 1))
    v :: levInner eq ch old v col str1
  | _, _, _, _ => []

/-- The outer loop, LevenshteinDistance.cpp:78-93: `x - 1` characters of `str2` are done. -/
def levOuter (eq : Char → Char → Bool) (str1 : List Char) : Nat → List Nat → List Char → List Nat
  | _, col, [] => col
  | x, col, ch :: str2 => levOuter eq str1 (x + 1) (x :: levInner eq ch (x - 1) x col.tail str1) str2

/-- `LevenshteinDistanceImpl`, LevenshteinDistance.cpp:41-96. The flag tells that the assertion at line 67
did not fail. -/
def levImpl (capacity : Nat) (eq : Char → Char → Bool) (str1 str2 : List Char) : Nat × Bool :=
  if str1.length = 0 then (str2.length, true)
  else if str2.length = 0 then (str1.length, true)
  else
    let (str1, str2) := if str2.length < str1.length then (str2, str1) else (str1, str2)
    if str1.length ≥ capacity then (str2.length, false)
    else
      let column := 0 :: (List.range str1.length).map (· + 1)
      let column := levOuter eq str1 1 column str2
      (column.getD str1.length 0, true)

/-- `LevenshteinDistance::Distance`, line 109. -/
def levDistance (a b : List Char) : Nat × Bool := levImpl 1024 eqCase a b

/-- `LevenshteinDistance::DistanceI`, line 125. -/
def levDistanceI (a b : List Char) : Nat × Bool := levImpl 1024 eqNoCase a b

end Verif.Str
