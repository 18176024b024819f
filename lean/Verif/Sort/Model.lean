/-
Model of `ShellSort`, Code/Core/Containers/Sort.h:35-63.

The array is a list; reading outside of it (undefined behaviour in C++) makes the result `none`.
-/
namespace Verif.Sort
variable {α : Type}

/-- The gap sequence, Code/Core/Containers/Sort.h:39. -/
def gaps : List Nat :=
  [510774, 227011, 100894, 44842, 19930, 8858, 3937, 1750, 701, 301, 132, 57, 23, 10, 4, 1]

/-- The `while` loop and the store after it, Sort.h:54-59: `temp` was moved out of the array, `j` is
the free slot. `fuel` bounds the number of iterations (`none` when exhausted; `j + 1` is enough). -/
def shift (lt : α → α → Bool) (inc : Nat) (temp : α) : Nat → Nat → List α → Option (List α)
  | 0, _, _ => none
  | fuel + 1, j, a =>
    if j ≥ inc then
      match a[j - inc]? with
      | none => none
      | some x =>
        if lt temp x then shift lt inc temp fuel (j - inc) (a.set j x)
        else some (a.set j temp)
    else some (a.set j temp)

/-- Body of the `for i` loop, Sort.h:50-60. -/
def insertAt (lt : α → α → Bool) (inc i : Nat) (a : List α) : Option (List α) :=
  match a[i]? with
  | none => none
  | some temp => shift lt inc temp (i + 1) i a

/-- The `for i` loop over indices `i .. i+k-1`, Sort.h:50. -/
def passFrom (lt : α → α → Bool) (inc : Nat) : Nat → Nat → List α → Option (List α)
  | _, 0, a => some a
  | i, k + 1, a =>
    match insertAt lt inc i a with
    | none => none
    | some b => passFrom lt inc (i + 1) k b

/-- The loop over the gaps, Sort.h:42-61. -/
def sortGaps (lt : α → α → Bool) : List Nat → List α → Option (List α)
  | [], a => some a
  | inc :: gs, a =>
    if inc > a.length then sortGaps lt gs a
    else
      match passFrom lt inc 0 a.length a with
      | none => none
      | some b => sortGaps lt gs b

/-- `ShellSort`, Sort.h:35-63. -/
def shellSort (lt : α → α → Bool) (a : List α) : Option (List α) := sortGaps lt gaps a

end Verif.Sort
