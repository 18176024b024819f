import Verif.Bff.TextSpec
/-
Which variables can be written into a build file so that it means the same. Nothing here refers to how they are printed.
-/
namespace Verif.Bff.Print

/-- a name of letters and digits -/
def Name (n : Str) : Prop := ∃ w, n = '.' :: w ∧ w ≠ [] ∧ ∀ c ∈ w, Lex.Letter c ∨ Lex.Digit c

/-- a string without characters that mean something in a string, except for quotes -/
def Clean (x : Str) : Prop := ∀ c ∈ x, c ≠ '^' ∧ c ≠ '$' ∧ c ≠ '\r' ∧ c ≠ '\n' ∧ c ≠ '\x00'

/-- a variable that has a value already, or can be seen, may be given a value of the same type only -/
def May : Option Val → Val → Prop
  | none, _ => True
  | some (.str _), .str _ => True
  | some (.strs _), .strs _ => True
  | some (.int _), .int _ => True
  | some (.bool _), .bool _ => True
  | some (.struct _), .struct _ => True
  | _, _ => False

/-- one more name has a meaning -/
def also (vis : Str → Option Val) (n : Str) (v : Val) : Str → Option Val := fun m => if m = n then some v else vis m

mutual
/-- a value that can be written where names mean something: no arrays of structs in it; numbers that are not taken for a bracket -/
def Writable (vis : Str → Option Val) : Val → Prop
  | .str x => Clean x
  | .strs l => ∀ x ∈ l, Clean x
  | .int i => -2147483648 ≤ i ∧ i ≤ 2147483647 ∧ i % 256 ≠ 123 ∧ i % 256 ≠ 91
  | .bool _ => True
  | .struct ms => (ms.map (·.1)).Nodup ∧ WritableMs vis ms
  | .structs _ => False
/-- members of a struct, in their order: a member has the type of what its name means so far -/
def WritableMs (vis : Str → Option Val) : List (Str × Val) → Prop
  | [] => True
  | m :: ms => Name m.1 ∧ May (vis m.1) m.2 ∧ Writable vis m.2 ∧ WritableMs (also vis m.1 m.2) ms
end

mutual
/-- how deep structs are in each other -/
def depth : Val → Nat
  | .struct ms => depthMs ms + 1
  | _ => 0
def depthMs : List (Str × Val) → Nat
  | [] => 0
  | m :: ms => max (depth m.2) (depthMs ms)
end

end Verif.Bff.Print
