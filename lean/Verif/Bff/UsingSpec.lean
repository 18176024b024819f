import Verif.Bff.Token
/-
What a user expects of `Using( .Struct )`, without the model's helpers: a scope is the list of its variables with their values in the
order they were made. The theorems are in Verif/Bff/UsingTheorems.lean.
-/
namespace Verif.Bff.Using

/-- the member of a struct with a name -/
def find (ms : List (Str × Val)) (n : Str) : Option Val :=
  match ms with
  | [] => none
  | m :: ms => if m.1 = n then some m.2 else find ms n

/-- the members whose names the scope does not have yet -/
def fresh (ms vs : List (Str × Val)) : List (Str × Val) := ms.filter (fun m => m.1 ∉ vs.map (·.1))

/-- The scope after its variables were set to the members of the struct: a variable of the scope with the name of a member has the value
of the member, any other is as it was, and the members that were not in the scope follow in the order of the struct. One with the name of
the struct itself (`own`) comes last. -/
def bring (ms : List (Str × Val)) (own : Option Str) (vs : List (Str × Val)) : List (Str × Val) :=
  vs.map (fun v => (v.1, (find ms v.1).getD v.2)) ++
    ((fresh ms vs).filter (fun m => some m.1 ≠ own) ++ (fresh ms vs).filter (fun m => some m.1 = own))

/-- the names of a struct are different, as are those of a scope -/
def Distinct (l : List (Str × Val)) : Prop := (l.map (·.1)).Nodup

end Verif.Bff.Using
