import Verif.Bff.Token
/-
What it means that each name occurs once, without the model's helpers. The theorems are in Verif/Bff/NamesTheorems.lean.
-/
namespace Verif.Bff.Names

mutual
/-- in each struct of the value, however deep, the names of members are different -/
def Once : Val → Prop
  | .struct ms => (ms.map (·.1)).Nodup ∧ OnceMs ms
  | .structs l => OnceAll l
  | _ => True
/-- the same for the members of a struct -/
def OnceMs : List (Str × Val) → Prop
  | [] => True
  | m :: ms => Once m.2 ∧ OnceMs ms
/-- the same for structs -/
def OnceAll : List (List (Str × Val)) → Prop
  | [] => True
  | ms :: l => ((ms.map (·.1)).Nodup ∧ OnceMs ms) ∧ OnceAll l
end

/-- the variables of a scope have different names, and so have the members of their structs -/
def Scope (vs : List (Str × Val)) : Prop := (vs.map (·.1)).Nodup ∧ ∀ v ∈ vs, Once v.2

end Verif.Bff.Names
