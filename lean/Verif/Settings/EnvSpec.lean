import Verif.Settings.EnvModel
/-! Environments as programs see them. Nothing here uses the functions of the model. -/
namespace Verif.Settings.Spec

/-- strings that C can hold -/
def CText (s : Text) : Prop := (0 : Byte) ∉ s

/-- an environment of variables: none is empty -/
def Env (env : List Text) : Prop := ∀ s ∈ env, CText s ∧ s ≠ []

/-- what `getenv` finds: the first that begins with the name and `=` -/
def Getenv (env : List Text) (name value : Text) : Prop :=
  ∃ before after, env = before ++ (name ++ 61 :: value) :: after ∧ ∀ s ∈ before, ¬ name ++ [61] <+: s

/-- the name `LIB` -/
def LIB : Text := [76, 73, 66]

end Verif.Settings.Spec
