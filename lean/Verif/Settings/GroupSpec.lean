import Verif.Settings.GroupModel
/-! What groups of jobs are. Nothing here uses the functions of the model. -/
namespace Verif.Settings.Spec

/-- the same name up to the case of letters -/
def SameName (a b : List Char) : Prop := a.map Char.toLower = b.map Char.toLower

/-- `n` jobs of the group may run at once on a machine with `total` MiB -/
def May (total : Nat) (g : Group) (n : Nat) : Prop :=
  (0 < g.jobs → n ≤ g.jobs) ∧ (0 < g.memory → n * g.memory ≤ total ∨ n ≤ 1)

/-- numbers that fit into 32 bits -/
def Fits (total : Nat) (g : Group) : Prop := g.jobs < 2 ^ 32 ∧ total < 2 ^ 32

/-- groups that can be used: not too many, each has a name of its own and a limit -/
def Good (gs : List Group) : Prop :=
  gs.length ≤ 16 ∧ (∀ g ∈ gs, g.name ≠ []) ∧ gs.Pairwise (fun a b => ¬ SameName a.name b.name) ∧
    ∀ g ∈ gs, 0 < g.jobs ∨ 0 < g.memory

end Verif.Settings.Spec
