import Verif.Procs.Model
/-
What is said about the processes.
-/
namespace Verif.Procs

/-- A process that reads and writes the files of the build. -/
def Builds : PC → Prop
  | .plain => True
  | .build => True
  | _ => False

/-- a main process of the wrapper, after it has the mutex -/
def MainPhase : PC → Prop
  | .create | .clear | .spawn | .waitInter _ | .waitStarted | .waitFinal => True
  | _ => False

/-- Nobody kills a main process of the wrapper or an intermediate process (one that a main process waits for). -/
def Mild (s : State) (a : Act) : Prop := ∀ p, a = .kill p → ¬ MainPhase (s.pc p) ∧ ∀ m, s.pc m ≠ .waitInter p

/-- what can be reached; `kills`: whoever is killed -/
inductive Reach (kills : Bool) : State → Prop
  | init : Reach kills {}
  | step {s s' : State} {a : Act} : Reach kills s → (kills = true ∨ Mild s a) → act s a = some s' → Reach kills s'

end Verif.Procs
