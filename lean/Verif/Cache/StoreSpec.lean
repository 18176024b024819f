import Verif.Cache.StoreModel
/-! Independent vocabulary for C64 and C65. -/
namespace Verif.Cache

/-- The identifier a process is publishing. -/
def Publishing : Proc → Key → Prop
  | .pubOpen k _, k' | .pubWrite k _ _ _, k' | .pubFailed k _, k' | .pubMove k _, k' | .pubClear k _, k'
  | .pubMove2 k _, k' | .pubCleanup k _, k' => k = k'
  | _, _ => False

/-- No two processes publish the same identifier at the same time. -/
def Exclusive (s : Sys) : Prop :=
  ∀ p q k, Publishing (s.proc p) k → Publishing (s.proc q) k → p = q

/-- A possible execution: the states after each action. -/
inductive Exec : Sys → List Act → Sys → Prop where
  | nil (s) : Exec s [] s
  | snoc {s l t a t'} : Exec s l t → step t a = some t' → Exec s (l ++ [a]) t'

/-- The same, with publishers of an identifier excluding each other. -/
inductive ExclExec : Sys → List Act → Sys → Prop where
  | nil (s) : ExclExec s [] s
  | snoc {s l t a t'} : ExclExec s l t → step t a = some t' → Exclusive t' → ExclExec s (l ++ [a]) t'

/-- What a reader who looks now finds. -/
def FS.content (fs : FS) (k : Key) : Option Data := (fs.dir (.entry k)).map fs.ino

/-- Somebody asked to store `d` under `k`. -/
def Stored (l : List Act) (k : Key) (d : Data) : Prop := ∃ p, Act.publish p k d ∈ l

end Verif.Cache
