/-
What finding workers means, without the functions of the model.
-/
import Verif.Broker.Model

namespace Verif.Broker

/-- The pieces of a text between semicolons. -/
def Pieces (s : Text) (ps : List Text) : Prop :=
  ps ≠ [] ∧ (∀ p ∈ ps, ';' ∉ p) ∧ s = [';'].intercalate ps

/-- A text without the spaces at its ends. -/
def Trimmed (p q : Text) : Prop :=
  (∃ a b, p = List.replicate a ' ' ++ q ++ List.replicate b ' ') ∧
    q.head? ≠ some ' ' ∧ q.getLast? ≠ some ' '

/-- The directory for a path named by the user. -/
def IsRoot (pl : Plat) (p r : Text) : Prop := ∃ q, Trimmed p q ∧ r = q ++ pl.tail

/-- There is a file of this path. -/
def Exists (fs : Fs) (p : Text) : Prop := ∃ f, (p, f) ∈ fs

/-- A name of a file in a directory. -/
def Name (pl : Plat) (w : Text) : Prop := w ≠ [] ∧ pl.slash ∉ w

/-- The name a worker goes by: its address, or its host name if it has no address. -/
def Goes (ip host w : Text) : Prop := (ip ≠ [] ∧ w = ip) ∨ (ip = [] ∧ w = host)

/-- What a worker meets while it runs.  `Own` are the names this machine has at some time, and
nobody else makes files of these names; `told` is what the settings saved at a time say. -/
structure Fits (Own : Text → Prop) (told : Nat → Told) (root : Text) (e : Env) : Prop where
  host : Own e.host ∧ e.host ≠ []
  ip : ∀ i, e.ip = some i → Own i
  deletes : ∀ w, Own w → e.deletes (root ++ w) = true
  told : e.told = told e.settingsTime

/-- A worker that has started and has been called any number of times, while others do what they
want to files of other names, and may delete those of this worker.  `t` is the time of the settings
seen last. -/
inductive Runs (pl : Plat) (Own : Text → Prop) (told : Nat → Told) (root : Text)
    (rest : List Text) : Nat → Server → Fs → Prop
  | start (now : Int) (fs : Fs) (h : ∀ w, Own w → ¬ Exists fs (root ++ w)) :
      Runs pl Own told root rest 0 (Server.start (root :: rest) now) fs
  | call {t s fs} (e : Env) (available : Bool) (h : Runs pl Own told root rest t s fs)
      (fit : Fits Own told root e) (ht : t ≤ e.settingsTime) :
      Runs pl Own told root rest e.settingsTime
        (setAvailability pl e available s fs).1 (setAvailability pl e available s fs).2
  | others {t s fs} (fs' : Fs) (h : Runs pl Own told root rest t s fs)
      (keep : ∀ w, Own w → ∀ f, (root ++ w, f) ∈ fs' → (root ++ w, f) ∈ fs) :
      Runs pl Own told root rest t s fs'

end Verif.Broker
