import Verif.Jobs.Model
/-! Vocabulary of the job queue properties. -/
namespace Verif.Jobs

/-- The remote part of a job does not end (result, system error, disconnection) between the moment a
local racer reports the job as done and the moment the main thread finalises that report; the one case
the code does handle, a normal result after a successful local race, is allowed. -/
def calm (s : Q) : Ev → Prop
  | .ret n e => ∀ r, n ∈ s.done r ∨ n ∈ s.done2 r → e = false ∧ r = .ok
  | .disconnect n => ∀ r, n ∉ s.done r ∧ n ∉ s.done2 r
  | _ => True

/-- every event of a run is calm -/
def Calm (c : Cfg) (s : Q) : List Ev → Prop
  | [] => True
  | ev :: evs => calm s ev ∧ ∀ s', step c s ev = some s' → Calm c s' evs

/-- Jobs of a group that were released to the workers and whose result was not applied yet. -/
def Outstanding (c : Cfg) (s : Q) (g n : Nat) : Prop :=
  c.group n = g ∧ n ∈ s.flushed ∧ ∀ r, (n, r) ∉ s.fin

/-- Some thread or list of the queue has the job. -/
def Held (s : Q) (n : Nat) : Prop :=
  n ∈ s.queue ∨ s.loc n ≠ .idle ∨ n ∈ s.avail ∨ (s.rem n ≠ .idle ∧ s.rem n ≠ .wait) ∨
  (s.rem n = .wait ∧ n ∈ s.inProg ∧ s.dist n = .raceWonRemotely) ∨ ∃ r, n ∈ s.done r ∨ n ∈ s.done2 r

/-- ascending by cost -/
def Ascending (c : Cfg) (l : List Nat) : Prop := l.Pairwise fun a b => c.cost a ≤ c.cost b

/-- how often a job went back to the available jobs because of a system error -/
def retries (n : Nat) (evs : List Ev) : Nat :=
  (evs.filter fun ev => match ev with | .retry m => m == n | _ => false).length

end Verif.Jobs
