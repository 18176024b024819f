import Verif.Jobs.Asserts
/-! What each event leaves alone. -/
namespace Verif.Jobs
open Verif.Sort

/-- the part of the state that most events do not touch -/
def Q.front (s : Q) : List Nat × (Nat → List Nat) × (Nat → Nat) × List Nat × List (Nat × Res) :=
  (s.queue, s.staging, s.active, s.flushed, s.fin)

theorem front_finishDist (s : Q) (n : Nat) (r : Res) : (finishDist s n r).front = s.front := by
  unfold finishDist
  dsimp only
  repeat' split
  all_goals rfl

theorem front_onReturn (s : Q) (n : Nat) (e : Bool) : (onReturn s n e).front = s.front := by
  unfold onReturn
  dsimp only [Q.access, Q.assert, Q.free]
  cases e <;> simp only [Bool.false_eq_true, if_false, if_true, false_and, true_and] <;>
  repeat' split
  all_goals rfl

theorem front_returnUnfinished (s : Q) (n : Nat) : (returnUnfinished s n).front = s.front := by
  unfold returnUnfinished
  dsimp only [Q.access, Q.assert, Q.free]
  by_cases d1 : s.dist n = .racing <;> by_cases d2 : s.dist n = .raceWonLocally <;>
    by_cases d3 : s.dist n = .completedRemotely <;> simp [d1, d2, d3, Q.front]

/-- events that do not release, take or finalise jobs -/
def Ev.quiet : Ev → Bool
  | .add _ | .flush | .take | .finalize => false
  | _ => true

theorem front_step {c : Cfg} {s s' : Q} {ev : Ev} (h : step c s ev = some s') (hq : ev.quiet = true) :
    s'.front = s.front := by
  cases ev <;> simp only [step] at h <;> (try (simp [Ev.quiet] at hq; done))
  case firstDone n r =>
    split at h
    · cases h; rfl
    · cases h
  case second n =>
    split at h
    · cases h; rfl
    · cases h
  case consume =>
    rw [Option.map_eq_some_iff] at h
    obtain ⟨⟨n, s1⟩, h, rfl⟩ := h
    unfold takeDist at h
    split at h <;> cases h
    rfl
  case send compat =>
    rw [Option.map_eq_some_iff] at h
    obtain ⟨⟨n, s1⟩, h, rfl⟩ := h
    unfold takeDist at h
    split at h <;> cases h
    rfl
  case race =>
    rw [Option.map_eq_some_iff] at h
    obtain ⟨⟨n, s1⟩, h, rfl⟩ := h
    unfold takeRace at h
    dsimp only at h
    split at h <;> cases h
    rfl
  case localDone n r =>
    split at h
    · cases h; rw [front_finishDist]; rfl
    · cases h
  case ret n e =>
    split at h
    · cases h; exact front_onReturn s n e
    · cases h
  case poll n =>
    split at h
    · cases h
      unfold pollReturn
      dsimp only [Q.access]
      repeat' split
      all_goals rfl
    · cases h
  case remoteDone n r =>
    split at h
    · split at h
      · cases h
      · cases h; rw [front_finishDist]; rfl
    · cases h
  case retry n =>
    split at h
    · cases h; rw [front_returnUnfinished]; rfl
    · cases h
  case disconnect n =>
    split at h
    · cases h; rw [front_returnUnfinished]; rfl
    · cases h
  case swap =>
    split at h
    · cases h; rfl
    · cases h

theorem front_finalize {c : Cfg} {s s' : Q} (h : step c s .finalize = some s') :
    ∃ n r, n ∈ s.done2 r ∧ s'.front = (s.queue, s.staging, set s.active (c.group n) (s.active (c.group n) - 1),
      s.flushed, (n, r) :: s.fin) := by
  simp only [step] at h
  rw [Option.map_eq_some_iff] at h
  obtain ⟨⟨n, r, s1⟩, h, rfl⟩ := h
  obtain ⟨l, hl, rfl⟩ := nextDone_some h
  refine ⟨n, r, by simp [hl], ?_⟩
  unfold finalizeJob
  dsimp only
  repeat' split
  all_goals rfl

end Verif.Jobs
