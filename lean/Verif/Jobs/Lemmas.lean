import Verif.Jobs.Model
import Verif.Sort.Props
/-! Per-job invariant of the job queue. -/
namespace Verif.Jobs
open Verif.Sort

/-- everything the queue knows about one job; containers as counts -/
structure J where
  dist : Dist
  loc : Loc
  rem : Rem
  abort : Bool
  err : Nat
  staged : Nat
  flushed : Nat
  queue : Nat
  avail : Nat
  inProg : Nat
  ok : Nat
  ab : Nat
  fl : Nat
  fin : Nat
  freed : Nat

def Q.at (c : Cfg) (s : Q) (n : Nat) : J where
  dist := s.dist n
  loc := s.loc n
  rem := s.rem n
  abort := s.abort n
  err := s.sysErr n
  staged := (s.staging (c.group n)).count n
  flushed := s.flushed.count n
  queue := s.queue.count n
  avail := s.avail.count n
  inProg := s.inProg.count n
  ok := (s.done .ok).count n + (s.done2 .ok).count n
  ab := (s.done .aborted).count n + (s.done2 .aborted).count n
  fl := (s.done .failed).count n + (s.done2 .failed).count n
  fin := (s.fin.map Prod.fst).count n
  freed := s.freed.count n

/-- 1 if `a = b` -/
def ind (a b : Res) : Nat := if a = b then 1 else 0

/-- the possible situations of a job; `bug` allows those that the code does not foresee -/
inductive Good (bug : Bool) : J → Prop where
  | unknown : Good bug ⟨.none, .idle, .idle, false, 0, 0, 0, 0, 0, 0, 0, 0, 0, 0, 0⟩
  | staged : Good bug ⟨.none, .idle, .idle, false, 0, 1, 0, 0, 0, 0, 0, 0, 0, 0, 0⟩
  | queued : Good bug ⟨.none, .idle, .idle, false, 0, 0, 1, 1, 0, 0, 0, 0, 0, 0, 0⟩
  | first : Good bug ⟨.none, .first, .idle, false, 0, 0, 1, 0, 0, 0, 0, 0, 0, 0, 0⟩
  | firstDone (r) : Good bug ⟨.none, .idle, .idle, false, 0, 0, 1, 0, 0, 0, ind r .ok, ind r .aborted, ind r .failed, 0, 0⟩
  | available (e) : Good bug ⟨.available, .idle, .idle, false, e, 0, 1, 0, 1, 0, 0, 0, 0, 0, 0⟩
  | localOnly (e) (race : Bool) : Good bug ⟨.buildingLocally, if race then .race else .second, .idle, false, e, 0, 1, 0, 0, 1, 0, 0, 0, 0, 0⟩
  | remoteOnly (e) : Good bug ⟨.buildingRemotely, .idle, .sent, false, e, 0, 1, 0, 0, 1, 0, 0, 0, 0, 0⟩
  | racing (e) : Good bug ⟨.racing, .race, .sent, false, e, 0, 1, 0, 0, 1, 0, 0, 0, 0, 0⟩
  | raceDone (e r) : Good bug ⟨.racing, .idle, .sent, false, e, 0, 1, 0, 0, 1, ind r .ok, ind r .aborted, ind r .failed, 0, 0⟩
  | cancelling (e) : Good bug ⟨.raceWonRemotelyCancelLocal, .race, .wait, true, e, 0, 1, 0, 0, 1, 0, 0, 0, 0, 0⟩
  | cancelled (e) : Good bug ⟨.raceWonRemotely, .idle, .wait, true, e, 0, 1, 0, 0, 1, 0, 0, 0, 0, 0⟩
  | remoteWon (e) : Good bug ⟨.raceWonRemotely, .idle, .own false, true, e, 0, 1, 0, 0, 1, 0, 0, 0, 0, 0⟩
  | cancelLate (e r) (hb : r = .ok ∨ bug = true) : Good bug ⟨.raceWonRemotelyCancelLocal, .idle, .wait, true, e, 0, 1, 0, 0, 1, ind r .ok, ind r .aborted, ind r .failed, 0, 0⟩
  | cancelFailed (e a r) (wait : Bool) : Good bug ⟨.completedLocally, .idle, if wait then .wait else .idle, a, e, 0, 1, 0, 0, 0, ind r .ok, ind r .aborted, ind r .failed, 0, 0⟩
  | returned (e) (b : Bool) (h : b = true → 0 < e) : Good bug ⟨.completedRemotely, .idle, .own b, false, e, 0, 1, 0, 0, 1, 0, 0, 0, 0, 0⟩
  | remoteDone (e a r) (b : Bool) : Good bug ⟨if b then .completedRemotely else .raceWonRemotely, .idle, .idle, a, e, 0, 1, 0, 0, 0, ind r .ok, ind r .aborted, ind r .failed, 0, 0⟩
  | localWon (e) : Good bug ⟨.raceWonLocally, .idle, .sent, false, e, 0, 1, 0, 0, 1, 0, 0, 0, 1, 0⟩
  | freed (d e a) (wait : Bool) : Good bug ⟨d, .idle, if wait then .wait else .idle, a, e, 0, 1, 0, 0, 0, 0, 0, 0, 1, 1⟩
  /-- not foreseen by the code: finished racing locally, and the remote part went away before the
  result was finalised -/
  | orphan (hb : bug = true) (e a r) : Good bug ⟨.buildingLocally, .idle, .idle, a, e, 0, 1, 0, 0, 1, ind r .ok, ind r .aborted, ind r .failed, 0, 0⟩
  /-- not foreseen by the code: finalised, but nobody will ever free the job -/
  | leaked (hb : bug = true) (e a) (wait : Bool) : Good bug ⟨.raceWonLocally, .idle, if wait then .wait else .idle, a, e, 0, 1, 0, 0, 1, 0, 0, 0, 1, 0⟩

/-- component equations -/
theorem at_eq {c : Cfg} {s : Q} {n : Nat} {j : J} (h : s.at c n = j) :
    s.dist n = j.dist ∧ s.loc n = j.loc ∧ s.rem n = j.rem ∧ s.abort n = j.abort ∧ s.sysErr n = j.err ∧
    (s.staging (c.group n)).count n = j.staged ∧ s.flushed.count n = j.flushed ∧
    s.queue.count n = j.queue ∧ s.avail.count n = j.avail ∧ s.inProg.count n = j.inProg ∧
    (s.done .ok).count n + (s.done2 .ok).count n = j.ok ∧
    (s.done .aborted).count n + (s.done2 .aborted).count n = j.ab ∧
    (s.done .failed).count n + (s.done2 .failed).count n = j.fl ∧
    (s.fin.map Prod.fst).count n = j.fin ∧ s.freed.count n = j.freed := by
  subst h; simp [Q.at]

theorem mem_count {l : List Nat} {n : Nat} : n ∈ l ↔ 0 < l.count n := List.count_pos_iff.symm

/-- the whole invariant -/
structure Inv (bug : Bool) (c : Cfg) (s : Q) : Prop where
  good : ∀ n, Good bug (s.at c n)
  group : ∀ g n, n ∈ s.staging g → c.group n = g
  uaf : s.uaf = false
  gsize : ∀ g, s.groups ≤ g → s.staging g = []
  cnt : ∀ g, s.active g + (s.fin.filter (fun x => c.group x.1 == g)).length =
    (s.flushed.filter (fun n => c.group n == g)).length

/-- jobs that are somewhere are not freed -/
theorem Inv.notFreed {bug : Bool} {c : Cfg} {s : Q} (I : Inv bug c s) {n : Nat}
    (h : s.loc n ≠ .idle ∨ (s.rem n ≠ .idle ∧ s.rem n ≠ .wait) ∨ n ∈ s.queue ∨ n ∈ s.avail ∨ n ∈ s.inProg ∨
      (∃ r, n ∈ s.done r) ∨ (∃ r, n ∈ s.done2 r)) : n ∉ s.freed := by
  intro hf
  have hg := I.good n
  generalize hj : s.at c n = j at hg
  obtain ⟨e1, e2, e3, e4, e5, e6, e7, e8, e9, e10, e11, e12, e13, e14, e15⟩ := at_eq hj
  rw [mem_count] at hf
  cases hg <;> simp only at * <;> try omega
  rename_i d e a wait
  rcases h with h | h | h | h | h | ⟨r, h⟩ | ⟨r, h⟩
  · exact h e2
  · cases wait <;> simp_all
  · rw [mem_count] at h; omega
  · rw [mem_count] at h; omega
  · rw [mem_count] at h; omega
  · rw [mem_count] at h; cases r <;> omega
  · rw [mem_count] at h; cases r <;> omega

/-- accesses to live jobs -/
theorem access_eq {s : Q} {l : List Nat} (h : ∀ n ∈ l, n ∉ s.freed) : s.access l = s := by
  unfold Q.access
  have : (l.any fun n => s.freed.contains n) = false := by
    rw [List.any_eq_false]
    intro n hn; simpa using h n hn
  rw [this]; simp

end Verif.Jobs
