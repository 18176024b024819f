import Verif.Jobs.Steps
/-! Completion, return, finalisation and flushing preserve the invariant. -/
namespace Verif.Jobs
open Verif.Sort

theorem finishDist_at_ne {c : Cfg} {s : Q} {n m : Nat} {r : Res} (h : m ≠ n) :
    (finishDist s n r).at c m = s.at c m := by
  unfold finishDist
  dsimp only
  split
  · split
    · simp only [Q.at, Q.assert, Q.access, set_ne _ _ h]
    · rw [complete_at_ne h]; simp only [Q.at, Q.assert, Q.access, set_ne _ _ h, List.count_erase_of_ne h]
  · rw [complete_at_ne h]; simp only [Q.at, Q.assert, Q.access, List.count_erase_of_ne h]
  · rw [complete_at_ne h]; simp only [Q.at, Q.assert, Q.access, List.count_erase_of_ne h]
  · rw [complete_at_ne h]; simp only [Q.at, Q.assert, Q.access, set_ne _ _ h, List.count_erase_of_ne h]
  · rw [complete_at_ne h]; rfl

theorem finishDist_rest {s : Q} {n : Nat} {r : Res} (hf : n ∉ s.freed) :
    (finishDist s n r).staging = s.staging ∧ (finishDist s n r).groups = s.groups ∧
    (finishDist s n r).uaf = s.uaf ∧ (finishDist s n r).active = s.active ∧
    (finishDist s n r).fin = s.fin ∧ (finishDist s n r).flushed = s.flushed := by
  unfold finishDist
  rw [access_eq (by simpa using hf)]
  dsimp only
  split
  · split <;> exact ⟨rfl, rfl, rfl, rfl, rfl, rfl⟩
  all_goals exact ⟨rfl, rfl, rfl, rfl, rfl, rfl⟩

/-- a job in one more completed list -/
def J.doneBy (j : J) (r : Res) : J :=
  { j with ok := j.ok + ind r .ok, ab := j.ab + ind r .aborted, fl := j.fl + ind r .failed }

/-- result of `finishDist` on the job itself, by state -/
theorem finishDist_at {c : Cfg} {s : Q} {n : Nat} {r : Res} :
    (finishDist s n r).at c n =
      match s.dist n with
      | .raceWonRemotelyCancelLocal =>
        if r ≠ .ok then { s.at c n with dist := .raceWonRemotely }
        else J.doneBy { s.at c n with dist := .completedLocally, inProg := (s.at c n).inProg - 1 } r
      | .completedRemotely => J.doneBy { s.at c n with inProg := (s.at c n).inProg - 1 } r
      | .raceWonRemotely => J.doneBy { s.at c n with inProg := (s.at c n).inProg - 1 } r
      | .buildingLocally => J.doneBy { s.at c n with dist := .completedLocally, inProg := (s.at c n).inProg - 1 } r
      | _ => J.doneBy (s.at c n) r := by
  unfold finishDist
  dsimp only [Q.access, Q.assert]
  cases hd : s.dist n <;> dsimp only
  case raceWonRemotelyCancelLocal =>
    split
    · simp only [Q.at, set_self]
    · rw [complete_at]; simp only [Q.at, J.doneBy, set_self, erase_count_self]
  all_goals rw [complete_at]; simp only [Q.at, J.doneBy, set_self, erase_count_self, hd]

theorem inv_localDone {bug : Bool} {c : Cfg} {s : Q} {n : Nat} {r : Res} (I : Inv bug c s)
    (h : s.loc n = .second ∨ s.loc n = .race) :
    Inv bug c (finishDist { s with loc := set s.loc n .idle } n r) := by
  have hf : n ∉ s.freed := I.notFreed (by left; rcases h with h | h <;> simp [h])
  obtain ⟨a1, a2, a3, a4, a5, a6⟩ := finishDist_rest (s := { s with loc := set s.loc n .idle }) (r := r) hf
  refine inv_local (s := s) n I (fun m hne => ?_) ?_ a1 a2 a3 a4 a5 a6
  · rw [finishDist_at_ne hne]; simp only [Q.at, set_ne _ _ hne]
  · rw [finishDist_at]
    dsimp only
    situations hg using I.good n
    all_goals try (rcases h with h | h <;> rw [h] at e2 <;> cases e2; done)
    all_goals simp only [Q.at, J.doneBy, set_self, *, Nat.zero_add, Nat.sub_self]
    · rename_i e b; exact .cancelFailed e false r false
    · rename_i e; exact .raceDone e r
    · rename_i e
      split
      · exact .cancelled e
      · exact .cancelFailed e true r true

theorem inv_remoteDone {bug : Bool} {c : Cfg} {s : Q} {n : Nat} {r : Res} (I : Inv bug c s)
    (h : ∃ b, s.rem n = .own b) :
    Inv bug c (finishDist { s with rem := set s.rem n .idle } n r) := by
  obtain ⟨b, h⟩ := h
  have hf : n ∉ s.freed := I.notFreed (by simp [h])
  obtain ⟨a1, a2, a3, a4, a5, a6⟩ := finishDist_rest (s := { s with rem := set s.rem n .idle }) (r := r) hf
  refine inv_local (s := s) n I (fun m hne => ?_) ?_ a1 a2 a3 a4 a5 a6
  · rw [finishDist_at_ne hne]; simp only [Q.at, set_ne _ _ hne]
  · rw [finishDist_at]
    dsimp only
    situations hg using I.good n
    all_goals try (rw [h] at e3; cases e3; done)
    all_goals try (rename_i w; cases w <;> (rw [h] at e3; cases e3); done)
    all_goals simp only [Q.at, J.doneBy, set_self, *, Nat.zero_add, Nat.sub_self]
    · rename_i e; exact .remoteDone e true r false
    · rename_i e b' hb; exact .remoteDone e false r true

theorem onReturn_at_ne {c : Cfg} {s : Q} {n m : Nat} {e : Bool} (h : m ≠ n) :
    (onReturn s n e).at c m = s.at c m := by
  have hn : ¬ n = m := fun x => h x.symm
  unfold onReturn
  dsimp only [Q.access, Q.assert, Q.free]
  cases e <;> simp only [Bool.false_eq_true, if_false, if_true, false_and, true_and] <;>
  repeat' split
  all_goals simp [Q.at, Q.free, Q.assert, set_ne _ _ h, List.count_erase_of_ne h, List.count_cons, hn]

theorem onReturn_rest {s : Q} {n : Nat} {e : Bool} (hf : ∀ x ∈ s.inProg, x ∉ s.freed) :
    (onReturn s n e).staging = s.staging ∧ (onReturn s n e).groups = s.groups ∧
    (onReturn s n e).uaf = s.uaf ∧ (onReturn s n e).active = s.active ∧
    (onReturn s n e).fin = s.fin ∧ (onReturn s n e).flushed = s.flushed := by
  unfold onReturn
  rw [access_eq hf]
  dsimp only [Q.assert, Q.free]
  cases e <;> simp only [Bool.false_eq_true, if_false, if_true, false_and, true_and] <;>
  repeat' split
  all_goals exact ⟨rfl, rfl, rfl, rfl, rfl, rfl⟩

theorem inv_ret {bug : Bool} {c : Cfg} {s : Q} {n : Nat} {e : Bool} (I : Inv bug c s) (h : s.rem n = .sent)
    (hc : bug = true ∨ ∀ r, n ∈ s.done r ∨ n ∈ s.done2 r → e = false ∧ r = .ok) :
    Inv bug c (onReturn s n e) := by
  obtain ⟨a1, a2, a3, a4, a5, a6⟩ := onReturn_rest (s := s) (n := n) (e := e)
    (fun x hx => I.notFreed (by simp [hx]))
  refine inv_local (s := s) n I (fun m hne => onReturn_at_ne hne) ?_ a1 a2 a3 a4 a5 a6
  unfold onReturn
  dsimp only [Q.access, Q.assert, Q.free]
  situations hg using I.good n
  all_goals try (rw [h] at e3; cases e3; done)
  all_goals try (rename_i w; cases w <;> (rw [h] at e3; cases e3); done)
  all_goals
    have hin : s.inProg.contains n = true := by
      rw [List.contains_iff_mem, mem_count]; omega
    simp only [hin, if_true, e1]
  · rename_i k
    cases e
    · simp only [Q.at, Q.assert, Q.free, set_self, *, reduceCtorEq, if_false, if_true, and_false, and_self, Bool.false_eq_true]
      exact .returned k false (by simp)
    · simp only [Q.at, Q.assert, Q.free, set_self, *, reduceCtorEq, if_false, if_true, and_false, and_self, Bool.false_eq_true]
      exact .returned (k + 1) true (by simp)
  · rename_i k
    cases e
    · simp only [Q.at, Q.assert, Q.free, set_self, *, reduceCtorEq, if_false, if_true, and_false, and_self, Bool.false_eq_true, false_and]
      exact .cancelling k
    · simp only [Q.at, Q.assert, Q.free, set_self, *, reduceCtorEq, if_false, if_true, and_false, and_self, Bool.false_eq_true]
      exact .localOnly (k + 1) true
  · rename_i k r
    have hmem : n ∈ s.done r ∨ n ∈ s.done2 r := by
      rw [mem_count, mem_count]; cases r <;> simp [ind] at e11 e12 e13 <;> omega
    cases e
    · simp only [Q.at, Q.assert, Q.free, set_self, *, reduceCtorEq, if_false, if_true, and_false, and_self, Bool.false_eq_true, false_and]
      exact .cancelLate k r (hc.symm.imp (fun h => (h r hmem).2) id)
    · simp only [Q.at, Q.assert, Q.free, set_self, *, reduceCtorEq, if_false, if_true, and_false, and_self, Bool.false_eq_true]
      exact .orphan (hc.resolve_right fun h => absurd (h r hmem).1 (by simp)) (k + 1) false r
  · rename_i k
    cases e
    · simp only [Q.at, Q.assert, Q.free, set_self, *, reduceCtorEq, if_false, if_true, and_false, and_self, Bool.false_eq_true, false_and,
        erase_count_self, List.count_cons_self, Nat.sub_self, Nat.zero_add]
      exact .freed _ k false false
    · simp only [Q.at, Q.assert, Q.free, set_self, *, reduceCtorEq, if_false, if_true, and_false, and_self, Bool.false_eq_true,
        erase_count_self, List.count_cons_self, Nat.sub_self, Nat.zero_add]
      exact .freed _ (k + 1) false false

theorem inv_poll {bug : Bool} {c : Cfg} {s : Q} {n : Nat} (I : Inv bug c s) (h : s.rem n = .wait) :
    Inv bug c (pollReturn s n) := by
  unfold pollReturn
  rw [access_eq (fun x hx => I.notFreed (by simp [hx]))]
  dsimp only
  split
  · rename_i hin
    rw [List.contains_iff_mem] at hin
    rw [access_eq (fun x hx => by simp at hx; subst hx; exact I.notFreed (by simp [hin]))]
    split
    · exact I
    · refine inv_local (s := s) n I (fun m hne => ?_) ?_ rfl rfl rfl rfl rfl rfl
      · simp only [Q.at, set_ne _ _ hne]
      · rename_i hd
        have hp := mem_count.1 hin
        situations hg using I.good n
        all_goals try omega
        all_goals try (rw [h] at e3; cases e3; done)
        all_goals try (rw [hd] at e1; cases e1; done)
        simp only [Q.at, set_self, *]
        rename_i e; exact .remoteWon e
    · rename_i hd1 hd2
      refine inv_local (s := s) n I (fun m hne => ?_) ?_ rfl rfl rfl rfl rfl rfl
      · simp only [Q.at, set_ne _ _ hne]
      · have hp := mem_count.1 hin
        situations hg using I.good n
        all_goals try omega
        all_goals try (rw [h] at e3; cases e3; done)
        all_goals try (exact absurd e1 (by assumption))
        simp only [Q.at, set_self, *]
        rename_i e a w; exact .leaked rfl e a false
  · rename_i hin
    refine inv_local (s := s) n I (fun m hne => ?_) ?_ rfl rfl rfl rfl rfl rfl
    · simp only [Q.at, set_ne _ _ hne]
    · have hp : s.inProg.count n = 0 := by
        rw [List.contains_iff_mem, mem_count] at hin; omega
      situations hg using I.good n
      all_goals try omega
      all_goals try (rw [h] at e3; cases e3; done)
      all_goals simp only [Q.at, set_self, *]
      · rename_i e a r w; exact .cancelFailed e a r false
      · rename_i d e a w; exact .freed d e a false

theorem returnUnfinished_at_ne {c : Cfg} {s : Q} {n m : Nat} (h : m ≠ n) :
    (returnUnfinished s n).at c m = s.at c m := by
  have hn : ¬ n = m := fun x => h x.symm
  unfold returnUnfinished
  dsimp only [Q.access, Q.assert, Q.free]
  by_cases d1 : s.dist n = .racing <;> by_cases d2 : s.dist n = .raceWonLocally <;>
    by_cases d3 : s.dist n = .completedRemotely <;> simp only [d1, d2, d3, reduceCtorEq, if_true, if_false]
  all_goals simp [Q.at, Q.free, Q.assert, set_ne _ _ h, List.count_erase_of_ne h, List.count_cons, hn]

theorem returnUnfinished_rest {s : Q} {n : Nat} (hf : n ∉ s.freed) :
    (returnUnfinished s n).staging = s.staging ∧ (returnUnfinished s n).groups = s.groups ∧
    (returnUnfinished s n).uaf = s.uaf ∧ (returnUnfinished s n).active = s.active ∧
    (returnUnfinished s n).fin = s.fin ∧ (returnUnfinished s n).flushed = s.flushed := by
  unfold returnUnfinished
  rw [access_eq (by simpa using hf)]
  dsimp only [Q.assert, Q.free]
  by_cases d1 : s.dist n = .racing <;> by_cases d2 : s.dist n = .raceWonLocally <;>
    by_cases d3 : s.dist n = .completedRemotely <;> simp [d1, d2, d3]

theorem inv_disconnect {bug : Bool} {c : Cfg} {s : Q} {n : Nat} (I : Inv bug c s)
    (h : s.rem n = .sent ∨ (s.rem n = .own true ∧ s.sysErr n < attempts))
    (hc : bug = true ∨ s.rem n ≠ .sent ∨ ∀ r, n ∉ s.done r ∧ n ∉ s.done2 r) :
    Inv bug c (returnUnfinished { s with rem := set s.rem n .idle } n) := by
  have hf : n ∉ s.freed := I.notFreed (by rcases h with h | ⟨h, _⟩ <;> simp [h])
  obtain ⟨a1, a2, a3, a4, a5, a6⟩ := returnUnfinished_rest (s := { s with rem := set s.rem n .idle }) hf
  refine inv_local (s := s) n I (fun m hne => ?_) ?_ a1 a2 a3 a4 a5 a6
  · rw [returnUnfinished_at_ne hne]; simp only [Q.at, set_ne _ _ hne]
  · unfold returnUnfinished
    dsimp only [Q.access, Q.assert, Q.free]
    situations hg using I.good n
    all_goals try (rcases h with h | ⟨h, _⟩ <;> rw [h] at e3 <;> cases e3; done)
    all_goals try (rename_i w; cases w <;> (rcases h with h | ⟨h, _⟩ <;> rw [h] at e3 <;> cases e3); done)
    · rename_i e
      simp [Q.at, Q.assert, *, List.count_append]
      exact .available e
    · rename_i e
      simp [Q.at, Q.assert, *]
      exact .localOnly e true
    · rename_i e r
      simp [Q.at, Q.assert, *]
      have hmem : n ∈ s.done r ∨ n ∈ s.done2 r := by
        rw [mem_count, mem_count]; cases r <;> simp [ind] at e11 e12 e13 <;> omega
      exact .orphan (hc.resolve_right fun h => hmem.elim ((h.resolve_left (fun h => h e3)) r).1
        ((h.resolve_left (fun h => h e3)) r).2) e false r
    · rename_i e b hb
      simp [Q.at, Q.assert, *, List.count_append]
      exact .available e
    · rename_i e
      simp [Q.at, Q.assert, *]
      exact .freed _ e false false

theorem inv_swap {bug : Bool} {c : Cfg} {s : Q} (I : Inv bug c s)
    (h : s.done2 .ok = [] ∧ s.done2 .aborted = [] ∧ s.done2 .failed = []) :
    Inv bug c { s with done2 := s.done, done := fun _ => [] } := by
  refine inv_local (s := s) 0 I (fun m _ => ?_) ?_ rfl rfl rfl rfl rfl rfl
  · simp [Q.at, h]
  · have : ({ s with done2 := s.done, done := fun _ => [] } : Q).at c 0 = s.at c 0 := by simp [Q.at, h]
    rw [this]; exact I.good 0

end Verif.Jobs
