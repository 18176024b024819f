import Verif.Jobs.Steps3
/-! Which assertions can fail. -/
namespace Verif.Jobs
open Verif.Sort

theorem flush_asserted (c : Cfg) (s : Q) : (flush c s).asserted = s.asserted := by
  unfold flush
  generalize List.range s.groups = l
  induction l generalizing s with
  | nil => rfl
  | cons g l ih =>
    rw [List.foldl_cons, ih]
    unfold flushGroup
    dsimp only
    generalize (if c.limit g ≥ c.workers then unlimited else c.limit g) = maxJobs
    repeat' split
    all_goals rfl

theorem finishDist_asserted {s : Q} {n : Nat} {r : Res} (h1 : n ∈ s.inProg)
    (h2 : s.dist n = .raceWonRemotelyCancelLocal → s.abort n = true)
    (h3 : s.dist n = .raceWonRemotelyCancelLocal ∨ s.dist n = .completedRemotely ∨ s.dist n = .raceWonRemotely ∨
      s.dist n = .buildingLocally ∨ s.dist n = .racing) : (finishDist s n r).asserted = s.asserted := by
  unfold finishDist
  dsimp only [Q.access, Q.assert]
  rcases h3 with h | h | h | h | h <;> simp only [h]
  · split <;> simp [complete, h1, h2 h]
  all_goals simp [complete, h1]

theorem takeDist_asserted {bug : Bool} {c : Cfg} {s s' : Q} {n : Nat} {remote : Bool} {p : Nat → Bool}
    (I : Inv bug c s) (h : takeDist s remote p = some (n, s')) : s'.asserted = s.asserted := by
  unfold takeDist at h
  split at h
  · cases h
  · rename_i x hx
    have hm := (findLast_some hx).1
    rw [mem_count] at hm
    cases h
    dsimp only [Q.access, Q.assert]
    situations hg using I.good n
    all_goals try omega
    simp [e1]

theorem onReturn_asserted {bug : Bool} {c : Cfg} {s : Q} {n : Nat} {e : Bool} (I : Inv bug c s)
    (h : s.rem n = .sent) : (onReturn s n e).asserted = s.asserted := by
  unfold onReturn
  dsimp only [Q.access, Q.assert, Q.free]
  situations hg using I.good n
  all_goals try (rw [h] at e3; cases e3; done)
  all_goals try (rename_i w; cases w <;> (rw [h] at e3; cases e3); done)
  all_goals
    have hin : s.inProg.contains n = true := by
      rw [List.contains_iff_mem, mem_count]; omega
    simp only [hin, if_true, e1]
  all_goals cases e <;> simp [e4]

theorem returnUnfinished_asserted {bug : Bool} {c : Cfg} {s : Q} {n : Nat} (I : Inv bug c s)
    (h : s.rem n = .sent ∨ (s.rem n = .own true ∧ s.sysErr n < attempts)) :
    (returnUnfinished { s with rem := set s.rem n .idle } n).asserted = s.asserted := by
  unfold returnUnfinished
  dsimp only [Q.access, Q.assert, Q.free]
  situations hg using I.good n
  all_goals try (rcases h with h | ⟨h, _⟩ <;> rw [h] at e3 <;> cases e3; done)
  all_goals try (rename_i w; cases w <;> (rcases h with h | ⟨h, _⟩ <;> rw [h] at e3 <;> cases e3); done)
  all_goals
    have hin : n ∈ s.inProg := by rw [mem_count]; omega
  all_goals try (simp [e1, hin]; done)
  rename_i e b hb
  rcases h with h | ⟨h, _⟩ <;> rw [h] at e3 <;> cases e3
  simp [e1, hin, e5, hb rfl]

theorem finalizeJob_asserted {c : Cfg} {s s1 : Q} {n : Nat} {r : Res} (I : Inv false c s)
    (h : nextDone s = some (n, r, s1)) : (finalizeJob c s1 n r).asserted = s.asserted := by
  obtain ⟨l, hl, rfl⟩ := nextDone_some h
  have hc : 0 < (s.done2 r).count n := by simp [hl]
  unfold finalizeJob
  dsimp only [Q.access, Q.assert, Q.free]
  situations hg using I.good n
  all_goals try (exfalso; cases r <;> omega)
  all_goals try (exact absurd ‹false = true› (by simp))
  all_goals try (simp [e1]; done)
  · have hr := Or.resolve_right ‹_ ∨ false = true› (by simp)
    have hin : n ∈ s.inProg := by rw [mem_count]; omega
    subst hr
    have : r = .ok := by cases r <;> simp [ind] at e11 e12 e13 <;> first | rfl | omega
    simp [e1, this, hin]
  · rename_i b; cases b <;> simp [e1]

/-- Only the finalisation of results can fail an assertion, and only if the unforeseen situations
occur. -/
theorem asserted_step {bug : Bool} {c : Cfg} {s s' : Q} {ev : Ev} (I : Inv bug c s)
    (h : step c s ev = some s') (hb : ev ≠ .finalize ∨ bug = false) : s'.asserted = s.asserted := by
  cases ev <;> simp only [step] at h
  case add n =>
    split at h
    · cases h
    · cases h; rfl
  case flush => cases h; exact flush_asserted c s
  case take =>
    split at h
    · cases h
    · cases h; rfl
  case firstDone n r =>
    split at h
    · cases h; rfl
    · cases h
  case second n =>
    split at h
    · rename_i hq
      cases h
      unfold queueDist
      dsimp only [Q.access, Q.assert]
      situations hg using I.good n
      all_goals try (rw [hq] at e2; cases e2)
      all_goals try (rename_i b; cases b <;> (rw [hq] at e2; cases e2))
      simp [e1]
    · cases h
  case consume =>
    rw [Option.map_eq_some_iff] at h
    obtain ⟨⟨n, s1⟩, h, rfl⟩ := h
    exact (takeDist_asserted I h : s1.asserted = _)
  case send compat =>
    rw [Option.map_eq_some_iff] at h
    obtain ⟨⟨n, s1⟩, h, rfl⟩ := h
    exact (takeDist_asserted I h : s1.asserted = _)
  case race =>
    rw [Option.map_eq_some_iff] at h
    obtain ⟨⟨n, s1⟩, h, rfl⟩ := h
    unfold takeRace at h
    dsimp only at h
    split at h
    · cases h
    · cases h; rfl
  case localDone n r =>
    split at h
    · rename_i hq
      cases h
      apply finishDist_asserted
      · show n ∈ s.inProg
        rw [mem_count]
        situations hg using I.good n
        all_goals try omega
        all_goals try (rcases hq with hq | hq <;> rw [hq] at e2 <;> cases e2; done)
      · show s.dist n = _ → s.abort n = true
        situations hg using I.good n
        all_goals try (rcases hq with hq | hq <;> rw [hq] at e2 <;> cases e2; done)
        all_goals simp [e1, e4]
      · show s.dist n = _ ∨ s.dist n = _ ∨ s.dist n = _ ∨ s.dist n = _ ∨ s.dist n = _
        situations hg using I.good n
        all_goals try (rcases hq with hq | hq <;> rw [hq] at e2 <;> cases e2; done)
        all_goals simp [e1]
    · cases h
  case ret n e =>
    split at h
    · rename_i hq; cases h; exact onReturn_asserted I hq
    · cases h
  case poll n =>
    split at h
    · cases h
      unfold pollReturn
      dsimp only [Q.access]
      repeat' split
      all_goals rfl
    · cases h
  case remoteDone n r =>
    split at h
    · rename_i hq
      split at h
      · cases h
      · cases h
        obtain ⟨b, hq⟩ : ∃ b, s.rem n = .own b := by rcases hq with hq | ⟨hq, _⟩ <;> exact ⟨_, hq⟩
        apply finishDist_asserted
        · show n ∈ s.inProg
          rw [mem_count]
          situations hg using I.good n
          all_goals try omega
          all_goals try (rw [hq] at e3; cases e3; done)
          all_goals try (rename_i w; cases w <;> (rw [hq] at e3; cases e3); done)
        · show s.dist n = _ → s.abort n = true
          situations hg using I.good n
          all_goals try (rw [hq] at e3; cases e3; done)
          all_goals try (rename_i w; cases w <;> (rw [hq] at e3; cases e3); done)
          all_goals simp [e1]
        · show s.dist n = _ ∨ s.dist n = _ ∨ s.dist n = _ ∨ s.dist n = _ ∨ s.dist n = _
          situations hg using I.good n
          all_goals try (rw [hq] at e3; cases e3; done)
          all_goals try (rename_i w; cases w <;> (rw [hq] at e3; cases e3); done)
          all_goals simp [e1]
    · cases h
  case retry n =>
    split at h
    · rename_i hq; cases h; exact returnUnfinished_asserted I (Or.inr hq)
    · cases h
  case disconnect n =>
    split at h
    · rename_i hq; cases h; exact returnUnfinished_asserted I (Or.inl hq)
    · cases h
  case swap =>
    split at h
    · cases h; rfl
    · cases h
  case finalize =>
    rw [Option.map_eq_some_iff] at h
    obtain ⟨⟨n, r, s1⟩, h, rfl⟩ := h
    have := hb.resolve_left (fun h => h rfl)
    subst this
    exact finalizeJob_asserted I h

theorem asserted_run {c : Cfg} {evs : List Ev} : ∀ {s s' : Q}, Inv false c s →
    run c s evs = some s' → Calm c s evs → s'.asserted = s.asserted := by
  induction evs with
  | nil => intro s s' I h _; cases h; rfl
  | cons ev evs ih =>
    intro s s' I h hc
    rw [run] at h
    split at h
    · cases h
    · rename_i s1 hs
      rw [ih (inv_step I hs (Or.inr hc.1)) h (hc.2 _ hs), asserted_step I hs (Or.inr rfl)]

end Verif.Jobs
