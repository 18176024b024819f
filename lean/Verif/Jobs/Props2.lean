import Verif.Jobs.Props
/-! Properties C15, C16 and C42: distributed jobs. -/
namespace Verif.Jobs
open Verif.Sort

/-! ### C15 -/

/-- C15. Whatever the interleaving: the result of a job is applied at most once, the job is freed at most
once, only after its result was applied, and no freed job is accessed. (Release build: failed assertions
are recorded and execution continues.) -/
theorem C15_exactly_once (c : Cfg) (evs : List Ev) (s : Q) (h : run c {} evs = some s) :
    s.uaf = false ∧ ∀ n, (s.fin.map Prod.fst).count n ≤ 1 ∧ s.freed.count n ≤ (s.fin.map Prod.fst).count n := by
  have I := inv_run (bug := true) inv_empty h (Or.inl rfl)
  refine ⟨I.uaf, fun n => ?_⟩
  situations hg using I.good n <;> omega

/-- C15. A released job whose result was not applied is still alive, and no freed job is in any list or
with any thread that dereferences it. -/
theorem C15_freed_unreachable (c : Cfg) (evs : List Ev) (s : Q) (h : run c {} evs = some s) (n : Nat)
    (hf : n ∈ s.freed) : ¬ Held s n ∧ n ∉ s.inProg ∧ n ∉ s.staging (c.group n) := by
  have I := inv_run (bug := true) inv_empty h (Or.inl rfl)
  unfold Held
  rw [mem_count] at hf
  situations hg using I.good n
  all_goals try omega
  have z : ∀ r, n ∉ s.done r ∧ n ∉ s.done2 r := by
    intro r; rw [mem_count, mem_count]; cases r <;> omega
  have z1 : n ∉ s.queue := by rw [mem_count]; omega
  have z2 : n ∉ s.avail := by rw [mem_count]; omega
  have z3 : n ∉ s.inProg := by rw [mem_count]; omega
  have z4 : n ∉ s.staging (c.group n) := by rw [mem_count]; omega
  refine ⟨?_, z3, z4⟩
  rintro (hx | hx | hx | hx | hx | ⟨r, hx⟩)
  · exact z1 hx
  · exact hx e2
  · exact z2 hx
  · rename_i w; cases w <;> simp at e3 <;> simp [e3] at hx
  · exact z3 hx.2.1
  · exact hx.elim (z r).1 (z r).2

/-- A distributed job raced by a local worker while a remote worker has it. -/
def raceStart : List Ev := [.add 1, .flush, .take, .second 1, .send (fun _ => true), .race]

/-- local result first, remote result afterwards -/
example : ∃ s, run demo {} (raceStart ++ [.localDone 1 .ok, .swap, .finalize, .ret 1 false]) = some s ∧
    s.fin = [(1, .ok)] ∧ s.freed = [1] ∧ s.inProg = [] ∧ s.asserted = false := ⟨_, rfl, rfl, rfl, rfl, rfl⟩

/-- remote result first: the local build is cancelled and the remote result is used -/
example : ∃ s, run demo {} (raceStart ++ [.ret 1 false, .poll 1, .localDone 1 .aborted, .poll 1, .remoteDone 1 .ok,
      .swap, .finalize]) = some s ∧
    s.fin = [(1, .ok)] ∧ s.freed = [1] ∧ s.inProg = [] ∧ s.asserted = false := ⟨_, rfl, rfl, rfl, rfl, rfl⟩

/-- local result and then the remote one before finalisation -/
example : ∃ s, run demo {} (raceStart ++ [.localDone 1 .ok, .ret 1 false, .poll 1, .swap, .finalize, .poll 1]) = some s ∧
    s.fin = [(1, .ok)] ∧ s.freed = [1] ∧ s.inProg = [] ∧ s.asserted = false := ⟨_, rfl, rfl, rfl, rfl, rfl⟩

/-! ### C16 -/

/-- C16. No job is lost: in every reachable state a released job whose result was not applied yet is in a
queue, with a worker, with a connection, or in a list of results to finalise. -/
theorem C16_not_lost (c : Cfg) (evs : List Ev) (s : Q) (h : run c {} evs = some s) (n : Nat)
    (h1 : n ∈ s.flushed) (h2 : ∀ r, (n, r) ∉ s.fin) : Held s n := by
  have I := inv_run (bug := true) inv_empty h (Or.inl rfl)
  have h3 : (s.fin.map Prod.fst).count n = 0 := by
    apply List.count_eq_zero_of_not_mem
    intro hx
    obtain ⟨⟨a, r⟩, hy, rfl⟩ := List.mem_map.1 hx
    exact h2 r hy
  rw [mem_count] at h1
  unfold Held
  have dn : ∀ r, (s.done .ok).count n + (s.done2 .ok).count n = ind r .ok →
      (s.done .aborted).count n + (s.done2 .aborted).count n = ind r .aborted →
      (s.done .failed).count n + (s.done2 .failed).count n = ind r .failed → ∃ r, n ∈ s.done r ∨ n ∈ s.done2 r := by
    intro r z1 z2 z3
    refine ⟨r, ?_⟩
    rw [mem_count, mem_count]
    cases r <;> simp [ind] at z1 z2 z3 <;> omega
  situations hg using I.good n
  all_goals try omega
  all_goals try (exact Or.inr (Or.inr (Or.inr (Or.inr (Or.inr (dn _ e11 e12 e13))))))
  · left; rw [mem_count]; omega
  · right; left; simp [e2]
  · right; right; left; rw [mem_count]; omega
  · right; left; rename_i b; cases b <;> simp [e2]
  · right; right; right; left; simp [e3]
  · right; left; simp [e2]
  · right; left; simp [e2]
  · right; right; right; right; left
    exact ⟨e3, by rw [mem_count]; omega, e1⟩
  · right; right; right; left; simp [e3]
  · right; right; right; left; simp [e3]

/-- C16. No assertion of the job queue can fail outside `FinalizeCompletedJobs`, whatever the
interleaving. -/
theorem C16_assertions_outside_finalize (c : Cfg) (evs : List Ev) (s s' : Q) (ev : Ev)
    (h : run c {} evs = some s) (hs : step c s ev = some s') (hne : ev ≠ .finalize) :
    s'.asserted = s.asserted :=
  asserted_step (inv_run (bug := true) inv_empty h (Or.inl rfl)) hs (Or.inl hne)

/-- C16, partial: no assertion fails in interleavings in which the remote part of a job does not end
between the end of the local race and its finalisation. Missing: the other interleavings, for which the
claim is false (`C16_disconnect_after_race_asserts`, `C16_return_after_failed_race_asserts`). -/
theorem C16_no_assertion_partial (c : Cfg) (evs : List Ev) (s : Q) (h : run c {} evs = some s)
    (hc : Calm c {} evs) : s.asserted = false :=
  asserted_run (inv_empty (bug := false)) h hc

/-- C16, partial: in the same interleavings a finalised job is freed, or a remote worker still has it and
the end of that (result or disconnection) frees it. -/
theorem C16_freed_partial (c : Cfg) (evs : List Ev) (s : Q) (h : run c {} evs = some s)
    (hc : Calm c {} evs) (n : Nat) (r : Res) (hf : (n, r) ∈ s.fin) :
    n ∈ s.freed ∨ (s.rem n = .sent ∧
      (∀ e, ∃ s', step c s (.ret n e) = some s' ∧ n ∈ s'.freed) ∧
      ∃ s', step c s (.disconnect n) = some s' ∧ n ∈ s'.freed) := by
  have I := inv_run (bug := false) inv_empty h (Or.inr hc)
  have hf : 0 < (s.fin.map Prod.fst).count n := by
    rw [← mem_count]; exact List.mem_map.2 ⟨_, hf, rfl⟩
  rw [mem_count]
  situations hg using I.good n
  all_goals try omega
  all_goals try (exact absurd ‹false = true› (by simp))
  · right
    have hin : s.inProg.contains n = true := by
      rw [List.contains_iff_mem, mem_count]; omega
    refine ⟨e3, fun e => ?_, ?_⟩
    · simp only [step, e3, if_true]
      refine ⟨_, rfl, ?_⟩
      unfold onReturn
      dsimp only [Q.access, Q.assert, Q.free]
      cases e <;> simp only [hin, if_true, e1] <;> simp
    · simp only [step, e3, if_true]
      refine ⟨_, rfl, ?_⟩
      unfold returnUnfinished
      dsimp only [Q.access, Q.assert, Q.free]
      simp [e1]

/-- C16. A connection that waits for a cancelled local build stops waiting as soon as the worker has
reported and that report was finalised: it keeps waiting only while the worker still builds the job or
its report waits to be finalised. -/
theorem C16_wait_ends (c : Cfg) (evs : List Ev) (s : Q) (h : run c {} evs = some s) (n : Nat)
    (hw : s.rem n = .wait) :
    ∃ s', step c s (.poll n) = some s' ∧
      (s'.rem n ≠ .wait ∨ s.loc n = .race ∨ ∃ r, n ∈ s.done r ∨ n ∈ s.done2 r) := by
  have I := inv_run (bug := true) inv_empty h (Or.inl rfl)
  refine ⟨pollReturn s n, by simp [step, hw], ?_⟩
  have dn : ∀ r, (s.done .ok).count n + (s.done2 .ok).count n = ind r .ok →
      (s.done .aborted).count n + (s.done2 .aborted).count n = ind r .aborted →
      (s.done .failed).count n + (s.done2 .failed).count n = ind r .failed → ∃ r, n ∈ s.done r ∨ n ∈ s.done2 r := by
    intro r z1 z2 z3
    refine ⟨r, ?_⟩
    rw [mem_count, mem_count]
    cases r <;> simp [ind] at z1 z2 z3 <;> omega
  unfold pollReturn
  dsimp only [Q.access]
  situations hg using I.good n
  all_goals try (rw [hw] at e3; cases e3; done)
  all_goals try (exact Or.inr (Or.inr (dn _ e11 e12 e13)))
  · right; left; exact e2
  · left
    have hin : s.inProg.contains n = true := by
      rw [List.contains_iff_mem, mem_count]; omega
    simp only [hin, if_true, e1]
    simp
  · left
    have hin : ¬ s.inProg.contains n = true := by
      rw [List.contains_iff_mem, mem_count]; omega
    simp only [hin, if_false, Bool.false_eq_true]
    simp
  · left
    have hin : s.inProg.contains n = true := by
      rw [List.contains_iff_mem, mem_count]; omega
    simp only [hin, if_true, e1]
    simp

/-- Finding against C16: a local racer finishes a job, and before that is finalised the remote worker is
disconnected (the same happens on a system error). The state assertion of `FinalizeCompletedJobs` fails; a
release build leaves the finished job in the list of jobs in progress for ever, with nobody to free it. -/
theorem C16_disconnect_after_race_asserts :
    ∃ s, run demo {} (raceStart ++ [.localDone 1 .ok, .disconnect 1, .swap, .finalize]) = some s ∧
      s.asserted = true ∧ s.inProg = [1] ∧ s.fin = [(1, .ok)] ∧ s.freed = [] ∧ s.rem 1 = .idle ∧ s.loc 1 = .idle :=
  ⟨_, rfl, rfl, rfl, rfl, rfl, rfl, rfl⟩

/-- Finding against C16: a local racer fails, and before that is finalised the remote result arrives. The
assertion fails, the remote result is dropped although it is a success, and the job is never freed. -/
theorem C16_return_after_failed_race_asserts :
    ∃ s, run demo {} (raceStart ++ [.localDone 1 .failed, .ret 1 false, .swap, .finalize, .poll 1]) = some s ∧
      s.asserted = true ∧ s.inProg = [1] ∧ s.fin = [(1, .failed)] ∧ s.freed = [] ∧ s.rem 1 = .idle ∧
      s.loc 1 = .idle :=
  ⟨_, rfl, rfl, rfl, rfl, rfl, rfl, rfl⟩

/-- a calm run with a race, a disconnection and a retry -/
example : ∃ s, run demo {} (raceStart ++ [.disconnect 1, .localDone 1 .ok, .swap, .finalize]) = some s ∧
    s.fin = [(1, .ok)] ∧ s.freed = [1] := ⟨_, rfl, rfl, rfl⟩

example : Calm demo {} (raceStart ++ [.disconnect 1, .localDone 1 .ok, .swap, .finalize]) := by
  refine ⟨trivial, fun s1 h1 => ⟨trivial, fun s2 h2 => ⟨trivial, fun s3 h3 => ⟨trivial, fun s4 h4 =>
    ⟨trivial, fun s5 h5 => ⟨trivial, fun s6 h6 => ⟨?_, fun s7 h7 => ⟨trivial, fun s8 h8 => ⟨trivial, fun s9 h9 =>
    ⟨trivial, fun s10 h10 => trivial⟩⟩⟩⟩⟩⟩⟩⟩⟩⟩
  cases h1; cases h2; cases h3; cases h4; cases h5; cases h6
  intro r; exact ⟨List.not_mem_nil, List.not_mem_nil⟩

/-! ### C42 -/

theorem flush_remote (c : Cfg) (s : Q) : (flush c s).sysErr = s.sysErr ∧ (flush c s).rem = s.rem := by
  unfold flush
  generalize List.range s.groups = l
  induction l generalizing s with
  | nil => exact ⟨rfl, rfl⟩
  | cons g l ih =>
    obtain ⟨i1, i2⟩ := ih (flushGroup c s g)
    rw [List.foldl_cons, i1, i2]
    unfold flushGroup
    dsimp only
    generalize (if c.limit g ≥ c.workers then unlimited else c.limit g) = maxJobs
    repeat' split
    all_goals exact ⟨rfl, rfl⟩

theorem finishDist_remote (s : Q) (n : Nat) (r : Res) :
    (finishDist s n r).sysErr = s.sysErr ∧ (finishDist s n r).rem = s.rem := by
  unfold finishDist
  dsimp only
  repeat' split
  all_goals exact ⟨rfl, rfl⟩

theorem returnUnfinished_remote (s : Q) (n : Nat) :
    (returnUnfinished s n).sysErr = s.sysErr ∧ (returnUnfinished s n).rem = s.rem := by
  unfold returnUnfinished
  dsimp only [Q.access, Q.assert, Q.free]
  by_cases d1 : s.dist n = .racing <;> by_cases d2 : s.dist n = .raceWonLocally <;>
    by_cases d3 : s.dist n = .completedRemotely <;> simp [d1, d2, d3]

theorem finalizeJob_remote (c : Cfg) (s : Q) (n : Nat) (r : Res) :
    (finalizeJob c s n r).sysErr = s.sysErr ∧ (finalizeJob c s n r).rem = s.rem := by
  unfold finalizeJob
  dsimp only
  repeat' split
  all_goals exact ⟨rfl, rfl⟩

/-- what an event does to the error count and the owner of a job -/
def ErrStep (s s' : Q) (n : Nat) : Prop :=
  s.sysErr n ≤ s'.sysErr n ∧ (s'.rem n = .own true → s.rem n = .own true ∨ s.sysErr n < s'.sysErr n)

theorem ErrStep.same {s s' : Q} {n : Nat} (h : s'.sysErr = s.sysErr) (h2 : s'.rem = s.rem) : ErrStep s s' n := by
  unfold ErrStep; rw [h, h2]; exact ⟨Nat.le_refl _, Or.inl⟩

theorem ErrStep.rem {s s' : Q} {n m : Nat} {v : Rem} (h : s'.sysErr = s.sysErr) (h2 : s'.rem = set s.rem m v)
    (hv : v ≠ .own true) : ErrStep s s' n := by
  unfold ErrStep; rw [h, h2]
  refine ⟨Nat.le_refl _, fun hx => ?_⟩
  by_cases e : n = m
  · subst e; rw [set_self] at hx; exact absurd hx hv
  · rw [set_ne _ _ e] at hx; exact Or.inl hx

theorem sysErr_step {c : Cfg} {s s' : Q} {ev : Ev} (h : step c s ev = some s') (n : Nat) : ErrStep s s' n := by
  cases ev <;> simp only [step] at h
  case add m => split at h <;> cases h; exact .same rfl rfl
  case flush => cases h; exact .same (flush_remote c s).1 (flush_remote c s).2
  case take => split at h <;> cases h; exact .same rfl rfl
  case firstDone m r => split at h <;> cases h; exact .same rfl rfl
  case second m => split at h <;> cases h; exact .same rfl rfl
  case consume =>
    rw [Option.map_eq_some_iff] at h
    obtain ⟨⟨m, s1⟩, h, rfl⟩ := h
    unfold takeDist at h
    split at h <;> cases h
    exact .same rfl rfl
  case send compat =>
    rw [Option.map_eq_some_iff] at h
    obtain ⟨⟨m, s1⟩, h, rfl⟩ := h
    unfold takeDist at h
    split at h <;> cases h
    exact .rem (m := m) (v := .sent) rfl rfl (by simp)
  case race =>
    rw [Option.map_eq_some_iff] at h
    obtain ⟨⟨m, s1⟩, h, rfl⟩ := h
    unfold takeRace at h
    dsimp only at h
    split at h <;> cases h
    exact .same rfl rfl
  case localDone m r =>
    split at h <;> cases h
    have := finishDist_remote { s with loc := set s.loc m .idle } m r
    exact .same this.1 this.2
  case ret m e =>
    split at h <;> cases h
    unfold onReturn
    dsimp only [Q.access, Q.assert, Q.free]
    cases e <;> simp only [Bool.false_eq_true, if_false, if_true, false_and, true_and]
    · repeat' split
      all_goals exact .rem (m := m) rfl rfl (by simp)
    · have key : ∀ (s' : Q) (v : Rem), s'.sysErr = set s.sysErr m (s.sysErr m + 1) → s'.rem = set s.rem m v →
          ErrStep s s' n := by
        intro s' v h1 h2
        unfold ErrStep
        rw [h1, h2]
        by_cases e : n = m
        · subst e; rw [set_self, set_self]; exact ⟨by omega, fun _ => Or.inr (by omega)⟩
        · rw [set_ne _ _ e, set_ne _ _ e]; exact ⟨Nat.le_refl _, Or.inl⟩
      repeat' split
      all_goals first | exact key _ _ rfl rfl | exact .rem (m := m) rfl rfl (by simp)
  case poll m =>
    split at h <;> cases h
    unfold pollReturn
    dsimp only [Q.access]
    repeat' split
    · exact .same rfl rfl
    all_goals exact .rem (m := m) rfl rfl (by simp)
  case remoteDone m r =>
    split at h
    · split at h <;> cases h
      have := finishDist_remote { s with rem := set s.rem m .idle } m r
      exact .rem (m := m) this.1 this.2 (by simp)
    · cases h
  case retry m =>
    split at h <;> cases h
    have := returnUnfinished_remote { s with rem := set s.rem m .idle } m
    exact .rem (m := m) this.1 this.2 (by simp)
  case disconnect m =>
    split at h <;> cases h
    have := returnUnfinished_remote { s with rem := set s.rem m .idle } m
    exact .rem (m := m) this.1 this.2 (by simp)
  case swap => split at h <;> cases h; exact .same rfl rfl
  case finalize =>
    rw [Option.map_eq_some_iff] at h
    obtain ⟨⟨m, r, s1⟩, h, rfl⟩ := h
    obtain ⟨l, hl, rfl⟩ := nextDone_some h
    exact .same (finalizeJob_remote _ _ _ _).1 (finalizeJob_remote _ _ _ _).2

/-- C42. Whatever the workers answer, a job goes back to the available jobs after a system error at most
twice, so that at most three attempts are made because of system errors. -/
theorem C42_bounded_retries (c : Cfg) (evs : List Ev) (s : Q) (h : run c {} evs = some s) (n : Nat) :
    retries n evs ≤ 2 := by
  suffices ∀ (evs : List Ev) (s0 s1 : Q) (k : Nat), run c s0 evs = some s1 →
      k ≤ 2 ∧ k + (if s0.rem n = .own true then 1 else 0) ≤ s0.sysErr n → k + retries n evs ≤ 2 by
    have := this evs {} s 0 h ⟨by omega, by simp⟩; omega
  intro evs
  induction evs with
  | nil => intro s0 s1 k _ hk; simpa [retries] using hk.1
  | cons ev evs ih =>
    intro s0 s1 k hr hk
    rw [run] at hr
    split at hr
    · cases hr
    · rename_i s' hs
      have he := sysErr_step hs n
      by_cases hev : ev = .retry n
      · subst hev
        have h3 : s0.rem n = .own true ∧ s0.sysErr n < attempts ∧ s'.rem n ≠ .own true ∧
            s'.sysErr n = s0.sysErr n := by
          simp only [step] at hs
          split at hs <;> cases hs
          rename_i hx
          have := returnUnfinished_remote { s0 with rem := set s0.rem n .idle } n
          refine ⟨hx.1, hx.2, ?_, ?_⟩
          · rw [this.2]; simp
          · rw [this.1]
        obtain ⟨h4, h5, h6, h7⟩ := h3
        unfold attempts at h5
        rw [if_pos h4] at hk
        have := ih s' s1 (k + 1) hr ⟨by omega, by rw [if_neg h6]; omega⟩
        have e : retries n (.retry n :: evs) = retries n evs + 1 := by simp [retries]
        omega
      · have e : retries n (ev :: evs) = retries n evs := by
          unfold retries
          rw [List.filter_cons, if_neg]
          cases ev <;> simp
          rename_i m; intro hm; exact hev (by rw [hm])
        rw [e]
        refine ih s' s1 k hr ⟨hk.1, ?_⟩
        unfold ErrStep at he
        split
        · rename_i h8
          rcases he.2 h8 with h9 | h9
          · rw [if_pos h9] at hk; omega
          · have := hk.2
            omega
        · have := hk.2; omega

/-- C42. When the remote worker reports a system error for a job that nobody races, the job goes back to
the available jobs while fewer than three errors were counted; otherwise that is no longer possible and the
job is reported as failed (and not before). -/
theorem C42_retry_or_fail (c : Cfg) (evs : List Ev) (s : Q) (h : run c {} evs = some s) (n : Nat)
    (hr : s.rem n = .own true) :
    (s.sysErr n < 3 → (∃ s', step c s (.retry n) = some s' ∧ n ∈ s'.avail) ∧
      step c s (.remoteDone n .failed) = none) ∧
    (3 ≤ s.sysErr n → step c s (.retry n) = none ∧
      ∃ s', step c s (.remoteDone n .failed) = some s' ∧ n ∈ s'.done .failed) := by
  have I := inv_run (bug := true) inv_empty h (Or.inl rfl)
  have hd : s.dist n = .completedRemotely := by
    situations hg using I.good n
    all_goals try (rw [hr] at e3; cases e3; done)
    all_goals try (rename_i w; cases w <;> (rw [hr] at e3; cases e3); done)
    exact e1
  refine ⟨fun hl => ⟨⟨_, by simp only [step]; rw [if_pos ⟨hr, hl⟩], ?_⟩, ?_⟩, fun hl => ⟨?_, _, by
    simp only [step]; rw [if_pos (Or.inr ⟨hr, Or.inr hl⟩), if_neg (by simp)], ?_⟩⟩
  · unfold returnUnfinished
    dsimp only [Q.access, Q.assert]
    simp [hd]
  · simp [step, hr, attempts]; omega
  · simp [step, hr, attempts]; omega
  · unfold finishDist
    dsimp only [Q.access, Q.assert]
    simp [hd, complete]

/-- three system errors: two retries, then the job is reported as failed -/
def errorTwice : List Ev :=
  [.add 1, .flush, .take, .second 1, .send (fun _ => true), .ret 1 true, .retry 1,
   .send (fun _ => true), .ret 1 true, .retry 1, .send (fun _ => true), .ret 1 true]

example : ∃ s, run demo {} errorTwice = some s ∧ s.rem 1 = .own true ∧ s.sysErr 1 = 3 ∧
    retries 1 errorTwice = 2 := ⟨_, rfl, rfl, rfl, rfl⟩

end Verif.Jobs
