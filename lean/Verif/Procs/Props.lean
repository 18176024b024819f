import Verif.Procs.Proof
/-
C99: one build at a time, and its result. Findings and examples.
-/
namespace Verif.Procs

theorem inv_reach {s : State} (h : Reach false s) : Inv s := by
  induction h with
  | init =>
    refine ⟨locks_reach (k := false) .init, ?_, ?_, ?_, ?_, ?_, ?_, ?_, ?_, ?_, ?_, ?_, ?_, ?_⟩ <;> intros <;>
      simp_all [FinalPhase, Early, Opened, Waiting]
  | step _ hm ha ih =>
    rcases hm with hm | hm
    · cases hm
    · exact inv_step ih hm ha

/-- Whoever is killed, no two builds without wrapper run at the same time and no two builds with it. -/
theorem C99_kinds {s : State} (h : Reach true s) {p q : Nat} : (s.pc p = .plain → s.pc q = .plain → p = q) ∧ (s.pc p = .build → s.pc q = .build → p = q) := by
  have hl := locks_reach h
  constructor
  · intro hp hq
    have h1 := hl.main p (.inr hp)
    rw [hl.main q (.inr hq)] at h1
    exact (Option.some.inj h1).symm
  · intro hp hq
    have h1 := hl.final p (by rw [hp]; trivial)
    rw [hl.final q (by rw [hq]; trivial)] at h1
    exact (Option.some.inj h1).symm

/-- If main and intermediate processes of the wrapper are not killed, no two builds run at the same time. Others may be killed at any time. -/
theorem C99_exclusive_partial {s : State} (h : Reach false s) {p q : Nat} (hp : Builds (s.pc p)) (hq : Builds (s.pc q)) : p = q := by
  have hi := inv_reach h
  have two : ∀ f r, s.pc f = .build → s.pc r = .plain → False := by
    intro f r hf hr
    obtain ⟨m, _, hw⟩ := hi.parent f (by rw [hf]; trivial)
    have hm : s.main = some m := hi.locks.main m (.inl (by revert hw; cases s.pc m <;> simp [Waiting, MainPhase]))
    rw [hi.locks.main r (.inr hr)] at hm
    cases hm
    rw [hr] at hw
    exact hw
  have cases' : ∀ x : PC, Builds x → x = .plain ∨ x = .build := by intro x hx; cases x <;> simp_all [Builds]
  rcases cases' _ hp with h1 | h1 <;> rcases cases' _ hq with h2 | h2
  · have e := hi.locks.main p (.inr h1)
    rw [hi.locks.main q (.inr h2)] at e
    exact (Option.some.inj e).symm
  · exact (two q p h2 h1).elim
  · exact (two p q h1 h2).elim
  · have e := hi.locks.final p (by rw [h1]; trivial)
    rw [hi.locks.final q (by rw [h2]; trivial)] at e
    exact (Option.some.inj e).symm

/-- Then the result of the process that was started is what its final process has found, or that it crashed if that has written nothing; and
the final process is over. -/
theorem C99_result_partial {s s' : State} (h : Reach false s) {m : Nat} (ha : act s (.waited m) = some s') :
    ∃ f, s.child m = some f ∧ ¬ FinalPhase (s.pc f) ∧ s'.pc m = .leave ((s.stored f).getD crashed) := by
  have hi := inv_reach h
  simp only [act] at ha
  split at ha
  · next hc =>
    obtain ⟨hc, hn⟩ := hc
    obtain ⟨f, hf⟩ := hi.later m (.inr hc)
    refine ⟨f, hf, ?_, ?_⟩
    · intro hp
      have : Early (s.pc f) ∨ Holding (s.pc f) := by revert hp; cases s.pc f <;> simp [Early, FinalPhase, Holding]
      rcases this with h' | h'
      · exact absurd (hi.early f h') (by rw [hi.told m hc]; simp)
      · rw [hi.locks.final f h'] at hn; cases hn
    · injection ha with ha
      subst ha
      show (if m = m then PC.leave s.code else _) = _
      rw [if_pos rfl, hi.codeSome m f (by rw [hc]; trivial) hf]
  · cases ha

/-- A final process writes what the build has found. -/
theorem C99_stored {s s' : State} {a : Act} (ha : act s a = some s') {f : Nat} {c : Int} (hs : s'.stored f = some c) :
    s.stored f = some c ∨ (a = .store f ∧ s.pc f = .store c) := by
  cases a <;> simp only [act] at ha <;> (repeat' split at ha) <;> first | (cases ha; done) | skip
  all_goals
    injection ha with ha
    subst ha
  all_goals
    simp only [State.at, upd] at hs
    grind

/-! ### a final process that dies before it has told that it has started -/

/-- the main process waits and there is none to tell -/
structure Stuck (m : Nat) (s : State) : Prop where
  here : s.pc m = .waitStarted
  main : s.main = some m
  started : s.started = false
  noFinal : ∀ p, ¬ FinalPhase (s.pc p)
  noInter : ∀ p r, s.pc p ≠ .inter r
  noMain : ∀ p, p ≠ m → ¬ MainPhase (s.pc p)
  noPlain : ∀ p, s.pc p ≠ .plain

theorem stuck_step {m : Nat} {s s' : State} {a : Act} (h : Stuck m s) (hk : a ≠ .kill m) (ha : act s a = some s') : Stuck m s' := by
  obtain ⟨h1, h2, h3, h4, h5, h6, h7⟩ := h
  cases a <;> simp only [act] at ha <;> (repeat' split at ha) <;> first | (cases ha; done) | skip
  all_goals
    injection ha with ha
    subst ha
    have f1 := fun p => h4 p
    constructor <;> simp only [State.at, upd, drop] at * <;> grind [FinalPhase, MainPhase]

/-- After that the main process waits for ever, and as long as it is not killed no other process can build. -/
theorem C99_hang {m : Nat} : ∀ (l : List Act) {s s' : State}, Stuck m s → Act.kill m ∉ l → run s l = some s' → s'.pc m = .waitStarted ∧ ∀ p, ¬ Builds (s'.pc p) := by
  intro l
  induction l with
  | nil =>
    intro s s' h _ hr
    cases hr
    refine ⟨h.here, fun p hb => ?_⟩
    have h1 := h.noPlain p
    have h2 := h.noFinal p
    revert hb h1 h2
    cases s.pc p <;> simp [Builds, FinalPhase]
  | cons a l ih =>
    intro s s' h hk hr
    simp only [List.mem_cons, not_or] at hk
    simp only [run] at hr
    cases ha : act s a with
    | none => rw [ha] at hr; cases hr
    | some s1 =>
      rw [ha] at hr
      exact ih (stuck_step h (fun e => hk.1 e.symm) ha) hk.2 hr

/-! ### executions -/

theorem reach_run : ∀ (l : List Act) {s s' : State}, Reach true s → run s l = some s' → Reach true s' := by
  intro l
  induction l with
  | nil => intro s s' h hr; cases hr; exact h
  | cons a l ih =>
    intro s s' h hr
    simp only [run] at hr
    cases ha : act s a with
    | none => rw [ha] at hr; cases hr
    | some s1 => rw [ha] at hr; exact ih (.step h (.inl rfl) ha) hr

/-- without kills -/
theorem mild_run : ∀ (l : List Act) {s s' : State}, Reach false s → (∀ p, Act.kill p ∉ l) → run s l = some s' → Reach false s' := by
  intro l
  induction l with
  | nil => intro s s' h _ hr; cases hr; exact h
  | cons a l ih =>
    intro s s' h hk hr
    simp only [run] at hr
    cases ha : act s a with
    | none => rw [ha] at hr; cases hr
    | some s1 =>
      rw [ha] at hr
      refine ih (.step h (.inr ?_) ha) (fun p hp => hk p (by simp [hp])) hr
      rintro p rfl
      exact absurd (List.mem_cons_self) (hk p)

/-- main process 0, intermediate process 1, final process 2 up to the build -/
def toFinal : List Act := [.launch 0 true, .lockMain 0, .create 0, .clear 0, .spawn 0 1, .interSpawn 1 2, .leave 1, .leave 1, .leave 1, .interLeft 0]

def toBuild : List Act := toFinal ++ [.lockFinal 2, .map 2, .tell 2, .seen 0]

/-- The main process of the wrapper is killed while the final process builds. Another build without the wrapper is let in, and as it has the mutex
the final process does not notice. -/
theorem C99_two_builds : ∃ s, Reach true s ∧ s.pc 2 = .build ∧ s.pc 3 = .plain := by
  have h : ∃ s, run {} (toBuild ++ [.kill 0, .launch 3 false, .lockMain 3]) = some s ∧ s.pc 2 = .build ∧ s.pc 3 = .plain := ⟨_, rfl, by decide, by decide⟩
  obtain ⟨s, h1, h2⟩ := h
  exact ⟨s, reach_run _ .init h1, h2⟩

/-- main process 3, intermediate process 4 and final process 5 after process 0 is killed -/
def second : List Act := [.kill 0, .launch 3 true, .lockMain 3, .create 3, .clear 3, .spawn 3 4, .interSpawn 4 5, .leave 4, .leave 4, .leave 4, .interLeft 3]

/-- The second build reports success though its final process has built nothing: it has found the one of the killed process. -/
theorem C99_not_built : ∃ s, Reach true s ∧ s.pc 3 = .gone 0 ∧ s.child 3 = some 5 ∧ s.pc 5 = .gone noFinal ∧ s.stored 5 = none := by
  have h : ∃ s, run {} (toFinal ++ [.lockFinal 2, .map 2] ++ second ++ [.tell 2, .seen 3, .finish 2 0, .store 2, .leave 2, .leave 2, .leave 2, .waited 3,
      .leave 3, .leave 3, .leave 3, .lockFinal 5, .map 5, .leave 5, .leave 5, .leave 5]) = some s ∧
      s.pc 3 = .gone 0 ∧ s.child 3 = some 5 ∧ s.pc 5 = .gone noFinal ∧ s.stored 5 = none := ⟨_, rfl, by decide, by decide, by decide, by decide⟩
  obtain ⟨s, h1, h2⟩ := h
  exact ⟨s, reach_run _ .init h1, h2⟩

/-- The second build reports success though its final process was killed in the build: it is the result of the first. -/
theorem C99_old_result : ∃ s, Reach true s ∧ s.pc 3 = .gone 0 ∧ s.child 3 = some 5 ∧ s.pc 5 = .killed ∧ s.stored 5 = none := by
  have h : ∃ s, run {} (toBuild ++ second ++ [.finish 2 0, .store 2, .leave 2, .leave 2, .leave 2, .lockFinal 5, .map 5, .tell 5, .seen 3, .kill 5, .waited 3,
      .leave 3, .leave 3, .leave 3]) = some s ∧
      s.pc 3 = .gone 0 ∧ s.child 3 = some 5 ∧ s.pc 5 = .killed ∧ s.stored 5 = none := ⟨_, rfl, by decide, by decide, by decide, by decide⟩
  obtain ⟨s, h1, h2⟩ := h
  exact ⟨s, reach_run _ .init h1, h2⟩

/-- the state of `C99_hang` can be reached by killing a final process -/
theorem C99_hang_reached : ∃ s, Reach false s ∧ Stuck 0 s := by
  have h : ∃ s s', run {} toFinal = some s ∧ act s (.kill 2) = some s' ∧ (∀ m, s.pc m ≠ .waitInter 2) ∧ s.pc 2 = .final ∧
      (∀ p, s'.pc p = .waitStarted ∧ p = 0 ∨ s'.pc p = .gone 0 ∨ s'.pc p = .killed ∨ s'.pc p = .unborn) ∧ s'.pc 0 = .waitStarted ∧ s'.main = some 0 ∧ s'.started = false := by
    refine ⟨_, _, rfl, rfl, ?_, by decide, ?_, by decide, by decide, by decide⟩
    · intro m
      match m with
      | 0 => decide
      | 1 => decide
      | 2 => decide
      | n + 3 => intro h; cases h
    · intro m
      match m with
      | 0 => decide
      | 1 => decide
      | 2 => decide
      | n + 3 => exact .inr (.inr (.inr rfl))
  obtain ⟨s, s', h1, h2, h3, h4, h5, h6, h7, h8⟩ := h
  have r1 : Reach false s := mild_run _ .init (by intro p; simp [toFinal]) h1
  refine ⟨s', .step r1 (.inr ?_) h2, h6, h7, h8, ?_, ?_, ?_, ?_⟩
  · intro p hp
    cases hp
    exact ⟨by rw [h4]; exact id, h3⟩
  · intro p h
    rcases h5 p with h' | h' | h' | h'
    · rw [h'.1] at h; exact h
    all_goals rw [h'] at h; exact h
  · intro p r h
    rcases h5 p with h' | h' | h' | h'
    · rw [h'.1] at h; cases h
    all_goals rw [h'] at h; cases h
  · intro p hp h
    rcases h5 p with h' | h' | h' | h'
    · exact hp h'.2
    all_goals rw [h'] at h; exact h
  · intro p h
    rcases h5 p with h' | h' | h' | h'
    · rw [h'.1] at h; cases h
    all_goals rw [h'] at h; cases h

/-! ### examples -/

/-- a build with the wrapper that goes well -/
def exRun : List Act := toBuild ++ [.launch 7 false, .refused 7, .finish 2 0, .store 2, .leave 2, .leave 2, .leave 2]

/-- `C99_exclusive_partial` is about it -/
example : ∃ s, Reach false s ∧ Builds (s.pc 2) ∧ s.pc 0 = .waitFinal := by
  have h : ∃ s, run {} toBuild = some s ∧ s.pc 2 = .build ∧ s.pc 0 = .waitFinal := ⟨_, rfl, by decide, by decide⟩
  obtain ⟨s, h1, h2, h3⟩ := h
  exact ⟨s, mild_run _ .init (by intro p; simp [toBuild, toFinal]) h1, by rw [h2]; trivial, h3⟩

/-- `C99_result_partial` is about it -/
example : ∃ s s', Reach false s ∧ act s (.waited 0) = some s' ∧ s.stored 2 = some 0 ∧ s'.pc 0 = .leave 0 := by
  have h : ∃ s s', run {} exRun = some s ∧ act s (.waited 0) = some s' ∧ s.stored 2 = some 0 ∧ s'.pc 0 = .leave 0 := ⟨_, _, rfl, rfl, by decide, by decide⟩
  obtain ⟨s, s', h1, h2⟩ := h
  exact ⟨s, s', mild_run _ .init (by intro p; simp [exRun, toBuild, toFinal]) h1, h2⟩

/-- `C99_kinds` -/
example : ∃ s, Reach true s ∧ s.pc 0 = .plain := by
  have h : ∃ s, run {} [.launch 0 false, .lockMain 0] = some s ∧ s.pc 0 = .plain := ⟨_, rfl, by decide⟩
  obtain ⟨s, h1, h2⟩ := h
  exact ⟨s, reach_run _ .init h1, h2⟩

end Verif.Procs
