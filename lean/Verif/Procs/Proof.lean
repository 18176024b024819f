import Verif.Procs.Spec
/-
C99: the invariants.
-/
namespace Verif.Procs

/-! ### in all cases -/

/-- a final process with the mutex -/
def Holding : PC → Prop
  | .map | .tell | .build | .store _ => True
  | _ => False

/-- who has the mutexes -/
structure Locks (s : State) : Prop where
  main : ∀ p, MainPhase (s.pc p) ∨ s.pc p = .plain → s.main = some p
  final : ∀ p, Holding (s.pc p) → s.final = some p

attribute [local grind =] MainPhase Holding

theorem locks_step {s s' : State} {a : Act} (h : Locks s) (ha : act s a = some s') : Locks s' := by
  obtain ⟨h1, h2⟩ := h
  cases a <;> simp only [act] at ha <;> (repeat' split at ha) <;> first | (cases ha; done) | skip
  all_goals
    injection ha with ha
    subst ha
    constructor <;> intro q hq <;> simp only [State.at, upd, drop] at * <;> grind

theorem locks_reach {k : Bool} {s : State} (h : Reach k s) : Locks s := by
  induction h with
  | init => exact ⟨fun p h => by simp [MainPhase] at h, fun p h => by simp [Holding] at h⟩
  | step _ _ ha ih => exact locks_step ih ha

/-! ### without killing processes of the wrapper -/

/-- a final process that is not over -/
def FinalPhase : PC → Prop
  | .final | .map | .tell | .build | .store _ => True
  | _ => False

/-- it has not told that it has started -/
def Early : PC → Prop
  | .final | .map | .tell => True
  | _ => False

/-- at the end of `Main` or over -/
def Left (c : Int) : PC → Prop
  | .leave d | .leaveMain d | .leaveMap d | .gone d => d = c
  | _ => False

/-- the main process is waiting for its final process, or for the intermediate process that has started it -/
def Waiting : PC → Prop
  | .waitInter _ | .waitStarted | .waitFinal => True
  | _ => False

/-- the memory is open -/
def Opened : PC → Prop
  | .clear | .spawn | .waitInter _ | .waitStarted | .waitFinal => True
  | _ => False

/-- the final process has not been started -/
def Before : PC → Prop
  | .unborn | .start _ | .create | .clear | .spawn => True
  | _ => False

structure Inv (s : State) : Prop where
  locks : Locks s
  parent : ∀ f, FinalPhase (s.pc f) → ∃ m, s.child m = some f ∧ Waiting (s.pc m)
  inter : ∀ i m, s.pc i = .inter m → s.pc m = .waitInter i
  interSome : ∀ i m, s.pc m = .waitInter i → (∃ f, s.child m = some f) → Left 0 (s.pc i)
  interNone : ∀ i m, s.pc m = .waitInter i → s.child m = none → s.pc i = .inter m ∨ Left noFinal (s.pc i)
  before : ∀ m, Before (s.pc m) → s.child m = none
  later : ∀ m, s.pc m = .waitStarted ∨ s.pc m = .waitFinal → ∃ f, s.child m = some f
  born : ∀ m f, s.child m = some f → s.pc f ≠ .unborn
  early : ∀ f, Early (s.pc f) → s.started = false
  told : ∀ m, s.pc m = .waitFinal → s.started = true
  opened : ∀ m, Opened (s.pc m) → m ∈ s.opened
  fresh : ∀ f, s.pc f = .unborn ∨ FinalPhase (s.pc f) → s.stored f = none
  codeNone : ∀ m, s.pc m = .spawn ∨ (Waiting (s.pc m) ∧ s.child m = none) → s.code = crashed ∧ s.started = false
  codeSome : ∀ m f, Waiting (s.pc m) → s.child m = some f → s.code = (s.stored f).getD crashed

attribute [local grind =] FinalPhase Early Left Waiting Opened Before noFinal noInter crashed running

set_option maxHeartbeats 20000000 in
theorem inv_step {s s' : State} {a : Act} (h : Inv s) (hm : Mild s a) (ha : act s a = some s') : Inv s' := by
  have hl := locks_step h.locks ha
  obtain ⟨⟨l1, l2⟩, h1, h2, h3, h4, h5, h6, h7, h8, h9, h10, h11, h12, h13⟩ := h
  unfold Mild at hm
  have w1 : ∀ m, Waiting (s.pc m) → s.main = some m := fun m hw => l1 m (.inl (by revert hw; cases s.pc m <;> simp [Waiting, MainPhase]))
  have w2 : ∀ f, Early (s.pc f) → FinalPhase (s.pc f) := fun f hw => by revert hw; cases s.pc f <;> simp [Early, FinalPhase]
  have w3 : ∀ m i, s.pc m = .waitInter i → Waiting (s.pc m) := fun m i hw => by rw [hw]; trivial
  have w4 : ∀ i m, s.pc i = .inter m → s.child m = none ∧ s.code = crashed ∧ s.started = false := fun i m hi => by
    have hw := h2 i m hi
    have hn : s.child m = none := by
      cases hc : s.child m with
      | none => rfl
      | some f => have := h3 i m hw ⟨f, hc⟩; rw [hi] at this; exact this.elim
    exact ⟨hn, h12 m (.inr ⟨w3 m i hw, hn⟩)⟩
  have w5 : ∀ i m, s.pc m = .waitInter i → s.pc i ≠ .killed := fun i m hw hk => by
    cases hc : s.child m with
    | none =>
      rcases h4 i m hw hc with h | h
      · rw [h] at hk; cases hk
      · rw [hk] at h; exact h
    | some f => have := h3 i m hw ⟨f, hc⟩; rw [hk] at this; exact this
  have w6 : ∀ i m c, s.pc m = .waitInter i → s.pc i = .gone c → (c = 0 ↔ ∃ f, s.child m = some f) := fun i m c hw hk => by
    cases hc : s.child m with
    | none =>
      rcases h4 i m hw hc with h | h
      · rw [h] at hk; cases hk
      · rw [hk] at h
        have : c = noFinal := h
        subst this
        simp [noFinal]
    | some f =>
      have := h3 i m hw ⟨f, hc⟩
      rw [hk] at this
      exact ⟨fun _ => ⟨f, rfl⟩, fun _ => this⟩
  have w7 : ∀ f, FinalPhase (s.pc f) → Early (s.pc f) ∨ Holding (s.pc f) := fun f hw => by revert hw; cases s.pc f <;> simp [Early, FinalPhase, Holding]
  have w8 : ∀ m, Waiting (s.pc m) → MainPhase (s.pc m) := fun m hw => by revert hw; cases s.pc m <;> simp [Waiting, MainPhase]
  cases a <;> simp only [act] at ha <;> (repeat' split at ha) <;> first | (cases ha; done) | skip
  all_goals
    injection ha with ha
    subst ha
    refine ⟨hl, ?_, ?_, ?_, ?_, ?_, ?_, ?_, ?_, ?_, ?_, ?_, ?_, ?_⟩
  all_goals
    clear hl
    simp only [State.at, upd, drop] at *
    grind

end Verif.Procs
