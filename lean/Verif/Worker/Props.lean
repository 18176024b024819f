import Verif.Worker.Proof
/-
C100: what becomes of the jobs of a worker. Findings and examples.
-/
namespace Verif.Worker

theorem holds_iff {s : State} {pl : Nat → Option Holder} (h : Inv s pl) (j : Nat) (x : Holder) : Holds s j x ↔ pl j = some x := by
  cases x with
  | waiting a => exact h.hwait j a
  | pending => exact h.hpend j
  | worker w => exact h.hwork j w
  | done r => exact h.hdone j r
  | server =>
    rw [← h.hserv j]
    show (∃ r, s.server = some (j, r)) ↔ _
    cases s.server with
    | none => simp
    | some q => obtain ⟨i, r⟩ := q; simp

/-- A job that any thread or list has a pointer to has not been freed, and nothing else has a pointer to it. -/
theorem C100_one_holder {s : State} (h : Reach s) {j : Nat} {x : Holder} (hx : Holds s j x) :
    s.born j = true ∧ s.freed j = false ∧ ∀ y, Holds s j y → y = x := by
  obtain ⟨pl, hi, _⟩ := inv2_reach h
  rw [holds_iff hi] at hx
  refine ⟨(hi.alive j x hx).1, (hi.alive j x hx).2, fun y hy => ?_⟩
  rw [holds_iff hi, hx] at hy
  exact (Option.some.inj hy).symm

/-- No list has it twice, and the jobs in flight are those that are being built. -/
theorem C100_lists {s : State} (h : Reach s) : (∀ a, (s.waiting a).Nodup) ∧ s.pending.Nodup ∧ (∀ r, (s.done r).Nodup) ∧ s.flight.Nodup ∧
    ∀ j, j ∈ s.flight ↔ ∃ w, s.worker w = .building j := by
  obtain ⟨pl, hi, _⟩ := inv2_reach h
  exact ⟨hi.ndWait, hi.ndPend, hi.ndDone, hi.ndFlight, hi.flight⟩

/-- For each job there is one result at most. -/
theorem C100_one_result {s : State} (h : Reach s) : (s.sent.map Prod.fst).Nodup := by
  obtain ⟨pl, hi⟩ := inv2_reach h
  exact hi.nd

/-- As long as the client is there, its job is held by someone, or its result has been sent to this client, or the build of it was aborted. -/
theorem C100_not_lost {s : State} (h : Reach s) {j : Nat} (hb : s.born j = true) {a : Nat} (ha : s.client a = some (s.source j)) (hj : s.addr j = a) (hp : s.phase a = .up) :
    (∃ x, Holds s j x) ∨ (j, s.source j) ∈ s.sent ∨ s.dropped j = true := by
  subst hj
  obtain ⟨pl, hi⟩ := inv2_reach h
  rcases (hi.keep j hb ha hp).2 with h' | h'
  · cases hx : pl j with
    | none => exact absurd hx h'
    | some x => exact .inl ⟨x, (holds_iff hi.inv j x).2 hx⟩
  · exact .inr h'

/-- Results go to the client the job has come from, if the memory of a client that has gone is not used for another. -/
theorem C100_own_client_partial {s : State} {old : Nat → Bool} (h : ReachNew s old) {j c : Nat} (hs : (j, c) ∈ s.sent) : c = s.source j :=
  ((inv3_reach h).sent j c hs).1

/-! ### findings -/

theorem run_reach : ∀ (l : List Act) {s s' : State}, Reach s → run s l = some s' → Reach s' := by
  intro l
  induction l with
  | nil => intro s s' h hr; cases hr; exact h
  | cons a l ih =>
    intro s s' h hr
    simp only [run] at hr
    cases ha : act s a with
    | none => rw [ha] at hr; cases hr
    | some s1 => rw [ha] at hr; exact ih (.step h ha) hr

def leave (a : Nat) : List Act := [.cancelPending a, .cancelDone a, .cancelFlight a, .erase a]

/-- A job that has failed is not cancelled when its client goes. If another client comes and its state is where the other was, the result is
sent to that client. No threads need to interleave. -/
theorem C100_wrong_client : ∃ s, Reach s ∧ (7, 2) ∈ s.sent ∧ s.source 7 = 1 ∧ s.used 1 = true := by
  have h : ∃ s, run {} ([.connect 0 1, .job 0 7 true, .take 0, .built 0 .failed, .check 0, .push 0] ++ leave 0 ++ [.connect 0 2, .pop, .finalize]) = some s ∧
      (7, 2) ∈ s.sent ∧ s.source 7 = 1 ∧ s.used 1 = true := ⟨_, rfl, by decide, by decide, by decide⟩
  obtain ⟨s, h1, h2⟩ := h
  exact ⟨s, run_reach _ .init h1, h2⟩

/-- The same with a job that was built well: it is neither in flight nor completed when its client goes. -/
theorem C100_wrong_client_ok : ∃ s, Reach s ∧ (7, 2) ∈ s.sent ∧ s.source 7 = 1 := by
  have h : ∃ s, run {} ([.connect 0 1, .job 0 7 true, .take 0, .built 0 .ok, .check 0] ++ leave 0 ++ [.push 0, .connect 0 2, .pop, .finalize]) = some s ∧
      (7, 2) ∈ s.sent ∧ s.source 7 = 1 := ⟨_, rfl, by decide, by decide⟩
  obtain ⟨s, h1, h2⟩ := h
  exact ⟨s, run_reach _ .init h1, h2⟩

/-- The tool of a waiting job arrives while its client goes: the job is built with a pointer to the state of the client, which has been freed.
`GetHostForJob` (Server.cpp:65) reads it. -/
theorem C100_dangling : ∃ s, Reach s ∧ s.worker 0 = .building 7 ∧ s.data 7 = some 0 ∧ s.client 0 = none := by
  have h : ∃ s, run {} [.connect 0 1, .job 0 7 false, .cancelPending 0, .ready 0 7, .cancelDone 0, .cancelFlight 0, .erase 0, .take 0] = some s ∧
      s.worker 0 = .building 7 ∧ s.data 7 = some 0 ∧ s.client 0 = none := ⟨_, rfl, by decide, by decide, by decide⟩
  obtain ⟨s, h1, h2⟩ := h
  exact ⟨s, run_reach _ .init h1, h2⟩

/-! ### examples -/

def exRun : List Act := [.connect 0 1, .connect 1 2, .job 0 7 false, .job 1 8 true, .ready 0 7, .take 0, .take 1, .built 1 .ok, .check 1, .push 1]

/-- `C100_one_holder`, `C100_lists` and `C100_not_lost` are about this -/
example : ∃ s, Reach s ∧ Holds s 8 (.worker 0) ∧ Holds s 7 (.done .ok) ∧ s.client 0 = some (s.source 7) ∧ s.addr 7 = 0 ∧ s.phase 0 = .up ∧ s.flight = [8] := by
  have h : ∃ s, run {} exRun = some s ∧ (s.worker 0).job = some 8 ∧ 7 ∈ s.done .ok ∧ s.client 0 = some (s.source 7) ∧ s.addr 7 = 0 ∧ s.phase 0 = .up ∧ s.flight = [8] :=
    ⟨_, rfl, by decide, by decide, by decide, by decide, by decide, by decide⟩
  obtain ⟨s, h1, h2⟩ := h
  exact ⟨s, run_reach _ .init h1, h2⟩

/-- `C100_one_result`: there are results -/
example : ∃ s, Reach s ∧ s.sent = [(7, 1)] := by
  have h : ∃ s, run {} (exRun ++ [.pop, .finalize]) = some s ∧ s.sent = [(7, 1)] := ⟨_, rfl, by decide⟩
  obtain ⟨s, h1, h2⟩ := h
  exact ⟨s, run_reach _ .init h1, h2⟩

/-- `C100_own_client_partial`: there are results -/
example : ∃ s old, ReachNew s old ∧ (7, 1) ∈ s.sent := by
  refine ⟨_, _, .step (.step (.step (.step (.step (.step (.step (.step (a := .connect 0 1) .init rfl ?_) (a := .job 0 7 true) rfl ?_) (a := .take 0) rfl ?_) (a := .built 0 .ok) rfl ?_)
    (a := .check 0) rfl ?_) (a := .push 0) rfl ?_) (a := .pop) rfl ?_) (a := .finalize) rfl ?_, ?_⟩
  · intros; rfl
  all_goals first | (intro x c h; cases h; done) | decide

end Verif.Worker
