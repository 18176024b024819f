import Verif.Worker.Spec
/-
C100: the invariants.
-/
namespace Verif.Worker

structure Inv (s : State) (pl : Nat → Option Holder) : Prop where
  hwait : ∀ j a, j ∈ s.waiting a ↔ pl j = some (.waiting a)
  hpend : ∀ j, j ∈ s.pending ↔ pl j = some .pending
  hwork : ∀ j w, (s.worker w).job = some j ↔ pl j = some (.worker w)
  hdone : ∀ j r, j ∈ s.done r ↔ pl j = some (.done r)
  hserv : ∀ j, s.server.map Prod.fst = some j ↔ pl j = some .server
  alive : ∀ j h, pl j = some h → s.born j = true ∧ s.freed j = false
  ndWait : ∀ a, (s.waiting a).Nodup
  ndPend : s.pending.Nodup
  ndDone : ∀ r, (s.done r).Nodup
  ndFlight : s.flight.Nodup
  flight : ∀ j, j ∈ s.flight ↔ ∃ w, s.worker w = .building j
  once : ∀ j, s.freed j = true → s.born j = true

attribute [local grind =] Hand.job
attribute [local grind =] List.Nodup.mem_erase_iff
theorem nodup_filter (p : Nat → Bool) {l : List Nat} (h : l.Nodup) : (l.filter p).Nodup := List.Pairwise.filter p h

attribute [local grind ←] List.Nodup.erase nodup_filter

/-- where the jobs are afterwards -/
def place (s : State) (pl : Nat → Option Holder) (a : Act) (i : Nat) : Option Holder :=
  match a with
  | .connect _ _ => pl i
  | .job a j ready => if i = j then some (if ready then .pending else .waiting a) else pl i
  | .ready _ j => if i = j then some .pending else pl i
  | .take w => if s.pending.head? = some i then some (.worker w) else pl i
  | .built _ _ => pl i
  | .check w => if (s.worker w).job = some i ∧ s.data i = none then none else pl i
  | .push w => match s.worker w with
    | .push j r => if i = j then some (.done r) else pl i
    | _ => pl i
  | .pop => match s.done .ok, s.done .failed, s.done .aborted with
    | j :: _, _, _ => if i = j then some .server else pl i
    | [], j :: _, _ => if i = j then some .server else pl i
    | [], [], j :: _ => if i = j then some .server else pl i
    | [], [], [] => pl i
  | .finalize => match s.server with
    | none => pl i
    | some (j, _) => if i = j then none else pl i
  | .cancelPending a => if pl i = some .pending ∧ s.data i = some a then none else pl i
  | .cancelDone a => if pl i = some (.done .ok) ∧ s.data i = some a then none else pl i
  | .cancelFlight _ => pl i
  | .erase a => if pl i = some (.waiting a) then none else pl i

set_option maxHeartbeats 20000000 in
theorem inv_step {s s' : State} {pl : Nat → Option Holder} {a : Act} (h : Inv s pl) (ha : act s a = some s') : Inv s' (place s pl a) := by
  obtain ⟨h1, h2, h3, h4, h5, h6, h7, h8, h9, h10, h11, h12⟩ := h
  have k1 : ∀ w j, s.worker w = .building j → pl j = some (.worker w) := fun w j e => (h3 j w).1 (by rw [e]; rfl)
  have k2 : ∀ w j r, s.worker w = .removed j r → pl j = some (.worker w) := fun w j r e => (h3 j w).1 (by rw [e]; rfl)
  have k3 : ∀ w j r, s.worker w = .push j r → pl j = some (.worker w) := fun w j r e => (h3 j w).1 (by rw [e]; rfl)
  have k4 : ∀ j r, s.server = some (j, r) → pl j = some .server := fun j r e => (h5 j).1 (by rw [e]; rfl)
  have k5 : ∀ j i, j ∈ s.flight.erase i ↔ j ≠ i ∧ j ∈ s.flight := fun j i => h10.mem_erase_iff
  have k6 : ∀ w j, (s.worker w).job = some j → pl j = some (.worker w) := fun w j e => (h3 j w).1 e
  cases a <;> simp only [act] at ha <;> (repeat' split at ha) <;> first | (cases ha; done) | skip
  all_goals
    injection ha with ha
    subst ha
    refine ⟨?_, ?_, ?_, ?_, ?_, ?_, ?_, ?_, ?_, ?_, ?_, ?_⟩
  all_goals
    simp only [upd, State.mine, place] at *
    grind

/-! ### results -/

structure Inv2 (s : State) (pl : Nat → Option Holder) : Prop where
  inv : Inv s pl
  gone : ∀ j c, (j, c) ∈ s.sent → s.freed j = true
  nd : (s.sent.map Prod.fst).Nodup
  addr : ∀ j a, s.data j = some a → a = s.addr j
  wait : ∀ j a, j ∈ s.waiting a → s.addr j = a
  used : ∀ a c, s.client a = some c → s.used c = true
  source : ∀ j, s.born j = true → s.used (s.source j) = true
  keep : ∀ j, s.born j = true → s.client (s.addr j) = some (s.source j) → s.phase (s.addr j) = .up →
    s.data j = some (s.addr j) ∧ (pl j ≠ none ∨ (j, s.source j) ∈ s.sent ∨ s.dropped j = true)

set_option maxHeartbeats 20000000 in
theorem inv2_step {s s' : State} {pl : Nat → Option Holder} {a : Act} (h : Inv2 s pl) (ha : act s a = some s') : Inv2 s' (place s pl a) := by
  have hi := inv_step h.inv ha
  obtain ⟨⟨h1, h2, h3, h4, h5, h6, h7, h8, h9, h10, h11, h12⟩, g1, g2, g3, g4, g5, g6, g7⟩ := h
  have k2 : ∀ w j r, s.worker w = .removed j r → pl j = some (.worker w) := fun w j r e => (h3 j w).1 (by rw [e]; rfl)
  have k4 : ∀ j r, s.server = some (j, r) → pl j = some .server := fun j r e => (h5 j).1 (by rw [e]; rfl)
  have k7 : ∀ j, j ∈ s.sent.map Prod.fst → s.freed j = true := fun j e => by
    obtain ⟨⟨j', c⟩, h, rfl⟩ := List.mem_map.1 e
    exact g1 _ _ h
  have k8 : ∀ j a, pl j = some (.waiting a) → s.addr j = a := fun j a e => g4 j a ((h1 j a).2 e)
  clear h5
  cases a <;> simp only [act] at ha <;> (repeat' split at ha) <;> first | (cases ha; done) | skip
  all_goals
    injection ha with ha
    subst ha
    refine ⟨hi, ?_, ?_, ?_, ?_, ?_, ?_, ?_⟩
  all_goals
    clear hi
    simp only [upd, State.mine, place, List.map_append, List.map_cons, List.map_nil] at *
    grind

theorem inv2_reach {s : State} (h : Reach s) : ∃ pl, Inv2 s pl := by
  induction h with
  | init =>
    refine ⟨fun _ => none, ⟨?_, ?_, ?_, ?_, ?_, ?_, ?_, ?_, ?_, ?_, ?_, ?_⟩, ?_, ?_, ?_, ?_, ?_, ?_, ?_⟩ <;> simp [Hand.job]
  | step _ ha ih =>
    obtain ⟨pl, hi⟩ := ih
    exact ⟨_, inv2_step hi ha⟩

/-! ### if addresses are not used again -/

structure Inv3 (s : State) (old : Nat → Bool) : Prop where
  addr : ∀ j a, s.data j = some a → a = s.addr j ∧ s.born j = true
  live : ∀ a, s.client a ≠ none → old a = true
  job : ∀ j, s.born j = true → old (s.addr j) = true
  same : ∀ j c, s.born j = true → s.client (s.addr j) = some c → c = s.source j
  sent : ∀ j c, (j, c) ∈ s.sent → c = s.source j ∧ s.born j = true

set_option maxHeartbeats 20000000 in
theorem inv3_step {s s' : State} {old : Nat → Bool} {a : Act} (h : Inv3 s old) (ha : act s a = some s') (hn : ∀ x c, a = .connect x c → old x = false) :
    Inv3 s' (fun x => old x || s'.client x ≠ none) := by
  obtain ⟨h1, h2, h3, h4, h5⟩ := h
  have h6 : ∀ j c, (s.data j).bind s.client = some c → c = s.source j ∧ s.born j = true := by
    intro j c e
    cases hd : s.data j with
    | none => rw [hd] at e; cases e
    | some a =>
      rw [hd] at e
      obtain ⟨e1, e2⟩ := h1 j a hd
      subst e1
      exact ⟨h4 j c e2 e, e2⟩
  cases a <;> simp only [act] at ha <;> (repeat' split at ha) <;> first | (cases ha; done) | skip
  all_goals
    injection ha with ha
    subst ha
    refine ⟨?_, ?_, ?_, ?_, ?_⟩
  all_goals
    simp only [upd, State.mine] at *
    grind

theorem inv3_reach {s : State} {old : Nat → Bool} (h : ReachNew s old) : Inv3 s old := by
  induction h with
  | init => refine ⟨?_, ?_, ?_, ?_, ?_⟩ <;> simp
  | step _ ha hn ih => exact inv3_step ih ha hn

end Verif.Worker
