/-
C106: every job given to a pool of threads is run once, in order, and a pool that is destroyed ends.
-/
import Verif.Pool.Proof

namespace Verif.Pool

/-! ### Specification -/

/-- What a pool of `n + 1` threads may come to, with any timing. -/
def Reach (win : Bool) (n : Nat) (s : St) : Prop := ∃ as, run (init win n) as = some s

/-- How many threads run job `j` now. -/
def running (j : Nat) (s : St) : Nat :=
  (s.threads.filter fun t => t = .running j false ∨ t = .running j true).length

/-- How many threads run no job. -/
def idle (s : St) : Nat :=
  (s.threads.filter fun t => match t with | .running _ _ => false | _ => true).length

/-- How many threads are about to look at the queue, or will be once they are created. -/
def looking (s : St) : Nat :=
  (s.threads.filter fun t => match t with
    | .look => true | .unborn => true | .creating _ => true | _ => false).length

/-- How many calls that add a job have not yet signalled. -/
def pending (s : St) : Nat :=
  s.owed + (s.threads.filter fun t => match t with | .running _ true => true | _ => false).length

theorem Reach.ok {win : Bool} {n : Nat} {s : St} (h : Reach win n s) : Ok s := by
  obtain ⟨as, h⟩ := h
  exact run_ok (init_ok win n) h

theorem sum_filter (f : T → Nat) (p : T → Bool) (h : ∀ t, f t = if p t then 1 else 0) :
    ∀ l : List T, sum f l = (l.filter p).length
  | [] => rfl
  | t :: l => by
      have ih := sum_filter f p h l
      simp only [sum, List.map_cons, List.sum_cons] at ih ⊢
      rw [ih, h t, List.filter_cons]
      split
      · simp; omega
      · simp

theorem running_eq (j : Nat) (s : St) : sum (runs j) s.threads = running j s := by
  refine sum_filter _ _ (fun t => ?_) _
  cases t with
  | running k o =>
    by_cases h : k = j
    · subst h; cases o <;> simp [runs]
    · cases o <;> simp [runs, h]
  | _ => simp [runs]

theorem idle_eq (s : St) : sum free s.threads = idle s :=
  sum_filter _ _ (fun t => by cases t <;> rfl) _

theorem looking_eq (s : St) : sum awake s.threads = looking s :=
  sum_filter _ _ (fun t => by cases t <;> rfl) _

theorem owes_eq (s : St) : s.owed + sum owes s.threads = pending s := by
  unfold pending
  rw [sum_filter owes (fun t => match t with | .running _ true => true | _ => false)]
  intro t
  cases t with
  | running k o => cases o <;> rfl
  | _ => rfl

/-! ### Jobs -/

/-- Jobs are taken in the order in which they were given, and none is left out. -/
theorem C106_order {win : Bool} {n : Nat} {s : St} (h : Reach win n s) :
    s.enqueued = s.started ++ s.queue := h.ok.order

/-- Each job waits, runs or is finished: as often as it was given, and never two of these. -/
theorem C106_once {win : Bool} {n : Nat} {s : St} (h : Reach win n s) (j : Nat) :
    s.enqueued.count j = s.queue.count j + running j s + s.finished.count j := by
  rw [h.ok.order, List.count_append, h.ok.once j, running_eq]
  omega

/-- While jobs wait, as many threads as could run them are on their way to the queue, or will be
woken: no wake-up is lost, although on Windows signals above the number of threads are dropped. -/
theorem C106_woken {win : Bool} {n : Nat} {s : St} (h : Reach win n s) (ha : s.phase = .alive) :
    min s.queue.length (idle s) ≤ s.count + pending s + looking s := by
  have := h.ok.woken ha
  rw [idle_eq, looking_eq] at this
  have e := owes_eq s
  omega

/-- Actions that are not the end of a job or the wish of somebody to add one or to destroy the
pool. -/
def Inner : Act → Prop
  | .finish _ => False
  | .pushIn _ _ => False
  | .push _ => False
  | .destroy => False
  | _ => True

theorem move_create {s : St} (h : Ok s) {i : Nat} {t : T} (hi : s.threads[i]? = some t)
    (ht : t = .unborn ∨ ∃ k, t = .creating k) : ∃ s', step s .create = some s' := by
  have : ∃ k, s.threads[0]? = some (.creating k) := by
    rcases ht with rfl | ⟨k, rfl⟩
    · obtain ⟨k, _, h0⟩ := h.unborn i hi
      exact ⟨k, h0⟩
    · obtain ⟨e, _⟩ := h.creating i k hi
      exact ⟨k, e ▸ hi⟩
  obtain ⟨k, h0⟩ := this
  simp only [step, h0]
  split
  · exact ⟨_, rfl⟩
  · exact ⟨_, rfl⟩

/-- A pool with a job that waits and a thread that runs none does not stand still, even if no job
that runs ever ends. -/
theorem C106_moves {win : Bool} {n : Nat} {s : St} (h : Reach win n s) (ha : s.phase = .alive)
    (hq : s.queue ≠ []) (hf : 0 < idle s) : ∃ a s', Inner a ∧ step s a = some s' := by
  have ok := h.ok
  have w := ok.woken ha
  rw [← idle_eq] at hf
  have hl : 0 < s.queue.length := by
    cases hqq : s.queue with
    | nil => exact absurd hqq hq
    | cons => simp
  obtain ⟨j, q, hjq⟩ : ∃ j q, s.queue = j :: q := by
    cases hqq : s.queue with
    | nil => exact absurd hqq hq
    | cons j q => exact ⟨j, q, rfl⟩
  by_cases ho : 0 < s.owed
  · exact ⟨.signal, _, trivial, by simp only [step]; rw [if_pos ho]⟩
  by_cases ho2 : 0 < sum owes s.threads
  · obtain ⟨i, t, hi, ht⟩ := sum_pos ho2
    cases t with
    | running k o =>
      cases o with
      | true => exact ⟨.signalIn i, _, trivial, by simp only [step, hi]; rfl⟩
      | false => exact absurd ht (by simp [owes])
    | _ => exact absurd ht (by simp [owes])
  by_cases hw : 0 < sum awake s.threads
  · obtain ⟨i, t, hi, ht⟩ := sum_pos hw
    cases t with
    | look => exact ⟨.take i, _, trivial, by simp only [step, hi, hjq]; rfl⟩
    | unborn =>
      obtain ⟨s', hs⟩ := move_create ok hi (Or.inl rfl)
      exact ⟨.create, s', trivial, hs⟩
    | creating k =>
      obtain ⟨s', hs⟩ := move_create ok hi (Or.inr ⟨k, rfl⟩)
      exact ⟨.create, s', trivial, hs⟩
    | _ => exact absurd ht (by simp [awake])
  have hc : 0 < s.count := by omega
  obtain ⟨i, t, hi, ht⟩ := sum_pos hf
  cases t with
  | look => exact ⟨.take i, _, trivial, by simp only [step, hi, hjq]; rfl⟩
  | unborn =>
    obtain ⟨s', hs⟩ := move_create ok hi (Or.inl rfl)
    exact ⟨.create, s', trivial, hs⟩
  | creating k =>
    obtain ⟨s', hs⟩ := move_create ok hi (Or.inr ⟨k, rfl⟩)
    exact ⟨.create, s', trivial, hs⟩
  | running k o => exact absurd ht (by simp [free])
  | check => exact ⟨.doze i, _, trivial, by simp only [step, hi]; rw [if_pos ha]⟩
  | sleep => exact ⟨.wake i, _, trivial, by simp only [step, hi]; rw [if_pos hc]⟩
  | joining k => exact absurd rfl ((ok.alive ha i _ hi).2 k)
  | over => exact absurd rfl (ok.alive ha i _ hi).1

/-! ### The end -/

/-- A job adds another. -/
def Adds : Act → Prop
  | .pushIn _ _ => True
  | _ => False

/-- While the destructor runs, something can happen (jobs that run can end). -/
theorem C106_not_stuck {win : Bool} {n : Nat} {s : St} (h : Reach win n s) {k : Nat}
    (hp : s.phase = .quitting k) : ∃ a s', ¬ Adds a ∧ step s a = some s' := by
  have ok := h.ok
  cases k with
  | succ k => exact ⟨.signalAll, _, id, by simp only [step, hp]; rfl⟩
  | zero =>
    have sl := ok.sleepers 0 hp
    have any : ∀ (i : Nat) t, s.threads[i]? = some t → (∀ k, t ≠ .joining k) → t ≠ .over →
        ∃ a s', ¬ Adds a ∧ step s a = some s' := by
      intro i t hi hj hov
      cases t with
      | look =>
        cases hq : s.queue with
        | nil => exact ⟨.empty i, _, id, by simp only [step, hi, hq]; rfl⟩
        | cons j q => exact ⟨.take i, _, id, by simp only [step, hi, hq]; rfl⟩
      | unborn =>
        obtain ⟨s', hs⟩ := move_create ok hi (Or.inl rfl)
        exact ⟨.create, s', id, hs⟩
      | creating k =>
        obtain ⟨s', hs⟩ := move_create ok hi (Or.inr ⟨k, rfl⟩)
        exact ⟨.create, s', id, hs⟩
      | running k o =>
        cases o with
        | true => exact ⟨.signalIn i, _, id, by simp only [step, hi]; rfl⟩
        | false => exact ⟨.finish i, _, id, by simp only [step, hi]; rfl⟩
      | check =>
        exact ⟨.quit i, _, id, by
          simp only [step, hi]; rw [if_pos (by rw [hp]; exact fun e => nomatch e)]⟩
      | sleep =>
        have := le_sum (f := sleeps) hi
        have : 0 < s.count := by simp only [sleeps] at this; omega
        exact ⟨.wake i, _, id, by simp only [step, hi]; rw [if_pos this]⟩
      | joining k => exact absurd rfl (hj k)
      | over => exact absurd rfl hov
    obtain ⟨t, h0⟩ : ∃ t, s.threads[0]? = some t := ⟨_, List.getElem?_eq_getElem ok.pos⟩
    by_cases hov : t = .over
    · subst hov
      exact ⟨.joined, _, id, by simp only [step]; rw [if_pos ⟨hp, h0⟩]⟩
    by_cases hj : ∃ k, t = .joining k
    · obtain ⟨k, rfl⟩ := hj
      obtain ⟨_, hk, _⟩ := ok.joining 0 k h0
      by_cases hl : k < s.threads.length
      · by_cases hko : s.threads[k]? = some .over
        · exact ⟨.join, _, id, by simp only [step, h0]; rw [if_pos hl, if_pos hko]⟩
        · refine any k s.threads[k] (List.getElem?_eq_getElem hl) (fun m e => ?_) (fun e => ?_)
          · have := (ok.joining k m (by rw [List.getElem?_eq_getElem hl, e])).1
            omega
          · exact hko (by rw [List.getElem?_eq_getElem hl, e])
      · exact ⟨.join, _, id, by simp only [step, h0]; rw [if_neg hl]⟩
    · exact any 0 t h0 (fun k e => hj ⟨k, e⟩) hov

/-- What is left to do for a thread. -/
def weight : T → Nat
  | .unborn => 3
  | .creating _ => 3
  | .look => 2
  | .running _ false => 3
  | .running _ true => 4
  | .check => 1
  | .sleep => 3
  | .joining _ => 0
  | .over => 0

/-- And for the first, at its end. -/
def tail (n : Nat) : Option T → Nat
  | some (.joining k) => (n + 1 - k) + 1
  | some .over => 0
  | _ => n + 3

def Phase.left : Phase → Nat
  | .quitting k => k + 1
  | _ => 0

def St.left (s : St) : Nat :=
  sum weight s.threads + 2 * s.queue.length + tail s.threads.length s.threads[0]? + s.phase.left + s.owed

theorem tail_plain {n : Nat} {l : List T} {i : Nat} {x a : T} (hi : l[i]? = some x) (hx : Plain x)
    (ha : Plain a) : tail n (l.set i a)[0]? = tail n l[0]? := by
  by_cases e : 0 = i
  · subst e
    rw [hi, set_eq (lt_of_get hi)]
    cases x <;> first | exact hx.elim | (cases a <;> first | exact ha.elim | rfl)
  · rw [set_ne e]

theorem left_move {s s' : St} {i : Nat} {x a : T} (hi : s.threads[i]? = some x) (hx : Plain x)
    (ha : Plain a) (ht : s'.threads = s.threads.set i a) (hp : s'.phase = s.phase)
    (ho : s'.owed = s.owed) (hw : weight a + 2 * s'.queue.length < weight x + 2 * s.queue.length) :
    s'.left < s.left := by
  have e := sum_set weight a hi
  have e2 := tail_plain (n := s.threads.length) hi hx ha
  unfold St.left
  rw [ht, hp, ho, List.length_set, e2]
  omega

theorem left_step {s s' : St} (ok : Ok s) {a : Act} (hp : s.phase ≠ .alive) (ha : ¬ Adds a)
    (hs : step s a = some s') : s'.left < s.left := by
  cases a with
  | create =>
    simp only [step] at hs
    split at hs
    · rename_i i h0
      obtain ⟨_, hi1, hun⟩ := ok.creating 0 i h0
      have h0l := lt_of_get h0
      split at hs
      · rename_i hlt
        cases hs
        have hi := hun i (Nat.le_refl _) hlt
        have hi0 : (s.threads.set i .look)[0]? = some (.creating i) := by rw [set_ne (by omega)]; exact h0
        have e1 := sum_set weight .look hi
        have e2 := sum_set weight (.creating (i + 1)) hi0
        have z : ((s.threads.set i .look).set 0 (.creating (i + 1)))[0]? = some (.creating (i + 1)) :=
          set_eq (by simpa using h0l)
        simp only [weight] at e1 e2
        show sum weight ((s.threads.set i .look).set 0 (.creating (i + 1))) + 2 * s.queue.length +
          tail ((s.threads.set i .look).set 0 (.creating (i + 1))).length
            ((s.threads.set i .look).set 0 (.creating (i + 1)))[0]? + s.phase.left + s.owed < s.left
        unfold St.left
        rw [z, h0, List.length_set, List.length_set]
        simp only [tail]
        omega
      · cases hs
        have e1 := sum_set weight .look h0
        have z : (s.threads.set 0 .look)[0]? = some .look := set_eq h0l
        simp only [weight] at e1
        show sum weight (s.threads.set 0 .look) + 2 * s.queue.length +
          tail (s.threads.set 0 .look).length (s.threads.set 0 .look)[0]? + s.phase.left + s.owed < s.left
        unfold St.left
        rw [z, h0, List.length_set]
        simp only [tail]
        omega
    · cases hs
  | take i =>
    simp only [step] at hs
    split at hs
    · rename_i j q hi hq
      cases hs
      refine left_move (a := .running j false) hi trivial trivial rfl rfl rfl ?_
      show 3 + 2 * q.length < 2 + 2 * s.queue.length
      rw [hq, List.length_cons]; omega
    · cases hs
  | empty i =>
    simp only [step] at hs
    split at hs
    · rename_i hi hq
      cases hs
      exact left_move (a := .check) hi trivial trivial rfl rfl rfl (by
        show 1 + 2 * s.queue.length < 2 + 2 * s.queue.length; omega)
    · cases hs
  | finish i =>
    simp only [step] at hs
    split at hs
    · rename_i j hi
      cases hs
      exact left_move (a := .look) hi trivial trivial rfl rfl rfl (by
        show 2 + 2 * s.queue.length < 3 + 2 * s.queue.length; omega)
    · cases hs
  | pushIn i j => exact absurd trivial ha
  | signalIn i =>
    simp only [step] at hs
    split at hs
    · rename_i r hi
      cases hs
      exact left_move (a := .running r false) hi trivial trivial rfl rfl rfl (by
        show 3 + 2 * s.queue.length < 4 + 2 * s.queue.length; omega)
    · cases hs
  | quit i =>
    simp only [step] at hs
    split at hs
    · rename_i hi
      split at hs
      · cases hs
        have hil := lt_of_get hi
        by_cases e : i = 0
        · subst e
          have e1 := sum_set weight (.joining 1) hi
          have z : (s.threads.set 0 (.joining 1))[0]? = some (.joining 1) := set_eq hil
          simp only [weight] at e1
          show sum weight (s.threads.set 0 (.joining 1)) + 2 * s.queue.length +
            tail (s.threads.set 0 (.joining 1)).length (s.threads.set 0 (.joining 1))[0]? + s.phase.left + s.owed < s.left
          unfold St.left
          rw [z, hi, List.length_set]
          simp only [tail]
          omega
        · rw [if_neg e]
          have e1 := sum_set weight .over hi
          have z : (s.threads.set i .over)[0]? = s.threads[0]? := set_ne (by omega)
          simp only [weight] at e1
          show sum weight (s.threads.set i .over) + 2 * s.queue.length +
            tail (s.threads.set i .over).length (s.threads.set i .over)[0]? + s.phase.left + s.owed < s.left
          unfold St.left
          rw [z, List.length_set]
          omega
      · rename_i hh; exact absurd hp hh
    · cases hs
  | doze i =>
    simp only [step] at hs
    split at hs
    · rw [if_neg hp] at hs; cases hs
    · cases hs
  | wake i =>
    simp only [step] at hs
    split at hs
    · rename_i hi
      split at hs
      · cases hs
        exact left_move (a := .look) hi trivial trivial rfl rfl rfl (by
          show 2 + 2 * s.queue.length < 3 + 2 * s.queue.length; omega)
      · cases hs
    · cases hs
  | join =>
    simp only [step] at hs
    split at hs
    · rename_i i h0
      have h0l := lt_of_get h0
      split at hs
      · rename_i hlt
        split at hs
        · cases hs
          have e1 := sum_set weight (.joining (i + 1)) h0
          have z : (s.threads.set 0 (.joining (i + 1)))[0]? = some (.joining (i + 1)) := set_eq h0l
          simp only [weight] at e1
          show sum weight (s.threads.set 0 (.joining (i + 1))) + 2 * s.queue.length +
            tail (s.threads.set 0 (.joining (i + 1))).length (s.threads.set 0 (.joining (i + 1)))[0]? + s.phase.left + s.owed < s.left
          unfold St.left
          rw [z, h0, List.length_set]
          simp only [tail]
          omega
        · cases hs
      · rename_i hlt
        cases hs
        have e1 := sum_set weight .over h0
        have z : (s.threads.set 0 .over)[0]? = some .over := set_eq h0l
        simp only [weight] at e1
        show sum weight (s.threads.set 0 .over) + 2 * s.queue.length +
          tail (s.threads.set 0 .over).length (s.threads.set 0 .over)[0]? + s.phase.left + s.owed < s.left
        unfold St.left
        rw [z, h0, List.length_set]
        simp only [tail]
        omega
    · cases hs
  | push j => simp only [step] at hs; rw [if_neg hp] at hs; cases hs
  | signal =>
    simp only [step] at hs
    split at hs
    · cases hs
      unfold St.left
      dsimp only
      omega
    · cases hs
  | destroy => simp only [step] at hs; rw [if_neg (fun e => hp e.1)] at hs; cases hs
  | signalAll =>
    simp only [step] at hs
    split at hs
    · rename_i k hk
      cases hs
      unfold St.left
      rw [hk]
      dsimp only [Phase.left]
      omega
    · cases hs
  | joined =>
    simp only [step] at hs
    split at hs
    · rename_i hk
      cases hs
      unfold St.left
      rw [hk.1]
      dsimp only [Phase.left]
      omega
    · cases hs

theorem phase_step {s s' : St} {a : Act} (hp : s.phase ≠ .alive) (hs : step s a = some s') :
    s'.phase ≠ .alive := by
  have keep : s'.phase = s.phase ∨ ∃ k, s'.phase = .quitting k ∨ s'.phase = .gone := by
    cases a <;> simp only [step] at hs <;> repeat' split at hs
    all_goals first
      | (cases hs; exact Or.inl rfl)
      | (cases hs; exact Or.inr ⟨_, Or.inl rfl⟩)
      | (cases hs; exact Or.inr ⟨0, Or.inr rfl⟩)
      | cases hs
  rcases keep with e | ⟨k, e | e⟩
  · rw [e]; exact hp
  · rw [e]; exact fun h => nomatch h
  · rw [e]; exact fun h => nomatch h

/-- The destructor takes a bounded number of actions, if jobs stop adding jobs. -/
theorem left_run : ∀ {as : List Act} {s s' : St}, Ok s → s.phase ≠ .alive → (∀ a ∈ as, ¬ Adds a) →
    run s as = some s' → as.length + s'.left ≤ s.left
  | [], s, s', _, _, _, hr => by cases hr; simp
  | a :: as, s, s', ok, hp, ha, hr => by
      obtain ⟨s1, h1, h2⟩ := Option.bind_eq_some_iff.1 hr
      have e1 := left_step ok hp (ha a (List.mem_cons_self ..)) h1
      have e2 := left_run (step_ok ok a h1) (phase_step hp h1)
        (fun b hb => ha b (List.mem_cons_of_mem a hb)) h2
      rw [List.length_cons]
      omega

theorem C106_ends {win : Bool} {n : Nat} {s : St} (h : Reach win n s) (hp : s.phase ≠ .alive) :
    ∃ bound, ∀ as s', (∀ a ∈ as, ¬ Adds a) → run s as = some s' → as.length ≤ bound :=
  ⟨s.left, fun as s' ha hr => by have := left_run h.ok hp ha hr; omega⟩

/-- When it returns, all threads are over. -/
theorem C106_over {win : Bool} {n : Nat} {s : St} (h : Reach win n s) (hp : s.phase = .gone) :
    ∀ t ∈ s.threads, t = .over := by
  intro t ht
  obtain ⟨i, hi, e⟩ := List.mem_iff_getElem.1 ht
  have := h.ok.over (h.ok.gone hp) i hi
  rw [List.getElem?_eq_getElem hi, e] at this
  exact Option.some.inj this

/-- Will look at the queue again. -/
def Works : T → Prop
  | .check => False
  | .joining _ => False
  | .over => False
  | _ => True

def Served (s : St) : Prop := s.queue ≠ [] → ∃ (i : Nat) (t : T), s.threads[i]? = some t ∧ Works t

theorem served_step {s s' : St} {a : Act} (ok : Ok s) (hp : s.phase ≠ .alive) (h : Served s)
    (hs : step s a = some s') : Served s' := by
  cases a with
  | create =>
    simp only [step] at hs
    split at hs
    · rename_i i h0
      have h0l := lt_of_get h0
      split at hs
      · cases hs
        exact fun _ => ⟨0, .creating (i + 1), set_eq (by simpa [St.at] using h0l), trivial⟩
      · cases hs
        exact fun _ => ⟨0, .look, set_eq h0l, trivial⟩
    · cases hs
  | take i =>
    simp only [step] at hs
    split at hs
    · rename_i j q hi hq
      cases hs
      exact fun _ => ⟨i, .running j false, set_eq (lt_of_get hi), trivial⟩
    · cases hs
  | empty i =>
    simp only [step] at hs
    split at hs
    · rename_i hi hq
      cases hs
      exact fun hne => absurd hq hne
    · cases hs
  | finish i =>
    simp only [step] at hs
    split at hs
    · rename_i j hi
      cases hs
      exact fun _ => ⟨i, .look, set_eq (lt_of_get hi), trivial⟩
    · cases hs
  | pushIn i j =>
    simp only [step] at hs
    split at hs
    · rename_i r hi
      cases hs
      exact fun _ => ⟨i, .running r true, set_eq (lt_of_get hi), trivial⟩
    · cases hs
  | signalIn i =>
    simp only [step] at hs
    split at hs
    · rename_i r hi
      cases hs
      exact fun _ => ⟨i, .running r false, set_eq (lt_of_get hi), trivial⟩
    · cases hs
  | quit i =>
    simp only [step] at hs
    split at hs
    · rename_i hi
      split at hs
      · cases hs
        intro hne
        obtain ⟨m, t, hm, ht⟩ := h hne
        refine ⟨m, t, ?_, ht⟩
        have : m ≠ i := by
          rintro rfl
          rw [hi] at hm; cases hm; exact ht
        show (s.threads.set i _)[m]? = some t
        rw [set_ne this]; exact hm
      · rename_i hh; exact absurd hp hh
    · cases hs
  | doze i =>
    simp only [step] at hs
    split at hs
    · rw [if_neg hp] at hs; cases hs
    · cases hs
  | wake i =>
    simp only [step] at hs
    split at hs
    · rename_i hi
      split at hs
      · cases hs
        exact fun _ => ⟨i, .look, set_eq (lt_of_get hi), trivial⟩
      · cases hs
    · cases hs
  | join =>
    simp only [step] at hs
    split at hs
    · rename_i i h0
      have key : ∀ a : T, Served (s.at 0 a) := by
        intro a hne
        obtain ⟨m, t, hm, ht⟩ := h hne
        refine ⟨m, t, ?_, ht⟩
        have : m ≠ 0 := by
          rintro rfl
          rw [h0] at hm; cases hm; exact ht
        show (s.threads.set 0 _)[m]? = some t
        rw [set_ne this]; exact hm
      split at hs
      · split at hs
        · cases hs; exact key _
        · cases hs
      · cases hs; exact key _
    · cases hs
  | push j => simp only [step] at hs; rw [if_neg hp] at hs; cases hs
  | signal =>
    simp only [step] at hs
    split at hs
    · cases hs; exact h
    · cases hs
  | destroy => simp only [step] at hs; rw [if_neg (fun e => hp e.1)] at hs; cases hs
  | signalAll =>
    simp only [step] at hs
    split at hs
    · cases hs; exact h
    · cases hs
  | joined =>
    simp only [step] at hs
    split at hs
    · cases hs; exact h
    · cases hs

theorem served_run : ∀ {as : List Act} {s s' : St}, Ok s → s.phase ≠ .alive → Served s →
    run s as = some s' → Served s'
  | [], s, s', _, _, h, hr => by cases hr; exact h
  | a :: as, s, s', ok, hp, h, hr => by
      obtain ⟨s1, h1, h2⟩ := Option.bind_eq_some_iff.1 hr
      exact served_run (step_ok ok a h1) (phase_step hp h1) (served_step ok hp h h1) h2

theorem run_append : ∀ (as bs : List Act) (s : St), run s (as ++ bs) = (run s as).bind fun s => run s bs
  | [], _, _ => rfl
  | a :: as, bs, s => by
      show (step s a).bind _ = ((step s a).bind _).bind _
      cases step s a with
      | none => rfl
      | some s1 => exact run_append as bs s1

/-- When the destructor returns, every job that was given has been run, those that jobs added while
it waited too.

Missing: if the destructor begins while a thread that found no job has not yet looked whether to
quit, jobs given in between may stay in the queue (`C106_lost_false`). -/
theorem C106_done_partial {win : Bool} {n : Nat} {s s1 s' : St} (h : Reach win n s)
    (hd : step s .destroy = some s1) (hc : ∀ t ∈ s.threads, t ≠ .check) {as : List Act}
    (hr : run s1 as = some s') (hg : s'.phase = .gone) :
    s'.queue = [] ∧ ∀ j, s'.finished.count j = s'.enqueued.count j := by
  have ok := h.ok
  have h' : Reach win n s' := by
    obtain ⟨bs, hb⟩ := h
    refine ⟨bs ++ (.destroy :: as), ?_⟩
    rw [run_append, hb]
    show (step s .destroy).bind _ = _
    rw [hd]
    exact hr
  have ok1 := step_ok ok .destroy hd
  have hph : s.phase = .alive ∧ s1.phase ≠ .alive ∧ s1.threads = s.threads := by
    simp only [step] at hd
    split at hd
    · rename_i e
      cases hd
      exact ⟨e.1, (fun e => nomatch e), rfl⟩
    · cases hd
  have sv : Served s1 := by
    intro _
    have hpos : 0 < s1.threads.length := ok1.pos
    refine ⟨0, s1.threads[0], List.getElem?_eq_getElem hpos, ?_⟩
    have hmem : s1.threads[0] ∈ s.threads := by rw [← hph.2.2]; exact List.getElem_mem hpos
    have h1 := hc _ hmem
    have h2 := ok.alive hph.1 0 s1.threads[0] (by rw [← hph.2.2]; exact List.getElem?_eq_getElem hpos)
    generalize s1.threads[0] = t at h1 h2
    cases t with
    | check => exact h1 rfl
    | joining k => exact h2.2 k rfl
    | over => exact h2.1 rfl
    | _ => trivial
  have sv' := served_run ok1 hph.2.1 sv hr
  have hall := C106_over h' hg
  have hq : s'.queue = [] := by
    cases hqq : s'.queue with
    | nil => rfl
    | cons j q =>
      obtain ⟨i, t, hi, ht⟩ := sv' (by rw [hqq]; exact fun e => nomatch e)
      have := hall t (List.mem_of_getElem? hi)
      subst this
      exact ht.elim
  refine ⟨hq, fun j => ?_⟩
  have := C106_once h' j
  have hz : running j s' = 0 := by
    rw [← running_eq]
    exact sum_zero fun t ht => by rw [hall t ht]; rfl
  rw [this, hq, hz]
  simp

end Verif.Pool
