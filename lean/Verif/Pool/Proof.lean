/-
Lemmas about the pool of threads.
-/
import Verif.Pool.Model

namespace Verif.Pool

/-! ### Sums over threads -/

def sum (f : T → Nat) (l : List T) : Nat := (l.map f).sum

theorem sum_set (f : T → Nat) : ∀ {l : List T} {i : Nat} {x : T} (a : T), l[i]? = some x →
    sum f (l.set i a) + f x = sum f l + f a
  | [], i, x, a, h => by simp at h
  | y :: l, 0, x, a, h => by
      simp at h; subst h
      simp [sum]; omega
  | y :: l, i + 1, x, a, h => by
      have := sum_set f (l := l) (i := i) a (by simpa using h)
      simp only [sum, List.set_cons_succ, List.map_cons, List.sum_cons] at this ⊢
      omega

theorem sum_le (f g : T → Nat) (h : ∀ t, f t ≤ g t) : ∀ l, sum f l ≤ sum g l
  | [] => Nat.le_refl _
  | t :: l => by
      have := sum_le f g h l
      have := h t
      simp only [sum, List.map_cons, List.sum_cons] at *
      omega

theorem sum_pos {f : T → Nat} : ∀ {l : List T}, 0 < sum f l → ∃ (i : Nat) (t : T), l[i]? = some t ∧ 0 < f t
  | [], h => by simp [sum] at h
  | t :: l, h => by
      by_cases ht : 0 < f t
      · exact ⟨0, t, rfl, ht⟩
      · have : 0 < sum f l := by
          simp only [sum, List.map_cons, List.sum_cons] at *
          omega
        obtain ⟨i, u, hi, hu⟩ := sum_pos this
        exact ⟨i + 1, u, by simpa using hi, hu⟩

theorem le_sum {f : T → Nat} : ∀ {l : List T} {i : Nat} {t : T}, l[i]? = some t → f t ≤ sum f l
  | [], i, t, h => by simp at h
  | y :: l, 0, t, h => by simp at h; subst h; simp [sum]
  | y :: l, i + 1, t, h => by
      have := le_sum (f := f) (l := l) (i := i) (t := t) (by simpa using h)
      simp only [sum, List.map_cons, List.sum_cons] at *
      omega

theorem sum_zero {f : T → Nat} : ∀ {l : List T}, (∀ t ∈ l, f t = 0) → sum f l = 0
  | [], _ => rfl
  | t :: l, h => by
      have := sum_zero fun u hu => h u (List.mem_cons_of_mem t hu)
      have := h t (List.mem_cons_self ..)
      simp only [sum, List.map_cons, List.sum_cons] at *
      omega

/-- Whether a thread runs job `j`. -/
def runs (j : Nat) : T → Nat
  | .running k _ => if k = j then 1 else 0
  | _ => 0

def busy : T → Nat
  | .running _ _ => 1
  | _ => 0

def owes : T → Nat
  | .running _ true => 1
  | _ => 0

/-- Whether it will look at the queue next, or create threads that do. -/
def awake : T → Nat
  | .look => 1
  | .unborn => 1
  | .creating _ => 1
  | _ => 0

def sleeps : T → Nat
  | .sleep => 1
  | _ => 0

def free : T → Nat
  | .running _ _ => 0
  | _ => 1

/-! ### Invariant -/

structure Ok (s : St) : Prop where
  pos : 0 < s.threads.length
  cap : s.cap = none ∨ s.cap = some s.threads.length
  order : s.enqueued = s.started ++ s.queue
  once : ∀ j, s.started.count j = sum (runs j) s.threads + s.finished.count j
  alive : s.phase = .alive → ∀ (i : Nat) t, s.threads[i]? = some t → t ≠ .over ∧ ∀ k, t ≠ .joining k
  creating : ∀ (i : Nat) k, s.threads[i]? = some (.creating k) →
    i = 0 ∧ 1 ≤ k ∧ ∀ m, k ≤ m → m < s.threads.length → s.threads[m]? = some .unborn
  unborn : ∀ m : Nat, s.threads[m]? = some .unborn → ∃ k, k ≤ m ∧ s.threads[0]? = some (.creating k)
  joining : ∀ (i : Nat) k, s.threads[i]? = some (.joining k) →
    i = 0 ∧ 1 ≤ k ∧ ∀ m, 1 ≤ m → m < k → m < s.threads.length → s.threads[m]? = some .over
  over : s.threads[0]? = some .over → ∀ m, m < s.threads.length → s.threads[m]? = some .over
  woken : s.phase = .alive → min s.queue.length (sum free s.threads) ≤
    s.count + s.owed + sum owes s.threads + sum awake s.threads
  sleepers : ∀ k, s.phase = .quitting k → sum sleeps s.threads ≤ s.count + k
  gone : s.phase = .gone → s.threads[0]? = some .over

theorem sum_init (f : T → Nat) (n : Nat) (t u : T) : sum f (t :: List.replicate n u) = f t + n * f u := by
  induction n with
  | zero => simp [sum]
  | succ n ih =>
    simp only [sum, List.replicate_succ, List.map_cons, List.sum_cons] at ih ⊢
    rw [Nat.succ_mul]; omega

theorem init_ok (win : Bool) (n : Nat) : Ok (init win n) := by
  have hl : (init win n).threads.length = n + 1 := by simp [init]
  have hget : ∀ (i : Nat) t, (init win n).threads[i]? = some t →
      (i = 0 ∧ t = .creating 1) ∨ (0 < i ∧ t = .unborn) := by
    intro i t h
    cases i with
    | zero => left; simp [init] at h; exact ⟨rfl, h.symm⟩
    | succ i =>
      right
      simp only [init, List.getElem?_cons_succ, List.getElem?_replicate] at h
      split at h
      · exact ⟨Nat.succ_pos _, (Option.some.inj h).symm⟩
      · cases h
  refine ⟨by omega, ?_, rfl, ?_, ?_, ?_, ?_, ?_, ?_, ?_, ?_, ?_⟩
  · rw [hl]; unfold init; cases win
    · exact Or.inl rfl
    · exact Or.inr rfl
  · intro j
    show 0 = sum (runs j) (.creating 1 :: List.replicate n .unborn) + 0
    rw [sum_init]; rfl
  · intro _ i t h
    rcases hget i t h with ⟨_, rfl⟩ | ⟨_, rfl⟩ <;> exact ⟨by simp, by simp⟩
  · intro i k h
    rcases hget i _ h with ⟨hi, e⟩ | ⟨_, e⟩
    · cases e
      refine ⟨hi, Nat.le_refl _, fun m hm hlt => ?_⟩
      cases m with
      | zero => omega
      | succ m =>
        simp only [init, List.getElem?_cons_succ, List.getElem?_replicate]
        rw [if_pos (by omega)]
    · cases e
  · intro m h
    rcases hget m _ h with ⟨_, e⟩ | ⟨hm, _⟩
    · cases e
    · exact ⟨1, hm, rfl⟩
  · intro i k h
    rcases hget i _ h with ⟨_, e⟩ | ⟨_, e⟩ <;> cases e
  · intro h; cases h
  · intro _; exact Nat.le_trans (Nat.min_le_left _ _) (Nat.zero_le _)
  · intro k h; cases h
  · intro h; cases h

theorem get_set {l : List T} {i m : Nat} {a t : T} (h : (l.set i a)[m]? = some t) :
    (m = i ∧ t = a ∧ i < l.length) ∨ (m ≠ i ∧ l[m]? = some t) := by
  rw [List.getElem?_set] at h
  split at h
  · rename_i e
    split at h
    · exact Or.inl ⟨e.symm, (Option.some.inj h).symm, by assumption⟩
    · cases h
  · rename_i e
    exact Or.inr ⟨fun h => e h.symm, h⟩

theorem set_ne {l : List T} {i m : Nat} {a : T} (h : m ≠ i) : (l.set i a)[m]? = l[m]? := by
  rw [List.getElem?_set, if_neg (fun e => h e.symm)]

theorem set_eq {l : List T} {i : Nat} {a : T} (h : i < l.length) : (l.set i a)[i]? = some a := by
  rw [List.getElem?_set, if_pos rfl, if_pos h]

theorem lt_of_get {l : List T} {i : Nat} {t : T} (h : l[i]? = some t) : i < l.length := by
  rcases Nat.lt_or_ge i l.length with h' | h'
  · exact h'
  · rw [List.getElem?_eq_none h'] at h; cases h

/-- An ordinary place: neither at the start nor at the end of a thread. -/
def Plain : T → Prop
  | .look => True
  | .running _ _ => True
  | .check => True
  | .sleep => True
  | _ => False

/-- The part of the invariant that is about where threads are stays if one goes from an ordinary
place to an ordinary place. -/
structure Places (l : List T) : Prop where
  creating : ∀ (i : Nat) k, l[i]? = some (.creating k) →
    i = 0 ∧ 1 ≤ k ∧ ∀ m, k ≤ m → m < l.length → l[m]? = some .unborn
  unborn : ∀ m : Nat, l[m]? = some .unborn → ∃ k, k ≤ m ∧ l[0]? = some (.creating k)
  joining : ∀ (i : Nat) k, l[i]? = some (.joining k) →
    i = 0 ∧ 1 ≤ k ∧ ∀ m, 1 ≤ m → m < k → m < l.length → l[m]? = some .over
  over : l[0]? = some .over → ∀ m, m < l.length → l[m]? = some .over

theorem Ok.places {s : St} (h : Ok s) : Places s.threads := ⟨h.creating, h.unborn, h.joining, h.over⟩

theorem places_plain {l : List T} (h : Places l) {i : Nat} {x a : T} (hi : l[i]? = some x)
    (hx : Plain x) (ha : Plain a) : Places (l.set i a) := by
  have hlt := lt_of_get hi
  refine ⟨?_, ?_, ?_, ?_⟩
  · intro m k hm
    rcases get_set hm with ⟨_, e, _⟩ | ⟨hne, hm⟩
    · subst e; cases ha
    · obtain ⟨h0, h1, h2⟩ := h.creating m k hm
      refine ⟨h0, h1, fun p hp hpl => ?_⟩
      have := h2 p hp (by simpa using hpl)
      by_cases e : p = i
      · subst e; rw [hi] at this; cases this; cases hx
      · rw [set_ne e]; exact this
  · intro m hm
    rcases get_set hm with ⟨_, e, _⟩ | ⟨hne, hm⟩
    · subst e; cases ha
    · obtain ⟨k, hk, h0⟩ := h.unborn m hm
      refine ⟨k, hk, ?_⟩
      by_cases e : 0 = i
      · subst e; rw [hi] at h0; cases h0; cases hx
      · rw [set_ne e]; exact h0
  · intro m k hm
    rcases get_set hm with ⟨_, e, _⟩ | ⟨hne, hm⟩
    · subst e; cases ha
    · obtain ⟨h0, h1, h2⟩ := h.joining m k hm
      refine ⟨h0, h1, fun p hp hpk hpl => ?_⟩
      have := h2 p hp hpk (by simpa using hpl)
      by_cases e : p = i
      · subst e; rw [hi] at this; cases this; cases hx
      · rw [set_ne e]; exact this
  · intro h0 m hm
    rcases get_set h0 with ⟨_, e, _⟩ | ⟨hne, h0⟩
    · rw [← e] at ha; cases ha
    · have := h.over h0 i hlt
      rw [hi] at this; cases this; cases hx

theorem post_le (cap : Option Nat) (c : Nat) : c ≤ post cap c := by
  unfold post
  split
  · omega
  · split <;> omega

theorem post_cap {cap : Option Nat} {n c : Nat} (h : cap = none ∨ cap = some n) :
    post cap c = c + 1 ∨ (post cap c = c ∧ n ≤ c) := by
  unfold post
  rcases h with rfl | rfl
  · exact Or.inl rfl
  · dsimp only
    split
    · exact Or.inl rfl
    · right; exact ⟨rfl, by omega⟩

theorem sum_free_le (l : List T) : sum free l ≤ l.length := by
  have := sum_le free (fun _ => 1) (fun t => by cases t <;> simp [free]) l
  have e : ∀ l : List T, sum (fun _ => 1) l = l.length := by
    intro l; induction l with
    | nil => rfl
    | cons t l ih => simp only [sum, List.map_cons, List.sum_cons] at ih ⊢; simp; omega
  rw [e] at this; exact this

theorem sum_sleeps_le (l : List T) : sum sleeps l ≤ l.length :=
  Nat.le_trans (sum_le sleeps free (fun t => by cases t <;> simp [sleeps, free]) l) (sum_free_le l)

theorem ok_move {s s' : St} (h : Ok s) {i : Nat} {x a : T} (hi : s.threads[i]? = some x)
    (hx : Plain x) (ha : Plain a) (ht : s'.threads = s.threads.set i a) (hc : s'.cap = s.cap)
    (hp : s'.phase = s.phase) (order : s'.enqueued = s'.started ++ s'.queue)
    (once : ∀ j, s'.started.count j = sum (runs j) s'.threads + s'.finished.count j)
    (woken : s.phase = .alive → min s'.queue.length (sum free s'.threads) ≤
      s'.count + s'.owed + sum owes s'.threads + sum awake s'.threads)
    (sleepers : ∀ k, s.phase = .quitting k → sum sleeps s'.threads ≤ s'.count + k) : Ok s' := by
  have hl : s'.threads.length = s.threads.length := by rw [ht]; simp
  have pl := places_plain h.places hi hx ha
  rw [← ht] at pl
  refine ⟨by rw [hl]; exact h.pos, by rw [hc, hl]; exact h.cap, order, once, ?_, pl.creating, pl.unborn,
    pl.joining, pl.over, fun e => woken (hp ▸ e), fun k e => sleepers k (hp ▸ e), ?_⟩
  · intro e m t hm
    rw [ht] at hm
    rcases get_set hm with ⟨_, rfl, _⟩ | ⟨_, hm⟩
    · exact ⟨fun e => by subst e; exact ha, fun k e => by subst e; exact ha⟩
    · exact h.alive (hp ▸ e) m t hm
  · intro e
    rw [hp] at e
    have h0 := h.gone e
    by_cases e0 : 0 = i
    · subst e0; rw [hi] at h0; cases h0; cases hx
    · rw [ht, set_ne e0]; exact h0

theorem step_ok {s s' : St} (h : Ok s) (a : Act) (hs : step s a = some s') : Ok s' := by
  cases a with
  | create =>
    simp only [step] at hs
    split at hs
    · rename_i i h0
      obtain ⟨_, hi1, hun⟩ := h.creating 0 i h0
      have h0l := lt_of_get h0
      split at hs
      · rename_i hlt
        cases hs
        have hi := hun i (Nat.le_refl _) hlt
        have hi0 : (s.threads.set i .look)[0]? = some (.creating i) := by rw [set_ne (by omega)]; exact h0
        have S : ∀ f : T → Nat, (∀ k, f (.creating k) = f (.creating i)) →
            sum f ((s.threads.set i .look).set 0 (.creating (i + 1))) + f .unborn = sum f s.threads + f .look := by
          intro f hf
          have e1 := sum_set f .look hi
          have e2 := sum_set f (.creating (i + 1)) hi0
          have := hf (i + 1)
          omega
        have hnoph : s.phase ≠ .gone := fun e => by have := h.gone e; rw [h0] at this; cases this
        have gt : ∀ (m : Nat) t, ((s.threads.set i .look).set 0 (.creating (i + 1)))[m]? = some t →
            (m = 0 ∧ t = .creating (i + 1)) ∨ (m = i ∧ t = .look) ∨ (m ≠ 0 ∧ m ≠ i ∧ s.threads[m]? = some t) := by
          intro m t hm
          rcases get_set hm with ⟨e, e', _⟩ | ⟨hne, hm⟩
          · exact Or.inl ⟨e, e'⟩
          · rcases get_set hm with ⟨e, e', _⟩ | ⟨hne', hm⟩
            · exact Or.inr (Or.inl ⟨e, e'⟩)
            · exact Or.inr (Or.inr ⟨hne, hne', hm⟩)
        have tg : ∀ (m : Nat) t, m ≠ 0 → m ≠ i → s.threads[m]? = some t →
            ((s.threads.set i .look).set 0 (.creating (i + 1)))[m]? = some t := by
          intro m t h1 h2 h3
          rw [set_ne h1, set_ne h2]; exact h3
        have zero : ((s.threads.set i .look).set 0 (.creating (i + 1)))[0]? = some (.creating (i + 1)) :=
          set_eq (by simpa using h0l)
        refine ⟨?_, ?_, h.order, ?_, ?_, ?_, ?_, ?_, ?_, ?_, ?_, ?_⟩
        · simpa [St.at] using h.pos
        · simpa [St.at] using h.cap
        · intro j
          have := S (runs j) (fun _ => rfl)
          have := h.once j
          simp only [runs] at *
          show s.started.count j = sum (runs j) ((s.threads.set i .look).set 0 (.creating (i + 1))) + s.finished.count j
          omega
        · intro e m t hm
          rcases gt m t hm with ⟨_, rfl⟩ | ⟨_, rfl⟩ | ⟨_, _, hm⟩
          · exact ⟨by simp, by simp⟩
          · exact ⟨by simp, by simp⟩
          · exact h.alive e m t hm
        · intro m k hm
          rcases gt m _ hm with ⟨e, e'⟩ | ⟨_, e'⟩ | ⟨hm0, _, hm⟩
          · cases e'
            refine ⟨e, by omega, fun p hp hpl => tg p _ (by omega) (by omega) (hun p (by omega) ?_)⟩
            simpa [St.at] using hpl
          · cases e'
          · exact absurd (h.creating m k hm).1 hm0
        · intro m hm
          rcases gt m _ hm with ⟨_, e'⟩ | ⟨_, e'⟩ | ⟨hm0, hmi, hm⟩
          · cases e'
          · cases e'
          · obtain ⟨k, hk, hc⟩ := h.unborn m hm
            rw [h0] at hc; cases hc
            exact ⟨i + 1, by omega, zero⟩
        · intro m k hm
          rcases gt m _ hm with ⟨_, e'⟩ | ⟨_, e'⟩ | ⟨hm0, hmi, hm⟩
          · cases e'
          · cases e'
          · exact absurd (h.joining m k hm).1 hm0
        · intro hz
          have hz : ((s.threads.set i .look).set 0 (.creating (i + 1)))[0]? = some .over := hz
          rw [zero] at hz; cases hz
        · intro e
          have w := h.woken e
          have e1 := S free (fun _ => rfl)
          have e2 := S owes (fun _ => rfl)
          have e3 := S awake (fun _ => rfl)
          simp only [free, owes, awake] at e1 e2 e3
          show min s.queue.length (sum free ((s.threads.set i .look).set 0 (.creating (i + 1)))) ≤
            s.count + s.owed + sum owes ((s.threads.set i .look).set 0 (.creating (i + 1))) +
              sum awake ((s.threads.set i .look).set 0 (.creating (i + 1)))
          omega
        · intro k e
          have w := h.sleepers k e
          have e1 := S sleeps (fun _ => rfl)
          simp only [sleeps] at e1
          show sum sleeps ((s.threads.set i .look).set 0 (.creating (i + 1))) ≤ s.count + k
          omega
        · intro e; exact absurd e hnoph
      · rename_i hlt
        cases hs
        have S : ∀ f : T → Nat, sum f (s.threads.set 0 .look) + f (.creating i) = sum f s.threads + f .look :=
          fun f => sum_set f .look h0
        have zero : (s.threads.set 0 .look)[0]? = some .look := set_eq h0l
        have hnoph : s.phase ≠ .gone := fun e => by have := h.gone e; rw [h0] at this; cases this
        refine ⟨?_, ?_, h.order, ?_, ?_, ?_, ?_, ?_, ?_, ?_, ?_, ?_⟩
        · simpa [St.at] using h.pos
        · simpa [St.at] using h.cap
        · intro j
          have := S (runs j)
          have := h.once j
          simp only [runs] at *
          show s.started.count j = sum (runs j) (s.threads.set 0 .look) + s.finished.count j
          omega
        · intro e m t hm
          rcases get_set hm with ⟨_, rfl, _⟩ | ⟨_, hm⟩
          · exact ⟨by simp, by simp⟩
          · exact h.alive e m t hm
        · intro m k hm
          rcases get_set hm with ⟨_, e', _⟩ | ⟨hm0, hm⟩
          · cases e'
          · exact absurd (h.creating m k hm).1 hm0
        · intro m hm
          rcases get_set hm with ⟨_, e', _⟩ | ⟨hm0, hm⟩
          · cases e'
          · obtain ⟨k, hk, hc⟩ := h.unborn m hm
            rw [h0] at hc; cases hc
            have := lt_of_get hm
            omega
        · intro m k hm
          rcases get_set hm with ⟨_, e', _⟩ | ⟨hm0, hm⟩
          · cases e'
          · exact absurd (h.joining m k hm).1 hm0
        · intro hz
          have hz : (s.threads.set 0 .look)[0]? = some .over := hz
          rw [zero] at hz; cases hz
        · intro e
          have w := h.woken e
          have e1 := S free
          have e2 := S owes
          have e3 := S awake
          simp only [free, owes, awake] at e1 e2 e3
          show min s.queue.length (sum free (s.threads.set 0 .look)) ≤
            s.count + s.owed + sum owes (s.threads.set 0 .look) + sum awake (s.threads.set 0 .look)
          omega
        · intro k e
          have w := h.sleepers k e
          have e1 := S sleeps
          simp only [sleeps] at e1
          show sum sleeps (s.threads.set 0 .look) ≤ s.count + k
          omega
        · intro e; exact absurd e hnoph
    · cases hs
  | take i =>
    simp only [step] at hs
    split at hs
    · rename_i j q hi hq
      cases hs
      have S := fun f => sum_set f (.running j false) hi
      refine ok_move h (a := .running j false) hi trivial trivial rfl rfl rfl ?_ ?_ ?_ ?_
      · show s.enqueued = (s.started ++ [j]) ++ q
        rw [h.order, hq]; simp
      · intro k
        have e := S (runs k)
        have o := h.once k
        simp only [runs] at e
        show (s.started ++ [j]).count k = sum (runs k) (s.threads.set i (.running j false)) + s.finished.count k
        rw [List.count_append, List.count_singleton]
        by_cases hk : j = k
        · simp [hk] at e ⊢; omega
        · have : (j == k) = false := by simpa using hk
          simp [hk] at e ⊢; omega
      · intro e
        have w := h.woken e
        have e1 := S free
        have e2 := S owes
        have e3 := S awake
        simp only [free, owes, awake] at e1 e2 e3
        rw [hq] at w
        simp only [List.length_cons] at w
        show min q.length (sum free (s.threads.set i (.running j false))) ≤ s.count + s.owed +
          sum owes (s.threads.set i (.running j false)) + sum awake (s.threads.set i (.running j false))
        omega
      · intro k e
        have w := h.sleepers k e
        have e1 := S sleeps
        simp only [sleeps] at e1
        show sum sleeps (s.threads.set i (.running j false)) ≤ s.count + k
        omega
    · cases hs
  | empty i =>
    simp only [step] at hs
    split at hs
    · rename_i hi hq
      cases hs
      have S := fun f => sum_set f .check hi
      refine ok_move h (a := .check) hi trivial trivial rfl rfl rfl h.order ?_ ?_ ?_
      · intro k
        have e := S (runs k)
        have o := h.once k
        simp only [runs] at e
        show s.started.count k = sum (runs k) (s.threads.set i .check) + s.finished.count k
        omega
      · intro e
        show min s.queue.length _ ≤ _
        rw [hq]
        exact Nat.le_trans (Nat.min_le_left _ _) (Nat.zero_le _)
      · intro k e
        have w := h.sleepers k e
        have e1 := S sleeps
        simp only [sleeps] at e1
        show sum sleeps (s.threads.set i .check) ≤ s.count + k
        omega
    · cases hs
  | finish i =>
    simp only [step] at hs
    split at hs
    · rename_i j hi
      cases hs
      have S := fun f => sum_set f .look hi
      refine ok_move h (a := .look) hi trivial trivial rfl rfl rfl h.order ?_ ?_ ?_
      · intro k
        have e := S (runs k)
        have o := h.once k
        simp only [runs] at e
        show s.started.count k = sum (runs k) (s.threads.set i .look) + (s.finished ++ [j]).count k
        rw [List.count_append, List.count_singleton]
        by_cases hk : j = k
        · simp [hk] at e ⊢; omega
        · simp [hk] at e ⊢; omega
      · intro e
        have w := h.woken e
        have e1 := S free
        have e2 := S owes
        have e3 := S awake
        simp only [free, owes, awake] at e1 e2 e3
        show min s.queue.length (sum free (s.threads.set i .look)) ≤ s.count + s.owed +
          sum owes (s.threads.set i .look) + sum awake (s.threads.set i .look)
        omega
      · intro k e
        have w := h.sleepers k e
        have e1 := S sleeps
        simp only [sleeps] at e1
        show sum sleeps (s.threads.set i .look) ≤ s.count + k
        omega
    · cases hs
  | pushIn i j =>
    simp only [step] at hs
    split at hs
    · rename_i r hi
      cases hs
      have S := fun f => sum_set f (.running r true) hi
      refine ok_move h (a := .running r true) hi trivial trivial rfl rfl rfl ?_ ?_ ?_ ?_
      · show s.enqueued ++ [j] = s.started ++ (s.queue ++ [j])
        rw [h.order, List.append_assoc]
      · intro k
        have e := S (runs k)
        have o := h.once k
        simp only [runs] at e
        show s.started.count k = sum (runs k) (s.threads.set i (.running r true)) + s.finished.count k
        omega
      · intro e
        have w := h.woken e
        have e1 := S free
        have e2 := S owes
        have e3 := S awake
        simp only [free, owes, awake] at e1 e2 e3
        show min (s.queue ++ [j]).length (sum free (s.threads.set i (.running r true))) ≤ s.count + s.owed +
          sum owes (s.threads.set i (.running r true)) + sum awake (s.threads.set i (.running r true))
        rw [List.length_append, List.length_singleton]
        omega
      · intro k e
        have w := h.sleepers k e
        have e1 := S sleeps
        simp only [sleeps] at e1
        show sum sleeps (s.threads.set i (.running r true)) ≤ s.count + k
        omega
    · cases hs
  | signalIn i =>
    simp only [step] at hs
    split at hs
    · rename_i r hi
      cases hs
      have S := fun f => sum_set f (.running r false) hi
      refine ok_move h (a := .running r false) hi trivial trivial rfl rfl rfl h.order ?_ ?_ ?_
      · intro k
        have e := S (runs k)
        have o := h.once k
        simp only [runs] at e
        show s.started.count k = sum (runs k) (s.threads.set i (.running r false)) + s.finished.count k
        omega
      · intro e
        have w := h.woken e
        have e1 := S free
        have e2 := S owes
        have e3 := S awake
        simp only [free, owes, awake] at e1 e2 e3
        have hp := post_cap (c := s.count) h.cap
        have hf := sum_free_le s.threads
        show min s.queue.length (sum free (s.threads.set i (.running r false))) ≤ post s.cap s.count + s.owed +
          sum owes (s.threads.set i (.running r false)) + sum awake (s.threads.set i (.running r false))
        omega
      · intro k e
        have w := h.sleepers k e
        have e1 := S sleeps
        simp only [sleeps] at e1
        have hp := post_le s.cap s.count
        show sum sleeps (s.threads.set i (.running r false)) ≤ post s.cap s.count + k
        omega
    · cases hs
  | quit i =>
    simp only [step] at hs
    split at hs
    · rename_i hi
      split at hs
      · rename_i hph
        cases hs
        have hil := lt_of_get hi
        have S := fun f a => sum_set f a hi
        have hnog : s.phase ≠ .gone := by
          intro e
          have := h.over (h.gone e) i hil
          rw [hi] at this; cases this
        have key : ∀ a : T, (a = .over ∧ i ≠ 0) ∨ (a = .joining 1 ∧ i = 0) → Ok (s.at i a) := by
          intro a ha
          have hf : ∀ f : T → Nat, f a = 0 → f .check = 0 → sum f (s.threads.set i a) = sum f s.threads := by
            intro f h1 h2
            have := S f a
            omega
          refine ⟨?_, ?_, h.order, ?_, ?_, ?_, ?_, ?_, ?_, ?_, ?_, ?_⟩
          · simpa [St.at] using h.pos
          · simpa [St.at] using h.cap
          · intro j
            show s.started.count j = sum (runs j) (s.threads.set i a) + s.finished.count j
            rw [hf _ (by rcases ha with ⟨rfl, _⟩ | ⟨rfl, _⟩ <;> rfl) rfl]
            exact h.once j
          · intro e; exact absurd e hph
          · intro m k hm
            rcases get_set hm with ⟨_, e, _⟩ | ⟨hne, hm⟩
            · rcases ha with ⟨rfl, _⟩ | ⟨rfl, _⟩ <;> cases e
            · obtain ⟨h0, h1, h2⟩ := h.creating m k hm
              refine ⟨h0, h1, fun p hp hpl => ?_⟩
              have := h2 p hp (by simpa [St.at] using hpl)
              by_cases e : p = i
              · subst e; rw [hi] at this; cases this
              · show (s.threads.set i a)[p]? = _
                rw [set_ne e]; exact this
          · intro m hm
            rcases get_set hm with ⟨_, e, _⟩ | ⟨hne, hm⟩
            · rcases ha with ⟨rfl, _⟩ | ⟨rfl, _⟩ <;> cases e
            · obtain ⟨k, hk, h0⟩ := h.unborn m hm
              refine ⟨k, hk, ?_⟩
              show (s.threads.set i a)[0]? = _
              by_cases e : 0 = i
              · subst e; rw [hi] at h0; cases h0
              · rw [set_ne e]; exact h0
          · intro m k hm
            rcases get_set hm with ⟨e0, e, _⟩ | ⟨hne, hm⟩
            · rcases ha with ⟨rfl, _⟩ | ⟨rfl, hi0⟩
              · cases e
              · cases e
                exact ⟨by omega, Nat.le_refl _, fun p hp hpk => by omega⟩
            · obtain ⟨h0, h1, h2⟩ := h.joining m k hm
              refine ⟨h0, h1, fun p hp hpk hpl => ?_⟩
              have := h2 p hp hpk (by simpa [St.at] using hpl)
              by_cases e : p = i
              · subst e; rw [hi] at this; cases this
              · show (s.threads.set i a)[p]? = _
                rw [set_ne e]; exact this
          · intro h0 m hm
            rcases get_set h0 with ⟨e0, e, _⟩ | ⟨hne, h0⟩
            · rcases ha with ⟨rfl, hi0⟩ | ⟨rfl, hi0⟩
              · omega
              · cases e
            · have := h.over h0 i hil
              rw [hi] at this; cases this
          · intro e; exact absurd e hph
          · intro k e
            show sum sleeps (s.threads.set i a) ≤ s.count + k
            rw [hf _ (by rcases ha with ⟨rfl, _⟩ | ⟨rfl, _⟩ <;> rfl) rfl]
            exact h.sleepers k e
          · intro e; exact absurd e hnog
        apply key
        by_cases e : i = 0
        · rw [if_pos e]; exact Or.inr ⟨rfl, e⟩
        · rw [if_neg e]; exact Or.inl ⟨rfl, e⟩
      · cases hs
    · cases hs
  | doze i =>
    simp only [step] at hs
    split at hs
    · rename_i hi
      split at hs
      · rename_i hph
        cases hs
        have S := fun f => sum_set f .sleep hi
        refine ok_move h (a := .sleep) hi trivial trivial rfl rfl rfl h.order ?_ ?_ ?_
        · intro k
          have e := S (runs k)
          have o := h.once k
          simp only [runs] at e
          show s.started.count k = sum (runs k) (s.threads.set i .sleep) + s.finished.count k
          omega
        · intro e
          have w := h.woken e
          have e1 := S free
          have e2 := S owes
          have e3 := S awake
          simp only [free, owes, awake] at e1 e2 e3
          show min s.queue.length (sum free (s.threads.set i .sleep)) ≤ s.count + s.owed +
            sum owes (s.threads.set i .sleep) + sum awake (s.threads.set i .sleep)
          omega
        · intro k e; rw [hph] at e; cases e
      · cases hs
    · cases hs
  | wake i =>
    simp only [step] at hs
    split at hs
    · rename_i hi
      split at hs
      · rename_i hc
        cases hs
        have S := fun f => sum_set f .look hi
        refine ok_move h (a := .look) hi trivial trivial rfl rfl rfl h.order ?_ ?_ ?_
        · intro k
          have e := S (runs k)
          have o := h.once k
          simp only [runs] at e
          show s.started.count k = sum (runs k) (s.threads.set i .look) + s.finished.count k
          omega
        · intro e
          have w := h.woken e
          have e1 := S free
          have e2 := S owes
          have e3 := S awake
          simp only [free, owes, awake] at e1 e2 e3
          show min s.queue.length (sum free (s.threads.set i .look)) ≤ s.count - 1 + s.owed +
            sum owes (s.threads.set i .look) + sum awake (s.threads.set i .look)
          omega
        · intro k e
          have w := h.sleepers k e
          have e1 := S sleeps
          simp only [sleeps] at e1
          show sum sleeps (s.threads.set i .look) ≤ s.count - 1 + k
          omega
      · cases hs
    · cases hs
  | join =>
    simp only [step] at hs
    split at hs
    · rename_i i h0
      obtain ⟨_, hi1, hov⟩ := h.joining 0 i h0
      have h0l := lt_of_get h0
      have hph : s.phase ≠ .alive := fun e => (h.alive e 0 _ h0).2 i rfl
      have hnog : s.phase ≠ .gone := fun e => by have := h.gone e; rw [h0] at this; cases this
      have key : ∀ a : T, (a = .joining (i + 1) ∧ (∀ m, m = i → m < s.threads.length → s.threads[m]? = some .over)) ∨
          (a = .over ∧ s.threads.length ≤ i) → Ok (s.at 0 a) := by
        intro a ha
        have S := fun f => sum_set f a h0
        have hf : ∀ f : T → Nat, f a = 0 → f (.joining i) = 0 → sum f (s.threads.set 0 a) = sum f s.threads := by
          intro f h1 h2
          have := S f
          omega
        refine ⟨?_, ?_, h.order, ?_, ?_, ?_, ?_, ?_, ?_, ?_, ?_, ?_⟩
        · simpa [St.at] using h.pos
        · simpa [St.at] using h.cap
        · intro j
          show s.started.count j = sum (runs j) (s.threads.set 0 a) + s.finished.count j
          rw [hf _ (by rcases ha with ⟨rfl, _⟩ | ⟨rfl, _⟩ <;> rfl) rfl]
          exact h.once j
        · intro e; exact absurd e hph
        · intro m k hm
          rcases get_set hm with ⟨_, e, _⟩ | ⟨hne, hm⟩
          · rcases ha with ⟨rfl, _⟩ | ⟨rfl, _⟩ <;> cases e
          · exact absurd (h.creating m k hm).1 hne
        · intro m hm
          rcases get_set hm with ⟨_, e, _⟩ | ⟨hne, hm⟩
          · rcases ha with ⟨rfl, _⟩ | ⟨rfl, _⟩ <;> cases e
          · obtain ⟨k, hk, hz⟩ := h.unborn m hm
            rw [h0] at hz; cases hz
        · intro m k hm
          rcases get_set hm with ⟨e0, e, _⟩ | ⟨hne, hm⟩
          · rcases ha with ⟨rfl, hl⟩ | ⟨rfl, _⟩
            · cases e
              refine ⟨e0, by omega, fun p hp hpk hpl => ?_⟩
              have hpl : p < s.threads.length := by simpa [St.at] using hpl
              show (s.threads.set 0 _)[p]? = _
              rw [set_ne (by omega)]
              rcases Nat.lt_or_ge p i with hpi | hpi
              · exact hov p hp hpi hpl
              · exact hl p (by omega) hpl
            · cases e
          · exact absurd (h.joining m k hm).1 hne
        · intro hz m hm
          have hml : m < s.threads.length := by simpa [St.at] using hm
          rcases get_set hz with ⟨_, e, _⟩ | ⟨hne, _⟩
          · rcases ha with ⟨rfl, hl⟩ | ⟨rfl, hl⟩
            · cases e
            · show (s.threads.set 0 .over)[m]? = _
              by_cases em : m = 0
              · subst em; exact set_eq h0l
              · rw [set_ne em]; exact hov m (by omega) (by omega) hml
          · exact absurd rfl hne
        · intro e; exact absurd e hph
        · intro k e
          show sum sleeps (s.threads.set 0 a) ≤ s.count + k
          rw [hf _ (by rcases ha with ⟨rfl, _⟩ | ⟨rfl, _⟩ <;> rfl) rfl]
          exact h.sleepers k e
        · intro e; exact absurd e hnog
      split at hs
      · split at hs
        · rename_i hlt hio
          cases hs
          exact key _ (Or.inl ⟨rfl, fun m e _ => e ▸ hio⟩)
        · cases hs
      · rename_i hlt
        cases hs
        exact key _ (Or.inr ⟨rfl, by omega⟩)
    · cases hs
  | push j =>
    simp only [step] at hs
    split at hs
    · rename_i hph
      cases hs
      refine ⟨h.pos, h.cap, ?_, h.once, h.alive, h.creating, h.unborn, h.joining, h.over, ?_, ?_, h.gone⟩
      · show s.enqueued ++ [j] = s.started ++ (s.queue ++ [j])
        rw [h.order, List.append_assoc]
      · intro e
        have w := h.woken e
        show min (s.queue ++ [j]).length (sum free s.threads) ≤ s.count + (s.owed + 1) + sum owes s.threads + sum awake s.threads
        rw [List.length_append, List.length_singleton]
        omega
      · intro k e; exact h.sleepers k e
    · cases hs
  | signal =>
    simp only [step] at hs
    split at hs
    · rename_i ho
      cases hs
      refine ⟨h.pos, h.cap, h.order, h.once, h.alive, h.creating, h.unborn, h.joining, h.over, ?_, ?_, h.gone⟩
      · intro e
        have w := h.woken e
        have hp := post_cap (c := s.count) h.cap
        have hf := sum_free_le s.threads
        show min s.queue.length (sum free s.threads) ≤ post s.cap s.count + (s.owed - 1) + sum owes s.threads + sum awake s.threads
        omega
      · intro k e
        have w := h.sleepers k e
        have hp := post_le s.cap s.count
        show sum sleeps s.threads ≤ post s.cap s.count + k
        omega
    · cases hs
  | destroy =>
    simp only [step] at hs
    split at hs
    · rename_i ho
      cases hs
      refine ⟨h.pos, h.cap, h.order, h.once, (fun e => nomatch e), h.creating, h.unborn, h.joining, h.over,
        (fun e => nomatch e), ?_, (fun e => nomatch e)⟩
      intro k e
      have e : s.threads.length = k := by injection e
      have := sum_sleeps_le s.threads
      show sum sleeps s.threads ≤ s.count + k
      omega
    · cases hs
  | signalAll =>
    simp only [step] at hs
    split at hs
    · rename_i k hph
      cases hs
      refine ⟨h.pos, h.cap, h.order, h.once, (fun e => nomatch e), h.creating, h.unborn, h.joining, h.over,
        (fun e => nomatch e), ?_, (fun e => nomatch e)⟩
      intro k' e
      have e : k = k' := by injection e
      have w := h.sleepers (k + 1) hph
      have hp := post_cap (c := s.count) h.cap
      have hf := sum_sleeps_le s.threads
      show sum sleeps s.threads ≤ post s.cap s.count + k'
      omega
    · cases hs
  | joined =>
    simp only [step] at hs
    split at hs
    · rename_i ho
      cases hs
      exact ⟨h.pos, h.cap, h.order, h.once, (fun e => nomatch e), h.creating, h.unborn, h.joining, h.over,
        (fun e => nomatch e), (fun k e => nomatch e), fun _ => ho.2⟩
    · cases hs

theorem run_ok : ∀ {as : List Act} {s s' : St}, Ok s → run s as = some s' → Ok s'
  | [], s, s', h, hr => by cases hr; exact h
  | a :: as, s, s', h, hr => by
      obtain ⟨s1, h1, h2⟩ := Option.bind_eq_some_iff.1 hr
      exact run_ok (step_ok h a h1) h2

end Verif.Pool
