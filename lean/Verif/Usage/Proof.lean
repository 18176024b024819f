/-
Lemmas about how much of its machine a worker takes.
-/
import Verif.Usage.Model

namespace Verif.Usage

/-! ### Smoothing -/

/-- The part of the state that smoothing is about. -/
structure Smooth where
  n : Int
  idle : Bool
  m : Int
  value : Rat

def Idle.part (d : Idle) : Smooth := ⟨d.smooth, d.isIdle, d.smoothValue, d.value⟩

/-- One round, on the part. -/
def Smooth.next (s : Smooth) (o : Bool × Rat) : Smooth :=
  let n := step o.1 s.n
  let m := step (decide (s.value ≤ o.2)) s.m
  ⟨n, if n = 10 then true else if n = 0 then false else s.idle, m,
    if m = 10 ∨ m = 0 then o.2 else s.value⟩

/-- All rounds; the last observation is the first of the list. -/
def after (s : Smooth) : List (Bool × Rat) → Smooth
  | [] => s
  | o :: l => (after s l).next o

theorem ask_part (x : Sight) (system : BitVec 64) (d : Idle) : (ask x system d).part = d.part := by
  unfold ask
  split
  · split <;> rfl
  · rfl

theorem measure_part {threshold : Nat} {x : Sight} {d : Idle} {r : Idle × Bool}
    (h : measure threshold x d = some r) : r.1.part = d.part := by
  unfold measure at h
  split at h
  · exact nomatch h
  · split at h
    · rw [← Option.some.inj h]; rfl
    · rw [← Option.some.inj h]
      exact ask_part x (passed x d) (total x d)

theorem smoothen_part (idle : Bool) (d : Idle) :
    (smoothen idle d).part = d.part.next (idle, d.current) := by
  cases d; rfl

theorem updates_part {threshold : Nat} : ∀ {xs : List Sight} {d d' : Idle}
    {seen seen' : List (Bool × Rat)} {s : Smooth}, d.part = after s seen →
    updates threshold xs (d, seen) = some (d', seen') → d'.part = after s seen'
  | [], d, d', seen, seen', s, hd, h => by
      obtain ⟨rfl, rfl⟩ := Prod.mk.inj (Option.some.inj h)
      exact hd
  | x :: xs, d, d', seen, seen', s, hd, h => by
      unfold updates at h
      split at h
      · exact nomatch h
      · rename_i d1 idle hm
        refine updates_part (s := s) ?_ h
        rw [smoothen_part, measure_part hm, hd]
        rfl

/-- Both counters are between 0 and 10. -/
structure Smooth.Ok (s : Smooth) : Prop where
  n : 0 ≤ s.n ∧ s.n ≤ 10
  m : 0 ≤ s.m ∧ s.m ≤ 10

theorem step_bounds (b : Bool) (n : Int) : 0 ≤ step b n ∧ step b n ≤ 10 := by
  unfold step clamp; omega

theorem step_true {n : Int} (h : 0 ≤ n) : step true n = min (n + 1) 10 := by
  unfold step clamp; simp only [if_true]; omega

theorem step_false {n : Int} (h : n ≤ 10) : step false n = max (n - 2) 0 := by
  unfold step clamp; simp only [Bool.false_eq_true, if_false]; omega

theorem next_ok (s : Smooth) (o : Bool × Rat) : (s.next o).Ok :=
  ⟨step_bounds _ _, step_bounds _ _⟩

theorem after_ok {s : Smooth} (h : s.Ok) : ∀ l, (after s l).Ok
  | [] => h
  | _ :: _ => next_ok _ _

theorem after_append (s : Smooth) : ∀ a b : List (Bool × Rat), after s (a ++ b) = after (after s b) a
  | [], _ => rfl
  | o :: a, b => by
      show (after s (a ++ b)).next o = _
      rw [after_append s a b]; rfl

/-- So many idle observations raise the counter. -/
theorem after_up {s : Smooth} (h : s.Ok) : ∀ l : List (Bool × Rat), (∀ o ∈ l, o.1 = true) →
    min 10 (s.n + l.length) ≤ (after s l).n
  | [], _ => by show min 10 (s.n + 0) ≤ s.n; omega
  | o :: l, ho => by
      have ih := after_up h l fun x hx => ho x (List.mem_cons_of_mem _ hx)
      have ok := (after_ok h l).n
      show min 10 (s.n + (l.length + 1 : Nat)) ≤ step o.1 (after s l).n
      rw [ho o (List.mem_cons_self ..), step_true ok.1]
      omega

theorem after_down {s : Smooth} (h : s.Ok) : ∀ l : List (Bool × Rat), (∀ o ∈ l, o.1 = false) →
    (after s l).n ≤ max 0 (s.n - 2 * l.length)
  | [], _ => by show s.n ≤ max 0 (s.n - 2 * (0 : Nat)); omega
  | o :: l, ho => by
      have ih := after_down h l fun x hx => ho x (List.mem_cons_of_mem _ hx)
      have ok := (after_ok h l).n
      show step o.1 (after s l).n ≤ max 0 (s.n - 2 * (l.length + 1 : Nat))
      rw [ho o (List.mem_cons_self ..), step_false ok.2]
      omega

theorem idle_ten {s : Smooth} (h : s.Ok) {l : List (Bool × Rat)} (hl : 10 ≤ l.length)
    (ho : ∀ o ∈ l, o.1 = true) : (after s l).idle = true := by
  cases l with
  | nil => simp at hl
  | cons o l =>
    have := after_up h (o :: l) ho
    have ok := (after_ok h (o :: l)).n
    have hn := h.n
    have e : (after s (o :: l)).n = 10 := by omega
    show (if (after s (o :: l)).n = 10 then true else _) = true
    rw [if_pos e]

theorem busy_five {s : Smooth} (h : s.Ok) {l : List (Bool × Rat)} (hl : 5 ≤ l.length)
    (ho : ∀ o ∈ l, o.1 = false) : (after s l).idle = false := by
  cases l with
  | nil => simp at hl
  | cons o l =>
    have := after_down h (o :: l) ho
    have ok := (after_ok h (o :: l)).n
    have hn := h.n
    have e : (after s (o :: l)).n = 0 := by omega
    show (if (after s (o :: l)).n = 10 then true else if (after s (o :: l)).n = 0 then false else _) = false
    rw [e]; rfl

/-- How much more often idle than not, where not counts twice. -/
def score (l : List (Bool × Rat)) : Int :=
  ((l.filter (·.1 = true)).length : Int) - 2 * ((l.filter (·.1 = false)).length : Int)

theorem score_true {o : Bool × Rat} (h : o.1 = true) (l : List (Bool × Rat)) :
    score (o :: l) = score l + 1 := by
  unfold score; simp [h]; omega

theorem score_false {o : Bool × Rat} (h : o.1 = false) (l : List (Bool × Rat)) :
    score (o :: l) = score l - 2 := by
  unfold score; simp [h]; omega

theorem counter_score {s : Smooth} (h : s.n = 0) : ∀ l : List (Bool × Rat),
    ∃ b c, l = b ++ c ∧ (after s l).n ≤ score b
  | [] => ⟨[], [], rfl, by rw [show after s [] = s from rfl, h]; decide⟩
  | o :: l => by
      obtain ⟨b, c, rfl, hb⟩ := counter_score h l
      show ∃ b' c', _ ∧ step o.1 (after s (b ++ c)).n ≤ _
      cases ho : o.1 with
      | true =>
        refine ⟨o :: b, c, rfl, ?_⟩
        rw [score_true ho]
        unfold step clamp; simp only [if_true]
        by_cases hn : 0 ≤ (after s (b ++ c)).n
        · omega
        · exfalso
          have : s.Ok → False := fun ok => hn (after_ok ok _).n.1
          cases hl : b ++ c with
          | nil => rw [hl] at hn; rw [show after s [] = s from rfl, h] at hn; omega
          | cons p q => rw [hl] at hn; exact hn (next_ok _ _).n.1
      | false =>
        by_cases hz : step false (after s (b ++ c)).n = 0
        · refine ⟨[], o :: (b ++ c), rfl, ?_⟩
          rw [hz]; decide
        · refine ⟨o :: b, c, rfl, ?_⟩
          rw [score_false ho]
          revert hz
          unfold step clamp; simp only [Bool.false_eq_true, if_false]
          omega

theorem idle_score {s : Smooth} (h : s.n = 0) (hi : s.idle = false) : ∀ l : List (Bool × Rat),
    (after s l).idle = true → ∃ a b c, l = a ++ b ++ c ∧ 10 ≤ score b
  | [], h' => by rw [show after s [] = s from rfl, hi] at h'; cases h'
  | o :: l, h' => by
      by_cases hn : (after s (o :: l)).n = 10
      · obtain ⟨b, c, e, hb⟩ := counter_score h (o :: l)
        exact ⟨[], b, c, by rw [e]; rfl, by omega⟩
      · have : (after s (o :: l)).idle =
            (if (after s (o :: l)).n = 10 then true else if (after s (o :: l)).n = 0 then false
              else (after s l).idle) := rfl
        rw [this, if_neg hn] at h'
        split at h'
        · cases h'
        · obtain ⟨a, b, c, e, hb⟩ := idle_score h hi l h'
          exact ⟨o :: a, b, c, by rw [e]; rfl, hb⟩

/-! ### The smoothed value -/

theorem value_seen (s : Smooth) : ∀ l : List (Bool × Rat),
    (after s l).value = s.value ∨ ∃ o ∈ l, (after s l).value = o.2
  | [] => Or.inl rfl
  | o :: l => by
      have e : (after s (o :: l)).value =
          if (after s (o :: l)).m = 10 ∨ (after s (o :: l)).m = 0 then o.2 else (after s l).value := rfl
      rw [e]
      split
      · exact Or.inr ⟨o, List.mem_cons_self .., rfl⟩
      · rcases value_seen s l with h | ⟨p, hp, h⟩
        · exact Or.inl h
        · exact Or.inr ⟨p, List.mem_cons_of_mem _ hp, h⟩

theorem value_next (s : Smooth) (o : Bool × Rat) (l : List (Bool × Rat)) :
    (after s (o :: l)).value =
      if (after s (o :: l)).m = 10 ∨ (after s (o :: l)).m = 0 then o.2 else (after s l).value := rfl

/-- While all that is seen is below the value, the counter falls or the value is new. -/
theorem value_down {s : Smooth} (h : s.Ok) : ∀ l : List (Bool × Rat), (∀ o ∈ l, o.2 < s.value) →
    (∃ o ∈ l, (after s l).value = o.2) ∨
      ((after s l).value = s.value ∧ (after s l).m ≤ max 0 (s.m - 2 * l.length))
  | [], _ => Or.inr ⟨rfl, by show s.m ≤ max 0 (s.m - 2 * (0 : Nat)); omega⟩
  | o :: l, ho => by
      rw [value_next]
      by_cases hm : (after s (o :: l)).m = 10 ∨ (after s (o :: l)).m = 0
      · rw [if_pos hm]
        exact Or.inl ⟨o, List.mem_cons_self .., rfl⟩
      · rw [if_neg hm]
        rcases value_down h l fun x hx => ho x (List.mem_cons_of_mem _ hx) with ⟨p, hp, e⟩ | ⟨e, hb⟩
        · exact Or.inl ⟨p, List.mem_cons_of_mem _ hp, e⟩
        · refine Or.inr ⟨e, ?_⟩
          have ok := (after_ok h l).m
          show step (decide ((after s l).value ≤ o.2)) (after s l).m ≤ max 0 (s.m - 2 * (l.length + 1 : Nat))
          have hlt := ho o (List.mem_cons_self ..)
          have : decide ((after s l).value ≤ o.2) = false := by
            rw [e]
            simpa using (Rat.not_le.2 hlt)
          rw [this, step_false ok.2]
          omega

theorem value_up {s : Smooth} (h : s.Ok) : ∀ l : List (Bool × Rat), (∀ o ∈ l, s.value ≤ o.2) →
    (∃ o ∈ l, (after s l).value = o.2) ∨
      ((after s l).value = s.value ∧ min 10 (s.m + l.length) ≤ (after s l).m)
  | [], _ => Or.inr ⟨rfl, by show min 10 (s.m + (0 : Nat)) ≤ s.m; omega⟩
  | o :: l, ho => by
      rw [value_next]
      by_cases hm : (after s (o :: l)).m = 10 ∨ (after s (o :: l)).m = 0
      · rw [if_pos hm]
        exact Or.inl ⟨o, List.mem_cons_self .., rfl⟩
      · rw [if_neg hm]
        rcases value_up h l fun x hx => ho x (List.mem_cons_of_mem _ hx) with ⟨p, hp, e⟩ | ⟨e, hb⟩
        · exact Or.inl ⟨p, List.mem_cons_of_mem _ hp, e⟩
        · refine Or.inr ⟨e, ?_⟩
          have ok := (after_ok h l).m
          show min 10 (s.m + (l.length + 1 : Nat)) ≤ step (decide ((after s l).value ≤ o.2)) (after s l).m
          have : decide ((after s l).value ≤ o.2) = true := by
            rw [e]
            simpa using ho o (List.mem_cons_self ..)
          rw [this, step_true ok.1]
          omega

theorem value_five {s : Smooth} (h : s.Ok) {l : List (Bool × Rat)} (hl : 5 ≤ l.length)
    (ho : ∀ o ∈ l, o.2 < s.value) : ∃ o ∈ l, (after s l).value = o.2 := by
  rcases value_down h l ho with h' | ⟨_, hb⟩
  · exact h'
  · cases l with
    | nil => simp at hl
    | cons o l =>
      have ok := (after_ok h (o :: l)).m
      have hm := h.m
      have e : (after s (o :: l)).m = 0 := by omega
      exact ⟨o, List.mem_cons_self .., by rw [value_next, if_pos (Or.inr e)]⟩

theorem value_ten {s : Smooth} (h : s.Ok) {l : List (Bool × Rat)} (hl : 10 ≤ l.length)
    (ho : ∀ o ∈ l, s.value ≤ o.2) : ∃ o ∈ l, (after s l).value = o.2 := by
  rcases value_up h l ho with h' | ⟨_, hb⟩
  · exact h'
  · cases l with
    | nil => simp at hl
    | cons o l =>
      have ok := (after_ok h (o :: l)).m
      have hm := h.m
      have e : (after s (o :: l)).m = 10 := by omega
      exact ⟨o, List.mem_cons_self .., by rw [value_next, if_pos (Or.inl e)]⟩

/-! ### Settings -/

theorem read4_bytes4 (v : BitVec 32) (l : List (BitVec 8)) :
    read4 (bytes4 v ++ l) = some (v, l) := by
  have : v.extractLsb' 24 8 ++ v.extractLsb' 16 8 ++ v.extractLsb' 8 8 ++ v.extractLsb' 0 8 = v := by
    apply BitVec.eq_of_getLsbD_eq
    intro i hi
    simp only [BitVec.getLsbD_append, BitVec.getLsbD_extractLsb']
    by_cases h1 : i < 8
    · simp [h1]
    · by_cases h2 : i - 8 < 8
      · simp [h1, h2]; congr 1; omega
      · by_cases h3 : i - 8 - 8 < 8
        · simp [h1, h2, h3]; congr 1; omega
        · have : i - 8 - 8 - 8 < 8 := by omega
          simp [h1, h2, h3, this]; congr 1; omega
  simp only [bytes4, List.cons_append, List.nil_append, read4, this]

/-! ### Processors -/

theorem floor_le_self {n : Nat} {v : Rat} (h0 : 0 ≤ v) (h1 : v ≤ 1) :
    ((n : Rat) * v).floor.toNat ≤ n := by
  have hn : (0 : Rat) ≤ (n : Rat) := by exact_mod_cast Nat.zero_le n
  have h : (n : Rat) * v ≤ (n : Rat) * 1 := Rat.mul_le_mul_of_nonneg_left h1 hn
  rw [Rat.mul_one] at h
  have := Rat.floor_monotone h
  have e : ((n : Rat)).floor = (n : Int) := by
    exact Rat.floor_intCast (n : Int)
  rw [e] at this
  omega

theorem floor_toNat {n : Nat} {v : Rat} (h0 : 0 ≤ v) (k : Nat) :
    k ≤ ((n : Rat) * v).floor.toNat ↔ (k : Rat) ≤ (n : Rat) * v := by
  have hn : (0 : Rat) ≤ (n : Rat) := by exact_mod_cast Nat.zero_le n
  have hnn : (0 : Rat) ≤ (n : Rat) * v := Rat.mul_nonneg hn h0
  have hf : 0 ≤ ((n : Rat) * v).floor := by
    rw [Rat.le_floor_iff]; simpa using hnn
  have : k ≤ ((n : Rat) * v).floor.toNat ↔ (k : Int) ≤ ((n : Rat) * v).floor := by omega
  rw [this, Rat.le_floor_iff]
  exact Iff.rfl

theorem isEnabled_eq {n i : Nat} (h : i < 64535) :
    isEnabled n (BitVec.ofNat 16 (i + 1001)) = decide (i < n) := by
  unfold isEnabled
  have : (BitVec.ofNat 16 (i + 1001) - 1000#16).toNat = i + 1 := by
    rw [BitVec.toNat_sub, BitVec.toNat_ofNat, BitVec.toNat_ofNat]
    omega
  rw [this]
  rfl

theorem filter_range (n : Nat) : ∀ k, (List.range k).filter (fun i => decide (i < n)) = List.range (min k n)
  | 0 => by simp
  | k + 1 => by
      rw [List.range_succ, List.filter_append, filter_range n k]
      by_cases h : k < n
      · have e1 : min k n = k := by omega
        have e2 : min (k + 1) n = k + 1 := by omega
        rw [e1, e2, List.range_succ]; simp [h]
      · have e1 : min k n = n := by omega
        have e2 : min (k + 1) n = n := by omega
        rw [e1, e2]; simp [h]

theorem enabled_eq {threads n : Nat} (h : threads ≤ 64535) :
    enabled threads n = List.range (min threads n) := by
  unfold enabled
  rw [← filter_range n threads]
  apply List.filter_congr
  intro i hi
  exact isEnabled_eq (by have := List.mem_range.1 hi; omega)

/-! ### Measuring -/

/-- The time of the worker's processes, of those asked before. -/
def spent (x : Sight) : List Proc → Nat
  | [] => 0
  | p :: ps => (if p.last ≠ 0 then (x.time p.pid - p.last).toNat else 0) + spent x ps

theorem spent_append (x : Sight) : ∀ a b : List Proc, spent x (a ++ b) = spent x a + spent x b
  | [], b => by simp [spent]
  | p :: a, b => by simp only [List.cons_append, spent, spent_append x a b]; omega

theorem spent_new (x : Sight) : ∀ l : List Nat, spent x (l.map fun pid => ⟨pid, 0⟩) = 0
  | [] => rfl
  | _ :: l => by
      rw [List.map_cons, spent, spent_new x l]
      rfl

/-- Processes asked for the first time do not count, and those that are gone neither. -/
theorem spent_processes (x : Sight) (ps : List Proc) :
    spent x (processes x ps) = spent x (ps.filter fun p => p.pid ∈ x.alive) := by
  unfold processes
  rw [spent_append, spent_new, Nat.add_zero]
  simp

theorem ours_eq (x : Sight) (system : BitVec 64) : ∀ ps : List Proc,
    ours x system ps = (spent x ps : Rat) / (system.toNat : Rat) * 100
  | [] => by simp [ours, spent, Rat.div_def, Rat.zero_mul]
  | p :: ps => by
      unfold ours spent
      rw [ours_eq x system ps]
      split
      · rw [Rat.natCast_add, Rat.div_def, Rat.div_def, Rat.div_def, Rat.add_mul, Rat.add_mul]
      · rw [Nat.zero_add, Rat.zero_add]

theorem share_lt {a s t : Nat} (hs : 0 < s) :
    (a : Rat) / (s : Rat) * 100 < (t : Rat) ↔ a * 100 < t * s := by
  have hs' : (0 : Rat) < (s : Rat) := by exact_mod_cast hs
  have : (a : Rat) / (s : Rat) * 100 = ((a : Rat) * 100) / (s : Rat) := by
    rw [Rat.div_def, Rat.div_def, Rat.mul_assoc, Rat.mul_assoc, Rat.mul_comm (s : Rat)⁻¹]
  rw [this, Rat.div_lt_iff hs']
  exact_mod_cast Iff.rfl

theorem share_diff_lt {a b s t : Nat} (hs : 0 < s) :
    (a : Rat) / (s : Rat) * 100 - (b : Rat) / (s : Rat) * 100 < (t : Rat) ↔
      ((a : Int) - b) * 100 < t * s := by
  have hs' : (0 : Rat) < (s : Rat) := by exact_mod_cast hs
  have : (a : Rat) / (s : Rat) * 100 - (b : Rat) / (s : Rat) * 100 =
      (((a : Rat) - (b : Rat)) * 100) / (s : Rat) := by
    simp only [Rat.div_def]
    grind
  rw [this, Rat.div_lt_iff hs']
  have e1 : ((a : Rat) - (b : Rat)) * 100 = ((((a : Int) - b) * 100 : Int) : Rat) := by push_cast; rfl
  have e2 : (t : Rat) * (s : Rat) = (((t : Int) * s : Int) : Rat) := by push_cast; rfl
  rw [e1, e2, Rat.intCast_lt_intCast]

end Verif.Usage
