import Verif.Jobs.Frame
/-! Properties C13 to C16 and C42: local queue, concurrency groups, distributed jobs. -/
namespace Verif.Jobs
open Verif.Sort

/-! ### C14 -/

theorem cheaper_weak (c : Cfg) : StrictWeak (cheaper c) where
  asymm := by simp [cheaper]; omega
  negtrans := by simp [cheaper]; omega

theorem merge_sorted (c : Cfg) : ∀ l1 l2, Ascending c l1 → Ascending c l2 → Ascending c (merge c l1 l2) := by
  intro l1 l2
  induction l1, l2 using merge.induct c with
  | case1 l2 => intro _ h; simpa [merge] using h
  | case2 l1 hl => intro h _; rw [merge]; · exact h
                   · exact hl
  | case3 a l1 b l2 h ih =>
    intro h1 h2
    rw [merge, if_pos h]
    unfold Ascending at h1 h2 ih ⊢
    rw [List.pairwise_cons] at h1 ⊢
    refine ⟨fun x hx => ?_, ih h1.2 h2⟩
    have := (merge_perm c l1 (b :: l2)).mem_iff.1 hx
    rw [List.pairwise_cons] at h2
    simp only [cheaper, decide_eq_true_eq] at h
    rcases List.mem_append.1 this with hm | hm
    · exact h1.1 x hm
    · rcases List.mem_cons.1 hm with rfl | hm
      · omega
      · have := h2.1 x hm; omega
  | case4 a l1 b l2 h ih =>
    intro h1 h2
    rw [merge, if_neg h]
    unfold Ascending at h1 h2 ih ⊢
    rw [List.pairwise_cons] at h2 ⊢
    refine ⟨fun x hx => ?_, ih h1 h2.2⟩
    have := (merge_perm c (a :: l1) l2).mem_iff.1 hx
    rw [List.pairwise_cons] at h1
    simp only [cheaper, decide_eq_true_eq] at h
    rcases List.mem_append.1 this with hm | hm
    · rcases List.mem_cons.1 hm with rfl | hm
      · omega
      · have := h1.1 x hm; omega
    · exact h2.1 x hm

/-- C14. Queueing jobs into a sorted queue leaves it sorted by cost, and it then holds exactly the old
and the new jobs. -/
theorem C14_queue_sorted (c : Cfg) (q nodes : List Nat) (h : Ascending c q) :
    Ascending c (queueJobs c q nodes) ∧ (queueJobs c q nodes).Perm (q ++ nodes) := by
  refine ⟨?_, queueJobs_perm c q nodes⟩
  obtain ⟨b, h1, _, h3⟩ := C35_shellSort_sorts (cheaper c) (cheaper_weak c) nodes
  have hb : Ascending c b := h3.imp fun h => by simpa [cheaper] using h
  unfold queueJobs
  simp only [h1, Option.getD_some]
  split
  · exact hb
  · exact merge_sorted c q b h hb

/-- C14. Removal takes exactly one job, of maximal cost, from a sorted queue and leaves it sorted; it
fails only on an empty queue. -/
theorem C14_remove_max (c : Cfg) (q : List Nat) (h : Ascending c q) :
    match removeJob q with
    | none => q = []
    | some (n, q') => q.Perm (n :: q') ∧ (∀ m ∈ q, c.cost m ≤ c.cost n) ∧ Ascending c q' := by
  cases hr : removeJob q with
  | none =>
    unfold removeJob at hr
    split at hr
    · rename_i h0; exact List.getLast?_eq_none_iff.1 h0
    · cases hr
  | some p =>
    obtain ⟨n, q'⟩ := p
    have := removeJob_some hr
    subst this
    unfold Ascending at h
    rw [List.pairwise_append] at h
    refine ⟨List.perm_append_comm.trans (by simp), fun m hm => ?_, h.1⟩
    rcases List.mem_append.1 hm with hm | hm
    · exact h.2.2 m hm n (by simp)
    · simp at hm; subst hm; exact Nat.le_refl _

/-- C14. In every reachable state the queue is sorted, so workers are always handed a job of maximal cost
among those queued. -/
theorem C14_reachable_sorted (c : Cfg) (evs : List Ev) (s : Q) (h : run c {} evs = some s) :
    Ascending c s.queue := by
  suffices ∀ (evs : List Ev) (s s' : Q), Ascending c s.queue → run c s evs = some s' → Ascending c s'.queue from
    this evs {} s List.Pairwise.nil h
  intro evs
  induction evs with
  | nil => intro s s' hs h; cases h; exact hs
  | cons ev evs ih =>
    intro s s' hs h
    rw [run] at h
    split at h
    · cases h
    · rename_i s1 h1
      refine ih s1 s' ?_ h
      by_cases hq : ev.quiet = true
      · have := congrArg (·.1) (front_step h1 hq); simp only [Q.front] at this; rw [this]; exact hs
      cases ev <;> try (exact absurd rfl hq)
      case add n => simp only [step] at h1; split at h1 <;> cases h1; exact hs
      case flush =>
        simp only [step] at h1
        cases h1
        unfold flush
        generalize List.range s.groups = l
        clear h
        induction l generalizing s with
        | nil => exact hs
        | cons g l ih2 =>
          refine ih2 _ ?_
          unfold flushGroup
          dsimp only
          generalize (if c.limit g ≥ c.workers then unlimited else c.limit g) = maxJobs
          repeat' split
          · exact hs
          · exact hs
          · exact (C14_queue_sorted c _ _ hs).1
          · exact (C14_queue_sorted c _ _ hs).1
      case take =>
        simp only [step] at h1
        split at h1
        · cases h1
        · rename_i n q hq
          cases h1
          have := C14_remove_max c s.queue hs
          rw [hq] at this
          exact this.2.2
      case finalize =>
        obtain ⟨n, r, _, hf⟩ := front_finalize h1
        have := congrArg (·.1) hf; simp only [Q.front] at this; rw [this]; exact hs

/-- Four jobs of one group; job `n` costs `10 - n`. -/
def demo : Cfg where
  cost n := 10 - n
  group n := n / 4
  limit g := if g = 0 then unlimited else 1
  workers := 3

example : ∃ s, run demo {} [.add 1, .add 3, .add 2, .add 0, .flush, .take] = some s ∧
    s.queue = [3, 2, 1] ∧ s.loc 0 = .first := ⟨_, rfl, rfl, rfl⟩

example : Ascending demo [3, 1] ∧ merge demo [3, 1] [2, 0] = [3, 2, 1, 0] := by
  constructor
  · simp [Ascending, demo]
  · simp [merge, cheaper, demo]

/-! ### C13 -/

/-- C13. A configured limit is at least one job. -/
theorem C13_limit_positive (jobs perJob total l : Nat) (h : groupLimit jobs perJob total = some l) :
    1 ≤ l ∧ (0 < jobs → l ≤ jobs) ∧ (0 < perJob → perJob ≤ total → l * perJob ≤ total) := by
  unfold groupLimit at h
  dsimp only at h
  have h2 : min (if perJob > 0 then max (total / perJob) 1 else unlimited) (if jobs > 0 then jobs else unlimited) = l := by
    by_cases e : min (if perJob > 0 then max (total / perJob) 1 else unlimited) (if jobs > 0 then jobs else unlimited) = unlimited
    · rw [if_pos e] at h; cases h
    · rw [if_neg e] at h; exact Option.some.inj h
  subst h2
  clear h
  refine ⟨?_, fun hj => ?_, fun hp ht => ?_⟩
  · have : (1 : Nat) ≤ unlimited := by decide
    split <;> split <;> omega
  · rw [if_pos hj]; omega
  · rw [if_pos hp]
    have h1 : 1 ≤ total / perJob := (Nat.le_div_iff_mul_le hp).2 (by omega)
    have h2 := Nat.div_mul_le_self total perJob
    refine Nat.le_trans (Nat.mul_le_mul_right perJob (Nat.min_le_left _ _)) ?_
    rw [Nat.max_eq_left h1]; exact h2

example : groupLimit 8 1024 4096 = some 4 ∧ groupLimit 3 0 4096 = some 3 ∧ groupLimit 0 8192 4096 = some 1 ∧
    groupLimit 0 0 4096 = none := by decide

theorem flushGroup_active {c : Cfg} {s : Q} {g0 g : Nat} (hl : c.limit g < c.workers)
    (h : s.active g ≤ c.limit g) : (flushGroup c s g0).active g ≤ c.limit g := by
  unfold flushGroup
  dsimp only
  by_cases e : g = g0
  · subst e
    rw [if_neg (show ¬ c.limit g ≥ c.workers by omega)]
    split
    · exact h
    · split
      · exact h
      · split
        · simp only [set_self]; omega
        · simp only [set_self]; omega
  · generalize (if c.limit g0 ≥ c.workers then unlimited else c.limit g0) = maxJobs
    repeat' split
    all_goals first | exact h | (simp only [set_ne _ _ e]; exact h)

theorem active_le {c : Cfg} {g : Nat} (hl : c.limit g < c.workers) :
    ∀ (evs : List Ev) (s s' : Q), s.active g ≤ c.limit g → run c s evs = some s' → s'.active g ≤ c.limit g := by
  intro evs
  induction evs with
  | nil => intro s s' hs h; cases h; exact hs
  | cons ev evs ih =>
    intro s s' hs h
    rw [run] at h
    split at h
    · cases h
    · rename_i s1 h1
      refine ih s1 s' ?_ h
      by_cases hq : ev.quiet = true
      · have := congrArg (·.2.2.1) (front_step h1 hq); simp only [Q.front] at this; rw [this]; exact hs
      cases ev <;> try (exact absurd rfl hq)
      case add n => simp only [step] at h1; split at h1 <;> cases h1; exact hs
      case flush =>
        simp only [step] at h1
        cases h1
        unfold flush
        generalize List.range s.groups = l
        clear h
        induction l generalizing s with
        | nil => exact hs
        | cons g0 l ih2 => exact ih2 _ (flushGroup_active hl hs)
      case take =>
        simp only [step] at h1
        split at h1 <;> cases h1
        exact hs
      case finalize =>
        obtain ⟨n, r, _, hf⟩ := front_finalize h1
        have := congrArg (·.2.2.1) hf; simp only [Q.front] at this; rw [this]
        unfold set; split
        · rename_i e; subst e; omega
        · exact hs

/-- outstanding jobs are counted -/
theorem outstanding_le {bug : Bool} {c : Cfg} {s : Q} (I : Inv bug c s) (g : Nat) (l : List Nat) (hn : l.Nodup)
    (hl : ∀ n ∈ l, Outstanding c s g n) : l.length ≤ s.active g := by
  have hlen := length_le_of_count (l ++ (s.fin.map Prod.fst).filter (fun x => c.group x == g))
    (s.flushed.filter (fun x => c.group x == g)) (fun m => by
      rw [List.count_append]
      by_cases hm : m ∈ l
      · obtain ⟨h1, h2, h3⟩ := hl m hm
        have h4 : (s.fin.map Prod.fst).count m = 0 := by
          apply List.count_eq_zero_of_not_mem
          intro hx
          obtain ⟨⟨a, r⟩, hy, rfl⟩ := List.mem_map.1 hx
          exact h3 r hy
        rw [List.count_filter (by simpa using h1), List.count_filter (by simpa using h1), h4]
        have h5 : l.count m ≤ 1 := List.nodup_iff_count.1 hn m
        rw [mem_count] at h2; omega
      · rw [List.count_eq_zero_of_not_mem hm]
        by_cases hg : c.group m = g
        · rw [List.count_filter (by simpa using hg), List.count_filter (by simpa using hg)]
          situations hh using I.good m <;> omega
        · rw [List.count_eq_zero_of_not_mem (by simp [hg])]; omega)
  rw [List.length_append, List.filter_map, List.length_map] at hlen
  have := I.cnt g
  simp only [Function.comp_def] at hlen
  omega

/-- C13. In every reachable state at most `limit` jobs of a group with a limit below the number of
threads are released and not yet finished. -/
theorem C13_limit (c : Cfg) (evs : List Ev) (s : Q) (g : Nat) (h : run c {} evs = some s)
    (hg : c.limit g < c.workers) (l : List Nat) (hn : l.Nodup) (hl : ∀ n ∈ l, Outstanding c s g n) :
    l.length ≤ c.limit g :=
  Nat.le_trans (outstanding_le (inv_run (bug := true) inv_empty h (Or.inl rfl)) g l hn hl)
    (active_le hg evs {} s (Nat.zero_le _) h)

/-- C13. Every queued job is, at any later time, either still waiting or was released exactly once. -/
theorem C13_no_loss (c : Cfg) (evs : List Ev) (s : Q) (h : run c {} evs = some s) (n : Nat)
    (hn : ∃ es1 es2, evs = es1 ++ .add n :: es2) :
    (s.staging (c.group n)).count n + s.flushed.count n = 1 := by
  have I := inv_run (bug := true) inv_empty h (Or.inl rfl)
  suffices hx : 0 < (s.staging (c.group n)).count n + s.flushed.count n by
    situations hg using I.good n <;> omega
  obtain ⟨es1, es2, rfl⟩ := hn
  have mono : ∀ (evs : List Ev) (s s' : Q), Inv true c s → run c s evs = some s' →
      0 < (s.staging (c.group n)).count n + s.flushed.count n →
      0 < (s'.staging (c.group n)).count n + s'.flushed.count n := by
    intro evs
    induction evs with
    | nil => intro s s' _ h hp; cases h; exact hp
    | cons ev evs ih =>
      intro s s' I h hp
      rw [run] at h
      split at h
      · cases h
      · rename_i s1 h1
        refine ih s1 s' (inv_step I h1 (Or.inl rfl)) h ?_
        by_cases hq : ev.quiet = true
        · have e1 := congrArg (·.2.1) (front_step h1 hq)
          have e2 := congrArg (·.2.2.2.1) (front_step h1 hq)
          simp only [Q.front] at e1 e2; rw [e1, e2]; exact hp
        cases ev <;> try (exact absurd rfl hq)
        case add m =>
          simp only [step] at h1; split at h1 <;> cases h1
          unfold addJob set
          dsimp only
          split
          · rename_i e; rw [List.count_append, ← e]; omega
          · exact hp
        case flush =>
          simp only [step] at h1
          cases h1
          unfold flush
          generalize List.range s.groups = l
          clear h
          induction l generalizing s with
          | nil => exact hp
          | cons g l ih2 =>
            refine ih2 _ (inv_flushGroup I) ?_
            unfold flushGroup
            dsimp only
            generalize (if c.limit g ≥ c.workers then unlimited else c.limit g) = maxJobs
            repeat' split
            · exact hp
            · exact hp
            · unfold set; dsimp only
              rw [List.count_append]
              split
              · rename_i e; subst e; simp only [List.count_nil]; omega
              · omega
            · unfold set; dsimp only
              rw [List.count_append]
              split
              · rename_i e; subst e
                have : ∀ k, ((s.staging (c.group n)).take k).count n + ((s.staging (c.group n)).drop k).count n =
                    (s.staging (c.group n)).count n := by
                  intro k; rw [← List.count_append, List.take_append_drop]
                have := this ((s.staging (c.group n)).length - (maxJobs - s.active (c.group n)))
                omega
              · omega
        case take =>
          simp only [step] at h1
          split at h1 <;> cases h1
          exact hp
        case finalize =>
          obtain ⟨n, r, _, hf⟩ := front_finalize h1
          have e1 := congrArg (·.2.1) hf
          have e2 := congrArg (·.2.2.2.1) hf
          simp only [Q.front] at e1 e2; rw [e1, e2]; exact hp
  have split : ∀ (es1 : List Ev) (s0 : Q), Inv true c s0 → run c s0 (es1 ++ .add n :: es2) = some s →
      0 < (s.staging (c.group n)).count n + s.flushed.count n := by
    intro es1
    induction es1 with
    | nil =>
      intro s0 I0 hr
      rw [List.nil_append, run] at hr
      split at hr
      · cases hr
      · rename_i s1 h1
        refine mono es2 s1 s (inv_step I0 h1 (Or.inl rfl)) hr ?_
        simp only [step] at h1; split at h1 <;> cases h1
        simp only [addJob, set_self, List.count_append, List.count_cons_self]; omega
    | cons ev es1 ih =>
      intro s0 I0 hr
      rw [List.cons_append, run] at hr
      split at hr
      · cases hr
      · rename_i s1 h1
        exact ih s1 (inv_step I0 h1 (Or.inl rfl)) hr
  exact split es1 {} inv_empty h

/-- C13. Flushing moves jobs from the waiting lists to the queue of the workers and loses or duplicates
none. -/
theorem C13_flush_moves (c : Cfg) (evs : List Ev) (s : Q) (h : run c {} evs = some s) (n : Nat) :
    ((flush c s).staging (c.group n)).count n + (flush c s).queue.count n =
      (s.staging (c.group n)).count n + s.queue.count n := by
  have I := inv_run (bug := true) inv_empty h (Or.inl rfl)
  unfold flush
  generalize List.range s.groups = l
  clear h
  induction l generalizing s with
  | nil => rfl
  | cons g l ih =>
    rw [List.foldl_cons, ih _ (inv_flushGroup I)]
    have hgrp : ∀ x ∈ s.staging g, c.group x = g := fun x hx => I.group g x hx
    unfold flushGroup
    dsimp only
    generalize (if c.limit g ≥ c.workers then unlimited else c.limit g) = maxJobs
    have hz : ∀ b : List Nat, (∀ x ∈ b, x ∈ s.staging g) → c.group n ≠ g → b.count n = 0 := by
      intro b hb hne
      exact List.count_eq_zero_of_not_mem fun hx => hne (hgrp n (hb n hx))
    repeat' split
    · rfl
    · rfl
    · dsimp only
      rw [count_queueJobs]
      by_cases e : c.group n = g
      · rw [e, set_self, List.count_nil]; omega
      · rw [set_ne _ _ e, hz _ (fun x hx => hx) e]; omega
    · dsimp only
      rw [count_queueJobs]
      by_cases e : c.group n = g
      · rw [e, set_self]
        have : ∀ k, ((s.staging g).take k).count n + ((s.staging g).drop k).count n =
            (s.staging g).count n := by
          intro k; rw [← List.count_append, List.take_append_drop]
        have := this ((s.staging g).length - (maxJobs - s.active g))
        omega
      · rw [set_ne _ _ e, hz _ (fun x hx => List.mem_of_mem_drop hx) e]; omega

/-- C13. If no job of a group is released and unfinished and some job of the group waits, the next flush
releases a job of the group. -/
theorem C13_progress (c : Cfg) (evs : List Ev) (s : Q) (g : Nat) (h : run c {} evs = some s)
    (hl : 0 < c.limit g) (hw : s.staging g ≠ []) (hn : ∀ n, ¬ Outstanding c s g n) :
    ∃ n, c.group n = g ∧ n ∈ s.staging g ∧ n ∈ (flush c s).queue := by
  have I := inv_run (bug := true) inv_empty h (Or.inl rfl)
  have h0 : s.active g = 0 := by
    have hlen := length_le_of_count (s.flushed.filter (fun x => c.group x == g))
      ((s.fin.map Prod.fst).filter (fun x => c.group x == g)) (fun m => by
        by_cases hg : c.group m = g
        · rw [List.count_filter (by simpa using hg), List.count_filter (by simpa using hg)]
          by_cases hf : m ∈ s.flushed
          · have : ¬ ∀ r, (m, r) ∉ s.fin := fun hr => hn m ⟨hg, hf, hr⟩
            rw [Classical.not_forall] at this
            obtain ⟨r, hr⟩ := this
            have hr := Classical.not_not.1 hr
            have : m ∈ s.fin.map Prod.fst := List.mem_map.2 ⟨_, hr, rfl⟩
            rw [mem_count] at this
            situations hh using I.good m <;> omega
          · rw [List.count_eq_zero_of_not_mem hf]; omega
        · rw [List.count_eq_zero_of_not_mem (by simp [hg])]; omega)
    rw [List.filter_map, List.length_map] at hlen
    have := I.cnt g
    simp only [Function.comp_def] at hlen
    omega
  have hgs : g < s.groups := by
    apply Classical.byContradiction
    intro hx; exact hw (I.gsize g (by omega))
  -- other groups leave this one alone
  have pre : ∀ (l : List Nat) (s : Q), g ∉ l → (l.foldl (flushGroup c) s).staging g = s.staging g ∧
      (l.foldl (flushGroup c) s).active g = s.active g := by
    intro l
    induction l with
    | nil => intro s _; exact ⟨rfl, rfl⟩
    | cons x l ih =>
      intro s hx
      simp only [List.mem_cons, not_or] at hx
      obtain ⟨i1, i2⟩ := ih (flushGroup c s x) hx.2
      rw [List.foldl_cons, i1, i2]
      unfold flushGroup
      dsimp only
      generalize (if c.limit x ≥ c.workers then unlimited else c.limit x) = maxJobs
      repeat' split
      all_goals simp [set_ne _ _ hx.1]
  have post : ∀ (l : List Nat) (s : Q) (n : Nat), n ∈ s.queue → n ∈ (l.foldl (flushGroup c) s).queue := by
    intro l
    induction l with
    | nil => intro s n hn; exact hn
    | cons x l ih =>
      intro s n hn
      refine ih _ n ?_
      unfold flushGroup
      dsimp only
      generalize (if c.limit x ≥ c.workers then unlimited else c.limit x) = maxJobs
      repeat' split
      · exact hn
      · exact hn
      all_goals
        dsimp only
        rw [mem_count] at hn ⊢
        rw [count_queueJobs]; omega
  have hsplit : List.range s.groups = List.range g ++ g :: (List.range (s.groups - g - 1)).map (g + 1 + ·) := by
    have e : s.groups = g + (1 + (s.groups - g - 1)) := by omega
    conv => lhs; rw [e, List.range_add, List.range_add]
    simp [List.map_map, Function.comp_def, Nat.add_assoc]
  unfold flush
  rw [hsplit, List.foldl_append, List.foldl_cons]
  generalize hs1 : (List.range g).foldl (flushGroup c) s = s1
  obtain ⟨p1, p2⟩ := pre (List.range g) s (by simp)
  rw [hs1] at p1 p2
  rw [h0] at p2
  suffices hx : ∃ n, n ∈ s.staging g ∧ n ∈ (flushGroup c s1 g).queue by
    obtain ⟨n, h1, h2⟩ := hx
    exact ⟨n, I.group g n h1, h1, post _ _ n h2⟩
  have hmax : 0 < (if c.limit g ≥ c.workers then unlimited else c.limit g) := by
    split
    · decide
    · exact hl
  unfold flushGroup
  dsimp only
  generalize (if c.limit g ≥ c.workers then unlimited else c.limit g) = maxJobs at hmax
  rw [p1, p2, if_neg hw, if_neg (by omega)]
  have hne : 0 < (s.staging g).length := List.length_pos_iff.2 hw
  split
  · obtain ⟨n, hn⟩ := List.exists_mem_of_ne_nil _ hw
    refine ⟨n, hn, ?_⟩
    dsimp only
    rw [mem_count] at hn ⊢
    rw [count_queueJobs]; omega
  · have hd : (s.staging g).drop ((s.staging g).length - (maxJobs - 0)) ≠ [] := by
      rw [ne_eq, List.drop_eq_nil_iff]; omega
    obtain ⟨n, hn⟩ := List.exists_mem_of_ne_nil _ hd
    refine ⟨n, List.mem_of_mem_drop hn, ?_⟩
    dsimp only
    rw [mem_count] at hn ⊢
    rw [count_queueJobs]; omega

/-- Group 1 of the demo has limit 1: of jobs 4, 5 and 6 one is released at a time. -/
example : ∃ s, run demo {} [.add 4, .add 5, .add 6, .flush, .flush] = some s ∧ s.queue = [6] ∧
    s.staging 1 = [4, 5] ∧ Outstanding demo s 1 6 ∧ demo.limit 1 < demo.workers := by
  refine ⟨_, rfl, by decide, by decide, ⟨by decide, by decide, fun r => List.not_mem_nil⟩, by decide⟩

example : ∃ s, run demo {} [.add 4, .add 5, .flush, .take, .firstDone 5 .ok, .swap, .finalize] = some s ∧
    s.staging 1 = [4] ∧ s.fin = [(5, .ok)] ∧ 0 < demo.limit 1 ∧ (∀ n, ¬ Outstanding demo s 1 n) := by
  refine ⟨_, rfl, by decide, by decide, by decide, fun n hn => ?_⟩
  obtain ⟨_, h2, h3⟩ := hn
  have : n ∈ ([5] : List Nat) := h2
  have : n = 5 := by simpa using this
  subst this
  exact h3 .ok (by decide)

end Verif.Jobs
