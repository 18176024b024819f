import Verif.Jobs.Steps2
import Verif.Jobs.Spec
/-! Finalisation, adding and flushing jobs; the invariant holds in every reachable state. -/
namespace Verif.Jobs
open Verif.Sort

theorem nextDone_some {s s1 : Q} {n : Nat} {r : Res} (h : nextDone s = some (n, r, s1)) :
    ∃ l, s.done2 r = n :: l ∧ s1 = { s with done2 := fun x => if x = r then l else s.done2 x } := by
  unfold nextDone at h
  split at h
  · cases h; exact ⟨_, by assumption, rfl⟩
  · cases h; exact ⟨_, by assumption, rfl⟩
  · cases h; exact ⟨_, by assumption, rfl⟩
  · cases h

/-- finished results of a group are fewer than released jobs, if one more is finished -/
theorem fin_lt {bug : Bool} {c : Cfg} {s : Q} (I : Inv bug c s) {n : Nat} (h0 : (s.fin.map Prod.fst).count n = 0)
    (h1 : 0 < s.flushed.count n) :
    (s.fin.filter (fun x => c.group x.1 == c.group n)).length <
      (s.flushed.filter (fun x => c.group x == c.group n)).length := by
  have := length_le_of_count (n :: (s.fin.map Prod.fst).filter (fun x => c.group x == c.group n))
    (s.flushed.filter (fun x => c.group x == c.group n)) (fun m => by
      by_cases hg : c.group m = c.group n
      · rw [List.count_filter (by simpa using hg)]
        by_cases e : m = n
        · subst e; rw [List.count_cons_self, List.count_filter (by simp)]; omega
        · rw [List.count_cons_of_ne (fun h => e h.symm), List.count_filter (by simpa using hg)]
          situations hh using I.good m <;> omega
      · have : m ≠ n := fun h => hg (by rw [h])
        rw [List.count_cons_of_ne (fun h => this h.symm), List.count_eq_zero_of_not_mem
          (by simp [hg])]
        omega)
  rw [List.filter_map, List.length_cons, List.length_map] at this
  exact this

theorem inv_finalize {bug : Bool} {c : Cfg} {s s1 : Q} {n : Nat} {r : Res} (I : Inv bug c s)
    (h : nextDone s = some (n, r, s1)) : Inv bug c (finalizeJob c s1 n r) := by
  obtain ⟨l, hl, rfl⟩ := nextDone_some h
  have hf : n ∉ s.freed := I.notFreed (by
    right; right; right; right; right; right; exact ⟨r, by simp [hl]⟩)
  have hc : 0 < (s.done2 r).count n := by simp [hl]
  have hlc : ∀ x, ((if x = r then l else s.done2 x).count n) = (s.done2 x).count n - (if x = r then 1 else 0) := by
    intro x; by_cases hx : x = r
    · subst hx; simp [hl]
    · simp [hx]
  have hln : ∀ m x, m ≠ n → ((if x = r then l else s.done2 x).count m) = (s.done2 x).count m := by
    intro m x hm; by_cases hx : x = r
    · subst hx; rw [if_pos rfl, hl, List.count_cons_of_ne (Ne.symm hm)]
    · simp [hx]
  have facts : (s.fin.map Prod.fst).count n = 0 ∧ 0 < s.flushed.count n := by
    situations hg using I.good n
    all_goals try (exact ⟨by assumption, by omega⟩)
    all_goals exfalso; cases r <;> omega
  have hlt := fin_lt I facts.1 facts.2
  have hcnt := I.cnt (c.group n)
  unfold finalizeJob
  rw [access_eq (by simpa using hf)]
  dsimp only [Q.assert, Q.free]
  have key : ∀ s' : Q, s'.staging = s.staging → s'.groups = s.groups → s'.uaf = s.uaf →
      s'.active = set s.active (c.group n) (s.active (c.group n) - 1) → s'.fin = (n, r) :: s.fin →
      s'.flushed = s.flushed → (∀ m, m ≠ n → s'.at c m = s.at c m) → Good bug (s'.at c n) → Inv bug c s' := by
    intro s' h1 h2 h3 h4 h5 h6 h7 h8
    refine ⟨fun m => ?_, fun g m => ?_, h3.trans I.uaf, fun g => ?_, fun g => ?_⟩
    · by_cases e : m = n
      · subst e; exact h8
      · rw [h7 m e]; exact I.good m
    · rw [h1]; exact I.group g m
    · rw [h1, h2]; exact I.gsize g
    · rw [h4, h5, h6]
      by_cases e : g = c.group n
      · subst e; simp only [set_self, List.filter_cons, beq_self_eq_true, if_true, List.length_cons]; omega
      · rw [set_ne _ _ e, List.filter_cons, if_neg (by simpa using fun h => e h.symm)]; exact I.cnt g
  have hne : ∀ m, m ≠ n → ¬ n = m := fun m h h' => h h'.symm
  have zeros : ∀ r', (s.done .ok).count n + (s.done2 .ok).count n = ind r' .ok →
      (s.done .aborted).count n + (s.done2 .aborted).count n = ind r' .aborted →
      (s.done .failed).count n + (s.done2 .failed).count n = ind r' .failed → r' = r ∧
      (s.done .ok).count n + ((s.done2 .ok).count n - if Res.ok = r then 1 else 0) = 0 ∧
      (s.done .aborted).count n + ((s.done2 .aborted).count n - if Res.aborted = r then 1 else 0) = 0 ∧
      (s.done .failed).count n + ((s.done2 .failed).count n - if Res.failed = r then 1 else 0) = 0 := by
    intro r' z1 z2 z3
    cases r <;> cases r' <;> simp [ind] at z1 z2 z3 ⊢ <;> omega
  have self : ∀ m, m ≠ n → ({ s with done2 := fun x => if x = r then l else s.done2 x } : Q).at c m = s.at c m := by
    intro m hm; simp only [Q.at, hln m _ hm]
  situations hg using I.good n
  all_goals try (exfalso; cases r <;> omega)
  all_goals obtain ⟨rfl, z1, z2, z3⟩ := zeros _ e11 e12 e13
  · simp only [e1]
    refine key _ rfl rfl rfl rfl rfl rfl (fun m hm => ?_) ?_
    · simp only [Q.at, hln m _ hm, List.map_cons, List.count_cons_of_ne (hne m hm)]
    · simp only [Q.at, hlc, List.map_cons, List.count_cons_self, z1, z2, z3, e1, e2, e3, e4, e5, e6, e7, e8, e9, e10, e14, e15]
      exact .freed _ _ _ false
  · simp only [e1, reduceCtorEq, and_false, if_false]
    refine key _ rfl rfl rfl rfl rfl rfl (fun m hm => ?_) ?_
    · simp only [Q.at, hln m _ hm, set_ne _ _ hm, List.map_cons, List.count_cons_of_ne (hne m hm)]
    · simp only [Q.at, hlc, set_self, List.map_cons, List.count_cons_self, z1, z2, z3, e1, e2, e3, e4, e5, e6, e7, e8, e9, e10, e14, e15]
      exact .localWon _
  · simp only [e1, and_true]
    split
    · refine key _ rfl rfl rfl rfl rfl rfl (fun m hm => ?_) ?_
      · simp only [Q.at, hln m _ hm, List.map_cons, List.count_cons_of_ne (hne m hm), List.count_erase_of_ne hm]
      · simp only [Q.at, hlc, List.map_cons, List.count_cons_self, erase_count_self, z1, z2, z3, e1, e2, e3, e4, e5, e6, e7, e8, e9, e10, e14, e15]
        exact .freed _ _ _ true
    · refine key _ rfl rfl rfl rfl rfl rfl (fun m hm => ?_) ?_
      · simp only [Q.at, hln m _ hm, set_ne _ _ hm, List.map_cons, List.count_cons_of_ne (hne m hm)]
      · simp only [Q.at, hlc, set_self, List.map_cons, List.count_cons_self, z1, z2, z3, e1, e2, e3, e4, e5, e6, e7, e8, e9, e10, e14, e15]
        exact .leaked (Or.resolve_left ‹_ ∨ bug = true› ‹¬ _›) _ _ true
  · simp only [e1]
    refine key _ rfl rfl rfl rfl rfl rfl (fun m hm => ?_) ?_
    · simp only [Q.at, hln m _ hm, List.map_cons, List.count_cons_of_ne (hne m hm)]
    · simp only [Q.at, hlc, List.map_cons, List.count_cons_self, z1, z2, z3, e1, e2, e3, e4, e5, e6, e7, e8, e9, e10, e14, e15]
      exact .freed _ _ _ _
  · rename_i b
    cases b <;> simp only [Bool.false_eq_true, if_false, if_true] at e1 <;> simp only [e1]
    · refine key _ rfl rfl rfl rfl rfl rfl (fun m hm => ?_) ?_
      · simp only [Q.at, hln m _ hm, List.map_cons, List.count_cons_of_ne (hne m hm)]
      · simp only [Q.at, hlc, List.map_cons, List.count_cons_self, z1, z2, z3, e1, e2, e3, e4, e5, e6, e7, e8, e9, e10, e14, e15]
        exact .freed _ _ _ false
    · refine key _ rfl rfl rfl rfl rfl rfl (fun m hm => ?_) ?_
      · simp only [Q.at, hln m _ hm, List.map_cons, List.count_cons_of_ne (hne m hm)]
      · simp only [Q.at, hlc, List.map_cons, List.count_cons_self, z1, z2, z3, e1, e2, e3, e4, e5, e6, e7, e8, e9, e10, e14, e15]
        exact .freed _ _ _ false
  · simp only [e1, reduceCtorEq, and_false, if_false]
    refine key _ rfl rfl rfl rfl rfl rfl (fun m hm => ?_) ?_
    · simp only [Q.at, hln m _ hm, set_ne _ _ hm, List.map_cons, List.count_cons_of_ne (hne m hm)]
    · simp only [Q.at, hlc, set_self, List.map_cons, List.count_cons_self, z1, z2, z3, e1, e2, e3, e4, e5, e6, e7, e8, e9, e10, e14, e15]
      exact .leaked (by assumption) _ _ false

theorem inv_add {bug : Bool} {c : Cfg} {s : Q} {n : Nat} (I : Inv bug c s) (h1 : n ∉ s.flushed) (h2 : n ∉ s.staging (c.group n)) :
    Inv bug c (addJob c s n) := by
  unfold addJob
  refine ⟨fun m => ?_, fun g m hm => ?_, I.uaf, fun g hg => ?_, I.cnt⟩
  · by_cases e : m = n
    · subst e
      rw [mem_count] at h1 h2
      situations hg using I.good m
      all_goals try omega
      simp only [Q.at, set_self, List.count_append, List.count_cons_self, List.count_nil, *]
      exact .staged
    · have : (set s.staging (c.group n) (s.staging (c.group n) ++ [n]) (c.group m)).count m =
          (s.staging (c.group m)).count m := by
        by_cases hg : c.group m = c.group n
        · rw [hg, set_self, List.count_append, List.count_cons_of_ne (Ne.symm e)]; simp
        · rw [set_ne _ _ hg]
      have h3 := I.good m
      unfold Q.at at h3 ⊢
      simp only [this]; exact h3
  · by_cases e : g = c.group n
    · subst e
      simp only [set_self, List.mem_append, List.mem_singleton] at hm
      rcases hm with hm | hm
      · exact I.group _ _ hm
      · rw [hm]
    · simp only [set_ne _ _ e] at hm; exact I.group _ _ hm
  · simp only at hg ⊢
    rw [set_ne _ _ (by omega)]; exact I.gsize g (by omega)

/-- release of a part of the staged jobs of a group -/
theorem inv_release {bug : Bool} {c : Cfg} {s : Q} {g : Nat} {a b : List Nat} (I : Inv bug c s) (h : s.staging g = a ++ b) :
    Inv bug c { s with queue := queueJobs c s.queue b, staging := set s.staging g a,
                       active := set s.active g (s.active g + b.length), flushed := s.flushed ++ b } := by
  have hb : ∀ x ∈ b, c.group x = g := fun x hx => I.group g x (by rw [h]; simp [hx])
  refine ⟨fun m => ?_, fun g' m hm => ?_, I.uaf, fun g' hg => ?_, fun g' => ?_⟩
  · by_cases e : c.group m = g
    · have hst : (s.staging (c.group m)).count m = a.count m + b.count m := by rw [e, h, List.count_append]
      subst e
      situations hg using I.good m
      all_goals
        simp only [Q.at, set_self, List.count_append, count_queueJobs, *]
      case staged =>
        by_cases hz : b.count m = 0
        · have : a.count m = 1 := by omega
          simp only [hz, this]; exact .staged
        · have h1 : b.count m = 1 := by omega
          have h2 : a.count m = 0 := by omega
          simp only [h1, h2]; exact .queued
      all_goals
        have h1 : b.count m = 0 := by omega
        have h2 : a.count m = 0 := by omega
        simp only [h1, h2, Nat.add_zero]
        constructor <;> first | assumption | rfl
    · have hz : b.count m = 0 := List.count_eq_zero_of_not_mem fun hm => e (hb m hm)
      have h3 := I.good m
      unfold Q.at at h3 ⊢
      simp only [set_ne _ _ e, List.count_append, count_queueJobs, hz, Nat.add_zero]; exact h3
  · by_cases e : g' = g
    · subst e; simp only [set_self] at hm; exact I.group _ _ (by rw [h]; simp [hm])
    · simp only [set_ne _ _ e] at hm; exact I.group _ _ hm
  · simp only at hg ⊢
    by_cases e : g' = g
    · subst e
      have := I.gsize g' hg
      rw [h, List.append_eq_nil_iff] at this
      simpa using this.1
    · rw [set_ne _ _ e]; exact I.gsize g' hg
  · simp only [List.filter_append, List.length_append]
    have := I.cnt g'
    by_cases e : g' = g
    · subst e
      have hx : b.filter (fun n => c.group n == g') = b :=
        List.filter_eq_self.2 fun x hx => by simpa using hb x hx
      rw [set_self, hx]; omega
    · have hx : b.filter (fun n => c.group n == g') = [] :=
        List.filter_eq_nil_iff.2 fun x hx => by
          rw [hb x hx]; simpa using fun h => e (Eq.symm h)
      rw [set_ne _ _ e, hx]; simpa using this

theorem inv_flushGroup {bug : Bool} {c : Cfg} {s : Q} {g : Nat} (I : Inv bug c s) : Inv bug c (flushGroup c s g) := by
  unfold flushGroup
  dsimp only
  generalize (if c.limit g ≥ c.workers then unlimited else c.limit g) = maxJobs
  split
  · exact I
  · split
    · exact I
    · split
      · exact inv_release (a := []) I (by simp)
      · rename_i h1 h2 h3
        have := inv_release (g := g) (a := (s.staging g).take ((s.staging g).length - (maxJobs - s.active g)))
          (b := (s.staging g).drop ((s.staging g).length - (maxJobs - s.active g))) I (by simp)
        rw [List.length_drop, Nat.sub_sub_self (by omega)] at this
        exact this

theorem inv_flush {bug : Bool} {c : Cfg} {s : Q} (I : Inv bug c s) : Inv bug c (flush c s) := by
  unfold flush
  generalize List.range s.groups = l
  induction l generalizing s with
  | nil => exact I
  | cons g l ih => exact ih (inv_flushGroup I)

theorem inv_step {bug : Bool} {c : Cfg} {s s' : Q} {ev : Ev} (I : Inv bug c s) (h : step c s ev = some s')
    (hc : bug = true ∨ calm s ev) : Inv bug c s' := by
  cases ev <;> simp only [step] at h
  case add n =>
    split at h
    · cases h
    · rename_i hn; cases h
      exact inv_add I (fun x => hn (Or.inl x)) (fun x => hn (Or.inr x))
  case flush => cases h; exact inv_flush I
  case take =>
    split at h
    · cases h
    · rename_i hq; cases h; exact inv_take I hq
  case firstDone n r =>
    split at h
    · rename_i hq; cases h; exact inv_firstDone I hq
    · cases h
  case second n =>
    split at h
    · rename_i hq; cases h; exact inv_second I hq
    · cases h
  case consume =>
    rw [Option.map_eq_some_iff] at h
    obtain ⟨⟨n, s1⟩, h, rfl⟩ := h
    exact inv_takeDist (remote := false) I h
  case send compat =>
    rw [Option.map_eq_some_iff] at h
    obtain ⟨⟨n, s1⟩, h, rfl⟩ := h
    exact inv_takeDist (remote := true) I h
  case race =>
    rw [Option.map_eq_some_iff] at h
    obtain ⟨⟨n, s1⟩, h, rfl⟩ := h
    exact inv_race I h
  case localDone n r =>
    split at h
    · rename_i hq; cases h; exact inv_localDone I hq
    · cases h
  case ret n e =>
    split at h
    · rename_i hq; cases h; exact inv_ret I hq hc
    · cases h
  case poll n =>
    split at h
    · rename_i hq; cases h; exact inv_poll I hq
    · cases h
  case remoteDone n r =>
    split at h
    · rename_i hq
      split at h
      · cases h
      · cases h
        exact inv_remoteDone I (by rcases hq with hq | ⟨hq, _⟩ <;> exact ⟨_, hq⟩)
    · cases h
  case retry n =>
    split at h
    · rename_i hq; cases h; exact inv_disconnect I (Or.inr hq) (Or.inr (Or.inl (by simp [hq.1])))
    · cases h
  case disconnect n =>
    split at h
    · rename_i hq; cases h; exact inv_disconnect I (Or.inl hq) (hc.imp id Or.inr)
    · cases h
  case swap =>
    split at h
    · rename_i hq; cases h; exact inv_swap I hq
    · cases h
  case finalize =>
    rw [Option.map_eq_some_iff] at h
    obtain ⟨⟨n, r, s1⟩, h, rfl⟩ := h
    exact inv_finalize I h

theorem inv_run {bug : Bool} {c : Cfg} {evs : List Ev} : ∀ {s s' : Q}, Inv bug c s →
    run c s evs = some s' → (bug = true ∨ Calm c s evs) → Inv bug c s' := by
  induction evs with
  | nil => intro s s' I h _; cases h; exact I
  | cons ev evs ih =>
    intro s s' I h hc
    rw [run] at h
    split at h
    · cases h
    · rename_i s1 hs
      exact ih (inv_step I hs (hc.imp id fun h => h.1)) h (hc.imp id fun h => h.2 _ hs)

theorem inv_empty {bug : Bool} {c : Cfg} : Inv bug c {} where
  good n := .unknown
  group g n h := absurd h List.not_mem_nil
  uaf := rfl
  gsize g _ := rfl
  cnt g := rfl

end Verif.Jobs
