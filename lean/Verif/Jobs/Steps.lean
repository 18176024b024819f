import Verif.Jobs.Lemmas
/-! Every event preserves the invariant of the job queue. -/
namespace Verif.Jobs
open Verif.Sort

theorem merge_perm (c : Cfg) : ∀ l1 l2, (merge c l1 l2).Perm (l1 ++ l2) := by
  intro l1 l2
  induction l1, l2 using merge.induct c with
  | case1 l2 => simp [merge]
  | case2 l1 h => rw [merge]; · simp
                  · exact h
  | case3 a l1 b l2 h ih => rw [merge, if_pos h]; exact (List.Perm.cons a ih)
  | case4 a l1 b l2 h ih =>
    rw [merge, if_neg h]
    exact (List.Perm.cons b ih).trans List.perm_middle.symm

theorem queueJobs_perm (c : Cfg) (q l : List Nat) : (queueJobs c q l).Perm (q ++ l) := by
  obtain ⟨b, h1, h2⟩ := C35_shellSort_perm (cheaper c) l
  unfold queueJobs
  simp only [h1, Option.getD_some]
  split
  · rename_i h; subst h; simpa using h2
  · exact (merge_perm c q b).trans (List.Perm.append_left q h2)

theorem count_queueJobs (c : Cfg) (q l : List Nat) (m : Nat) :
    (queueJobs c q l).count m = q.count m + l.count m := by
  rw [(queueJobs_perm c q l).count_eq, List.count_append]

theorem removeJob_some {q q' : List Nat} {n : Nat} (h : removeJob q = some (n, q')) : q = q' ++ [n] := by
  unfold removeJob at h
  split at h
  · cases h
  · rename_i x hx
    cases h
    rw [List.getLast?_eq_some_iff] at hx
    obtain ⟨ys, rfl⟩ := hx
    simp

theorem findLast_some {p : Nat → Bool} {l : List Nat} {n : Nat} (h : findLast p l = some n) :
    n ∈ l ∧ p n = true := by
  unfold findLast at h
  exact ⟨by simpa using List.mem_of_find?_eq_some h, List.find?_some h⟩

theorem length_le_of_count : ∀ (l1 l2 : List Nat), (∀ m, l1.count m ≤ l2.count m) →
    l1.length ≤ l2.length := by
  intro l1
  induction l1 with
  | nil => intro l2 _; simp
  | cons x l1 ih =>
    intro l2 h
    have hx : x ∈ l2 := by
      have := h x; rw [List.count_cons_self] at this; rw [mem_count]; omega
    have := ih (l2.erase x) (fun m => by
      have hm := h m
      by_cases e : m = x
      · subst e; rw [List.count_cons_self] at hm; rw [List.count_erase_self]; omega
      · rw [List.count_cons_of_ne (fun h => e h.symm)] at hm; rw [List.count_erase_of_ne e]; exact hm)
    rw [List.length_erase_of_mem hx] at this
    have := List.length_pos_of_mem hx
    simp only [List.length_cons]; omega

@[simp] theorem set_self {α : Type} (f : Nat → α) (n : Nat) (v : α) : set f n v n = v := by simp [set]
theorem set_ne {α : Type} (f : Nat → α) {n m : Nat} (v : α) (h : m ≠ n) : set f n v m = f m := by
  simp [set, h]

/-- a step that concerns one job and neither groups nor results -/
theorem inv_local {bug : Bool} {c : Cfg} {s s' : Q} (n : Nat) (I : Inv bug c s)
    (hx : ∀ m, m ≠ n → s'.at c m = s.at c m) (hn : Good bug (s'.at c n))
    (h1 : s'.staging = s.staging) (h2 : s'.groups = s.groups) (h3 : s'.uaf = s.uaf)
    (h4 : s'.active = s.active) (h5 : s'.fin = s.fin) (h6 : s'.flushed = s.flushed) : Inv bug c s' where
  good m := by
    by_cases h : m = n
    · subst h; exact hn
    · rw [hx m h]; exact I.good m
  group g m := by rw [h1]; exact I.group g m
  uaf := h3.trans I.uaf
  gsize g := by rw [h1, h2]; exact I.gsize g
  cnt g := by rw [h4, h5, h6]; exact I.cnt g

theorem assert_at {c : Cfg} {s : Q} {b : Bool} {n : Nat} : (s.assert b).at c n = s.at c n := rfl
theorem access_at {c : Cfg} {s : Q} {l : List Nat} {n : Nat} : (s.access l).at c n = s.at c n := rfl

/-- case analysis on the situation of a job -/
syntax "situations " ident " using " term : tactic
set_option hygiene false in
macro_rules
  | `(tactic| situations $h:ident using $t:term) =>
    `(tactic| (
        have $h := $t
        generalize hj : Q.at _ _ _ = j at $h:ident
        obtain ⟨e1, e2, e3, e4, e5, e6, e7, e8, e9, e10, e11, e12, e13, e14, e15⟩ := at_eq hj
        clear hj
        cases $h:ident <;> simp only at e1 e2 e3 e4 e5 e6 e7 e8 e9 e10 e11 e12 e13 e14 e15))

theorem erase_count_self {l : List Nat} {n : Nat} : (l.erase n).count n = l.count n - 1 :=
  List.count_erase_self

/-- `take` -/
theorem inv_take {c : Cfg} {s : Q} {n : Nat} {q : List Nat} (I : Inv bug c s) (h : removeJob s.queue = some (n, q)) :
    Inv bug c { s.access [n] with queue := q, loc := set s.loc n .first } := by
  have hq := removeJob_some h
  have hm : n ∈ s.queue := by rw [hq]; simp
  rw [access_eq (fun x hx => by simp at hx; subst hx; exact I.notFreed (by simp [hm]))]
  refine inv_local (s := s) n I (fun m hne => ?_) ?_ rfl rfl rfl rfl rfl rfl
  · simp only [Q.at, set_ne _ _ hne]
    rw [hq, List.count_append]; simp [hne, List.count_cons, Ne.symm hne]
  · have hc : s.queue.count n = q.count n + 1 := by rw [hq, List.count_append]; simp
    situations hg using I.good n
    all_goals try omega
    simp only [Q.at, set_self, *]
    rw [show q.count n = 0 by omega]
    exact .first

/-- `firstDone` -/
theorem count_complete (s : Q) (n m : Nat) (r x : Res) :
    ((complete s n r).done x).count m = (s.done x).count m + (if m = n then ind r x else 0) := by
  unfold complete ind
  dsimp only
  by_cases h : x = r
  · subst h
    by_cases hm : m = n
    · subst hm; simp
    · simp [hm, List.count_append, List.count_cons, Ne.symm hm]
  · have : ¬ r = x := fun e => h e.symm
    simp [h, this]

theorem complete_at_ne {c : Cfg} {s : Q} {n m : Nat} {r : Res} (h : m ≠ n) :
    (complete s n r).at c m = s.at c m := by
  simp only [Q.at, count_complete, h, if_false, Nat.add_zero]
  rfl

theorem complete_at {c : Cfg} {s : Q} {n : Nat} {r : Res} :
    (complete s n r).at c n = { s.at c n with
      ok := (s.at c n).ok + ind r .ok, ab := (s.at c n).ab + ind r .aborted, fl := (s.at c n).fl + ind r .failed } := by
  simp only [Q.at, count_complete, if_true]
  simp only [complete, J.mk.injEq, true_and, and_true]
  omega

theorem inv_firstDone {bug : Bool} {c : Cfg} {s : Q} {n : Nat} {r : Res} (I : Inv bug c s) (h : s.loc n = .first) :
    Inv bug c (complete { s.access [n] with loc := set s.loc n .idle } n r) := by
  rw [access_eq (fun x hx => by simp at hx; subst hx; exact I.notFreed (by simp [h]))]
  refine inv_local (s := s) n I (fun m hne => ?_) ?_ rfl rfl rfl rfl rfl rfl
  · rw [complete_at_ne hne]; simp only [Q.at, set_ne _ _ hne]
  · rw [complete_at]
    situations hg using I.good n
    all_goals try (rw [h] at e2; cases e2)
    all_goals try (rename_i b; cases b <;> (rw [h] at e2; cases e2))
    simp only [Q.at, set_self, *, Nat.zero_add]
    exact .firstDone r

/-- `second` -/
theorem inv_second {bug : Bool} {c : Cfg} {s : Q} {n : Nat} (I : Inv bug c s) (h : s.loc n = .first) :
    Inv bug c (queueDist c { s with loc := set s.loc n .idle } n) := by
  unfold queueDist
  have hacc : ({ s with loc := set s.loc n .idle } : Q).access (n :: s.avail) =
      { s with loc := set s.loc n .idle } := by
    apply access_eq
    intro x hx
    rcases List.mem_cons.1 hx with rfl | hx
    · exact I.notFreed (by simp [h])
    · exact I.notFreed (by simp [hx])
  dsimp only
  rw [hacc]
  obtain ⟨b, h1, h2⟩ := C35_shellSort_perm (cheaper c) (s.avail ++ [n])
  have hb : ∀ m, b.count m = s.avail.count m + if m = n then 1 else 0 := by
    intro m
    rw [h2.count_eq, List.count_append]
    by_cases hm : m = n
    · subst hm; simp
    · simp [hm, List.count_cons, Ne.symm hm]
  refine inv_local (s := s) n I (fun m hne => ?_) ?_ rfl rfl rfl rfl rfl rfl
  · simp only [Q.at, Q.assert, set_ne _ _ hne, h1, Option.getD_some, hb, hne, if_false, Nat.add_zero]
  · situations hg using I.good n
    all_goals try (rw [h] at e2; cases e2)
    all_goals try (rename_i b; cases b <;> (rw [h] at e2; cases e2))
    simp only [Q.at, Q.assert, set_self, h1, Option.getD_some, hb, if_true, *, Nat.zero_add]
    exact .available 0

/-- `consume`, `send` -/
theorem inv_takeDist {bug : Bool} {c : Cfg} {s s' : Q} {n : Nat} {remote : Bool} {p : Nat → Bool} (I : Inv bug c s)
    (h : takeDist s remote p = some (n, s')) :
    Inv bug c (if remote then { s' with rem := set s'.rem n .sent } else { s' with loc := set s'.loc n .second }) := by
  unfold takeDist at h
  split at h
  · cases h
  · rename_i x hx
    dsimp only at h
    rw [access_eq (fun y hy => I.notFreed (by simp [hy]))] at h
    cases h
    have hm := (findLast_some hx).1
    have hpos := mem_count.1 hm
    cases remote with
    | true =>
      simp only [if_true]
      refine inv_local (s := s) n I (fun m hne => ?_) ?_ rfl rfl rfl rfl rfl rfl
      · simp only [Q.at, Q.assert, set_ne _ _ hne, List.count_erase_of_ne hne]
        simp [List.count_append, List.count_cons, Ne.symm hne]
      · situations hg using I.good n
        all_goals try omega
        rename_i e
        simp only [Q.at, Q.assert, set_self, erase_count_self, List.count_append, *]
        simp only [List.count_cons_self, List.count_nil]
        exact .remoteOnly e
    | false =>
      simp only [Bool.false_eq_true, if_false]
      refine inv_local (s := s) n I (fun m hne => ?_) ?_ rfl rfl rfl rfl rfl rfl
      · simp only [Q.at, Q.assert, set_ne _ _ hne, List.count_erase_of_ne hne]
        simp [List.count_append, List.count_cons, Ne.symm hne]
      · situations hg using I.good n
        all_goals try omega
        rename_i e
        simp only [Q.at, Q.assert, set_self, erase_count_self, List.count_append, *]
        simp only [List.count_cons_self, List.count_nil]
        exact .localOnly e false

/-- `race` -/
theorem inv_race {bug : Bool} {c : Cfg} {s s' : Q} {n : Nat} (I : Inv bug c s) (h : takeRace s = some (n, s')) :
    Inv bug c { s' with loc := set s'.loc n .race } := by
  unfold takeRace at h
  rw [access_eq (fun y hy => I.notFreed (by simp [hy]))] at h
  dsimp only at h
  split at h
  · cases h
  · rename_i x hx
    cases h
    have hd : s.dist n = .buildingRemotely := by simpa using (findLast_some hx).2
    refine inv_local (s := s) n I (fun m hne => ?_) ?_ rfl rfl rfl rfl rfl rfl
    · simp only [Q.at, set_ne _ _ hne]
    · have hp := mem_count.1 (findLast_some hx).1
      situations hg using I.good n
      all_goals try omega
      all_goals try (rw [hd] at e1; cases e1)
      rename_i e
      simp only [Q.at, set_self, *]
      exact .racing e

end Verif.Jobs
