import Verif.Settings.GroupSpec
/-!
C118: groups of jobs get the limit they ask for, and names stand for the group they name.
-/
namespace Verif.Settings
open Spec

theorem equalsI_iff {a b : List Char} : equalsI a b = true ↔ SameName a b := by
  rw [equalsI, SameName, beq_iff_eq]

theorem same_nil {b : List Char} : SameName [] b ↔ b = [] := by
  rw [SameName, List.map_nil, eq_comm, List.map_eq_nil_iff]

/-- the groups made of `gs`, from index `i` on -/
def madeOf (total : Nat) : Nat → List Group → List Made
  | _, [] => []
  | i, g :: gs => ⟨g.name, limitOf total g, i⟩ :: madeOf total (i + 1) gs

theorem initLoop_spec (total : Nat) : ∀ (gs : List Group) (done : List Made) {r : List Made}, initLoop total gs done = .ok r ↔
    r = done ++ madeOf total done.length gs ∧ (∀ g ∈ gs, (∀ o ∈ done, ¬ SameName o.name g.name) ∧ limitOf total g ≠ unlimited) ∧
      gs.Pairwise (fun a b => ¬ SameName a.name b.name)
  | [], done, r => by
    simp only [initLoop, Except.ok.injEq, madeOf, List.append_nil, List.not_mem_nil, false_imp_iff, implies_true, List.Pairwise.nil, and_self, and_true]
    exact eq_comm
  | g :: gs, done, r => by
    rw [initLoop]
    by_cases hd : (done.any fun o => equalsI o.name g.name) = true
    · rw [if_pos hd]
      obtain ⟨o, ho, e⟩ := List.any_eq_true.1 hd
      constructor
      · intro h; cases h
      · intro h
        exact absurd (equalsI_iff.1 e) ((h.2.1 g (List.mem_cons_self ..)).1 o ho)
    · rw [if_neg hd]
      have hd' : ∀ o ∈ done, ¬ SameName o.name g.name := fun o ho hs => hd (List.any_eq_true.2 ⟨o, ho, equalsI_iff.2 hs⟩)
      by_cases hl : limitOf total g = unlimited
      · simp only [hl, if_true]
        constructor
        · intro h; cases h
        · intro h
          exact absurd hl (h.2.1 g (List.mem_cons_self ..)).2
      · simp only [hl, if_false]
        rw [initLoop_spec total gs, List.length_append, List.length_singleton, madeOf, List.append_assoc, List.singleton_append,
          List.pairwise_cons]
        constructor
        · rintro ⟨h1, h2, h3⟩
          refine ⟨h1, ?_, fun b hb => (h2 b hb).1 _ (List.mem_append_right _ (List.mem_singleton.2 rfl)), h3⟩
          intro x hx
          rcases List.mem_cons.1 hx with rfl | hx
          · exact ⟨hd', hl⟩
          · exact ⟨fun o ho => (h2 x hx).1 o (List.mem_append_left _ ho), (h2 x hx).2⟩
        · rintro ⟨h1, h2, h3, h4⟩
          refine ⟨h1, fun x hx => ⟨?_, (h2 x (List.mem_cons_of_mem _ hx)).2⟩, h4⟩
          intro o ho
          rcases List.mem_append.1 ho with ho | ho
          · exact (h2 x (List.mem_cons_of_mem _ hx)).1 o ho
          · rw [List.mem_singleton.1 ho]
            exact h3 x hx

theorem madeOf_getElem? (total : Nat) : ∀ (gs : List Group) (i k : Nat), (madeOf total i gs)[k]? = gs[k]?.map fun g => ⟨g.name, limitOf total g, i + k⟩
  | [], i, k => by simp [madeOf]
  | g :: gs, i, 0 => by simp [madeOf]
  | g :: gs, i, k + 1 => by
    rw [madeOf, List.getElem?_cons_succ, List.getElem?_cons_succ, madeOf_getElem? total gs, Nat.add_assoc, Nat.add_comm 1 k]

theorem limit_bound {total : Nat} {g : Group} (hf : Fits total g) (h : 0 < g.jobs ∨ 0 < g.memory) (hj : g.jobs ≠ unlimited) (ht : total ≠ unlimited) :
    limitOf total g ≠ unlimited := by
  have hf1 : g.jobs < 4294967296 := hf.1
  have hf2 : total < 4294967296 := hf.2
  have hdiv : total / g.memory ≤ total := Nat.div_le_self _ _
  simp only [limitOf, unlimited] at *
  split <;> split <;> omega

/-- Groups are taken if and only if they are good. Limits of `2 ^ 32 - 1` are left out; see `C118_taken_false`. -/
theorem C118_taken_partial {total : Nat} {gs : List Group} (h : ∀ g ∈ gs, Fits total g ∧ g.jobs ≠ 2 ^ 32 - 1) (ht : total ≠ 2 ^ 32 - 1) :
    (∃ made, initGroups total gs = .ok made) ↔ Good gs := by
  rw [initGroups]
  by_cases hm : maxGroups < gs.length
  · rw [if_pos hm]
    constructor
    · rintro ⟨_, h⟩; cases h
    · intro hg
      exact absurd hm (Nat.not_lt.2 hg.1)
  · rw [if_neg hm]
    constructor
    · rintro ⟨made, hr⟩
      obtain ⟨-, h2, h3⟩ := (initLoop_spec total gs _).1 hr
      refine ⟨Nat.not_lt.1 hm, ?_, h3, ?_⟩
      · intro g hg hn
        exact (h2 g hg).1 _ (List.mem_singleton.2 rfl) (same_nil.2 hn)
      · intro g hg
        have := (h2 g hg).2
        simp only [limitOf] at this
        by_cases h1 : 0 < g.jobs
        · exact .inl h1
        · by_cases h4 : 0 < g.memory
          · exact .inr h4
          · rw [if_neg h1, if_neg h4, Nat.min_self] at this
            exact absurd rfl this
    · rintro ⟨-, h2, h3, h4⟩
      refine ⟨_, (initLoop_spec total gs _).2 ⟨rfl, ?_, h3⟩⟩
      intro g hg
      refine ⟨?_, limit_bound (h g hg).1 (h4 g hg) (h g hg).2 ht⟩
      intro o ho hs
      rw [List.mem_singleton.1 ho] at hs
      exact h2 g hg (same_nil.1 hs)

theorem made_eq {total : Nat} {gs : List Group} {made : List Made} (h : initGroups total gs = .ok made) :
    made = ⟨[], unlimited, 0⟩ :: madeOf total 1 gs ∧ gs.Pairwise (fun a b => ¬ SameName a.name b.name) ∧ (∀ g ∈ gs, g.name ≠ []) ∧
      (∀ g ∈ gs, limitOf total g ≠ unlimited) ∧ gs.length ≤ 16 := by
  rw [initGroups] at h
  split at h
  · cases h
  · rename_i hm
    obtain ⟨h1, h2, h3⟩ := (initLoop_spec total gs _).1 h
    refine ⟨h1, h3, ?_, fun g hg => (h2 g hg).2, Nat.not_lt.1 hm⟩
    intro g hg hn
    exact (h2 g hg).1 _ (List.mem_singleton.2 rfl) (same_nil.2 hn)

/-- The groups come after the one of jobs without a group, in order, each at its index, and indices fit into a byte. -/
theorem C118_index {total : Nat} {gs : List Group} {made : List Made} (h : initGroups total gs = .ok made) :
    (made[0]?.map fun m => (m.name, m.index)) = some ([], 0) ∧
      (∀ k : Nat, made[k + 1]?.map (fun m => (m.name, m.index)) = gs[k]?.map fun g => (g.name, k + 1)) ∧
      ∀ m ∈ made, m.index < 256 := by
  obtain ⟨rfl, -, -, -, hl⟩ := made_eq h
  refine ⟨rfl, ?_, ?_⟩
  · intro k
    rw [List.getElem?_cons_succ, madeOf_getElem?, Option.map_map]
    cases gs[k]? with
    | none => rfl
    | some g => exact congrArg some (Prod.ext rfl (Nat.add_comm 1 k))
  · intro m hm
    obtain ⟨k, hk⟩ := List.getElem?_of_mem hm
    cases k with
    | zero =>
      rw [List.getElem?_cons_zero] at hk
      cases hk
      exact by decide
    | succ k =>
      rw [List.getElem?_cons_succ, madeOf_getElem?] at hk
      obtain ⟨g, hg, e⟩ := Option.map_eq_some_iff.1 hk
      have := (List.getElem?_eq_some_iff.1 hg).1
      rw [← e]
      show 1 + k < 256
      omega

/-- The limit of a group is the largest number of its jobs that may run at once; it is at least one. -/
theorem C118_limit {total : Nat} {gs : List Group} {made : List Made} (h : initGroups total gs = .ok made) {k : Nat} {g : Group}
    (hg : gs[k]? = some g) : ∃ m, made[k + 1]? = some m ∧ 1 ≤ m.limit ∧ May total g m.limit ∧
      ∀ n, n < 2 ^ 32 → May total g n → n ≤ m.limit := by
  obtain ⟨rfl, -, -, hu, -⟩ := made_eq h
  have hu := hu g (List.mem_of_getElem? hg)
  refine ⟨⟨g.name, limitOf total g, 1 + k⟩, ?_, ?_⟩
  · rw [List.getElem?_cons_succ, madeOf_getElem?, hg]
    rfl
  · simp only [limitOf, May, unlimited] at *
    by_cases hm : 0 < g.memory
    · have key : ∀ n, n * g.memory ≤ total ↔ n ≤ total / g.memory := fun n => (Nat.le_div_iff_mul_le hm).symm
      simp only [hm, if_true, key, forall_const] at *
      split at hu <;> rename_i hj
      · simp only [hj, if_true, forall_const]
        refine ⟨by omega, ⟨by omega, by omega⟩, ?_⟩
        intro n _ hn
        omega
      · simp only [hj, if_false, false_imp_iff, true_and]
        refine ⟨by omega, by omega, ?_⟩
        intro n _ hn
        omega
    · by_cases hj : 0 < g.jobs
      · simp only [hm, hj, if_true, if_false, forall_const, false_imp_iff, and_true] at hu ⊢
        refine ⟨by omega, Nat.min_le_right .., ?_⟩
        intro n _ hn
        omega
      · simp only [hm, hj, if_false, Nat.min_self] at hu
        exact absurd rfl hu

/-- Jobs without a group are not limited. -/
theorem C118_default {total : Nat} {gs : List Group} {made : List Made} (h : initGroups total gs = .ok made) :
    groupOf made [] = some 0 ∧ made[0]?.map Made.limit = some (2 ^ 32 - 1) := by
  obtain ⟨rfl, -⟩ := made_eq h
  exact ⟨rfl, rfl⟩

theorem find_madeOf (total : Nat) {name : List Char} : ∀ (gs : List Group) (i : Nat), gs.Pairwise (fun a b => ¬ SameName a.name b.name) →
    ∀ (k : Nat) (g : Group), gs[k]? = some g → SameName g.name name →
      ((madeOf total i gs).find? fun m => equalsI m.name name).map Made.index = some (i + k)
  | [], _, _, k, g, hg, _ => by simp at hg
  | x :: gs, i, hp, k, g, hg, hs => by
    rw [madeOf, List.find?_cons]
    cases k with
    | zero =>
      rw [List.getElem?_cons_zero] at hg
      cases Option.some.inj hg
      simp only [equalsI_iff.2 hs]
      rfl
    | succ k =>
      rw [List.getElem?_cons_succ] at hg
      have hn : equalsI x.name name = false := by
        rw [Bool.eq_false_iff]
        intro e
        exact (List.pairwise_cons.1 hp).1 g (List.mem_of_getElem? hg) ((equalsI_iff.1 e).trans hs.symm)
      simp only [hn]
      rw [find_madeOf total gs (i + 1) (List.pairwise_cons.1 hp).2 k g hg hs, Nat.add_assoc, Nat.add_comm 1 k]

theorem find_none (total : Nat) {name : List Char} : ∀ (gs : List Group) (i : Nat), (∀ g ∈ gs, ¬ SameName g.name name) →
    ((madeOf total i gs).find? fun m => equalsI m.name name) = none
  | [], _, _ => rfl
  | x :: gs, i, h => by
    rw [madeOf, List.find?_cons]
    have hn : equalsI x.name name = false := by
      rw [Bool.eq_false_iff]
      intro e
      exact h x (List.mem_cons_self ..) (equalsI_iff.1 e)
    simp only [hn]
    exact find_none total gs (i + 1) fun g hg => h g (List.mem_cons_of_mem _ hg)

/-- A name stands for the group of that name, and for none if there is no such group. -/
theorem C118_named {total : Nat} {gs : List Group} {made : List Made} (h : initGroups total gs = .ok made) {name : List Char} (hne : name ≠ []) (i : Nat) :
    groupOf made name = some i ↔ ∃ k g, i = k + 1 ∧ gs[k]? = some g ∧ SameName g.name name := by
  obtain ⟨rfl, hp, -⟩ := made_eq h
  have h0 : equalsI [] name = false := by
    rw [Bool.eq_false_iff]
    intro e
    exact hne (same_nil.1 (equalsI_iff.1 e))
  rw [groupOf, if_neg hne, List.find?_cons]
  simp only [h0]
  constructor
  · intro e
    by_cases hx : ∀ g ∈ gs, ¬ SameName g.name name
    · rw [find_none total gs 1 hx] at e
      cases e
    · have : ∃ g ∈ gs, SameName g.name name := Classical.byContradiction fun hc => hx fun g hg hs => hc ⟨g, hg, hs⟩
      obtain ⟨g, hg, hs⟩ := this
      obtain ⟨k, hk⟩ := List.getElem?_of_mem hg
      rw [find_madeOf total gs 1 hp k g hk hs] at e
      cases e
      exact ⟨k, g, Nat.add_comm 1 k, hk, hs⟩
  · rintro ⟨k, g, rfl, hk, hs⟩
    rw [find_madeOf total gs 1 hp k g hk hs, Nat.add_comm 1 k]

/-- A limit of `2 ^ 32 - 1` jobs is refused as if there were none. -/
theorem C118_taken_false : ¬ ∀ (total : Nat) (gs : List Group), (∀ g ∈ gs, Fits total g) → Good gs → ∃ made, initGroups total gs = .ok made := by
  intro h
  obtain ⟨made, hm⟩ := h 1000 [⟨['a'], 4294967295, 0⟩] (by simp [Fits]) ⟨by decide, by simp, List.pairwise_singleton .., by simp⟩
  have : initGroups 1000 [⟨['a'], 4294967295, 0⟩] = .error (.noLimit ['a']) := rfl
  rw [this] at hm
  cases hm

/-! ### Cases that meet the hypotheses -/

private def sample : List Group := [⟨"Link".toList, 2, 0⟩, ⟨"Big".toList, 8, 4000⟩, ⟨"Huge".toList, 0, 64000⟩]

private theorem sample_ok : initGroups 16000 sample =
    .ok [⟨[], 4294967295, 0⟩, ⟨"Link".toList, 2, 1⟩, ⟨"Big".toList, 4, 2⟩, ⟨"Huge".toList, 1, 3⟩] := rfl

example : Good sample := (C118_taken_partial (total := 16000) (by intro g hg; simp [sample] at hg; rcases hg with rfl | rfl | rfl <;> simp [Fits]) (by decide)).1 ⟨_, sample_ok⟩

example : ∀ n, n < 2 ^ 32 → May 16000 ⟨"Big".toList, 8, 4000⟩ n → n ≤ 4 := by
  obtain ⟨m, h1, -, -, h4⟩ := C118_limit sample_ok (k := 1) rfl
  cases h1
  exact h4

example : groupOf [⟨[], 4294967295, 0⟩, ⟨"Link".toList, 2, 1⟩, ⟨"Big".toList, 4, 2⟩, ⟨"Huge".toList, 1, 3⟩] "BIG".toList = some 2 :=
  (C118_named sample_ok (by decide) 2).2 ⟨1, ⟨"Big".toList, 8, 4000⟩, rfl, rfl, by unfold SameName; decide⟩

end Verif.Settings
