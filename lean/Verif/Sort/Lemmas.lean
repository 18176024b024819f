import Verif.Sort.Model
/-! Permutation and sortedness of the loops of `ShellSort`. -/
namespace Verif.Sort
variable {α : Type}

/-- order after which sorting is meaningful: asymmetric and negatively transitive -/
structure StrictWeak (lt : α → α → Bool) : Prop where
  asymm : ∀ a b, lt a b = true → lt b a = false
  negtrans : ∀ a b c, lt a b = false → lt b c = false → lt a c = false

/-- moving the hole is a permutation -/
theorem set_move_perm {a : List α} {j k : Nat} {x t : α} (hj : j < a.length) (hk : a[k]? = some x)
    (hne : k ≠ j) : ((a.set j x).set k t).Perm (a.set j t) := by
  have hkl : k < a.length := by
    rcases Nat.lt_or_ge k a.length with h | h
    · exact h
    · rw [List.getElem?_eq_none h] at hk; cases hk
  have hx : a[k] = x := by
    rw [List.getElem?_eq_getElem hkl] at hk; exact Option.some.inj hk
  have h1 : k < (a.set j t).length := by simpa using hkl
  have h2 : j < (a.set j t).length := by simpa using hj
  have := List.set_set_perm (as := a.set j t) h2 h1
  rw [List.getElem_set_ne (by omega), List.getElem_set_self, hx, List.set_set] at this
  exact this

theorem shift_perm (lt : α → α → Bool) (inc : Nat) (hi : 0 < inc) (t : α) :
    ∀ fuel j (a : List α), j < a.length → j < fuel →
    ∃ b, shift lt inc t fuel j a = some b ∧ b.Perm (a.set j t) ∧ b.length = a.length := by
  intro fuel
  induction fuel with
  | zero => intro j a _ h; omega
  | succ f ih =>
    intro j a hj hf
    simp only [shift]
    by_cases hge : j ≥ inc
    · rw [if_pos hge]
      have hlt : j - inc < a.length := by omega
      rw [List.getElem?_eq_getElem hlt]
      dsimp only
      by_cases hc : lt t a[j - inc] = true
      · rw [if_pos hc]
        obtain ⟨b, h1, h2, h3⟩ := ih (j - inc) (a.set j a[j - inc]) (by simpa using hlt) (by omega)
        refine ⟨b, h1, h2.trans ?_, by simpa using h3⟩
        exact set_move_perm hj (List.getElem?_eq_getElem hlt) (by omega)
      · rw [if_neg hc]; exact ⟨_, rfl, .refl _, by simp⟩
    · rw [if_neg hge]; exact ⟨_, rfl, .refl _, by simp⟩

theorem insertAt_perm (lt : α → α → Bool) (inc : Nat) (hi : 0 < inc) (i : Nat) (a : List α)
    (h : i < a.length) : ∃ b, insertAt lt inc i a = some b ∧ b.Perm a ∧ b.length = a.length := by
  unfold insertAt
  rw [List.getElem?_eq_getElem h]
  obtain ⟨b, h1, h2, h3⟩ := shift_perm lt inc hi a[i] (i + 1) i a h (by omega)
  refine ⟨b, h1, ?_, h3⟩
  rwa [List.set_getElem_self] at h2

theorem passFrom_perm (lt : α → α → Bool) (inc : Nat) (hi : 0 < inc) : ∀ k i (a : List α),
    i + k ≤ a.length → ∃ b, passFrom lt inc i k a = some b ∧ b.Perm a := by
  intro k
  induction k with
  | zero => intro i a _; exact ⟨a, rfl, .refl _⟩
  | succ k ih =>
    intro i a h
    obtain ⟨b, h1, h2, h3⟩ := insertAt_perm lt inc hi i a (by omega)
    obtain ⟨c, h4, h5⟩ := ih (i + 1) b (by omega)
    exact ⟨c, by simp only [passFrom, h1, h4], h5.trans h2⟩

theorem sortGaps_perm (lt : α → α → Bool) : ∀ (gs : List Nat), (∀ g ∈ gs, 0 < g) → ∀ a : List α,
    ∃ b, sortGaps lt gs a = some b ∧ b.Perm a := by
  intro gs
  induction gs with
  | nil => intro _ a; exact ⟨a, rfl, .refl _⟩
  | cons g gs ih =>
    intro h a
    simp only [sortGaps]
    by_cases hg : g > a.length
    · rw [if_pos hg]; exact ih (fun x hx => h x (List.mem_cons_of_mem _ hx)) a
    · rw [if_neg hg]
      obtain ⟨b, h1, h2⟩ := passFrom_perm lt g (h g List.mem_cons_self) a.length 0 a (by omega)
      obtain ⟨c, h3, h4⟩ := ih (fun x hx => h x (List.mem_cons_of_mem _ hx)) b
      exact ⟨c, by rw [h1]; exact h3, h4.trans h2⟩

/-- the first `m` entries are in order -/
def SortedTo (lt : α → α → Bool) (m : Nat) (a : List α) : Prop :=
  ∀ p q (hp : p < a.length) (hq : q < a.length), p < q → q < m → lt a[q] a[p] = false

/-- State of the insertion loop with gap 1: the free slot is `j`, everything left of it and from
`j + 1` to `i` is in order across the slot, and everything right of it is larger than `t`. -/
structure Hole (lt : α → α → Bool) (t : α) (i j : Nat) (a : List α) : Prop where
  sorted : ∀ p q (hp : p < a.length) (hq : q < a.length), p < q → q ≤ i → p ≠ j → q ≠ j →
    lt a[q] a[p] = false
  right : ∀ q (hq : q < a.length), j < q → q ≤ i → lt t a[q] = true

theorem hole_done {lt : α → α → Bool} (W : StrictWeak lt) {t : α} {i j : Nat} {a : List α}
    (h : Hole lt t i j a) (hi : i < a.length) (hji : j ≤ i)
    (hl : ∀ p (hp : p < a.length), p + 1 = j → lt t a[p] = false) :
    SortedTo lt (i + 1) (a.set j t) := by
  intro p q hp hq hpq hqm
  rw [List.length_set] at hp hq
  rw [List.getElem_set, List.getElem_set]
  by_cases h1 : j = q
  · subst h1
    rw [if_pos rfl, if_neg (by omega)]
    by_cases h2 : p + 1 = j
    · exact hl p hp h2
    · have hj1 : j - 1 < a.length := by omega
      exact W.negtrans t (a[j - 1]) a[p] (hl (j - 1) hj1 (by omega))
        (h.sorted p (j - 1) hp hj1 (by omega) (by omega) (by omega) (by omega))
  · rw [if_neg h1]
    by_cases h2 : j = p
    · rw [if_pos h2]
      exact W.asymm _ _ (h.right q hq (by omega) (by omega))
    · rw [if_neg h2]
      exact h.sorted p q hp hq hpq (by omega) (fun e => h2 e.symm) (fun e => h1 e.symm)

theorem hole_move {lt : α → α → Bool} {t : α} {i j : Nat} {a : List α} (W : StrictWeak lt)
    (h : Hole lt t i j a) (hi : i < a.length) (hji : j ≤ i) (hj : 1 ≤ j)
    (hlt : lt t (a[j - 1]'(by omega)) = true) :
    Hole lt t i (j - 1) (a.set j (a[j - 1]'(by omega))) := by
  constructor
  · intro p q hp hq hpq hqi hpj hqj
    rw [List.length_set] at hp hq
    rw [List.getElem_set, List.getElem_set]
    by_cases h1 : j = q
    · rw [if_pos h1, if_neg (by omega)]
      exact h.sorted p (j - 1) hp (by omega) (by omega) (by omega) (by omega) (by omega)
    · rw [if_neg h1]
      by_cases h2 : j = p
      · rw [if_pos h2]
        exact h.sorted (j - 1) q (by omega) hq (by omega) hqi (by omega) (by omega)
      · rw [if_neg h2]; exact h.sorted p q hp hq hpq hqi (fun e => h2 e.symm) (fun e => h1 e.symm)
  · intro q hq hjq hqi
    rw [List.length_set] at hq
    rw [List.getElem_set]
    by_cases h1 : j = q
    · rw [if_pos h1]; exact hlt
    · rw [if_neg h1]; exact h.right q hq (by omega) hqi

theorem shift_sorted {lt : α → α → Bool} (W : StrictWeak lt) (t : α) (i : Nat) :
    ∀ fuel j (a b : List α), i < a.length → j ≤ i → Hole lt t i j a →
      shift lt 1 t fuel j a = some b → SortedTo lt (i + 1) b := by
  intro fuel
  induction fuel with
  | zero => intro j a b _ _ _ h; simp [shift] at h
  | succ f ih =>
    intro j a b hi hji H h
    simp only [shift] at h
    by_cases hge : j ≥ 1
    · rw [if_pos hge] at h
      have hlt : j - 1 < a.length := by omega
      rw [List.getElem?_eq_getElem hlt] at h
      dsimp only at h
      by_cases hc : lt t a[j - 1] = true
      · rw [if_pos hc] at h
        exact ih (j - 1) _ b (by simpa using hi) (by omega) (hole_move W H hi hji hge hc) h
      · rw [if_neg hc] at h
        cases h
        refine hole_done W H hi hji (fun p hp hpj => ?_)
        have : p = j - 1 := by omega
        subst this
        simpa using hc
    · rw [if_neg hge] at h
      cases h
      exact hole_done W H hi hji (fun p hp hpj => by omega)

theorem insertAt_sorted {lt : α → α → Bool} (W : StrictWeak lt) (i : Nat) (a b : List α)
    (hi : i < a.length) (hs : SortedTo lt i a) (h : insertAt lt 1 i a = some b) :
    SortedTo lt (i + 1) b := by
  unfold insertAt at h
  rw [List.getElem?_eq_getElem hi] at h
  refine shift_sorted W a[i] i (i + 1) i a b hi (Nat.le_refl _) ⟨?_, ?_⟩ h
  · intro p q hp hq hpq hqi _ hqj
    exact hs p q hp hq hpq (by omega)
  · intro q hq h1 h2; omega

theorem passFrom_sorted {lt : α → α → Bool} (W : StrictWeak lt) : ∀ k i (a b : List α),
    i + k ≤ a.length → SortedTo lt i a → passFrom lt 1 i k a = some b → SortedTo lt (i + k) b := by
  intro k
  induction k with
  | zero => intro i a b _ hs h; simp only [passFrom, Option.some.injEq] at h; subst h; exact hs
  | succ k ih =>
    intro i a b hl hs h
    obtain ⟨c, h1, h2, h3⟩ := insertAt_perm lt 1 (by omega) i a (by omega)
    simp only [passFrom, h1] at h
    have := ih (i + 1) c b (by omega) (insertAt_sorted W i a c (by omega) hs h1) h
    rwa [Nat.add_assoc, Nat.add_comm 1 k] at this

theorem sortGaps_sorted {lt : α → α → Bool} (W : StrictWeak lt) : ∀ (gs : List Nat),
    (∀ g ∈ gs, 0 < g) → ∀ (a b : List α), sortGaps lt (gs ++ [1]) a = some b →
    SortedTo lt b.length b := by
  intro gs
  induction gs with
  | nil =>
    intro _ a b h
    simp only [List.nil_append, sortGaps] at h
    by_cases hg : 1 > a.length
    · rw [if_pos hg] at h
      cases h
      intro p q hp; omega
    · rw [if_neg hg] at h
      obtain ⟨c, h1, h2⟩ := passFrom_perm lt 1 (by omega) a.length 0 a (by omega)
      rw [h1] at h
      cases h
      have := passFrom_sorted W a.length 0 a b (by omega) (fun p q _ _ _ h => by omega) h1
      rw [h2.length_eq]; simpa using this
  | cons g gs ih =>
    intro hg a b h
    simp only [List.cons_append, sortGaps] at h
    by_cases hl : g > a.length
    · rw [if_pos hl] at h; exact ih (fun x hx => hg x (List.mem_cons_of_mem _ hx)) a b h
    · rw [if_neg hl] at h
      split at h
      · cases h
      · exact ih (fun x hx => hg x (List.mem_cons_of_mem _ hx)) _ b h

end Verif.Sort
