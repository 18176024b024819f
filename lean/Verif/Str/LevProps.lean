import Verif.Str.LevModel
/-! Property C26: the distance is the least number of single character edits. -/
namespace Verif.Str

/-- one insertion, deletion or substitution of a character (letters equal under `eq` are not
distinguished) -/
inductive Edit1 : List Char → List Char → Prop
  | ins (u : List Char) (c : Char) (v : List Char) : Edit1 (u ++ v) (u ++ c :: v)
  | del (u : List Char) (c : Char) (v : List Char) : Edit1 (u ++ c :: v) (u ++ v)
  | sub (u : List Char) (c d : Char) (v : List Char) : Edit1 (u ++ c :: v) (u ++ d :: v)

/-- strings equal character by character under `eq` -/
inductive Same (eq : Char → Char → Bool) : List Char → List Char → Prop
  | nil : Same eq [] []
  | cons {a b : Char} {s t : List Char} : eq a b = true → Same eq s t → Same eq (a :: s) (b :: t)

/-- `n` edits lead from the first string to one that is the same as the second under `eq` -/
inductive Edits (eq : Char → Char → Bool) : Nat → List Char → List Char → Prop
  | zero {s t : List Char} : Same eq s t → Edits eq 0 s t
  | step {n : Nat} {s s' t : List Char} : Edit1 s s' → Edits eq n s' t → Edits eq (n + 1) s t

/-- alignments with their cost -/
inductive Align (eq : Char → Char → Bool) : List Char → List Char → Nat → Prop
  | nil : Align eq [] [] 0
  | keep {a b : Char} {s t : List Char} {n : Nat} : eq a b = true → Align eq s t n → Align eq (a :: s) (b :: t) n
  | sub {a b : Char} {s t : List Char} {n : Nat} : Align eq s t n → Align eq (a :: s) (b :: t) (n + 1)
  | ins {b : Char} {s t : List Char} {n : Nat} : Align eq s t n → Align eq s (b :: t) (n + 1)
  | del {a : Char} {s t : List Char} {n : Nat} : Align eq s t n → Align eq (a :: s) t (n + 1)

variable {eq : Char → Char → Bool}

/-- equality test used here -/
structure IsEquiv (eq : Char → Char → Bool) : Prop where
  refl : ∀ a, eq a a = true
  symm : ∀ a b, eq a b = true → eq b a = true
  trans : ∀ a b c, eq a b = true → eq b c = true → eq a c = true

theorem isEquiv_case : IsEquiv eqCase := by
  constructor <;> simp [eqCase] <;> intros <;> simp [*]

theorem isEquiv_noCase : IsEquiv eqNoCase := by
  constructor <;> simp [eqNoCase] <;> intros <;> simp [*]

theorem Align.append {s t s' t' : List Char} {n m : Nat} (h : Align eq s t n) (h' : Align eq s' t' m) :
    Align eq (s ++ s') (t ++ t') (n + m) := by
  induction h with
  | nil => simpa using h'
  | keep he _ ih => exact .keep he ih
  | sub _ ih => rw [Nat.add_right_comm]; exact .sub ih
  | ins _ ih => rw [Nat.add_right_comm]; exact .ins ih
  | del _ ih => rw [Nat.add_right_comm]; exact .del ih

theorem Align.reverse {s t : List Char} {n : Nat} (h : Align eq s t n) : Align eq s.reverse t.reverse n := by
  induction h with
  | nil => exact .nil
  | @keep a b s t n he _ ih =>
    simp only [List.reverse_cons]
    exact ih.append (.keep he .nil)
  | @sub a b s t n _ ih =>
    simp only [List.reverse_cons]
    exact ih.append (n := n) (m := 1) (.sub .nil)
  | @ins b s t n _ ih =>
    simp only [List.reverse_cons]
    have := ih.append (n := n) (m := 1) (s' := []) (t' := [b]) (.ins .nil)
    simpa using this
  | @del a s t n _ ih =>
    simp only [List.reverse_cons]
    have := ih.append (n := n) (m := 1) (s' := [a]) (t' := []) (.del .nil)
    simpa using this

theorem Align.symm (he : IsEquiv eq) {s t : List Char} {n : Nat} (h : Align eq s t n) : Align eq t s n := by
  induction h with
  | nil => exact .nil
  | keep h _ ih => exact .keep (he.symm _ _ h) ih
  | sub _ ih => exact .sub ih
  | ins _ ih => exact .del ih
  | del _ ih => exact .ins ih

/-- dropping a character of the left string costs at most one -/
theorem Align.left_tail : ∀ {s t : List Char} {n : Nat} {c : Char}, Align eq (c :: s) t n →
    ∃ m, m ≤ n + 1 ∧ Align eq s t m := by
  intro s t n c h
  generalize hs : c :: s = s' at h
  induction h with
  | nil => cases hs
  | keep he h ih => cases hs; exact ⟨_, by omega, .ins h⟩
  | sub h ih => cases hs; exact ⟨_, by omega, .ins h⟩
  | ins h ih => obtain ⟨m, h1, h2⟩ := ih hs; exact ⟨m + 1, by omega, .ins h2⟩
  | del h ih => cases hs; exact ⟨_, by omega, h⟩

/-- one edit of the left string changes the cost by at most one -/
theorem Align.edit {s s' : List Char} (h : Edit1 s s') : ∀ {t : List Char} {n : Nat}, Align eq s' t n →
    ∃ m, m ≤ n + 1 ∧ Align eq s t m := by
  -- common prefix `u`
  have pre : ∀ (u x y : List Char), (∀ {t : List Char} {n : Nat}, Align eq y t n → ∃ m, m ≤ n + 1 ∧ Align eq x t m) →
      ∀ {t : List Char} {n : Nat}, Align eq (u ++ y) t n → ∃ m, m ≤ n + 1 ∧ Align eq (u ++ x) t m := by
    intro u
    induction u with
    | nil => intro x y h t n h1; exact h h1
    | cons a u ihu =>
      intro x y h t n h1
      generalize hs : a :: u ++ y = z at h1
      induction h1 with
      | nil => cases hs
      | keep he h1 ih =>
        cases hs
        obtain ⟨m, e1, e2⟩ := ihu x y h h1
        exact ⟨m, e1, .keep he e2⟩
      | sub h1 ih =>
        cases hs
        obtain ⟨m, e1, e2⟩ := ihu x y h h1
        exact ⟨m + 1, by omega, .sub e2⟩
      | ins h1 ih =>
        obtain ⟨m, e1, e2⟩ := ih hs
        exact ⟨m + 1, by omega, .ins e2⟩
      | del h1 ih =>
        cases hs
        obtain ⟨m, e1, e2⟩ := ihu x y h h1
        exact ⟨m + 1, by omega, .del e2⟩
  cases h with
  | ins u c v => intro t n h; exact pre u v (c :: v) (fun h => h.left_tail) h
  | del u c v => intro t n h; exact pre u (c :: v) v (fun h => ⟨_, Nat.le_refl _, .del h⟩) h
  | sub u c d v =>
    intro t n h0
    refine pre u (c :: v) (d :: v) ?_ h0
    intro t n h
    generalize hs : d :: v = z at h
    induction h with
    | nil => cases hs
    | keep he h ih => cases hs; exact ⟨_, Nat.le_refl _, .sub h⟩
    | sub h ih => cases hs; exact ⟨_, by omega, .sub h⟩
    | ins h ih => obtain ⟨m, h1, h2⟩ := ih hs; exact ⟨m + 1, by omega, .ins h2⟩
    | del h ih => cases hs; exact ⟨_, by omega, .del h⟩

theorem Same.align {s t : List Char} (h : Same eq s t) : Align eq s t 0 := by
  induction h with
  | nil => exact .nil
  | cons he _ ih => exact .keep he ih

theorem Edits.align {n : Nat} {s t : List Char} (h : Edits eq n s t) : ∃ m, m ≤ n ∧ Align eq s t m := by
  induction h with
  | zero h => exact ⟨0, Nat.le_refl _, h.align⟩
  | step h1 _ ih =>
    obtain ⟨m, h2, h3⟩ := ih
    obtain ⟨k, h4, h5⟩ := Align.edit h1 h3
    exact ⟨k, by omega, h5⟩

theorem Same.refl (he : IsEquiv eq) : ∀ s : List Char, Same eq s s
  | [] => .nil
  | a :: s => .cons (he.refl a) (Same.refl he s)

theorem Edit1.cons {s s' : List Char} (a : Char) (h : Edit1 s s') : Edit1 (a :: s) (a :: s') := by
  cases h with
  | ins u c v => exact .ins (a :: u) c v
  | del u c v => exact .del (a :: u) c v
  | sub u c d v => exact .sub (a :: u) c d v

theorem Edits.cons {n : Nat} {s t : List Char} {a b : Char} (h : Edits eq n s t) (hab : eq a b = true) :
    Edits eq n (a :: s) (b :: t) := by
  induction h with
  | zero h => exact .zero (.cons hab h)
  | step h1 _ ih => exact .step (h1.cons a) ih

theorem Align.edits (he : IsEquiv eq) {n : Nat} {s t : List Char} (h : Align eq s t n) : Edits eq n s t := by
  induction h with
  | nil => exact .zero .nil
  | keep h _ ih => exact ih.cons h
  | @sub a b s t n _ ih => exact .step (.sub [] a b s) (ih.cons (he.refl b))
  | @ins b s t n _ ih => exact .step (.ins [] b s) (ih.cons (he.refl b))
  | @del a s t n _ ih => exact .step (.del [] a s) ih

/-- least cost -/
def lev (eq : Char → Char → Bool) : List Char → List Char → Nat
  | [], t => t.length
  | s, [] => s.length
  | a :: s, b :: t =>
    min3 (lev eq (a :: s) t + 1) (lev eq s (b :: t) + 1) (lev eq s t + (if eq a b then 0 else 1))
termination_by s t => s.length + t.length

theorem lev_nil_right (s : List Char) : lev eq s [] = s.length := by cases s <;> simp [lev]

theorem min3_le (a b c : Nat) : min3 a b c ≤ a ∧ min3 a b c ≤ b ∧ min3 a b c ≤ c := by
  unfold min3; repeat' split
  all_goals omega

theorem min3_cases (a b c : Nat) : min3 a b c = a ∨ min3 a b c = b ∨ min3 a b c = c := by
  unfold min3; repeat' split
  all_goals simp

theorem align_insAll : ∀ t : List Char, Align eq [] t t.length
  | [] => .nil
  | _ :: t => .ins (align_insAll t)

theorem align_delAll : ∀ s : List Char, Align eq s [] s.length
  | [] => .nil
  | _ :: s => .del (align_delAll s)

theorem lev_align : ∀ (n : Nat) (s t : List Char), s.length + t.length = n → Align eq s t (lev eq s t) := by
  intro n
  induction n using Nat.strongRecOn with
  | _ n ih =>
  intro s t hn
  match s, t with
  | [], t => rw [lev]; exact align_insAll t
  | a :: s, [] => rw [lev_nil_right]; exact align_delAll _
  | a :: s, b :: t =>
    simp only [List.length_cons] at hn
    rw [lev]
    rcases min3_cases (lev eq (a :: s) t + 1) (lev eq s (b :: t) + 1) (lev eq s t + (if eq a b then 0 else 1)) with h | h | h
    · rw [h]; exact .ins (ih (n - 1) (by omega) (a :: s) t (by simp; omega))
    · rw [h]; exact .del (ih (n - 1) (by omega) s (b :: t) (by simp; omega))
    · rw [h]
      have := ih (s.length + t.length) (by omega) s t rfl
      split
      · rename_i he; exact .keep he this
      · exact .sub this

theorem lev_succ_left : ∀ (n : Nat) (a : Char) (s t : List Char), s.length + t.length = n →
    lev eq s t ≤ lev eq (a :: s) t + 1 ∧ lev eq (a :: s) t ≤ lev eq s t + 1 ∧
    lev eq t s ≤ lev eq t (a :: s) + 1 ∧ lev eq t (a :: s) ≤ lev eq t s + 1 := by
  intro n
  induction n using Nat.strongRecOn with
  | _ n ih =>
  intro a s t hn
  match t with
  | [] => rw [lev_nil_right, lev_nil_right, lev, lev]; simp; omega
  | b :: t =>
    simp only [List.length_cons] at hn
    have h1 := ih (s.length + t.length) (by omega) a s t rfl
    have hb := ih (s.length + t.length) (by omega) b t s (by omega)
    have e1 : lev eq (a :: s) (b :: t) = _ := lev.eq_3 eq a s b t
    have e2 : lev eq (b :: t) (a :: s) = _ := lev.eq_3 eq b t a s
    have m1 := min3_le (lev eq (a :: s) t + 1) (lev eq s (b :: t) + 1) (lev eq s t + (if eq a b then 0 else 1))
    have m2 := min3_le (lev eq (b :: t) s + 1) (lev eq t (a :: s) + 1) (lev eq t s + (if eq b a then 0 else 1))
    have c1 := min3_cases (lev eq (a :: s) t + 1) (lev eq s (b :: t) + 1) (lev eq s t + (if eq a b then 0 else 1))
    have c2 := min3_cases (lev eq (b :: t) s + 1) (lev eq t (a :: s) + 1) (lev eq t s + (if eq b a then 0 else 1))
    rw [← e1] at m1 c1
    rw [← e2] at m2 c2
    refine ⟨?_, by omega, ?_, by omega⟩
    · rcases c1 with h | h | h
      · omega
      · omega
      · split at h <;> omega
    · rcases c2 with h | h | h
      · omega
      · omega
      · split at h <;> omega

theorem lev_le {s t : List Char} {n : Nat} (h : Align eq s t n) : lev eq s t ≤ n := by
  induction h with
  | nil => rw [lev]; simp
  | @keep a b s t n he _ ih =>
    rw [lev]
    have := (min3_le (lev eq (a :: s) t + 1) (lev eq s (b :: t) + 1) (lev eq s t + (if eq a b then 0 else 1))).2.2
    rw [if_pos he] at this ⊢
    omega
  | @sub a b s t n _ ih =>
    rw [lev]
    have := (min3_le (lev eq (a :: s) t + 1) (lev eq s (b :: t) + 1) (lev eq s t + (if eq a b then 0 else 1))).2.2
    have h2 : (if eq a b then 0 else 1) ≤ 1 := by split <;> omega
    omega
  | @ins b s t n _ ih =>
    have := (lev_succ_left (eq := eq) _ b t s rfl).2.2.2
    omega
  | @del a s t n _ ih =>
    have := (lev_succ_left (eq := eq) _ a s t rfl).2.1
    omega

/-- distances of the prefixes of `p.reverse ++ s` (longer than `p`) to `q.reverse` -/
def levCol (eq : Char → Char → Bool) : List Char → List Char → List Char → List Nat
  | _, _, [] => []
  | p, q, a :: s => lev eq (a :: p) q :: levCol eq (a :: p) q s

theorem levInner_spec (b : Char) (q : List Char) : ∀ (s p : List Char),
    levInner eq b (lev eq p q) (lev eq p (b :: q)) (levCol eq p q s) s = levCol eq p (b :: q) s := by
  intro s
  induction s with
  | nil => intro p; rfl
  | cons a s ih =>
    intro p
    rw [levCol, levCol, levInner, ← lev.eq_3 eq a p b q]
    rw [ih]

theorem levOuter_spec (str1 : List Char) : ∀ (t q : List Char),
    levOuter eq str1 (q.length + 1) (lev eq [] q :: levCol eq [] q str1) t =
      lev eq [] (t.reverse ++ q) :: levCol eq [] (t.reverse ++ q) str1 := by
  intro t
  induction t with
  | nil => intro q; rfl
  | cons b t ih =>
    intro q
    rw [levOuter]
    have h1 : q.length + 1 = lev eq [] (b :: q) := by rw [lev]; rfl
    have h2 : q.length + 1 - 1 = lev eq [] q := by rw [lev]; rfl
    conv => lhs; arg 4; rw [List.tail_cons, h2, h1, levInner_spec]
    have := ih (b :: q)
    simp only [List.length_cons] at this
    rw [this]
    simp

theorem levCol_nil : ∀ (s p : List Char), levCol eq p [] s = (List.range s.length).map (· + 1 + p.length) := by
  intro s
  induction s with
  | nil => intro p; rfl
  | cons a s ih =>
    intro p
    rw [levCol, lev_nil_right, ih, List.length_cons, List.length_cons, List.range_succ_eq_map]
    simp only [List.map_cons, List.length_cons, List.map_map, Nat.zero_add, Function.comp_def, List.cons.injEq]
    exact ⟨by omega, List.map_congr_left fun n _ => by omega⟩

theorem levCol_getD (q : List Char) : ∀ (s p : List Char), (lev eq p q :: levCol eq p q s).getD s.length 0 = lev eq (s.reverse ++ p) q := by
  intro s
  induction s with
  | nil => intro p; rfl
  | cons a s ih =>
    intro p
    rw [levCol, List.length_cons, List.getD_cons_succ, ih]
    simp

theorem dp_eq (s t : List Char) :
    (levOuter eq s 1 (0 :: (List.range s.length).map (· + 1)) t).getD s.length 0 = lev eq s.reverse t.reverse := by
  have h := levOuter_spec (eq := eq) s t []
  rw [levCol_nil, lev_nil_right] at h
  simp only [List.length_nil, Nat.zero_add, Nat.add_zero, List.append_nil] at h
  rw [h, levCol_getD]
  simp

theorem lev_reverse (s t : List Char) : lev eq s.reverse t.reverse = lev eq s t := by
  apply Nat.le_antisymm
  · exact lev_le (lev_align _ s t rfl).reverse
  · have := (lev_align (eq := eq) _ s.reverse t.reverse rfl).reverse
    rw [List.reverse_reverse, List.reverse_reverse] at this
    exact lev_le this

theorem lev_symm (he : IsEquiv eq) (s t : List Char) : lev eq s t = lev eq t s :=
  Nat.le_antisymm (lev_le ((lev_align _ t s rfl).symm he)) (lev_le ((lev_align _ s t rfl).symm he))

theorem levImpl_eq (he : IsEquiv eq) (capacity : Nat) (s t : List Char) (h : s.length < capacity ∨ t.length < capacity) :
    levImpl capacity eq s t = (lev eq s t, true) := by
  unfold levImpl
  split
  · rename_i h
    rw [List.length_eq_zero_iff.1 h, lev]
  · split
    · rename_i h
      rw [List.length_eq_zero_iff.1 h, lev_nil_right]
    · by_cases hs : t.length < s.length
      · simp only [hs, if_true]
        rw [if_neg (by omega), dp_eq, lev_reverse, lev_symm he]
      · simp only [hs, if_false]
        rw [if_neg (by omega), dp_eq, lev_reverse]

/-- `d` is the least number of edits leading from `s` to `t` -/
def IsDistance (eq : Char → Char → Bool) (s t : List Char) (d : Nat) : Prop :=
  Edits eq d s t ∧ ∀ n, Edits eq n s t → d ≤ n

theorem lev_isDistance (he : IsEquiv eq) (s t : List Char) : IsDistance eq s t (lev eq s t) := by
  refine ⟨(lev_align _ s t rfl).edits he, fun n h => ?_⟩
  obtain ⟨m, h1, h2⟩ := h.align
  exact Nat.le_trans (lev_le h2) h1

/-- C26. If one of the strings has fewer than 1024 characters, `Distance` is the least number of single
character insertions, deletions and substitutions leading from one to the other, and the assertion in it
holds. -/
theorem C26_distance (s t : List Char) (h : s.length < 1024 ∨ t.length < 1024) :
    (levDistance s t).2 = true ∧ IsDistance eqCase s t (levDistance s t).1 := by
  rw [levDistance, levImpl_eq isEquiv_case _ _ _ h]
  exact ⟨rfl, lev_isDistance isEquiv_case s t⟩

/-- C26. `DistanceI` likewise, where characters that differ only in case are the same. -/
theorem C26_distanceI (s t : List Char) (h : s.length < 1024 ∨ t.length < 1024) :
    (levDistanceI s t).2 = true ∧ IsDistance eqNoCase s t (levDistanceI s t).1 := by
  rw [levDistanceI, levImpl_eq isEquiv_noCase _ _ _ h]
  exact ⟨rfl, lev_isDistance isEquiv_noCase s t⟩

theorem Same.toEq {s t : List Char} (h : Same eqCase s t) : s = t := by
  induction h with
  | nil => rfl
  | cons he _ ih => rw [ih, beq_iff_eq.1 he]

theorem Edits.trans {n m : Nat} {s t u : List Char} (h : Edits eqCase n s t) (h' : Edits eqCase m t u) :
    Edits eqCase (n + m) s u := by
  induction h with
  | zero h => rw [Nat.zero_add, h.toEq]; exact h'
  | step h1 _ ih => rw [Nat.add_right_comm]; exact .step h1 (ih h')

/-- C26. Consequences: zero exactly for equal strings, symmetric, triangle inequality. -/
theorem C26_metric (s t u : List Char) (hs : s.length < 1024) (ht : t.length < 1024) :
    ((levDistance s t).1 = 0 ↔ s = t) ∧ (levDistance s t).1 = (levDistance t s).1 ∧
    (levDistance s u).1 ≤ (levDistance s t).1 + (levDistance t u).1 := by
  have e1 : ∀ a b : List Char, (a.length < 1024 ∨ b.length < 1024) → (levDistance a b).1 = lev eqCase a b := by
    intro a b h; rw [levDistance, levImpl_eq isEquiv_case _ _ _ h]
  rw [e1 s t (Or.inl hs), e1 t s (Or.inl ht), e1 s u (Or.inl hs), e1 t u (Or.inl ht)]
  refine ⟨⟨fun h => ?_, fun h => ?_⟩, lev_symm isEquiv_case s t, ?_⟩
  · have := (lev_isDistance isEquiv_case s t).1
    rw [h] at this
    cases this with
    | zero h => exact h.toEq
  · subst h
    have := (lev_isDistance isEquiv_case s s).2 0 (.zero (.refl isEquiv_case s))
    omega
  · exact (lev_isDistance isEquiv_case s u).2 _
      ((lev_isDistance isEquiv_case s t).1.trans (lev_isDistance isEquiv_case t u).1)

example : levDistance "kitten".toList "sitting".toList = (3, true) ∧
    levDistanceI "Lib".toList "lIBS".toList = (1, true) := by decide

/-- C26, outside the capacity: when both names have 1024 characters or more the assertion fails and the
length of the longer is returned. -/
theorem C26_capacity (s t : List Char) (hs : 1024 ≤ s.length) (ht : 1024 ≤ t.length) :
    levDistance s t = (max s.length t.length, false) := by
  unfold levDistance levImpl
  rw [if_neg (by omega), if_neg (by omega)]
  by_cases h : t.length < s.length
  · simp only [h, if_true]
    rw [if_pos (by omega)]
    congr 1; omega
  · simp only [h, if_false]
    rw [if_pos (by omega)]
    congr 1; omega

end Verif.Str
