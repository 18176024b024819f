import Verif.Unity.Model
import Verif.Sort.Props
/-! The order of the files in a unity is a strict weak order; equivalent files have the same name up to case. -/
namespace Verif.Unity

/-- lexicographic order, a prefix comes first -/
def lex : List Int → List Int → Bool
  | [], [] => false
  | [], _ :: _ => true
  | _ :: _, [] => false
  | x :: a, y :: b => if x = y then lex a b else decide (x < y)

theorem lex_asymm : ∀ a b : List Int, lex a b = true → lex b a = false
  | [], [], h => by simp [lex] at h
  | [], _ :: _, _ => rfl
  | _ :: _, [], h => by simp [lex] at h
  | x :: a, y :: b, h => by
    simp only [lex] at h ⊢
    by_cases e : x = y
    · subst e; simp only [if_pos] at h ⊢; exact lex_asymm a b h
    · rw [if_neg e] at h; rw [if_neg (fun q => e q.symm)]; simp at h ⊢; omega

theorem lex_total : ∀ a b : List Int, lex a b = false → lex b a = false → a = b
  | [], [], _, _ => rfl
  | [], _ :: _, h, _ => by simp [lex] at h
  | _ :: _, [], _, h => by simp [lex] at h
  | x :: a, y :: b, h, h' => by
    simp only [lex] at h h'
    by_cases e : x = y
    · subst e; simp only [if_pos] at h h'; rw [lex_total a b h h']
    · rw [if_neg e] at h; rw [if_neg (fun q => e q.symm)] at h'; simp at h h'; omega

theorem lex_trans : ∀ a b c : List Int, lex a b = true → lex b c = true → lex a c = true
  | [], [], _, h, _ => by simp [lex] at h
  | [], _ :: _, [], _, h => by simp [lex] at h
  | [], _ :: _, _ :: _, _, _ => rfl
  | _ :: _, [], _, h, _ => by simp [lex] at h
  | _ :: _, _ :: _, [], _, h => by simp [lex] at h
  | x :: a, y :: b, z :: c, h, h' => by
    simp only [lex] at h h' ⊢
    by_cases e : x = y
    · subst e
      by_cases e' : x = z
      · subst e'; simp only [if_pos] at h h' ⊢; exact lex_trans a b c h h'
      · rw [if_neg e'] at h' ⊢; exact h'
    · rw [if_neg e] at h
      by_cases e' : y = z
      · subst e'; rw [if_neg e]; exact h
      · rw [if_neg e'] at h'
        simp at h h'
        rw [if_neg (by omega)]; simp; omega

theorem lex_negtrans (a b c : List Int) (h : lex a b = false) (h' : lex b c = false) : lex a c = false := by
  cases hac : lex a c with
  | false => rfl
  | true =>
    cases hba : lex b a with
    | false => have := lex_total a b h hba; subst this; rw [h'] at hac; cases hac
    | true => rw [lex_trans b a c hba hac] at h'; cases h'

variable (rank : Char → Int) (sl : Char)

/-- a name as compared -/
def fold (n : Name) : List Int := n.map fun x => rank (lower x)

/-- the directory of a file as compared: with its slash; empty at the top -/
def dirKey (f : File) : List Int :=
  if lastSlash sl f.name = 0 then [] else fold rank (f.name.take (lastSlash sl f.name + 1))

/-- the name in the directory -/
def nameKey (f : File) : List Int := fold rank (f.name.drop (lastSlash sl f.name))

/-- comparing as many characters as both strings have -/
theorem strNCmpI_spec (hr : ∀ x y, rank x = rank y → x = y) : ∀ (n : Nat) (a b : Name), n ≤ a.length → n ≤ b.length →
    (strNCmpI rank n a b = 0 ↔ fold rank (a.take n) = fold rank (b.take n)) ∧
    (strNCmpI rank n a b < 0 ↔ lex (fold rank (a.take n)) (fold rank (b.take n)) = true)
  | 0, _, _, _, _ => by simp [strNCmpI, fold, lex]
  | n + 1, [], _, h, _ => by simp at h
  | n + 1, _ :: _, [], _, h => by simp at h
  | n + 1, x :: a, y :: b, h, h' => by
    have ih := strNCmpI_spec hr n a b (by simpa using h) (by simpa using h')
    simp only [strNCmpI, fold, List.take_succ_cons, List.map_cons, lex, List.cons.injEq]
    by_cases e : lower x = lower y
    · rw [if_pos e]
      simp only [e, true_and, if_pos]
      exact ih
    · have e' : rank (lower x) ≠ rank (lower y) := fun q => e (hr _ _ q)
      rw [if_neg e]
      simp only [e', false_and, if_false, iff_false, decide_eq_true_eq]
      constructor <;> omega

/-- lists of the same length -/
theorem lex_append {a b : List Int} (h : a.length = b.length) (c d : List Int) :
    lex (a ++ c) (b ++ d) = (if a = b then lex c d else lex a b) := by
  induction a generalizing b with
  | nil => cases b with
    | nil => simp
    | cons => simp at h
  | cons x a ih =>
    cases b with
    | nil => simp at h
    | cons y b =>
      simp only [List.length_cons, Nat.add_right_cancel_iff] at h
      simp only [List.cons_append, lex, ih h, List.cons.injEq]
      by_cases e : x = y <;> simp [e]

theorem lex_len {a b : List Int} (h : a.length = b.length) (hab : lex a b = false) (hba : lex b a = false) : a = b :=
  lex_total a b hab hba

/-- splitting at the shorter length -/
theorem lex_take (m : Nat) (a b : List Int) (ha : m ≤ a.length) (hb : m ≤ b.length) :
    lex a b = (if a.take m = b.take m then lex (a.drop m) (b.drop m) else lex (a.take m) (b.take m)) := by
  have h : (a.take m).length = (b.take m).length := by simp; omega
  have := lex_append h (a.drop m) (b.drop m)
  rw [List.take_append_drop, List.take_append_drop] at this
  exact this

theorem fold_take (n : Nat) (a : Name) : (fold rank a).take n = fold rank (a.take n) := by simp [fold, List.map_take]
theorem fold_length (a : Name) : (fold rank a).length = a.length := by simp [fold]

theorem lex_nil_right (a : List Int) : lex a [] = false := by cases a <;> rfl
theorem lex_nil_left (a : List Int) : lex [] a = decide (0 < a.length) := by cases a <;> simp [lex]

/-- the tail comparison: equal up to the shorter length -/
theorem lex_min (a b : List Int) (h : a.take (min a.length b.length) = b.take (min a.length b.length)) :
    lex a b = decide (a.length < b.length) := by
  rw [lex_take (min a.length b.length) a b (by omega) (by omega), if_pos h]
  by_cases hl : a.length ≤ b.length
  · rw [List.drop_of_length_le (by omega), lex_nil_left]
    simp only [List.length_drop]
    congr 1
    apply propext
    omega
  · rw [List.drop_of_length_le (l := b) (by omega), lex_nil_right]
    symm; simp; omega

theorem lastSlash_lt {n : Name} (h : lastSlash sl n ≠ 0) : lastSlash sl n < n.length := by
  unfold lastSlash at *; omega

theorem lastSlash_le (n : Name) : lastSlash sl n ≤ n.length := by unfold lastSlash; omega

/-- there really is a slash at that place -/
theorem lastSlash_get {n : Name} (h : lastSlash sl n ≠ 0) : n[lastSlash sl n]? = some sl := by
  have hlen : (n.reverse.takeWhile (· ≠ sl)).length ≤ n.length := by
    have := (List.takeWhile_sublist (l := n.reverse) (· ≠ sl)).length_le
    simpa using this
  have hlt : (n.reverse.takeWhile (· ≠ sl)).length < n.length := by unfold lastSlash at h; omega
  have h1 : n.reverse[(n.reverse.takeWhile (· ≠ sl)).length]? = some sl := by
    have hd : n.reverse.dropWhile (· ≠ sl) ≠ [] := by
      intro e
      have := List.takeWhile_append_dropWhile (p := (· ≠ sl)) (l := n.reverse)
      rw [e, List.append_nil] at this
      rw [this] at hlt; simp at hlt
    have hsplit := List.takeWhile_append_dropWhile (p := (· ≠ sl)) (l := n.reverse)
    cases hq : n.reverse.dropWhile (· ≠ sl) with
    | nil => exact absurd hq hd
    | cons x xs =>
      have hx : x = sl := by
        have hh := List.head_dropWhile_not (fun x => decide (x ≠ sl)) (l := n.reverse) hd
        have : (n.reverse.dropWhile (fun x => decide (x ≠ sl))).head hd = x := by simp only [hq, List.head_cons]
        rw [this] at hh; simpa using hh
      conv => lhs; arg 1; rw [← hsplit]
      rw [hq, List.getElem?_append_right (by simp)]
      simp [hx]
  rw [List.getElem?_reverse (by simpa using hlt)] at h1
  unfold lastSlash
  exact h1

theorem byName_spec (hr : ∀ x y, rank x = rank y → x = y) (a b : Name) :
    (if strNCmpI rank (min a.length b.length) a b ≠ 0 then decide (strNCmpI rank (min a.length b.length) a b < 0)
     else if a.length ≠ b.length then decide (a.length < b.length) else false) = lex (fold rank a) (fold rank b) := by
  have hs := strNCmpI_spec rank hr (min a.length b.length) a b (by omega) (by omega)
  rw [← fold_take, ← fold_take] at hs
  by_cases h0 : strNCmpI rank (min a.length b.length) a b = 0
  · rw [if_neg (by simp [h0])]
    have := hs.1.mp h0
    rw [lex_min _ _ (by rw [fold_length, fold_length]; exact this), fold_length, fold_length]
    by_cases hl : a.length = b.length
    · simp [hl]
    · rw [if_pos hl]
  · rw [if_pos h0, lex_take (min a.length b.length) (fold rank a) (fold rank b) (by rw [fold_length]; omega)
      (by rw [fold_length]; omega), if_neg (fun q => h0 (hs.1.mpr q))]
    cases hq : lex ((fold rank a).take (min a.length b.length)) ((fold rank b).take (min a.length b.length)) with
    | true => simp [hs.2.mpr hq]
    | false =>
      have : ¬ strNCmpI rank (min a.length b.length) a b < 0 := fun q => by rw [hs.2.mp q] at hq; cases hq
      simp; omega

/-- the comparison of two files in terms of their keys -/
theorem fileLt_spec (hr : ∀ x y, rank x = rank y → x = y) (f g : File) :
    fileLt rank sl f g = (if dirKey rank sl f = dirKey rank sl g then lex (nameKey rank sl f) (nameKey rank sl g)
      else lex (dirKey rank sl f) (dirKey rank sl g)) := by
  have hbn := byName_spec rank hr (f.name.drop (lastSlash sl f.name)) (g.name.drop (lastSlash sl g.name))
  simp only [List.length_drop] at hbn
  unfold fileLt
  dsimp only
  rw [hbn]
  change _ = (if dirKey rank sl f = dirKey rank sl g then lex (fold rank _) (fold rank _) else _)
  by_cases hm : lastSlash sl f.name = 0
  · have hf : dirKey rank sl f = [] := by simp [dirKey, hm]
    rw [if_neg (by omega), hf]
    by_cases hn : lastSlash sl g.name = 0
    · have hg : dirKey rank sl g = [] := by simp [dirKey, hn]
      rw [if_neg (by omega), hg, if_pos rfl]
    · have hlt := lastSlash_lt sl hn
      have hg : (dirKey rank sl g).length = lastSlash sl g.name + 1 := by
        rw [dirKey, if_neg hn, fold_length, List.length_take]; omega
      have hne : [] ≠ dirKey rank sl g := by intro e; rw [← e] at hg; simp at hg
      rw [if_pos (by omega), if_neg hne, lex_nil_left, hg]; simp
  · rw [if_pos (by omega)]
    have hlf := lastSlash_lt sl hm
    have hf : (dirKey rank sl f).length = lastSlash sl f.name + 1 := by
      rw [dirKey, if_neg hm, fold_length, List.length_take]; omega
    by_cases hn : lastSlash sl g.name = 0
    · have hg : dirKey rank sl g = [] := by simp [dirKey, hn]
      rw [if_pos hn, hg, if_neg (by intro e; rw [e] at hf; simp at hf), lex_nil_right]
    · rw [if_neg hn]
      have hlg := lastSlash_lt sl hn
      have hg : (dirKey rank sl g).length = lastSlash sl g.name + 1 := by
        rw [dirKey, if_neg hn, fold_length, List.length_take]; omega
      have hs := strNCmpI_spec rank hr (min (lastSlash sl f.name) (lastSlash sl g.name) + 1) f.name g.name (by omega) (by omega)
      have hfk : (dirKey rank sl f).take (min (lastSlash sl f.name) (lastSlash sl g.name) + 1) =
          fold rank (f.name.take (min (lastSlash sl f.name) (lastSlash sl g.name) + 1)) := by
        rw [dirKey, if_neg hm, fold_take, List.take_take]
        congr 2
        omega
      have hgk : (dirKey rank sl g).take (min (lastSlash sl f.name) (lastSlash sl g.name) + 1) =
          fold rank (g.name.take (min (lastSlash sl f.name) (lastSlash sl g.name) + 1)) := by
        rw [dirKey, if_neg hn, fold_take, List.take_take]
        congr 2
        omega
      rw [← hfk, ← hgk] at hs
      have hmin : min (dirKey rank sl f).length (dirKey rank sl g).length =
          min (lastSlash sl f.name) (lastSlash sl g.name) + 1 := by omega
      by_cases h0 : strNCmpI rank (min (lastSlash sl f.name) (lastSlash sl g.name) + 1) f.name g.name = 0
      · rw [if_neg (by simp [h0])]
        have heq := hs.1.mp h0
        have hlex := lex_min (dirKey rank sl f) (dirKey rank sl g) (by rw [hmin]; exact heq)
        by_cases hmn : lastSlash sl f.name = lastSlash sl g.name
        · rw [if_neg (by simp [hmn])]
          have : dirKey rank sl f = dirKey rank sl g := by
            rw [List.take_of_length_le (by omega), List.take_of_length_le (by omega)] at heq
            exact heq
          rw [if_pos this]
        · rw [if_pos hmn, if_neg (fun e => hmn (by rw [e] at hf; omega)), hlex, hf, hg]
          congr 1; apply propext; omega
      · rw [if_pos h0]
        have hne : (dirKey rank sl f).take (min (lastSlash sl f.name) (lastSlash sl g.name) + 1) ≠
          (dirKey rank sl g).take (min (lastSlash sl f.name) (lastSlash sl g.name) + 1) := fun q => h0 (hs.1.mpr q)
        rw [if_neg (fun e => hne (by rw [e])), lex_take (min (lastSlash sl f.name) (lastSlash sl g.name) + 1)
          (dirKey rank sl f) (dirKey rank sl g) (by omega) (by omega), if_neg hne]
        cases hq : lex ((dirKey rank sl f).take (min (lastSlash sl f.name) (lastSlash sl g.name) + 1))
            ((dirKey rank sl g).take (min (lastSlash sl f.name) (lastSlash sl g.name) + 1)) with
        | true => simp [hs.2.mpr hq]
        | false =>
          have : ¬ strNCmpI rank (min (lastSlash sl f.name) (lastSlash sl g.name) + 1) f.name g.name < 0 :=
            fun q => by rw [hs.2.mp q] at hq; cases hq
          simp; omega

/-- the order of pairs of keys -/
def lex2 (a b : List Int × List Int) : Bool := if a.1 = b.1 then lex a.2 b.2 else lex a.1 b.1

theorem lex2_asymm (a b : List Int × List Int) (h : lex2 a b = true) : lex2 b a = false := by
  unfold lex2 at *
  by_cases e : a.1 = b.1
  · rw [if_pos e] at h; rw [if_pos e.symm]; exact lex_asymm _ _ h
  · rw [if_neg e] at h; rw [if_neg (fun q => e q.symm)]; exact lex_asymm _ _ h

theorem lex2_total (a b : List Int × List Int) (h : lex2 a b = false) (h' : lex2 b a = false) : a = b := by
  unfold lex2 at *
  by_cases e : a.1 = b.1
  · rw [if_pos e] at h; rw [if_pos e.symm] at h'; exact Prod.ext e (lex_total _ _ h h')
  · rw [if_neg e] at h; rw [if_neg (fun q => e q.symm)] at h'; exact absurd (lex_total _ _ h h') e

theorem lex2_trans (a b c : List Int × List Int) (h : lex2 a b = true) (h' : lex2 b c = true) : lex2 a c = true := by
  unfold lex2 at *
  by_cases e : a.1 = b.1
  · rw [if_pos e] at h
    by_cases e' : b.1 = c.1
    · rw [if_pos e'] at h'; rw [if_pos (e.trans e')]; exact lex_trans _ _ _ h h'
    · rw [if_neg e'] at h'; rw [if_neg (fun q => e' (e.symm.trans q)), e]; exact h'
  · rw [if_neg e] at h
    by_cases e' : b.1 = c.1
    · rw [if_neg (fun q => e (q.trans e'.symm)), ← e']; exact h
    · rw [if_neg e'] at h'
      have := lex_trans _ _ _ h h'
      have hne : a.1 ≠ c.1 := by
        intro q; rw [q] at h; rw [lex_asymm _ _ h] at h'; cases h'
      rw [if_neg hne]; exact this

theorem lex2_negtrans (a b c : List Int × List Int) (h : lex2 a b = false) (h' : lex2 b c = false) : lex2 a c = false := by
  cases hac : lex2 a c with
  | false => rfl
  | true =>
    cases hba : lex2 b a with
    | false => have := lex2_total a b h hba; subst this; rw [h'] at hac; cases hac
    | true => rw [lex2_trans b a c hba hac] at h'; cases h'

theorem fileLt_lex2 (hr : ∀ x y, rank x = rank y → x = y) (f g : File) :
    fileLt rank sl f g = lex2 (dirKey rank sl f, nameKey rank sl f) (dirKey rank sl g, nameKey rank sl g) :=
  fileLt_spec rank sl hr f g

theorem fileLt_weak (hr : ∀ x y, rank x = rank y → x = y) : Sort.StrictWeak (fileLt rank sl) where
  asymm := fun a b h => by rw [fileLt_lex2 rank sl hr] at h ⊢; exact lex2_asymm _ _ h
  negtrans := fun a b c h h' => by
    rw [fileLt_lex2 rank sl hr] at h h' ⊢; exact lex2_negtrans _ _ _ h h'

theorem fold_inj (hr : ∀ x y, rank x = rank y → x = y) {a b : Name} (h : fold rank a = fold rank b) :
    a.map lower = b.map lower := by
  induction a generalizing b with
  | nil => cases b with
    | nil => rfl
    | cons => simp [fold] at h
  | cons x a ih =>
    cases b with
    | nil => simp [fold] at h
    | cons y b =>
      simp only [fold, List.map_cons, List.cons.injEq] at h ⊢
      exact ⟨hr _ _ h.1, ih h.2⟩

/-- neither first: same name up to case -/
theorem fileLt_equiv (hr : ∀ x y, rank x = rank y → x = y) (f g : File) (h : fileLt rank sl f g = false)
    (h' : fileLt rank sl g f = false) : f.name.map lower = g.name.map lower := by
  rw [fileLt_lex2 rank sl hr] at h h'
  have he := lex2_total _ _ h h'
  have h1 : dirKey rank sl f = dirKey rank sl g := (Prod.mk.inj he).1
  have h2 : nameKey rank sl f = nameKey rank sl g := (Prod.mk.inj he).2
  have hl : lastSlash sl f.name = lastSlash sl g.name := by
    unfold dirKey at h1
    by_cases hm : lastSlash sl f.name = 0 <;> by_cases hn : lastSlash sl g.name = 0
    · omega
    · rw [if_pos hm, if_neg hn] at h1
      have h5 := congrArg List.length h1
      rw [List.length_nil, fold_length, List.length_take] at h5
      have := lastSlash_lt sl hn
      omega
    · rw [if_neg hm, if_pos hn] at h1
      have h5 := congrArg List.length h1
      rw [List.length_nil, fold_length, List.length_take] at h5
      have := lastSlash_lt sl hm
      omega
    · rw [if_neg hm, if_neg hn] at h1
      have h5 := congrArg List.length h1
      rw [fold_length, fold_length, List.length_take, List.length_take] at h5
      have := lastSlash_lt sl hn
      have := lastSlash_lt sl hm
      omega
  have h3 := fold_inj rank hr h2
  by_cases hm : lastSlash sl f.name = 0
  · rw [← hl, hm] at h3; simpa using h3
  · unfold dirKey at h1
    rw [if_neg hm, if_neg (hl ▸ hm)] at h1
    have h4 := fold_inj rank hr h1
    rw [← hl] at h3 h4
    have h5 : (f.name.take (lastSlash sl f.name)).map lower = (g.name.take (lastSlash sl f.name)).map lower := by
      have := congrArg (List.take (lastSlash sl f.name)) h4
      rw [← List.map_take, ← List.map_take, List.take_take, List.take_take] at this
      simpa using this
    rw [← List.take_append_drop (lastSlash sl f.name) f.name, ← List.take_append_drop (lastSlash sl f.name) g.name,
      List.map_append, List.map_append, h5, h3]

end Verif.Unity
