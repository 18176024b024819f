import Verif.Str.TextSpec
/-! Properties C29, C30 and C32: tokenising, replacing and folder paths. -/
namespace Verif.Str

/-! ### C30 -/

theorem strNCmp0_iff {a b : List Char} : strNCmp0 b.length a b = true ↔ b <+: a := by
  induction b generalizing a with
  | nil => simp [strNCmp0]
  | cons x b ih =>
    cases a with
    | nil => simp [strNCmp0]
    | cons y a =>
      simp only [List.length_cons, strNCmp0, Bool.and_eq_true, beq_iff_eq, ih, List.cons_prefix_cons]
      constructor <;> (rintro ⟨h1, h2⟩; exact ⟨h1.symm, h2⟩)

theorem limitOf_sub {max : UInt32} (h : max - 1 ≠ 0) (h0 : max ≠ 0) :
    limitOf (max - 1) = (limitOf max).map (· - 1) := by
  unfold limitOf
  rw [if_neg h, if_neg h0]
  have h1 : 1 ≤ max := by
    rw [UInt32.le_iff_toNat_le]
    have : max.toNat ≠ 0 := fun h => h0 (UInt32.toNat_inj.1 h)
    simp; omega
  simp [UInt32.toNat_sub_of_le _ _ h1]

theorem Subst.short {frm to : List Char} {l : Option Nat} : ∀ {s : List Char}, s.length < frm.length →
    Subst frm to l s s 0 := by
  intro s
  induction s with
  | nil => intro _; exact .done
  | cons c s ih =>
    intro h
    by_cases hl : l = some 0
    · subst hl; exact .stop _
    · refine .skip hl ?_ (ih (by simp at h; omega))
      intro hp
      have := hp.length_le
      omega

/-- `rem` is the value of `maxReplaces`, `lim` the limit it stands for: none while it counts down from a
wrapped zero -/
theorem replaceGo_spec (frm to : List Char) (hf : 0 < frm.length) : ∀ (fuel : Nat) (max : UInt32) (lim : Option Nat)
    (count : Nat) (temp s : List Char), s.length < fuel →
    ((lim = none ∧ (max = 0 ∨ s.length < max.toNat)) ∨ (lim = some max.toNat ∧ max ≠ 0)) → s.length < 2 ^ 32 - 1 →
    ∃ out k, replaceGo frm to fuel max count temp s = some (temp ++ out, count + k) ∧ Subst frm to lim s out k := by
  intro fuel
  induction fuel with
  | zero => intro _ _ _ _ _ h; omega
  | succ fuel ih =>
    intro max lim count temp s hs hm hlen
    rw [replaceGo]
    have hl0 : lim ≠ some 0 := by
      rcases hm with ⟨h, _⟩ | ⟨h, h2⟩
      · simp [h]
      · rw [h]; intro h3; exact h2 (UInt32.toNat_inj.1 (by simpa using h3))
    split
    · rename_i hle
      split
      · rename_i hc
        obtain ⟨t, rfl⟩ := strNCmp0_iff.1 hc
        dsimp only
        rw [List.drop_left]
        simp only [List.length_append] at hs hlen hle hm
        split
        · rename_i h0
          have h1 : max = 1 := by
            have := congrArg (· + 1) h0
            simpa using this
          subst h1
          rcases hm with ⟨_, h | h⟩ | ⟨h, _⟩
          · exact absurd h (by decide)
          · have : (1 : UInt32).toNat = 1 := rfl
            omega
          · refine ⟨to ++ t, 1, by simp, ?_⟩
            rw [h]
            exact .hit (by decide) (.stop t)
        · rename_i h0
          have hsub : ∃ lim', ((lim' = none ∧ (max - 1 = 0 ∨ t.length < (max - 1).toNat)) ∨
              (lim' = some (max - 1).toNat ∧ max - 1 ≠ 0)) ∧ lim' = lim.map (· - 1) := by
            rcases hm with ⟨h, h2⟩ | ⟨h, h2⟩
            · refine ⟨none, Or.inl ⟨rfl, Or.inr ?_⟩, by simp [h]⟩
              rcases h2 with h2 | h2
              · subst h2
                have : ((0 : UInt32) - 1).toNat = 2 ^ 32 - 1 := by decide
                omega
              · have h1 : 1 ≤ max := by
                  rw [UInt32.le_iff_toNat_le]; simp; omega
                rw [UInt32.toNat_sub_of_le _ _ h1]; simp; omega
            · refine ⟨some (max - 1).toNat, Or.inr ⟨rfl, h0⟩, ?_⟩
              have := limitOf_sub h0 h2
              unfold limitOf at this
              rw [if_neg h0, if_neg h2] at this
              rw [h]; exact this
          obtain ⟨lim', h3, rfl⟩ := hsub
          obtain ⟨out, k, i1, i2⟩ := ih (max - 1) _ (count + 1) (temp ++ to) t (by omega) h3 (by omega)
          refine ⟨to ++ out, k + 1, ?_, .hit hl0 i2⟩
          rw [i1]; simp; omega
      · rename_i hc
        cases s with
        | nil => exact absurd hle (by simp only [List.length_nil]; omega)
        | cons c s =>
          have hnp : ¬ frm <+: c :: s := fun h => hc (strNCmp0_iff.2 h)
          simp only [List.take_succ_cons, List.take_zero, List.drop_succ_cons, List.drop_zero]
          simp only [List.length_cons] at hs hlen hm
          obtain ⟨out, k, i1, i2⟩ := ih max lim count (temp ++ [c]) s (by omega)
            (hm.imp (fun h => ⟨h.1, h.2.imp id (by omega)⟩) id) (by omega)
          refine ⟨c :: out, k, ?_, .skip hl0 hnp i2⟩
          rw [i1]; simp
    · exact ⟨s, 0, by simp, .short (by omega)⟩

theorem Subst.unchanged {frm to : List Char} {l : Option Nat} {s out : List Char} {k : Nat}
    (h : Subst frm to l s out k) (hk : k = 0) : out = s := by
  induction h with
  | stop s => rfl
  | done => rfl
  | hit _ _ _ => omega
  | skip _ _ _ ih => rw [ih hk]

/-- C30. For every string (of fewer than 2^32 - 1 characters), non-empty pattern, replacement and limit,
`Replace` terminates, and its result and count are those of the left-to-right non-overlapping
substitution. -/
theorem C30_replace (frm to : List Char) (max : UInt32) (s : List Char) (hf : frm ≠ [])
    (hs : s.length < 2 ^ 32 - 1) :
    ∃ out k, replace frm to max s = some (out, k) ∧ Subst frm to (limitOf max) s out k := by
  have hf' : 0 < frm.length := List.length_pos_iff.2 hf
  obtain ⟨out, k, h1, h2⟩ := replaceGo_spec frm to hf' (s.length + 1) max (limitOf max) 0 [] s (by omega) (by
    unfold limitOf
    split
    · exact Or.inl ⟨rfl, Or.inl (by assumption)⟩
    · exact Or.inr ⟨rfl, by assumption⟩) hs
  refine ⟨out, k, ?_, h2⟩
  unfold replace
  rw [if_neg (by omega), h1]
  simp only [List.nil_append, Nat.zero_add]
  split
  · rfl
  · rename_i hk
    have hk : k = 0 := by omega
    rw [h2.unchanged hk]

/-- C30. An empty pattern leaves the string alone. -/
theorem C30_replace_empty (to : List Char) (max : UInt32) (s : List Char) : replace [] to max s = some (s, 0) := by
  simp [replace]

/-- join with a separator, as in `a.b.c` -/
def joinWith (sep : List Char) : List (List Char) → List Char
  | [] => []
  | [p] => p
  | p :: ps => p ++ sep ++ joinWith sep ps

theorem joinWith_cons (sep p : List Char) (ps : List (List Char)) (h : ps ≠ []) :
    joinWith sep (p :: ps) = p ++ sep ++ joinWith sep ps := by
  cases ps with
  | nil => exact absurd rfl h
  | cons q ps => rfl

/-- What `Subst` means: the string is cut at `k` occurrences of the pattern and glued with the
replacement; at most `limit` cuts are made, and if fewer are made none is left in the last piece. -/
theorem Subst.pieces {frm to : List Char} {l : Option Nat} {s out : List Char} {k : Nat} (hf : frm ≠ [])
    (h : Subst frm to l s out k) :
    (∀ n, l = some n → k ≤ n) ∧ out.length + k * frm.length = s.length + k * to.length ∧
    ∃ ps last, ps.length = k ∧ s = joinWith frm (ps ++ [last]) ∧ out = joinWith to (ps ++ [last]) ∧
      (l ≠ some k → ∀ u v, last ≠ u ++ frm ++ v) := by
  induction h with
  | stop s =>
    exact ⟨fun n h => Nat.zero_le _, by omega, [], s, rfl, rfl, rfl, fun h => absurd rfl h⟩
  | done =>
    refine ⟨fun n h => Nat.zero_le _, by omega, [], [], rfl, rfl, rfl, fun _ u v h => ?_⟩
    have := congrArg List.length h
    have := List.length_pos_iff.2 hf
    simp at *; omega
  | @hit l s out k h1 h2 ih =>
    obtain ⟨i1, i2, ps, last, i3, i4, i5, i6⟩ := ih
    refine ⟨fun n h => ?_, ?_, [] :: ps, last, by simp [i3], ?_, ?_, fun h => i6 ?_⟩
    · subst h
      have := i1 (n - 1) rfl
      have : n ≠ 0 := fun h => h1 (by rw [h])
      omega
    · simp only [List.length_append, Nat.add_mul, Nat.one_mul] at i2 ⊢; omega
    · rw [List.cons_append, joinWith_cons _ _ _ (by simp), ← i4]; rfl
    · rw [List.cons_append, joinWith_cons _ _ _ (by simp), ← i5]; rfl
    · intro h7
      apply h
      cases l with
      | none => simp at h7
      | some n =>
        simp at h7
        have : n ≠ 0 := fun h => h1 (by rw [h])
        congr 1; omega
  | @skip l c s out k h1 h2 h3 ih =>
    obtain ⟨i1, i2, ps, last, i3, i4, i5, i6⟩ := ih
    refine ⟨i1, by simp only [List.length_cons] at i2 ⊢; omega, ?_⟩
    cases ps with
    | nil =>
      simp only [List.nil_append, joinWith] at i4 i5
      refine ⟨[], c :: last, i3, by rw [i4]; rfl, by rw [i5]; rfl, fun h u v hu => ?_⟩
      cases u with
      | nil =>
        apply h2
        rw [i4, hu]
        simp
      | cons x u =>
        simp only [List.cons_append, List.cons.injEq] at hu
        exact i6 h u v hu.2
    | cons p ps =>
      refine ⟨(c :: p) :: ps, last, i3, ?_, ?_, i6⟩
      · rw [List.cons_append, joinWith_cons _ _ _ (by simp)] at i4 ⊢
        rw [i4]; simp
      · rw [List.cons_append, joinWith_cons _ _ _ (by simp)] at i5 ⊢
        rw [i5]; simp

/-- C30, in terms of cutting and gluing. -/
theorem C30_replace_pieces (frm to : List Char) (max : UInt32) (s : List Char) (hf : frm ≠ [])
    (hs : s.length < 2 ^ 32 - 1) :
    ∃ out k ps last, replace frm to max s = some (out, k) ∧ ps.length = k ∧ (max ≠ 0 → k ≤ max.toNat) ∧
      s = joinWith frm (ps ++ [last]) ∧ out = joinWith to (ps ++ [last]) ∧
      (max = 0 ∨ k < max.toNat → ∀ u v, last ≠ u ++ frm ++ v) := by
  obtain ⟨out, k, h1, h2⟩ := C30_replace frm to max s hf hs
  obtain ⟨h3, _, ps, last, h4, h5, h6, h7⟩ := h2.pieces hf
  refine ⟨out, k, ps, last, h1, h4, fun h => h3 _ (by simp [limitOf, h]), h5, h6, fun h => h7 ?_⟩
  unfold limitOf
  split
  · simp
  · rename_i h0
    intro h8
    simp at h8
    rcases h with h | h
    · exact h0 h
    · omega

example : replace "aa".toList "b".toList 0 "aaaxaa".toList = some ("baxb".toList, 2) ∧
    replace "aa".toList "aaa".toList 1 "xaaaa".toList = some ("xaaaaa".toList, 1) := by decide

/-- the character version -/
theorem replaceChar_spec (frm to : Char) (max : UInt32) : ∀ (s : List Char) (count : UInt32),
    count.toNat + s.length < 2 ^ 32 → (max = 0 ∨ count < max) →
    ∃ k, (replaceChar frm to max count s).2.toNat = count.toNat + k ∧
      Subst [frm] [to] (if max = 0 then none else some (max.toNat - count.toNat)) s (replaceChar frm to max count s).1 k := by
  intro s
  induction s with
  | nil => intro count _ _; exact ⟨0, rfl, .done⟩
  | cons c s ih =>
    intro count hc hm
    simp only [List.length_cons] at hc
    have hadd : (count + 1).toNat = count.toNat + 1 := by
      rw [UInt32.toNat_add]; simp; omega
    have hl0 : (if max = 0 then none else some (max.toNat - count.toNat)) ≠ some 0 := by
      split
      · simp
      · rename_i h0
        have := UInt32.lt_iff_toNat_lt.1 (hm.resolve_left h0)
        simp; omega
    rw [replaceChar]
    split
    · rename_i he
      subst he
      dsimp only
      split
      · rename_i hcm
        refine ⟨1, hadd, ?_⟩
        have h0 : max ≠ 0 := by
          intro h0
          rw [h0] at hcm
          have := congrArg UInt32.toNat hcm
          rw [hadd] at this; simp at this
        have hone : max.toNat - count.toNat = 1 := by rw [← hcm, hadd]; omega
        rw [if_neg h0, hone]
        exact .hit (s := s) (out := s) (by decide) (.stop s)
      · rename_i hcm
        have hm' : max = 0 ∨ count + 1 < max := by
          rcases hm with h | h
          · exact Or.inl h
          · right
            rw [UInt32.lt_iff_toNat_lt] at h ⊢
            have : (count + 1).toNat ≠ max.toNat := fun h => hcm (UInt32.toNat_inj.1 h)
            omega
        obtain ⟨k, i1, i2⟩ := ih (count + 1) (by omega) hm'
        refine ⟨k + 1, by rw [i1, hadd]; omega, ?_⟩
        refine Subst.hit (s := s) hl0 ?_
        have hl : Option.map (· - 1) (if max = 0 then none else some (max.toNat - count.toNat)) =
            (if max = 0 then none else some (max.toNat - (count + 1).toNat)) := by
          split
          · rfl
          · rw [hadd]; simp; omega
        rw [hl]; exact i2
    · rename_i he
      obtain ⟨k, i1, i2⟩ := ih count (by omega) hm
      refine ⟨k, i1, ?_⟩
      refine Subst.skip hl0 (fun h => ?_) i2
      simp at h; exact he h.symm

/-- C30. Replacing characters: the same with one character patterns. -/
theorem C30_replaceChar (frm to : Char) (max : UInt32) (s : List Char) (hs : s.length < 2 ^ 32) :
    Subst [frm] [to] (limitOf max) s (replaceChar frm to max 0 s).1 (replaceChar frm to max 0 s).2.toNat := by
  obtain ⟨k, h1, h2⟩ := replaceChar_spec frm to max s 0 (by simpa using hs) (by
    by_cases h : max = 0
    · exact Or.inl h
    · right
      rw [UInt32.lt_iff_toNat_lt]
      have : max.toNat ≠ 0 := fun h' => h (UInt32.toNat_inj.1 h')
      simp; omega)
  have : (replaceChar frm to max 0 s).2.toNat = k := by simpa using h1
  rw [this]
  simpa [limitOf] using h2

example : replaceChar 'a' 'b' 2 0 "aaca".toList = ("bbca".toList, 2) := by decide

end Verif.Str
