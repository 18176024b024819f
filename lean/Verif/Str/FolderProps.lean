import Verif.Str.TextProps
/-! Property C32: folder and file path normalisation. -/
namespace Verif.Str

theorem Subst.map {frm to : Char} {l : Option Nat} {s out : List Char} {k : Nat} (h : Subst [frm] [to] l s out k)
    (hl : l = none) : out = s.map fun c => if c = frm then to else c := by
  induction h with
  | stop s => cases hl
  | done => rfl
  | hit _ _ ih => subst hl; simp [ih rfl]
  | @skip l c s out k _ h2 _ ih =>
    subst hl
    have : c ≠ frm := fun h => h2 (by simp [h])
    simp [ih rfl, this]

/-- slashes of the other kind turned into native ones -/
def nativise (p : Platform) (s : List Char) : List Char := s.map fun c => if c = other p then native p else c

theorem replaceChar_nativise (p : Platform) (s : List Char) (hs : s.length < 2 ^ 32) :
    (replaceChar (other p) (native p) 0 0 s).1 = nativise p s :=
  (C30_replaceChar (other p) (native p) 0 s hs).map (by simp [limitOf])

theorem squeeze_cc (c : Char) (s : List Char) : squeeze c (c :: c :: s) = squeeze c (c :: s) := by
  conv => lhs; rw [squeeze]
  simp

theorem squeeze_head (c : Char) : ∀ s : List Char, (squeeze c s).head? = s.head? := by
  intro s
  induction s with
  | nil => rfl
  | cons a s ih =>
    rw [squeeze]
    split
    · rename_i h; rw [ih, h.2, h.1]; rfl
    · rfl

theorem Subst.squeeze {c : Char} {l : Option Nat} {s out : List Char} {k : Nat}
    (h : Subst [c, c] [c] l s out k) :
    squeeze c out = Str.squeeze c s ∧ out.head? = s.head? ∧ out.length + k = s.length := by
  induction h with
  | stop s => exact ⟨rfl, rfl, rfl⟩
  | done => exact ⟨rfl, rfl, rfl⟩
  | @hit l s out k _ h2 ih =>
    obtain ⟨i1, i2, i3⟩ := ih
    refine ⟨?_, rfl, by simp; omega⟩
    show Str.squeeze c (c :: out) = Str.squeeze c (c :: c :: s)
    rw [squeeze_cc, Str.squeeze, Str.squeeze, i1, i2]
  | @skip l a s out k _ _ _ ih =>
    obtain ⟨i1, i2, i3⟩ := ih
    refine ⟨?_, rfl, by simp; omega⟩
    rw [Str.squeeze, Str.squeeze, i1, i2]

theorem squeeze_of_noDouble {c : Char} : ∀ {s : List Char}, NoDouble c s → squeeze c s = s := by
  intro s
  induction s with
  | nil => intro _; rfl
  | cons a s ih =>
    intro h
    rw [squeeze, if_neg, ih]
    · intro u v hu; exact h (a :: u) v (by rw [hu]; rfl)
    · rintro ⟨rfl, h2⟩
      cases s with
      | nil => cases h2
      | cons b s => simp at h2; subst h2; exact h [] s rfl

theorem noDouble_squeeze (c : Char) : ∀ s : List Char, NoDouble c (squeeze c s) := by
  intro s
  induction s with
  | nil => intro u v h; cases u <;> cases h
  | cons a s ih =>
    rw [squeeze]
    split
    · exact ih
    · rename_i h
      intro u v hu
      cases u with
      | nil =>
        simp only [List.nil_append, List.cons.injEq] at hu
        have := squeeze_head c s
        rw [hu.2] at this
        exact h ⟨hu.1, this.symm⟩
      | cons x u =>
        simp only [List.cons_append, List.cons.injEq] at hu
        exact ih u v hu.2

theorem collapseLoop_spec (p : Platform) : ∀ (fuel : Nat) (s : List Char), s.length < fuel → s.length < 2 ^ 32 - 1 →
    collapseLoop p fuel s = some (squeeze (native p) s) := by
  intro fuel
  induction fuel with
  | zero => intro _ h; omega
  | succ fuel ih =>
    intro s h1 h2
    obtain ⟨out, k, h3, h4⟩ := C30_replace [native p, native p] [native p] 0 s (by simp) h2
    obtain ⟨h5, _, h7⟩ := h4.squeeze
    rw [collapseLoop, h3]
    dsimp only
    split
    · rw [ih out (by omega) (by omega), h5]
    · have hk : k = 0 := by omega
      subst hk
      have ho : out = s := h4.unchanged rfl
      subst ho
      obtain ⟨_, _, ps, last, i1, i2, _, i4⟩ := h4.pieces (by simp)
      have : ps = [] := List.length_eq_zero_iff.1 i1
      subst this
      simp only [List.nil_append, joinWith] at i2
      subst i2
      rw [squeeze_of_noDouble]
      intro u v h
      exact i4 (by simp [limitOf]) u v (by simpa using h)

theorem native_slash (p : Platform) : isSlash (native p) = true := by cases p <;> rfl

theorem isSlash_iff (p : Platform) (c : Char) : isSlash c = true ↔ c = native p ∨ c = other p := by
  cases p <;> simp [isSlash, native, other, or_comm]

theorem native_ne_other (p : Platform) : native p ≠ other p := by cases p <;> decide

theorem compsGo_nativise (p : Platform) : ∀ (s cur : List Char), compsGo cur (nativise p s) = compsGo cur s := by
  intro s
  induction s with
  | nil => intro cur; rfl
  | cons c s ih =>
    intro cur
    have h : nativise p (c :: s) = (if c = other p then native p else c) :: nativise p s := rfl
    rw [h, compsGo, compsGo]
    by_cases hc : c = other p
    · rw [if_pos hc, native_slash, if_pos rfl, ih, if_pos (c := isSlash c = true) (hc ▸ (isSlash_iff p _).2 (Or.inr rfl))]
    · rw [if_neg hc, ih, ih]

theorem compsGo_squeeze (c : Char) (hc : isSlash c = true) : ∀ (s cur : List Char),
    compsGo cur (squeeze c s) = compsGo cur s := by
  intro s
  induction s with
  | nil => intro cur; rfl
  | cons a s ih =>
    intro cur
    rw [squeeze]
    split
    · rename_i h
      obtain ⟨rfl, h2⟩ := h
      cases s with
      | nil => cases h2
      | cons b s =>
        simp at h2; subst h2
        rw [ih, compsGo, compsGo, compsGo]
        simp [hc]
    · rw [compsGo, compsGo, ih, ih]

theorem compsGo_snoc (c : Char) (hc : isSlash c = true) : ∀ (s cur : List Char),
    compsGo cur (s ++ [c]) = compsGo cur s := by
  intro s
  induction s with
  | nil =>
    intro cur
    simp only [List.nil_append, compsGo, hc, if_true]
  | cons a s ih =>
    intro cur
    rw [List.cons_append, compsGo, compsGo, ih, ih]

theorem comps_cons (c : Char) (hc : isSlash c = true) (s : List Char) : comps (c :: s) = comps s := by
  unfold comps
  rw [compsGo, if_pos hc, if_pos rfl]

theorem mem_squeeze {c x : Char} : ∀ {s : List Char}, x ∈ squeeze c s → x ∈ s := by
  intro s
  induction s with
  | nil => exact id
  | cons a s ih =>
    rw [squeeze]
    split
    · exact fun h => List.mem_cons_of_mem _ (ih h)
    · intro h
      rcases List.mem_cons.1 h with h | h
      · simp [h]
      · exact List.mem_cons_of_mem _ (ih h)

theorem other_not_mem (p : Platform) (s : List Char) : other p ∉ nativise p s := by
  unfold nativise
  intro h
  obtain ⟨c, _, hc⟩ := List.mem_map.1 h
  split at hc
  · exact native_ne_other p hc
  · rename_i h; exact h hc

theorem prefix_iff (p : Platform) (s : List Char) :
    ([native p, native p].isPrefixOf (nativise p s) = true) ↔ startsDouble s = true := by
  match s with
  | [] => simp [nativise, startsDouble]
  | [a] => simp [nativise, startsDouble]
  | a :: b :: s =>
    have h : ∀ c, (native p = if c = other p then native p else c) ↔ isSlash c = true := by
      intro c
      rw [isSlash_iff p]
      split
      · rename_i h; simp [h]
      · rename_i h; simp [h, eq_comm]
    simp only [nativise, List.map_cons, List.isPrefixOf, Bool.and_true, Bool.and_eq_true, beq_iff_eq, startsDouble, h]

/-- the trailing slash added when missing -/
def withSlash (c : Char) (s : List Char) : List Char := if s.getLast? = some c then s else s ++ [c]

theorem fixupFolderPath_eq (p : Platform) (s : List Char) (hs : s.length < 2 ^ 32 - 1) :
    fixupFolderPath p s = some (withSlash (native p)
      (if p = .windows ∧ startsDouble s = true then native p :: squeeze (native p) (nativise p s)
        else squeeze (native p) (nativise p s))) := by
  unfold fixupFolderPath
  rw [replaceChar_nativise p s (by omega)]
  dsimp only
  rw [collapseLoop_spec p _ _ (by omega) (by simpa [nativise] using hs)]
  simp only [prefix_iff]
  rfl

theorem noDouble_withSlash {c : Char} {s : List Char} (h : NoDouble c s) : NoDouble c (withSlash c s) := by
  unfold withSlash
  split
  · exact h
  · rename_i hl
    intro u v hu
    rcases List.eq_nil_or_concat v with rfl | ⟨v, x, rfl⟩
    · have : s ++ [c] = (u ++ [c]) ++ [c] := by rw [hu]; simp
      have := List.append_inj_left' this rfl
      exact hl (by rw [this]; simp)
    · have : s ++ [c] = (u ++ c :: c :: v) ++ [x] := by rw [hu]; simp
      have := List.append_inj_left' this rfl
      exact h u v this

theorem withSlash_last (c : Char) (s : List Char) : ∃ t, withSlash c s = t ++ [c] := by
  unfold withSlash
  split
  · rename_i h
    obtain ⟨t, ht⟩ := List.getLast?_eq_some_iff.1 h
    exact ⟨t, ht⟩
  · exact ⟨s, rfl⟩

theorem comps_withSlash {c : Char} (hc : isSlash c = true) (s : List Char) : comps (withSlash c s) = comps s := by
  unfold withSlash
  split
  · rfl
  · exact compsGo_snoc c hc s []

theorem mem_withSlash {c x : Char} {s : List Char} (h : x ∈ withSlash c s) : x ∈ s ∨ x = c := by
  unfold withSlash at h
  split at h
  · exact Or.inl h
  · simpa using h

theorem withSlash_of (c : Char) (s : List Char) : withSlash c (withSlash c s) = withSlash c s := by
  obtain ⟨t, ht⟩ := withSlash_last c s
  rw [ht]; unfold withSlash; simp

theorem nativise_of {p : Platform} {s : List Char} (h : other p ∉ s) : nativise p s = s := by
  unfold nativise
  rw [List.map_congr_left (g := id)]
  · simp
  · intro c hc
    rw [if_neg (fun h' : c = other p => h (h' ▸ hc))]; rfl

theorem withSlash_startsDouble (p : Platform) {s : List Char} (h : NoDouble (native p) s) (ho : other p ∉ s) :
    startsDouble (withSlash (native p) s) = false := by
  rw [Bool.eq_false_iff]
  intro hd
  have h1 := noDouble_withSlash h
  have h2 : other p ∉ withSlash (native p) s := by
    intro hm
    rcases mem_withSlash hm with hm | hm
    · exact ho hm
    · exact native_ne_other p hm.symm
  generalize withSlash (native p) s = t at *
  match t, hd with
  | a :: b :: t, hd =>
    simp only [startsDouble, Bool.and_eq_true, isSlash_iff p] at hd
    have ha : a = native p := hd.1.resolve_right fun h => h2 (by simp [h])
    have hb : b = native p := hd.2.resolve_right fun h => h2 (by simp [h])
    subst ha
    exact h1 [] t (by rw [hb]; rfl)

/-- C32. For every path, `FixupFolderPath` terminates with a path that has no slash of the other kind,
ends with a slash, has the same non-empty components in the same order, and has no doubled slash except
that on Windows a leading double slash (network path) is kept. -/
theorem C32_folder (p : Platform) (s : List Char) (hs : s.length < 2 ^ 32 - 1) :
    ∃ r, fixupFolderPath p s = some r ∧ other p ∉ r ∧ r.getLast? = some (native p) ∧ comps r = comps s ∧
      ((p = .windows ∧ startsDouble s = true) ∧ (∃ t, r = native p :: native p :: t ∧ NoDouble (native p) (native p :: t)) ∨
       ¬ (p = .windows ∧ startsDouble s = true) ∧ NoDouble (native p) r) := by
  rw [fixupFolderPath_eq p s hs]
  refine ⟨_, rfl, ?_, ?_, ?_, ?_⟩
  · intro h
    rcases mem_withSlash h with h | h
    · split at h
      · rcases List.mem_cons.1 h with h | h
        · exact native_ne_other p h.symm
        · exact other_not_mem p s (mem_squeeze h)
      · exact other_not_mem p s (mem_squeeze h)
    · exact native_ne_other p h.symm
  · obtain ⟨t, ht⟩ := withSlash_last (native p) (if p = .windows ∧ startsDouble s = true then
      native p :: squeeze (native p) (nativise p s) else squeeze (native p) (nativise p s))
    rw [ht]; simp
  · rw [comps_withSlash (native_slash p)]
    have h : comps (squeeze (native p) (nativise p s)) = comps s := by
      unfold comps
      rw [compsGo_squeeze _ (native_slash p), compsGo_nativise]
    split
    · rw [comps_cons _ (native_slash p), h]
    · exact h
  · by_cases hu : p = .windows ∧ startsDouble s = true
    · left
      refine ⟨hu, ?_⟩
      rw [if_pos hu]
      have hh : (squeeze (native p) (nativise p s)).head? = some (native p) := by
        rw [squeeze_head]
        have := (prefix_iff p s).2 hu.2
        match hq : nativise p s, this with
        | a :: q, this =>
          cases q with
          | nil => simp [List.isPrefixOf] at this
          | cons b q => simp [List.isPrefixOf] at this; rw [← this.1]; rfl
      have hnd := noDouble_squeeze (native p) (nativise p s)
      generalize squeeze (native p) (nativise p s) = q at hh hnd
      cases q with
      | nil => cases hh
      | cons a q =>
        simp at hh; subst hh
        have hw : withSlash (native p) (native p :: native p :: q) = native p :: withSlash (native p) (native p :: q) := by
          unfold withSlash
          simp only [List.getLast?_cons_cons]
          split <;> simp
        rw [hw]
        obtain ⟨t, ht⟩ : ∃ t, withSlash (native p) (native p :: q) = native p :: t := by
          unfold withSlash; split
          · exact ⟨q, rfl⟩
          · exact ⟨q ++ [native p], rfl⟩
        exact ⟨t, by rw [ht], by rw [← ht]; exact noDouble_withSlash hnd⟩
    · right
      refine ⟨hu, ?_⟩
      rw [if_neg hu]
      exact noDouble_withSlash (noDouble_squeeze _ _)

/-- C32. Normalising a normalised folder path changes nothing. -/
theorem C32_folder_idempotent (p : Platform) (s r : List Char) (hs : s.length < 2 ^ 32 - 1)
    (hr : r.length < 2 ^ 32 - 1) (h : fixupFolderPath p s = some r) : fixupFolderPath p r = some r := by
  obtain ⟨r', h1, h2, h3, _, h5⟩ := C32_folder p s hs
  rw [h] at h1
  cases h1
  rw [fixupFolderPath_eq p r hr, nativise_of h2]
  have hw : withSlash (native p) r = r := by unfold withSlash; rw [if_pos h3]
  rcases h5 with ⟨hu, t, ht, hn⟩ | ⟨hu, hn⟩
  · have hsd : startsDouble r = true := by rw [ht]; simp [startsDouble, native_slash]
    rw [if_pos ⟨hu.1, hsd⟩]
    have : native p :: squeeze (native p) r = r := by
      rw [ht, squeeze_cc, squeeze_of_noDouble hn]
    rw [this, hw]
  · have hsd : startsDouble r = false := by
      have := withSlash_startsDouble p hn h2
      rwa [hw] at this
    rw [if_neg (by simp [hsd]), squeeze_of_noDouble hn, hw]

/-- C32. `FixupFilePath` likewise: no slash of the other kind, no doubled slash, same components, and the
first and last character are slashes exactly if they were before; it is idempotent. -/
theorem C32_file (p : Platform) (s : List Char) (hs : s.length < 2 ^ 32 - 1) :
    ∃ r, fixupFilePath p s = some r ∧ other p ∉ r ∧ NoDouble (native p) r ∧ comps r = comps s ∧
      (r.head?.any isSlash = s.head?.any isSlash) ∧ (r.length ≤ s.length) ∧ fixupFilePath p r = some r := by
  have key : ∀ s : List Char, s.length < 2 ^ 32 - 1 → fixupFilePath p s = some (squeeze (native p) (nativise p s)) := by
    intro s hs
    unfold fixupFilePath
    rw [replaceChar_nativise p s (by omega)]
    dsimp only
    rw [collapseLoop_spec p _ _ (by omega) (by simpa [nativise] using hs)]
  have hlen : (squeeze (native p) (nativise p s)).length ≤ s.length := by
    have : ∀ q : List Char, (squeeze (native p) q).length ≤ q.length := by
      intro q
      induction q with
      | nil => exact Nat.le_refl _
      | cons a q ih => rw [squeeze]; split <;> simp only [List.length_cons] <;> omega
    have := this (nativise p s)
    simpa [nativise] using this
  have hno : other p ∉ squeeze (native p) (nativise p s) := fun h => other_not_mem p s (mem_squeeze h)
  refine ⟨_, key s hs, hno, noDouble_squeeze _ _, ?_, ?_, hlen, ?_⟩
  · unfold comps
    rw [compsGo_squeeze _ (native_slash p), compsGo_nativise]
  · rw [squeeze_head]
    cases s with
    | nil => rfl
    | cons a s =>
      simp only [nativise, List.map_cons, List.head?_cons, Option.any_some]
      split
      · rename_i h; rw [native_slash, h, ((isSlash_iff p _).2 (Or.inr rfl))]
      · rfl
  · rw [key _ (by omega), nativise_of hno, squeeze_of_noDouble (noDouble_squeeze _ _)]

/-- C32. `EnsureTrailingSlash` leaves exactly the last character adjusted. -/
theorem C32_trailing (p : Platform) (s : List Char) :
    ∃ t, ensureTrailingSlash p s = t ++ [native p] ∧ (s = t ∧ s.getLast?.any isSlash = false ∨
      ∃ c, isSlash c = true ∧ s = t ++ [c]) := by
  unfold ensureTrailingSlash
  split
  · rename_i h
    obtain ⟨t, ht⟩ := List.getLast?_eq_some_iff.1 h
    exact ⟨t, ht, Or.inr ⟨_, native_slash p, ht⟩⟩
  · rename_i h1
    split
    · rename_i h
      obtain ⟨t, ht⟩ := List.getLast?_eq_some_iff.1 h
      exact ⟨t, by rw [ht]; simp, Or.inr ⟨_, (isSlash_iff p _).2 (Or.inr rfl), ht⟩⟩
    · rename_i h2
      refine ⟨s, rfl, Or.inl ⟨rfl, ?_⟩⟩
      cases hl : s.getLast? with
      | none => rfl
      | some c =>
        rw [Option.any_some, Bool.eq_false_iff]
        intro h
        rcases (isSlash_iff p c).1 h with h | h
        · exact h1 (by rw [hl, h])
        · exact h2 (by rw [hl, h])

example : fixupFolderPath .windows "//srv///a/b".toList = some "\\\\srv\\a\\b\\".toList ∧
    fixupFolderPath .linux "a\\\\b//".toList = some "a/b/".toList ∧
    comps "a\\\\b//".toList = ["a".toList, "b".toList] := by decide

/-- C32, finding: the empty folder becomes the root folder. -/
theorem C32_empty_is_root (p : Platform) : fixupFolderPath p [] = some [native p] := by cases p <;> decide

end Verif.Str
