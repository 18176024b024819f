import Verif.Str.MatchModel
/-! Property C25: wildcard matching. -/
namespace Verif.Str
variable {eq : Char → Char → Bool}

/-- length of the pattern up to the first star -/
def segLen : List Char → Nat
  | [] => 0
  | b :: p => if b = '*' then 0 else segLen p + 1

theorem Matches.segLen_le {p s : List Char} (h : Matches eq p s) : segLen p ≤ s.length := by
  induction h with
  | nil => simp [segLen]
  | star u h ih => simp [segLen]
  | any h1 h2 ih => simp [segLen]; omega
  | char h1 h2 h3 ih => simp [segLen, h1]; omega

theorem scan_no {p s : List Char} (h : scan eq p s = .no) : s.length < segLen p := by
  induction p generalizing s with
  | nil => simp [scan] at h
  | cons b p ih =>
    by_cases hb : b = '*'
    · simp [scan, hb] at h
    · cases s with
      | nil => simp [segLen, hb]
      | cons a s =>
        simp only [scan, hb, if_false] at h
        simp only [segLen, hb, if_false, List.length_cons]
        split at h
        · have := ih h; omega
        · split at h
          · have := ih h; omega
          · cases h

theorem Matches.step {a b : Char} {p s : List Char} (hb : b ≠ '*') :
    Matches eq (b :: p) (a :: s) ↔ (eq a b = true ∨ (b = '?' ∧ a ≠ '.')) ∧ Matches eq p s := by
  constructor
  · intro h
    generalize h1 : b :: p = x at h
    generalize h2 : a :: s = y at h
    cases h with
    | nil => cases h1
    | star u h => cases h1; exact absurd rfl hb
    | any h3 h4 => cases h1; cases h2; exact ⟨Or.inr ⟨rfl, h3⟩, h4⟩
    | char h3 h4 h5 => cases h1; cases h2; exact ⟨Or.inl h4, h5⟩
  · rintro ⟨h | ⟨rfl, h⟩, h2⟩
    · exact .char hb h h2
    · exact .any h h2

theorem scan_slide {p s : List Char} (h : scan eq p s = .slide) : s ≠ [] ∧ ¬ Matches eq p s := by
  induction p generalizing s with
  | nil => simp [scan] at h
  | cons b p ih =>
    by_cases hb : b = '*'
    · simp [scan, hb] at h
    · cases s with
      | nil => simp [scan, hb] at h
      | cons a s =>
        simp only [scan, hb, if_false] at h
        refine ⟨by simp, fun hm => ?_⟩
        rw [Matches.step hb] at hm
        split at h
        · exact (ih h).2 hm.2
        · rename_i hx
          split at h
          · exact (ih h).2 hm.2
          · rename_i hy
            rcases hm.1 with h1 | h1
            · exact hx h1
            · exact hy h1

theorem scan_seg {p s p' s' : List Char} (h : scan eq p s = .seg p' s') :
    (Matches eq p s ↔ Matches eq p' s') ∧ p' = p.drop (segLen p) ∧ s' = s.drop (segLen p) ∧
    segLen p ≤ s.length ∧ (p' = [] ∨ ∃ q, p' = '*' :: q) := by
  induction p generalizing s with
  | nil => simp only [scan] at h; cases h; simp [segLen]
  | cons b p ih =>
    by_cases hb : b = '*'
    · simp only [scan, hb, if_true] at h; cases h; simp [segLen, hb]
    · cases s with
      | nil => simp [scan, hb] at h
      | cons a s =>
        simp only [scan, hb, if_false] at h
        simp only [segLen, hb, if_false, List.drop_succ_cons, List.length_cons]
        have key : scan eq p s = .seg p' s' → (eq a b = true ∨ (b = '?' ∧ a ≠ '.')) →
            (Matches eq (b :: p) (a :: s) ↔ Matches eq p' s') ∧ p' = p.drop (segLen p) ∧
            s' = s.drop (segLen p) ∧ segLen p + 1 ≤ s.length + 1 ∧ (p' = [] ∨ ∃ q, p' = '*' :: q) := by
          intro h1 h2
          obtain ⟨i1, i2, i3, i4, i5⟩ := ih h1
          refine ⟨?_, i2, i3, by omega, i5⟩
          rw [Matches.step hb, i1]
          exact ⟨fun h => h.2, fun h => ⟨h2, h⟩⟩
        split at h
        · rename_i hx; exact key h (Or.inl hx)
        · split at h
          · rename_i hx; exact key h (Or.inr hx)
          · cases h

theorem Matches.nil_left {s : List Char} : Matches eq [] s ↔ s = [] := by
  constructor
  · intro h; cases h; rfl
  · rintro rfl; exact .nil

/-- a pattern that begins with a star matches iff the rest matches some suffix -/
theorem Matches.star_iff {p s : List Char} : Matches eq ('*' :: p) s ↔ ∃ u t, s = u ++ t ∧ Matches eq p t := by
  constructor
  · intro h
    generalize h1 : '*' :: p = x at h
    cases h with
    | nil => cases h1
    | star u h => cases h1; exact ⟨u, _, rfl, h⟩
    | any h3 h4 => cases h1
    | char h3 h4 h5 => cases h1; exact absurd rfl h3
  · rintro ⟨u, t, rfl, h⟩; exact .star u h

theorem Matches.skipStars {p s : List Char} : Matches eq ('*' :: skipStars p) s ↔ Matches eq ('*' :: p) s := by
  induction p generalizing s with
  | nil => simp [Str.skipStars]
  | cons b p ih =>
    by_cases hb : b = '*'
    · subst hb
      simp only [Str.skipStars, if_true]
      rw [ih]
      constructor
      · intro h; exact .star [] h
      · intro h
        obtain ⟨u, t, rfl, h1⟩ := star_iff.1 h
        obtain ⟨v, w, rfl, h2⟩ := star_iff.1 h1
        exact star_iff.2 ⟨u ++ v, w, by simp, h2⟩
    · simp [Str.skipStars, hb]

theorem skipStars_length (p : List Char) : (skipStars p).length ≤ p.length := by
  induction p with
  | nil => simp [skipStars]
  | cons b p ih => simp only [skipStars]; split <;> simp <;> omega

theorem skipStars_head (p : List Char) : ∀ q, skipStars p ≠ '*' :: q := by
  induction p with
  | nil => simp [skipStars]
  | cons b p ih =>
    intro q
    simp only [skipStars]
    split
    · exact ih q
    · rename_i hb; intro h; cases h; exact hb rfl

/-- a match of a later suffix leaves less to the rest than an earlier match -/
theorem Matches.rest {p s : List Char} (h : Matches eq p s) :
    Matches eq (p.drop (segLen p)) (s.drop (segLen p)) := by
  induction h with
  | nil => simpa [segLen] using Matches.nil
  | star u h ih => simpa [segLen] using Matches.star u h
  | any h1 h2 ih => simpa [segLen] using ih
  | char h1 h2 h3 ih => simpa [segLen, h1] using ih

theorem testMatch_spec : ∀ (fuel : Nat) (star : Bool) (pat str : List Char), (∀ q, pat ≠ '*' :: q) →
    pat.length + str.length < fuel →
    ∃ b, testMatch eq fuel star pat str = some b ∧
      (b = true ↔ if star then Matches eq ('*' :: pat) str else Matches eq pat str) := by
  intro fuel
  induction fuel with
  | zero => intro _ _ _ _ h; omega
  | succ fuel ih =>
    intro star pat str hp hf
    rw [testMatch]
    -- sliding
    have slide : str ≠ [] → ¬ Matches eq pat str →
        ∃ b, (if star then testMatch eq fuel star pat str.tail else some false) = some b ∧
          (b = true ↔ if star then Matches eq ('*' :: pat) str else Matches eq pat str) := by
      intro hne hnm
      cases star with
      | false => exact ⟨false, rfl, by simpa using hnm⟩
      | true =>
        obtain ⟨c, s, rfl⟩ := List.exists_cons_of_ne_nil hne
        obtain ⟨b, h1, h2⟩ := ih true pat s hp (by simp at hf; omega)
        refine ⟨b, by simpa using h1, ?_⟩
        simp only [if_true] at h2 ⊢
        rw [h2, Matches.star_iff, Matches.star_iff]
        constructor
        · rintro ⟨u, t, rfl, h⟩; exact ⟨c :: u, t, rfl, h⟩
        · rintro ⟨u, t, he, h⟩
          cases u with
          | nil => simp only [List.nil_append] at he; subst he; exact absurd h hnm
          | cons x u => simp only [List.cons_append, List.cons.injEq] at he; exact ⟨u, t, he.2, h⟩
    split
    · rename_i hs
      refine ⟨false, rfl, ?_⟩
      have := scan_no hs
      simp only [Bool.false_eq_true, false_iff]
      split
      · rw [Matches.star_iff]
        rintro ⟨u, t, rfl, h⟩
        have := h.segLen_le
        simp at *; omega
      · intro h
        have := h.segLen_le; omega
    · rename_i hs; exact slide (scan_slide hs).1 (scan_slide hs).2
    · rename_i hs
      refine ⟨true, rfl, ?_⟩
      have h1 := (scan_seg hs).1.2 .nil
      simp only [true_iff]
      split
      · exact .star [] h1
      · exact h1
    · rename_i c s hs
      refine slide ?_ ?_
      · intro h
        have := scan_seg hs
        rw [h] at this
        simp at this
      · rw [(scan_seg hs).1, Matches.nil_left]; simp
    · rename_i b p s hs
      obtain ⟨h1, h2, h3, h4, h5⟩ := scan_seg hs
      obtain ⟨q, hq⟩ : ∃ q, b :: p = '*' :: q := h5.resolve_left (by simp)
      cases hq
      have hlen : (skipStars ('*' :: p)).length ≤ p.length := by
        simp only [skipStars, if_true]; exact skipStars_length p
      have hpl : p.length + 1 ≤ pat.length - segLen pat := by
        have := congrArg List.length h2; simp at this; omega
      have hsl : s.length = str.length - segLen pat := by
        have := congrArg List.length h3; simpa using this
      obtain ⟨r, i1, i2⟩ := ih true (skipStars ('*' :: p)) s (skipStars_head _) (by omega)
      refine ⟨r, i1, ?_⟩
      rw [i2]
      simp only [if_true, skipStars, Matches.skipStars]
      split
      · rw [← h1, Matches.star_iff]
        constructor
        · intro h; exact ⟨[], str, rfl, h⟩
        · rintro ⟨u, t, rfl, h⟩
          -- the earliest occurrence leaves more for the star
          rw [h1]
          have hr := h.rest
          rw [← h2] at hr
          obtain ⟨v, w, hv, hm⟩ := Matches.star_iff.1 hr
          have ht := h.segLen_le
          refine Matches.star_iff.2 ⟨(u ++ t.take (segLen pat)).drop (segLen pat) ++ v, w, ?_, hm⟩
          rw [h3, List.append_assoc, ← hv]
          conv => lhs; rw [← List.take_append_drop (segLen pat) t, ← List.append_assoc]
          rw [List.drop_append_of_le_length (by simp; omega)]
      · rw [h1]

theorem matchStr_spec (pat str : List Char) :
    ∃ b, matchStr eq (steps pat str) pat str = some b ∧ (b = true ↔ Matches eq pat str) := by
  unfold matchStr steps
  split
  · rename_i p
    have hlen : (skipStars ('*' :: p)).length ≤ p.length := by
      simp only [skipStars, if_true]; exact skipStars_length p
    obtain ⟨b, h1, h2⟩ := testMatch_spec (eq := eq) (('*' :: p).length + str.length + 1) true (skipStars ('*' :: p)) str
      (skipStars_head _) (by simp; omega)
    refine ⟨b, h1, ?_⟩
    rw [h2]
    simp only [if_true, skipStars, Matches.skipStars]
  · rename_i p hp
    obtain ⟨b, h1, h2⟩ := testMatch_spec (eq := eq) (pat.length + str.length + 1) false pat str
      (fun q hq => hp q hq) (by omega)
    exact ⟨b, h1, by simpa using h2⟩

/-- C25. For every pattern and string `Match` terminates and returns true exactly when the string matches
the pattern in the textbook sense. -/
theorem C25_match (pat str : List Char) :
    ∃ b, match_ pat str = some b ∧ (b = true ↔ Matches (fun a b => a == b) pat str) :=
  matchStr_spec pat str

/-- C25. The same for `MatchI` with characters compared up to ASCII case. -/
theorem C25_matchI (pat str : List Char) :
    ∃ b, matchI pat str = some b ∧ (b = true ↔ Matches (fun a b => lower a == lower b) pat str) :=
  matchStr_spec pat str

/-- C25. Path patterns: case sensitive on Linux only. -/
theorem C25_isWildcardMatch (linux : Bool) (pat str : List Char) :
    ∃ b, isWildcardMatch linux pat str = some b ∧
      (b = true ↔ Matches (fun a b => if linux then a == b else lower a == lower b) pat str) := by
  cases linux
  · simpa [isWildcardMatch] using C25_matchI pat str
  · simpa [isWildcardMatch] using C25_match pat str

/-- C25. A `*` alone matches everything. -/
theorem C25_star (str : List Char) : match_ ['*'] str = some true := by
  obtain ⟨b, h1, h2⟩ := C25_match ['*'] str
  rw [h1, h2.2]
  simpa using Matches.star (eq := fun a b => a == b) str .nil

example : match_ "a*b?d*.cpp".toList "aXbXbcd.h.cpp".toList = some true ∧
    match_ "*.c?p".toList "x.c.p".toList = some false ∧
    match_ "*.CPP".toList "x.cpp".toList = some false ∧ matchI "*.CPP".toList "x.cpp".toList = some true := by
  decide

end Verif.Str
