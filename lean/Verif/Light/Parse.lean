import Verif.Light.Spec
/-
The parser of the light cache finds every directive at the beginning of a line.
-/
namespace Verif.Light
open Verif.Str

theorem ws_not_eol {c : Char} (h : isWs c) : isEol c = false := by
  simp only [isWs, Bool.or_eq_true, beq_iff_eq] at h
  rcases h with rfl | rfl <;> decide

theorem eol_not_ws {c : Char} (h : isEol c) : isWs c = false := by
  simp only [isEol, Bool.or_eq_true, beq_iff_eq] at h
  rcases h with rfl | rfl <;> decide

/-- a directive further on -/
abbrev To (d : List Char) (st : Lex) (s : List Char) : Prop := Steps (st, s) (.start, '#' :: d)

theorem not_opens_of_ne {c : Char} {s : List Char} (h : c ≠ '/') : ¬ blockOpens (c :: s) := by
  rintro ⟨r, e⟩; cases e; exact h rfl

theorem not_closes_of_ne {c : Char} {s : List Char} (h : c ≠ '*') : ¬ blockCloses (c :: s) := by
  rintro ⟨r, e⟩; cases e; exact h rfl

/-- white space at the beginning of a line, or in a comment -/
theorem to_ws {d s : List Char} {c : Char} {st : Lex} (hst : st = .start ∨ st = .block) (hc : isWs c ∨ isEol c)
    (h : To d st (c :: s)) : To d st s := by
  have n1 : c ≠ '/' := by rintro rfl; revert hc; decide
  have n2 : c ≠ '*' := by rintro rfl; revert hc; decide
  have n3 : opens c = false := by
    simp only [isWs, isEol, Bool.or_eq_true, beq_iff_eq] at hc
    rcases hc with (rfl | rfl) | rfl | rfl <;> decide
  have n4 : c ≠ '#' := by rintro rfl; revert hc; decide
  cases h with
  | refl => exact absurd rfl n4
  | head a b =>
    cases a with
    | eol _ _ _ h1 h2 =>
      rcases hst with rfl | rfl
      · exact b
      · exact absurd rfl h1
    | space => exact b
    | text _ _ _ h1 h2 h3 =>
      rcases hst with rfl | rfl
      · rcases hc with hc | hc
        · exact absurd hc (by simp [h3 rfl])
        · exact absurd hc (by simp [h2])
      · simp at h1
    | opens _ _ _ h1 h2 =>
      rcases h2 with h2 | ⟨r, h2⟩
      · exact absurd h2 (by simp [n3])
      · cases h2; exact absurd rfl n1
    | any => simp at hst
    | comment => exact absurd rfl n1
    | inside => exact b
    | close => exact absurd rfl n2

theorem to_skipWs {d : List Char} {st : Lex} (hst : st = .start ∨ st = .block) :
    ∀ {s : List Char}, To d st s → To d st (skipWs s)
  | [], h => h
  | c :: s, h => by
    simp only [skipWs, List.dropWhile_cons]
    split
    · rename_i hc
      exact to_skipWs hst (to_ws hst (Or.inl hc) h)
    · exact h

theorem to_skipEol {d : List Char} {st : Lex} (hst : st = .start ∨ st = .block) :
    ∀ {s : List Char}, To d st s → To d st (skipEol s)
  | [], h => h
  | c :: s, h => by
    simp only [skipEol, List.dropWhile_cons]
    split
    · rename_i hc
      exact to_skipEol hst (to_ws hst (Or.inr hc) h)
    · exact h

/-- a directive on a later line -/
def Later (d s : List Char) : Prop := ∃ st, (st = .start ∨ st = .block) ∧ To d st (skipEol (toEol s))

theorem toEol_cons {c : Char} {s : List Char} (h : isEol c = false) : toEol (c :: s) = toEol s := by
  simp [toEol, List.dropWhile_cons, h]

theorem toEol_eol {c : Char} {s : List Char} (h : isEol c) : toEol (c :: s) = c :: s := by
  simp [toEol, List.dropWhile_cons, h]

theorem later_cons {d s : List Char} {c : Char} (hc : isEol c = false) : Later d (c :: s) ↔ Later d s := by
  simp [Later, toEol_cons hc]

theorem skipEol_cons {c : Char} {s : List Char} (h : isEol c) : skipEol (c :: s) = skipEol s := by
  simp [skipEol, List.dropWhile_cons, h]

/-- off the beginning of the line the directive is on a later one -/
theorem to_later {d : List Char} {a b : Lex × List Char} (h : Steps a b) (hb : b = (.start, '#' :: d)) (hst : a.1 ≠ .start) :
    Later d a.2 := by
  induction h with
  | refl => subst hb; exact absurd rfl hst
  | @head a m c h1 h2 ih =>
    subst hb
    have ih := ih rfl
    cases h1 with
    | eol st c s g1 g2 =>
      refine ⟨.start, Or.inl rfl, ?_⟩
      rw [toEol_eol g2, skipEol_cons g2]
      exact to_skipEol (Or.inl rfl) h2
    | space => exact absurd rfl hst
    | text st c s g1 g2 g3 =>
      exact (later_cons g2).2 (ih (by simp))
    | opens st c s g1 g2 =>
      refine (later_cons ?_).2 (ih (by simp))
      rcases g2 with g2 | ⟨r, g2⟩
      · simp only [opens, Bool.or_eq_true, beq_iff_eq] at g2
        rcases g2 with (rfl | rfl) | rfl <;> decide
      · cases g2; decide
    | any c s g => exact (later_cons g).2 (ih (by simp))
    | comment st s g =>
      exact (later_cons (by decide)).2 ((later_cons (by decide)).2 (ih (by simp)))
    | inside c s g =>
      cases he : isEol c
      · exact (later_cons he).2 (ih (by simp))
      · refine ⟨.block, Or.inr rfl, ?_⟩
        rw [toEol_eol he, skipEol_cons he]
        exact to_skipEol (Or.inr rfl) h2
    | close s =>
      exact (later_cons (by decide)).2 ((later_cons (by decide)).2 (ih (by simp)))

/-- in the middle of a line: outside or inside of a comment -/
def Mid (d s : List Char) : Prop := ∃ st, (st = .plain ∨ st = .block) ∧ To d st s

theorem mid_later {d s : List Char} (h : Mid d s) : Later d s := by
  obtain ⟨st, h1, h2⟩ := h
  exact to_later h2 rfl (by rcases h1 with rfl | rfl <;> simp)

/-- a character which means nothing to comments and strings -/
def dull (c : Char) : Bool := isWs c || idChar c

theorem dull_spec {c : Char} (h : dull c) : c ≠ '/' ∧ c ≠ '*' ∧ c ≠ '#' ∧ isEol c = false ∧ opens c = false := by
  refine ⟨?_, ?_, ?_, ?_, ?_⟩
  · rintro rfl; revert h; decide
  · rintro rfl; revert h; decide
  · rintro rfl; revert h; decide
  · cases h0 : isEol c
    · rfl
    · simp only [isEol, Bool.or_eq_true, beq_iff_eq] at h0
      rcases h0 with rfl | rfl <;> revert h <;> decide
  · cases h0 : opens c
    · rfl
    · simp only [opens, Bool.or_eq_true, beq_iff_eq] at h0
      rcases h0 with (rfl | rfl) | rfl <;> revert h <;> decide

/-- one plain character -/
theorem mid_cons {d s : List Char} {c : Char} (h1 : c ≠ '/') (h2 : c ≠ '*') (h3 : isEol c = false) (h4 : opens c = false)
    (h : Mid d (c :: s)) : Mid d s := by
  obtain ⟨st, hst, h⟩ := h
  cases h with
  | refl => simp at hst
  | head a b =>
    cases a with
    | eol _ _ _ g1 g2 => exact absurd g2 (by simp [h3])
    | space => simp at hst
    | text => exact ⟨_, Or.inl rfl, b⟩
    | opens _ _ _ g1 g2 =>
      rcases g2 with g2 | ⟨r, g2⟩
      · exact absurd g2 (by simp [h4])
      · cases g2; exact absurd rfl h1
    | any => simp at hst
    | comment => exact absurd rfl h1
    | inside => exact ⟨_, Or.inr rfl, b⟩
    | close => exact absurd rfl h2

theorem mid_dull {d s : List Char} {c : Char} (hc : dull c) (h : Mid d (c :: s)) : Mid d s := by
  obtain ⟨h1, h2, _, h3, h4⟩ := dull_spec hc
  exact mid_cons h1 h2 h3 h4 h

theorem mid_app {d : List Char} : ∀ {a s : List Char}, (∀ c ∈ a, dull c) → Mid d (a ++ s) → Mid d s
  | [], _, _, h => h
  | c :: a, s, ha, h =>
    mid_app (a := a) (fun c hc => ha c (List.mem_cons_of_mem _ hc)) (mid_dull (ha c (List.mem_cons_self)) h)

theorem mid_skipWs {d s : List Char} (h : Mid d s) : Mid d (skipWs s) := by
  have e : s = s.takeWhile isWs ++ skipWs s := (List.takeWhile_append_dropWhile (p := isWs)).symm
  rw [e] at h
  refine mid_app ?_ h
  intro c hc
  have := List.all_eq_true.1 List.all_takeWhile c hc
  simp [dull, this]

/-- a comment is left at the same place -/
theorem block_end {d : List Char} : ∀ {s : List Char}, To d .block s → To d .plain (commentEnd s)
  | [], h => by
    cases h with
    | head a b => cases a
  | [c], h => by
    cases h with
    | head a b =>
      cases a with
      | eol _ _ _ g1 => exact absurd rfl g1
      | text _ _ _ g1 => simp at g1
      | opens _ _ _ g1 => simp at g1
      | inside =>
        cases b with
        | head a b => cases a
  | c :: e :: s, h => by
    rw [commentEnd]
    split
    · rename_i hc
      obtain ⟨rfl, rfl⟩ := hc
      cases h with
      | head a b =>
        cases a with
        | eol _ _ _ g1 => exact absurd rfl g1
        | text _ _ _ g1 => simp at g1
        | opens _ _ _ g1 => simp at g1
        | inside _ _ g => exact absurd ⟨_, rfl⟩ g
        | close => exact b
    · rename_i hc
      refine block_end (s := e :: s) ?_
      cases h with
      | head a b =>
        cases a with
        | eol _ _ _ g1 => exact absurd rfl g1
        | text _ _ _ g1 => simp at g1
        | opens _ _ _ g1 => simp at g1
        | comment _ _ g1 => exact absurd rfl g1
        | inside => exact b
        | close => exact absurd ⟨rfl, rfl⟩ hc
  termination_by s => s.length

/-- a comment is skipped as a compiler does it -/
theorem to_comment {d r : List Char} {st : Lex} (ht : ¬ ['/', '*', '/'] <:+: '/' :: '*' :: r) (hst : st ≠ .any)
    (h : To d st ('/' :: '*' :: r)) : To d .plain (skipComment ('/' :: '*' :: r)) := by
  have key : To d .block r := by
    cases h with
    | head a b =>
      cases a with
      | eol _ _ _ g1 g2 => exact absurd g2 (by decide)
      | space _ _ g => exact absurd g (by decide)
      | text _ _ _ g1 g2 g3 g4 g5 => exact absurd ⟨_, rfl⟩ g5
      | opens _ _ _ g1 g2 =>
        rcases g2 with g2 | ⟨x, g2⟩
        · exact absurd g2 (by decide)
        · simp at g2
      | any => exact absurd rfl hst
      | comment => exact b
      | inside =>
        cases b with
        | head a b =>
          cases a with
          | eol _ _ _ g1 g2 => exact absurd g2 (by decide)
          | text _ _ _ g1 => simp at g1
          | opens _ _ _ g1 => simp at g1
          | inside => exact b
          | close s => exact absurd ⟨[], s, by simp⟩ ht
  exact block_end key

theorem mid_comment {d s : List Char} (ht : ¬ ['/', '*', '/'] <:+: s) (h : Mid d s) : Mid d (skipIfComment s) := by
  rw [skipIfComment]
  split
  · rename_i hc
    match s, hc with
    | c :: e :: r, hc =>
      simp only [commentStart, Bool.and_eq_true, beq_iff_eq] at hc
      obtain ⟨rfl, rfl⟩ := hc
      obtain ⟨st, hst, h⟩ := h
      exact ⟨_, Or.inl rfl, to_comment ht (by rcases hst with rfl | rfl <;> simp) h⟩
  · exact h

theorem mid_opt {d s : List Char} (ht : ¬ ['/', '*', '/'] <:+: s) (h : Mid d s) : Mid d (optComment s) := by
  have := mid_comment ht h
  rw [skipIfComment] at this
  rw [optComment]
  split <;> rename_i hc
  · rw [if_pos hc] at this; exact mid_skipWs this
  · exact h

/-! ## What is left is a part of what was there -/

theorem commentEnd_suffix : ∀ s : List Char, commentEnd s <:+ s
  | [] => List.suffix_rfl
  | [_] => List.nil_suffix
  | c :: e :: s => by
    rw [commentEnd]
    split
    · exact ⟨[c, e], rfl⟩
    · exact (commentEnd_suffix (e :: s)).trans (List.suffix_cons _ _)
  termination_by s => s.length

theorem skipComment_suffix (s : List Char) : skipComment s <:+ s := (commentEnd_suffix _).trans (List.drop_suffix _ _)

theorem skipWs_suffix (s : List Char) : skipWs s <:+ s := List.dropWhile_suffix _
theorem skipEol_suffix (s : List Char) : skipEol s <:+ s := List.dropWhile_suffix _
theorem toEol_suffix (s : List Char) : toEol s <:+ s := List.dropWhile_suffix _

theorem optComment_suffix (s : List Char) : optComment s <:+ s := by
  rw [optComment]
  split
  · exact (skipWs_suffix _).trans (skipComment_suffix _)
  · exact List.suffix_rfl

theorem skipIf_suffix (s : List Char) : skipIfComment s <:+ s := by
  rw [skipIfComment]
  split
  · exact skipComment_suffix _
  · exact List.suffix_rfl

/-- what was read by `quotedStr` -/
theorem quotedStr_spec (e : Char) (he : isEol e = false) : ∀ s : List Char,
    match quotedStr e s with
    | (some q, r) => s = q ++ e :: r ∧ ∀ c ∈ q, c ≠ e ∧ isEol c = false
    | (none, r) => toEol s = r ∧ e ∉ s.takeWhile (fun c => !isEol c)
  | [] => by simp [quotedStr, toEol]
  | c :: s => by
    have ih := quotedStr_spec e he s
    rw [quotedStr]
    by_cases h1 : c = e
    · simp [h1]
    · rw [if_neg h1]
      cases h2 : isEol c
      · simp only [Bool.false_eq_true, if_false]
        cases h3 : quotedStr e s with
        | mk o r =>
          rw [h3] at ih
          cases o with
          | none =>
            simp only at ih ⊢
            refine ⟨by rw [toEol_cons h2]; exact ih.1, ?_⟩
            rw [List.takeWhile_cons, h2]
            simp only [Bool.not_false, if_true, List.mem_cons, not_or]
            exact ⟨fun h => h1 h.symm, ih.2⟩
          | some q =>
            simp only at ih ⊢
            refine ⟨by rw [ih.1]; rfl, ?_⟩
            intro x hx
            rcases List.mem_cons.1 hx with rfl | hx
            · exact ⟨h1, h2⟩
            · exact ih.2 x hx
      · simp only [if_true]
        refine ⟨toEol_eol h2, ?_⟩
        rw [List.takeWhile_cons, h2]
        simp

theorem later_app {d : List Char} : ∀ {a s : List Char}, (∀ c ∈ a, isEol c = false) → Later d (a ++ s) → Later d s
  | [], _, _, h => h
  | c :: a, s, ha, h =>
    later_app (a := a) (fun x hx => ha x (List.mem_cons_of_mem _ hx)) ((later_cons (ha c List.mem_cons_self)).1 h)

theorem toEol_toEol (s : List Char) : toEol (toEol s) = toEol s := by
  induction s with
  | nil => rfl
  | cons c s ih =>
    cases h : isEol c
    · rw [toEol_cons h, ih]
    · rw [toEol_eol h, toEol_eol h]

theorem later_toEol {d s : List Char} (h : Later d s) : Later d (toEol s) := by
  simpa [Later, toEol_toEol] using h

theorem not_comment_toEol (s : List Char) : commentStart (toEol s) = false := by
  induction s with
  | nil => rfl
  | cons c s ih =>
    cases h : isEol c
    · rw [toEol_cons h, ih]
    · rw [toEol_eol h]
      simp only [isEol, Bool.or_eq_true, beq_iff_eq] at h
      cases s with
      | nil => rfl
      | cons e s =>
        simp only [commentStart]
        rcases h with rfl | rfl <;> rfl

theorem commentStart_iff {s : List Char} : commentStart s ↔ ∃ r, s = '/' :: '*' :: r := by
  match s with
  | [] => simp [commentStart]
  | [c] => simp [commentStart]
  | c :: e :: r => simp [commentStart]

/-- the place behind the string of an include -/
theorem includeStr_later {d s : List Char} (ht : Tame s) (h : Mid d s) : Later d (skipIfComment (includeStr s).2) := by
  have hl := mid_later h
  rw [includeStr.eq_def]
  split
  · rename_i s
    have hq := quotedStr_spec '"' (by decide) s
    cases h3 : quotedStr '"' s with
    | mk o r =>
      rw [h3] at hq
      cases o with
      | none =>
        simp only at hq ⊢
        rw [← hq.1, skipIfComment, if_neg (by simp [not_comment_toEol])]
        exact later_toEol ((later_cons (by decide)).1 hl)
      | some q =>
        simp only at hq ⊢
        rw [skipIfComment, if_neg]
        · rw [hq.1] at hl
          refine later_app (a := '"' :: q ++ ['"']) ?_ (by simpa using hl)
          intro c hc
          simp only [List.cons_append, List.mem_cons, List.mem_append, List.not_mem_nil, or_false] at hc
          rcases hc with rfl | hc | rfl
          · decide
          · exact (hq.2 c hc).2
          · decide
        · rw [commentStart_iff]
          rintro ⟨x, rfl⟩
          exact ht.quote ⟨'"' :: q, x, by rw [hq.1]; simp⟩
  · rename_i s
    have hq := quotedStr_spec '>' (by decide) s
    cases h3 : quotedStr '>' s with
    | mk o r =>
      rw [h3] at hq
      cases o with
      | none =>
        simp only at hq ⊢
        rw [← hq.1, skipIfComment, if_neg (by simp [not_comment_toEol])]
        exact later_toEol ((later_cons (by decide)).1 hl)
      | some q =>
        simp only at hq ⊢
        rw [skipIfComment, if_neg]
        · rw [hq.1] at hl
          refine later_app (a := '<' :: q ++ ['>']) ?_ (by simpa using hl)
          intro c hc
          simp only [List.cons_append, List.mem_cons, List.mem_append, List.not_mem_nil, or_false] at hc
          rcases hc with rfl | hc | rfl
          · decide
          · exact (hq.2 c hc).2
          · decide
        · rw [commentStart_iff]
          rintro ⟨x, rfl⟩
          exact ht.angle ⟨'<' :: q, x, by rw [hq.1]; simp⟩
  · exact mid_later (mid_comment ht.slash h)

theorem Tame.suffix {s t : List Char} (h : Tame t) (hs : s <:+ t) : Tame s where
  nul := fun x => h.nul (hs.mem x)
  slash := fun x => h.slash (x.trans hs.isInfix)
  quote := fun x => h.quote (x.trans hs.isInfix)
  angle := fun x => h.angle (x.trans hs.isInfix)

theorem macroName_spec {s m r : List Char} (h : macroName s = some (m, r)) : Names s m r := by
  cases s with
  | nil => simp [macroName] at h
  | cons c s =>
    simp only [macroName] at h
    split at h
    · rename_i hc
      simp only [Option.some.injEq, Prod.mk.injEq] at h
      obtain ⟨rfl, rfl⟩ := h
      have := Names.mk c (s.takeWhile idChar) (s.dropWhile idChar) hc (fun x hx => List.all_eq_true.1 List.all_takeWhile x hx)
        (fun x hx => by
          have := List.head?_dropWhile_not idChar s
          rw [hx] at this
          simpa using this)
      rwa [List.cons_append, List.takeWhile_append_dropWhile] at this
    · simp at h

theorem mid_names {d s m r : List Char} (hn : Names s m r) (h : Mid d s) : Mid d r := by
  cases hn with
  | mk c q r h1 h2 h3 =>
    refine mid_app (a := c :: q) ?_ h
    intro x hx
    rcases List.mem_cons.1 hx with rfl | hx
    · simp [dull, idChar, h1]
    · simp [dull, h2 x hx]

theorem names_suffix {s m r : List Char} (hn : Names s m r) : r <:+ s := by
  cases hn with
  | mk c q r h1 h2 h3 => exact ⟨c :: q, rfl⟩

theorem drop_pre {p s : List Char} (h : p.isPrefixOf s) : s = p ++ s.drop p.length := by
  obtain ⟨t, rfl⟩ := List.isPrefixOf_iff_prefix.1 h
  simp

/-- the place behind `#include` -/
theorem dirInclude_later {d s : List Char} (ht : Tame s) (h : Mid d s) (hne : (dirInclude s).1 ≠ .error) :
    Later d (skipIfComment (dirInclude s).2) := by
  rw [dirInclude] at hne ⊢
  have hs : optComment (skipWs s) <:+ s := (optComment_suffix _).trans (skipWs_suffix _)
  have ht' := ht.suffix hs
  have h' : Mid d (optComment (skipWs s)) := mid_opt (ht.suffix (skipWs_suffix _)).slash (mid_skipWs h)
  generalize optComment (skipWs s) = x at ht' h' hne ⊢
  cases x with
  | nil => simp at hne
  | cons c x =>
    simp only at hne ⊢
    by_cases hc : c = '"' ∨ c = '<'
    · rw [if_pos hc] at hne ⊢
      have := includeStr_later ht' h'
      cases hi : includeStr (c :: x) with
      | mk o r =>
        rw [hi] at this hne
        cases o with
        | none => simp at hne
        | some p => exact this
    · rw [if_neg hc] at hne ⊢
      cases hm : macroName (c :: x) with
      | none => rw [hm] at hne; simp at hne
      | some p =>
        have hn := macroName_spec (m := p.1) (r := p.2) hm
        exact mid_later (mid_comment (ht'.suffix (names_suffix hn)).slash (mid_names hn h'))

/-- the place behind `#define` -/
theorem dirDefine_later {d s : List Char} (ht : Tame s) (h : Mid d s) (hne : (dirDefine s).1 ≠ .error) :
    Later d (skipIfComment (dirDefine s).2) := by
  rw [dirDefine] at hne ⊢
  have hs : optComment (skipWs s) <:+ s := (optComment_suffix _).trans (skipWs_suffix _)
  have ht' := ht.suffix hs
  have h' : Mid d (optComment (skipWs s)) := mid_opt (ht.suffix (skipWs_suffix _)).slash (mid_skipWs h)
  generalize optComment (skipWs s) = x at ht' h' hne ⊢
  cases hm : macroName x with
  | none => rw [hm] at hne; simp at hne
  | some p =>
    rw [hm] at hne
    obtain ⟨m, r⟩ := p
    have hn := macroName_spec hm
    simp only at hne ⊢
    have hr := ht'.suffix (names_suffix hn)
    have hs2 : optComment (skipWs r) <:+ r := (optComment_suffix _).trans (skipWs_suffix _)
    have ht2 := hr.suffix hs2
    have h2 : Mid d (optComment (skipWs r)) := mid_opt (hr.suffix (skipWs_suffix _)).slash (mid_skipWs (mid_names hn h'))
    have := includeStr_later ht2 h2
    cases hi : includeStr (optComment (skipWs r)) with
    | mk o r =>
      rw [hi] at this
      cases o with
      | none => exact this
      | some p => exact this

/-- the place behind a directive -/
theorem directive_later {d s : List Char} (ht : Tame s) (h : Mid d s) (hne : (directive s).1 ≠ .error) :
    Later d (skipIfComment (directive s).2) := by
  rw [directive] at hne ⊢
  have ht' := ht.suffix (skipWs_suffix s)
  have h' := mid_skipWs h
  generalize skipWs s = x at ht' h' hne ⊢
  by_cases h1 : "include".toList.isPrefixOf x
  · rw [if_pos h1] at hne ⊢
    have e := drop_pre h1
    refine dirInclude_later (ht'.suffix (List.drop_suffix _ _)) ?_ hne
    rw [e] at h'
    exact mid_app (by decide) h'
  · rw [if_neg h1] at hne ⊢
    by_cases h2 : "define".toList.isPrefixOf x
    · rw [if_pos h2] at hne ⊢
      have e := drop_pre h2
      refine dirDefine_later (ht'.suffix (List.drop_suffix _ _)) ?_ hne
      rw [e] at h'
      exact mid_app (by decide) h'
    · rw [if_neg h2] at hne ⊢
      by_cases h3 : "import".toList.isPrefixOf x
      · rw [if_pos h3] at hne
        simp at hne
      · rw [if_neg h3]
        exact mid_later (mid_comment ht'.slash h')

/-! ## The loop -/

theorem quotedStr_suffix (e : Char) (he : isEol e = false) (s : List Char) : (quotedStr e s).2 <:+ s := by
  have := quotedStr_spec e he s
  cases h : quotedStr e s with
  | mk o r =>
    rw [h] at this
    cases o with
    | none => simp only at this ⊢; rw [← this.1]; exact toEol_suffix _
    | some q => simp only at this ⊢; exact ⟨q ++ [e], by rw [this.1]; simp⟩

theorem includeStr_suffix (s : List Char) : (includeStr s).2 <:+ s := by
  rw [includeStr.eq_def]
  split
  · rename_i s
    have := quotedStr_suffix '"' (by decide) s
    cases h : quotedStr '"' s with
    | mk o r =>
      rw [h] at this
      cases o <;> exact this.trans (List.suffix_cons _ _)
  · rename_i s
    have := quotedStr_suffix '>' (by decide) s
    cases h : quotedStr '>' s with
    | mk o r =>
      rw [h] at this
      cases o <;> exact this.trans (List.suffix_cons _ _)
  · exact List.suffix_rfl

theorem dirInclude_suffix (s : List Char) : (dirInclude s).2 <:+ s := by
  rw [dirInclude]
  have hs : optComment (skipWs s) <:+ s := (optComment_suffix _).trans (skipWs_suffix _)
  generalize optComment (skipWs s) = x at hs ⊢
  cases x with
  | nil => exact hs
  | cons c x =>
    simp only
    by_cases hc : c = '"' ∨ c = '<'
    · rw [if_pos hc]
      have := includeStr_suffix (c :: x)
      cases hi : includeStr (c :: x) with
      | mk o r =>
        rw [hi] at this
        cases o <;> exact this.trans hs
    · rw [if_neg hc]
      cases hm : macroName (c :: x) with
      | none => exact hs
      | some p => exact (names_suffix (macroName_spec (m := p.1) (r := p.2) hm)).trans hs

theorem dirDefine_suffix (s : List Char) : (dirDefine s).2 <:+ s := by
  rw [dirDefine]
  have hs : optComment (skipWs s) <:+ s := (optComment_suffix _).trans (skipWs_suffix _)
  generalize optComment (skipWs s) = x at hs ⊢
  cases hm : macroName x with
  | none => exact List.suffix_rfl
  | some p =>
    obtain ⟨m, r⟩ := p
    have hn := (names_suffix (macroName_spec hm)).trans hs
    simp only
    have hs2 : optComment (skipWs r) <:+ r := (optComment_suffix _).trans (skipWs_suffix _)
    have := (includeStr_suffix (optComment (skipWs r))).trans (hs2.trans hn)
    cases hi : includeStr (optComment (skipWs r)) with
    | mk o r =>
      rw [hi] at this
      cases o <;> exact this

theorem directive_suffix (s : List Char) : (directive s).2 <:+ s := by
  rw [directive]
  have hs := skipWs_suffix s
  generalize skipWs s = x at hs ⊢
  split
  · exact (dirInclude_suffix _).trans ((List.drop_suffix _ _).trans hs)
  · split
    · exact (dirDefine_suffix _).trans ((List.drop_suffix _ _).trans hs)
    · split <;> exact hs

theorem lineAct_suffix (s : List Char) : (lineAct s).2 <:+ s := by
  rw [lineAct.eq_def]
  split
  · exact (directive_suffix _).trans (List.suffix_cons _ _)
  · exact List.suffix_rfl

/-- the rest of the text for the next iteration -/
theorem rest_suffix (s : List Char) : skipEol (toEol (skipIfComment (lineAct s).2)) <:+ s :=
  (skipEol_suffix _).trans ((toEol_suffix _).trans ((skipIf_suffix _).trans (lineAct_suffix s)))

theorem toEol_length {c : Char} {s : List Char} (h : isEol c = false) : (toEol (c :: s)).length ≤ s.length := by
  rw [toEol_cons h]
  exact (toEol_suffix s).length_le

theorem suffix_cases {c : Char} {t s : List Char} (h : t <:+ c :: s) : t = c :: s ∨ t <:+ s := by
  rcases List.suffix_cons_iff.1 h with h | h
  · exact Or.inl h
  · exact Or.inr h

theorem rest_length {c : Char} {s : List Char} (h : isEol c = false) :
    (skipEol (toEol (skipIfComment (lineAct (c :: s)).2))).length ≤ s.length := by
  have h1 : skipIfComment (lineAct (c :: s)).2 <:+ c :: s := (skipIf_suffix _).trans (lineAct_suffix _)
  refine Nat.le_trans (skipEol_suffix _).length_le ?_
  rcases suffix_cases h1 with e | e
  · rw [e]; exact toEol_length h
  · exact Nat.le_trans (toEol_suffix _).length_le e.length_le

theorem parseLoop_some : ∀ (n : Nat) (a : Parsed) (s : List Char), s.length < n → ∃ r, parseLoop n a s = some r
  | 0, _, _, h => absurd h (by omega)
  | n + 1, a, s, h => by
    rw [parseLoop]
    have hl : (skipWs s).length ≤ s.length := (skipWs_suffix s).length_le
    cases hs : skipWs s with
    | nil => exact ⟨a, rfl⟩
    | cons c r =>
      rw [hs] at hl
      simp only [List.length_cons] at hl
      simp only
      cases hc : isEol c
      · simp only [Bool.false_eq_true, if_false]
        have hr := rest_length (s := r) hc
        cases hl2 : lineAct (c :: r) with
        | mk act s' =>
          rw [hl2] at hr
          cases act
          case error => exact ⟨_, rfl⟩
          all_goals exact parseLoop_some n _ _ (by simp only at hr; omega)
      · simp only [if_true]
        rw [skipEol_cons hc]
        have := (skipEol_suffix r).length_le
        exact parseLoop_some n _ _ (by omega)

/-- what was recorded -/
def Recorded (r : Parsed) : Act → Prop
  | .nothing => True
  | .include p t => (p, t) ∈ r.includes
  | .incDef m p t => (m, p, t) ∈ r.incDefs
  | .nonIncDef m => m ∈ r.nonIncDefs
  | .error => r.ok = false

theorem recorded_add (a : Parsed) (x y : Act) (h : Recorded a x) : Recorded (a.add y) x := by
  cases x <;> cases y <;> simp_all [Recorded, Parsed.add]

theorem recorded_self (a : Parsed) (x : Act) : Recorded (a.add x) x := by
  cases x <;> simp [Recorded, Parsed.add]

theorem recorded_loop (x : Act) : ∀ (n : Nat) (a : Parsed) (s : List Char) (r : Parsed), parseLoop n a s = some r → Recorded a x → Recorded r x
  | 0, _, _, _, h, _ => by simp [parseLoop] at h
  | n + 1, a, s, r, h, ha => by
    rw [parseLoop] at h
    split at h
    · simp only [Option.some.injEq] at h; rw [← h]; exact ha
    · split at h
      · exact recorded_loop x n _ _ _ h ha
      · split at h
        · simp only [Option.some.injEq] at h; rw [← h]; exact recorded_add _ _ _ ha
        · exact recorded_loop x n _ _ _ h (recorded_add _ _ _ ha)

/-- Every directive is acted on, unless there was an error before. -/
theorem loop_finds (d : List Char) : ∀ (n : Nat) (a : Parsed) (s : List Char) (st : Lex) (r : Parsed), (st = .start ∨ st = .block) → Tame s →
    To d st s → parseLoop n a s = some r → r.ok = false ∨ Recorded r (directive d).1
  | 0, _, _, _, _, _, _, _, h => by simp [parseLoop] at h
  | n + 1, a, s, st, r, hst, ht, hto, h => by
    rw [parseLoop] at h
    have hto := to_skipWs hst hto
    have ht := ht.suffix (skipWs_suffix s)
    have hws : ∀ c x, skipWs s = c :: x → isWs c = false := by
      intro c x hx
      have := List.head?_dropWhile_not isWs s
      rw [skipWs] at hx
      rw [hx] at this
      simpa using this
    generalize skipWs s = x at hto ht h hws
    cases x with
    | nil => cases hto with | head a b => cases a
    | cons c x =>
      simp only at h
      cases hc : isEol c
      · rw [hc] at h
        simp only [Bool.false_eq_true, if_false] at h
        -- the rest of the line does not hide the directive
        have hnext : (lineAct (c :: x)).1 ≠ .error → (st = .start ∧ x = d ∧ c = '#') ∨ Later d (skipIfComment (lineAct (c :: x)).2) := by
          intro hne
          by_cases hx : st = .start ∧ x = d ∧ c = '#'
          · exact Or.inl hx
          · refine Or.inr ?_
            by_cases hh : c = '#'
            · subst hh
              have hm : Mid d x := by
                cases hto with
                | refl => exact absurd ⟨rfl, rfl, rfl⟩ hx
                | head g1 g2 =>
                  cases g1 with
                  | eol _ _ _ g3 g4 => exact absurd g4 (by decide)
                  | space _ _ g3 => exact absurd g3 (by decide)
                  | text => exact ⟨_, Or.inl rfl, g2⟩
                  | opens _ _ _ g3 g4 =>
                    rcases g4 with g4 | ⟨_, g4⟩
                    · exact absurd g4 (by decide)
                    · simp at g4
                  | any => simp at hst
                  | inside => exact ⟨_, Or.inr rfl, g2⟩
              exact directive_later (ht.suffix (List.suffix_cons _ _)) hm hne
            · have e : lineAct (c :: x) = (.nothing, c :: x) := by
                rw [lineAct.eq_def]
                split
                · rename_i e; cases e; exact absurd rfl hh
                · rfl
              rw [e]
              simp only
              rw [skipIfComment]
              split
              · rename_i hcs
                obtain ⟨y, e⟩ := commentStart_iff.1 hcs
                rw [e] at hto ht ⊢
                exact mid_later ⟨_, Or.inl rfl, to_comment ht.slash (by rcases hst with rfl | rfl <;> simp) hto⟩
              · rename_i hcs
                rw [commentStart_iff] at hcs
                refine (later_cons hc).2 ?_
                cases hto with
                | refl => exact absurd rfl hh
                | head g1 g2 =>
                  cases g1 with
                  | eol _ _ _ g3 g4 => exact absurd g4 (by simp [hc])
                  | space _ _ g3 => exact absurd g3 (by simp [hws c x rfl])
                  | text => exact to_later g2 rfl (by simp)
                  | opens => exact to_later g2 rfl (by simp)
                  | any => simp at hst
                  | comment => exact absurd ⟨_, rfl⟩ hcs
                  | inside => exact to_later g2 rfl (by simp)
                  | close s => exact (later_cons (by decide)).2 (to_later g2 rfl (by simp))
        have hsuf := rest_suffix (c :: x)
        cases hl : lineAct (c :: x) with
        | mk act s' =>
          rw [hl] at h hnext hsuf
          by_cases he : act = .error
          · subst he
            simp only [Option.some.injEq] at h
            left; rw [← h]; rfl
          · have h' : parseLoop n (a.add act) (skipEol (toEol (skipIfComment s'))) = some r := by
              cases act <;> first | exact absurd rfl he | exact h
            rcases hnext he with ⟨h1, rfl, rfl⟩ | ⟨st', h1, h2⟩
            · right
              have : (directive x).1 = act := by
                have : lineAct ('#' :: x) = directive x := rfl
                rw [← this, hl]
              rw [this]
              exact recorded_loop act _ _ _ _ h' (recorded_self _ _)
            · exact loop_finds d n _ _ st' r h1 (ht.suffix hsuf) h2 h'
      · rw [hc] at h
        simp only [if_true] at h
        exact loop_finds d n _ _ st r hst (ht.suffix (skipEol_suffix _)) (to_skipEol hst hto) h

theorem takeWhile_nul {s : List Char} (h : '\x00' ∉ s) : s.takeWhile (· ≠ '\x00') = s := by
  induction s with
  | nil => rfl
  | cons c s ih =>
    rw [List.mem_cons, not_or] at h
    rw [List.takeWhile_cons, if_pos (by simpa using fun e => h.1 e.symm), ih h.2]

theorem parse_some (text : List Char) : ∃ r, parse text = some r := parseLoop_some _ _ _ (by omega)

theorem parse_finds {text d : List Char} {r : Parsed} (ht : Tame text) (hd : DirectiveAt text d) (h : parse text = some r) :
    r.ok = false ∨ Recorded r (directive d).1 := by
  rw [parse, takeWhile_nul ht.nul] at h
  exact loop_finds d _ _ _ .start r (Or.inl rfl) ht hd h

/-! ## The forms of a directive -/

theorem skipWs_app {a s : List Char} (ha : ∀ c ∈ a, isWs c) : skipWs (a ++ s) = skipWs s := by
  induction a with
  | nil => rfl
  | cons c a ih =>
    rw [List.cons_append, skipWs, List.dropWhile_cons, if_pos (ha c List.mem_cons_self)]
    exact ih (fun x hx => ha x (List.mem_cons_of_mem _ hx))

theorem skipWs_id {s : List Char} (h : ∀ c, s.head? = some c → isWs c = false) : skipWs s = s := by
  cases s with
  | nil => rfl
  | cons c s => rw [skipWs, List.dropWhile_cons, if_neg (by simp [h c rfl])]

theorem commentEnd_app : ∀ {u b : List Char}, (¬ ∃ x y, u ++ ['*'] = x ++ '*' :: '/' :: y) → commentEnd (u ++ '*' :: '/' :: b) = b
  | [], b, _ => by simp [commentEnd]
  | [c], b, h => by
    rw [List.singleton_append, commentEnd, if_neg (by rintro ⟨rfl, e⟩; revert e; decide)]
    simp [commentEnd]
  | c :: e :: u, b, h => by
    rw [List.cons_append, List.cons_append, commentEnd, if_neg]
    · rw [← List.cons_append]
      exact commentEnd_app (fun ⟨x, y, g⟩ => h ⟨c :: x, y, by rw [List.cons_append, g]; rfl⟩)
    · rintro ⟨rfl, rfl⟩
      exact h ⟨[], u ++ ['*'], rfl⟩
  termination_by u => u.length

/-- the gap before an include or a name -/
theorem gap_skip {g s : List Char} (hg : Gap g) (h1 : ∀ c, s.head? = some c → isWs c = false) (h2 : commentStart s = false) :
    optComment (skipWs (g ++ s)) = s := by
  cases hg with
  | ws a ha =>
    rw [skipWs_app ha, skipWs_id h1, optComment, if_neg (by simp [h2])]
  | comment a u b ha hb hu =>
    have e : a ++ '/' :: '*' :: u ++ '*' :: '/' :: b ++ s = a ++ ('/' :: '*' :: (u ++ '*' :: '/' :: (b ++ s))) := by simp
    rw [e, skipWs_app ha, skipWs_id (by simp; decide), optComment, if_pos (by rfl), skipComment]
    simp only [List.drop_succ_cons, List.drop_zero]
    rw [commentEnd_app hu, skipWs_app hb, skipWs_id h1]

theorem quotedStr_app (e : Char) {q r : List Char} (h : ∀ c ∈ q, c ≠ e ∧ isEol c = false) : quotedStr e (q ++ e :: r) = (some q, r) := by
  induction q with
  | nil => simp [quotedStr]
  | cons c q ih =>
    have := h c List.mem_cons_self
    rw [List.cons_append, quotedStr, if_neg this.1, this.2, ih (fun x hx => h x (List.mem_cons_of_mem _ hx))]
    simp

theorem includeStr_of {s p : List Char} {t : IncType} (h : Includes s p t) : ∃ r, includeStr s = (some (p, t), r) := by
  cases h with
  | quote q r hq => exact ⟨r, by simp only [List.cons_append, includeStr, quotedStr_app '"' hq]⟩
  | angle q r hq => exact ⟨r, by simp only [List.cons_append, includeStr, quotedStr_app '>' hq]⟩

theorem includes_head {s p : List Char} {t : IncType} (h : Includes s p t) :
    ∃ c x, s = c :: x ∧ (c = '"' ∨ c = '<') := by
  cases h with
  | quote q r hq => exact ⟨_, _, rfl, Or.inl rfl⟩
  | angle q r hq => exact ⟨_, _, rfl, Or.inr rfl⟩

theorem names_of {s m r : List Char} (h : Names s m r) : macroName s = some (m, r) := by
  cases h with
  | mk c q r h1 h2 h3 =>
    simp only [List.cons_append, macroName]
    rw [if_pos h1]
    have e1 : (q ++ r).takeWhile idChar = q := by
      rw [List.takeWhile_append_of_pos h2]
      cases r with
      | nil => simp
      | cons x r => simp [h3 x rfl]
    have e2 : (q ++ r).dropWhile idChar = r := by
      rw [List.dropWhile_append_of_pos h2]
      cases r with
      | nil => simp
      | cons x r => simp [h3 x rfl]
    rw [e1, e2]

theorem names_head {s m r : List Char} (h : Names s m r) : ∃ c x, s = c :: x ∧ idStart c := by
  cases h with
  | mk c q r h1 h2 h3 => exact ⟨_, _, rfl, h1⟩

theorem idStart_spec {c : Char} (h : idStart c) : c ≠ '"' ∧ c ≠ '<' ∧ c ≠ '/' ∧ isWs c = false := by
  refine ⟨?_, ?_, ?_, ?_⟩
  · rintro rfl; revert h; decide
  · rintro rfl; revert h; decide
  · rintro rfl; revert h; decide
  · cases h0 : isWs c
    · rfl
    · simp only [isWs, Bool.or_eq_true, beq_iff_eq] at h0
      rcases h0 with rfl | rfl <;> revert h <;> decide

theorem isPrefixOf_app (p s : List Char) : p.isPrefixOf (p ++ s) = true := List.isPrefixOf_iff_prefix.2 ⟨s, rfl⟩

theorem head_comment {c : Char} {x : List Char} (h : c ≠ '/') : commentStart (c :: x) = false := by
  cases x with
  | nil => rfl
  | cons e x => simp [commentStart, h]

theorem directive_include {w g s : List Char} (hw : ∀ c ∈ w, isWs c) :
    directive (w ++ "include".toList ++ g ++ s) = dirInclude (g ++ s) := by
  have e : skipWs (w ++ "include".toList ++ g ++ s) = "include".toList ++ (g ++ s) := by
    rw [List.append_assoc, List.append_assoc, skipWs_app hw]
    exact skipWs_id (by simp; decide)
  simp only [directive, e]
  rw [if_pos (isPrefixOf_app _ _)]
  rfl

theorem directive_define {w s : List Char} (hw : ∀ c ∈ w, isWs c) :
    directive (w ++ "define".toList ++ s) = dirDefine s := by
  have e : skipWs (w ++ "define".toList ++ s) = "define".toList ++ s := by
    rw [List.append_assoc, skipWs_app hw]
    exact skipWs_id (by simp; decide)
  simp only [directive, e]
  rw [if_neg (by intro h; revert h; simp [List.isPrefixOf]), if_pos (isPrefixOf_app _ _)]
  rfl

theorem directive_path {w g s p : List Char} {t : IncType} (hw : ∀ c ∈ w, isWs c) (hg : Gap g) (h : Includes s p t) :
    (directive (w ++ "include".toList ++ g ++ s)).1 = .include p t := by
  obtain ⟨c, x, e, hc⟩ := includes_head h
  have hcs : optComment (skipWs (g ++ s)) = s := by
    refine gap_skip hg ?_ ?_
    · intro a ha
      rw [e] at ha; cases ha
      rcases hc with rfl | rfl <;> decide
    · rw [e]; exact head_comment (by rcases hc with rfl | rfl <;> decide)
  rw [directive_include hw, dirInclude]
  simp only [hcs]
  obtain ⟨r, hi⟩ := includeStr_of h
  rw [e] at hi ⊢
  simp only
  rw [if_pos hc, hi]

theorem directive_macro {w g s m r : List Char} (hw : ∀ c ∈ w, isWs c) (hg : Gap g) (h : Names s m r) :
    (directive (w ++ "include".toList ++ g ++ s)).1 = .include m .macro := by
  obtain ⟨c, x, e, hc⟩ := names_head h
  obtain ⟨n1, n2, n3, n4⟩ := idStart_spec hc
  have hcs : optComment (skipWs (g ++ s)) = s := by
    refine gap_skip hg ?_ ?_
    · intro a ha
      rw [e] at ha; cases ha
      exact n4
    · rw [e]; exact head_comment n3
  rw [directive_include hw, dirInclude]
  simp only [hcs]
  have hi := names_of h
  rw [e] at hi ⊢
  simp only
  rw [if_neg (by simp [n1, n2]), hi]

theorem directive_def {w g1 g2 s1 m s2 p : List Char} {t : IncType} (hw : ∀ c ∈ w, isWs c) (hg1 : Gap g1) (hg2 : Gap g2)
    (h1 : Names s1 m (g2 ++ s2)) (h2 : Includes s2 p t) :
    (directive (w ++ "define".toList ++ (g1 ++ s1))).1 = .incDef m p t := by
  obtain ⟨c, x, e, hc⟩ := names_head h1
  obtain ⟨n1, n2, n3, n4⟩ := idStart_spec hc
  have hcs : optComment (skipWs (g1 ++ s1)) = s1 := by
    refine gap_skip hg1 ?_ ?_
    · intro a ha
      rw [e] at ha; cases ha
      exact n4
    · rw [e]; exact head_comment n3
  rw [directive_define hw, dirDefine, hcs, names_of h1]
  simp only
  obtain ⟨c, x, e, hc⟩ := includes_head h2
  have hcs : optComment (skipWs (g2 ++ s2)) = s2 := by
    refine gap_skip hg2 ?_ ?_
    · intro a ha
      rw [e] at ha; cases ha
      rcases hc with rfl | rfl <;> decide
    · rw [e]; exact head_comment (by rcases hc with rfl | rfl <;> decide)
  rw [hcs]
  obtain ⟨r, hi⟩ := includeStr_of h2
  rw [hi]

end Verif.Light
