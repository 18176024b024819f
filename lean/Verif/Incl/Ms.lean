import Verif.Incl.Gcc
/-
Lemmas for the two parsers of Microsoft's output.
-/
namespace Verif.Incl
open Verif.Str

theorem char_take (q : Char) (n X : List Char) (h : q ∉ n) : (n ++ q :: X).takeWhile (· ≠ q) = n := by
  induction n with
  | nil => simp
  | cons c n ih =>
    simp at h
    rw [List.cons_append, List.takeWhile_cons, if_pos (by simp [Ne.symm h.1]), ih (by simpa using h.2)]

theorem char_drop (q : Char) (n X : List Char) (h : q ∉ n) : (n ++ q :: X).dropWhile (· ≠ q) = q :: X := by
  induction n with
  | nil => simp
  | cons c n ih =>
    simp at h
    rw [List.cons_append, List.dropWhile_cons, if_pos (by simp [Ne.symm h.1]), ih (by simpa using h.2)]

theorem char_drop_nil (q : Char) (n : List Char) (h : q ∉ n) : n.dropWhile (· ≠ q) = [] := by
  induction n with
  | nil => rfl
  | cons c n ih =>
    simp at h
    rw [List.dropWhile_cons, if_pos (by simp [Ne.symm h.1]), ih (by simpa using h.2)]

theorem char_split (q : Char) (r : List Char) (h : q ∈ r) : ∃ n f, q ∉ n ∧ r = n ++ q :: f := by
  induction r with
  | nil => simp at h
  | cons c r ih =>
    by_cases hc : c = q
    · exact ⟨[], r, by simp, by rw [hc]; rfl⟩
    · have hm : q ∈ r := by
        rcases List.mem_cons.1 h with h | h
        · exact absurd h.symm hc
        · exact h
      obtain ⟨n, f, hn, he⟩ := ih hm
      exact ⟨c :: n, f, by simp [hn, Ne.symm hc], by rw [he]; rfl⟩

theorem drop_spaces (k : Nat) (path : List Char) (h : path.head? ≠ some ' ') :
    (List.replicate k ' ' ++ path).dropWhile (· = ' ') = path := by
  induction k with
  | zero =>
    cases path with
    | nil => rfl
    | cons c p => simp at h; rw [List.replicate_zero, List.nil_append, List.dropWhile_cons, if_neg (by simp [h])]
  | succ k ih => rw [List.replicate_succ, List.cons_append, List.dropWhile_cons, if_pos (by simp), ih]

theorem spaces_split (r : List Char) : ∃ k, r = List.replicate k ' ' ++ r.dropWhile (· = ' ') := by
  induction r with
  | nil => exact ⟨0, rfl⟩
  | cons c r ih =>
    by_cases hc : c = ' '
    · obtain ⟨k, hk⟩ := ih
      refine ⟨k + 1, ?_⟩
      rw [List.dropWhile_cons, if_pos (by simp [hc]), List.replicate_succ, List.cons_append, ← hk, hc]
    · refine ⟨0, ?_⟩
      rw [List.dropWhile_cons, if_neg (by simp [hc])]; rfl

/-- the test of the path -/
theorem path_ok (inc : List Char) :
    (¬ (inc = [] ∨ inc.any ("<>\"|?*".toList.contains ·) ∨ inc.countP (· = ':') > 1) ∧
      (inc.head?.any Char.isAlpha && inc[1]? == some ':') = true) ↔
    ∃ d rest, inc = d :: ':' :: rest ∧ d.isAlpha = true ∧ ∀ c ∈ rest, c ∉ ['<', '>', '"', '|', '?', '*', ':'] := by
  have hb : "<>\"|?*".toList = ['<', '>', '"', '|', '?', '*'] := rfl
  rw [hb]
  constructor
  · rintro ⟨h1, h2⟩
    match inc, h1, h2 with
    | [], h1, _ => simp at h1
    | [d], _, h2 => simp at h2
    | d :: e :: rest, h1, h2 =>
      simp only [List.head?_cons, Option.any_some, Bool.and_eq_true, List.getElem?_cons_succ, List.getElem?_cons_zero, beq_iff_eq, Option.some.injEq] at h2
      obtain ⟨hd, rfl⟩ := h2
      refine ⟨d, rest, rfl, hd, fun c hc => ?_⟩
      have h3 : ∀ x ∈ d :: ':' :: rest, ['<', '>', '"', '|', '?', '*'].contains x = false := by
        intro x hx
        cases hcx : ['<', '>', '"', '|', '?', '*'].contains x with
        | false => rfl
        | true => exact absurd (Or.inr (Or.inl (List.any_eq_true.2 ⟨x, hx, hcx⟩))) h1
      have h4 : c ≠ ':' := by
        rintro rfl
        apply h1; right; right
        rw [List.countP_cons, List.countP_cons]
        have : 0 < rest.countP (· = ':') := List.countP_pos_iff.2 ⟨':', hc, by simp⟩
        simp; omega
      have h5 := h3 c (by simp [hc])
      simp at h5
      simp [h5, h4]
  · rintro ⟨d, rest, rfl, hd, hr⟩
    have hd' : ['<', '>', '"', '|', '?', '*'].contains d = false ∧ d ≠ ':' := by
      have : ∀ x ∈ ['<', '>', '"', '|', '?', '*', ':'], x.isAlpha = false := by decide
      constructor
      · cases hc : ['<', '>', '"', '|', '?', '*'].contains d with
        | false => rfl
        | true => 
          have hm : d ∈ ['<', '>', '"', '|', '?', '*'] := by simpa using hc
          have hm' : d ∈ ['<', '>', '"', '|', '?', '*'] ++ [':'] := List.mem_append_left _ hm
          rw [this d hm'] at hd; cases hd
      · rintro rfl; exact absurd hd (by decide)
    refine ⟨?_, by simp [hd]⟩
    rintro (h | h | h)
    · simp at h
    · obtain ⟨x, hx, hxx⟩ := List.any_eq_true.1 h
      rcases List.mem_cons.1 hx with rfl | hx
      · rw [hd'.1] at hxx; cases hxx
      · rcases List.mem_cons.1 hx with rfl | hx
        · simp at hxx
        · have := hr x hx
          simp at this hxx
          simp [this] at hxx
    · rw [List.countP_cons, List.countP_cons] at h
      have : rest.countP (· = ':') = 0 := by
        rw [List.countP_eq_zero]
        intro c hc; have := hr c hc; simp at this; simp [this]
      rw [this] at h
      simp [hd'.2] at h

theorem showLine_iff (line n : List Char) : showLine line = some n ↔ Shows line n := by
  have hX : ∀ inc : List Char, (if inc = [] ∨ inc.any ("<>\"|?*".toList.contains ·) ∨ inc.countP (· = ':') > 1 then none
      else if inc.head?.any Char.isAlpha && inc[1]? == some ':' then some inc else none) = some n ↔
      inc = n ∧ ∃ d rest, inc = d :: ':' :: rest ∧ d.isAlpha = true ∧ ∀ c ∈ rest, c ∉ ['<', '>', '"', '|', '?', '*', ':'] := by
    intro inc
    rw [← path_ok inc]
    split
    · rename_i h; simp only [reduceCtorEq, h, not_true, false_and, and_false]
    · rename_i h
      split
      · rename_i h2; simp only [Option.some.injEq, h, not_false_iff, h2, and_self, and_true]
      · rename_i h2; simp only [reduceCtorEq, h2, and_false]
  constructor
  · intro h
    unfold showLine at h
    by_cases h1 : ':' ∈ line
    · obtain ⟨pre, r1, hp, rfl⟩ := char_split ':' line h1
      rw [char_take _ _ _ hp, char_drop _ _ _ hp] at h
      simp only at h
      by_cases h2 : ':' ∈ r1
      · obtain ⟨mid, r2, hm, rfl⟩ := char_split ':' r1 h2
        rw [char_take _ _ _ hm, char_drop _ _ _ hm] at h
        simp only at h
        split at h
        · cases h
        · rename_i hne
          rw [not_or] at hne
          obtain ⟨he, d, rest, e1, e2, e3⟩ := (hX _).1 h
          obtain ⟨k, hk⟩ := spaces_split r2
          rw [he] at hk e1
          exact ⟨pre, mid, k, d, rest, by rw [hk]; simp, hne.1, hp, hne.2, hm, e1, e2, e3⟩
      · rw [char_drop_nil _ _ h2] at h; cases h
    · rw [char_drop_nil _ _ h1] at h; cases h
  · rintro ⟨pre, mid, k, d, rest, rfl, p1, p2, m1, m2, rfl, hd, hr⟩
    unfold showLine
    have e : pre ++ ':' :: mid ++ ':' :: List.replicate k ' ' ++ (d :: ':' :: rest) =
      pre ++ ':' :: (mid ++ ':' :: (List.replicate k ' ' ++ (d :: ':' :: rest))) := by simp
    rw [e, char_take _ _ _ p2, char_drop _ _ _ p2]
    simp only
    rw [char_take _ _ _ m2, char_drop _ _ _ m2]
    simp only
    rw [if_neg (by simp [p1, m1]), drop_spaces _ _ (by
      simp; rintro rfl; exact absurd hd (by decide))]
    exact (hX _).2 ⟨rfl, d, rest, rfl, hd, hr⟩

theorem lines_rev (nl : Char → Bool) (c : Char) (hc : nl c = false) (s : List Char) :
    lines nl (c :: s) = ((c :: (lines nl s).headD []) :: (lines nl s).tail) := by
  rw [lines, if_neg (by simp [hc])]
  cases h : lines nl s with
  | nil => exact absurd h (lines_ne nl s)
  | cons l ls => rfl

theorem showGo_lines (s : List Char) : ∀ cur : List Char,
    Shown ((((lines (· == '\n') s).modifyHead (cur.reverse ++ ·)).dropLast).map chomp) (showGo cur s) := by
  induction s with
  | nil => intro cur; exact Shown.nil
  | cons c s ih =>
    intro cur
    rw [showGo]
    by_cases hc : c = '\n'
    · rw [if_pos hc, lines, if_pos (by simp [hc])]
      simp only [List.modifyHead, List.append_nil]
      have h0 := ih []
      simp only [List.reverse_nil, List.nil_append] at h0
      have hid : (lines (· == '\n') s).modifyHead (fun x => x) = lines (· == '\n') s := by cases lines (· == '\n') s <;> rfl
      rw [hid] at h0
      rw [List.dropLast_cons_of_ne_nil (lines_ne _ s), List.map_cons]
      cases hs : showLine (dropCR cur.reverse) with
      | none => exact Shown.skip (fun n hn => by rw [show dropCR cur.reverse = chomp cur.reverse from rfl, (showLine_iff _ n).2 hn] at hs; cases hs) h0
      | some n => exact Shown.take ((showLine_iff _ n).1 hs) h0
    · rw [if_neg hc, lines_rev _ c (by simp [hc])]
      have := ih (c :: cur)
      cases h : lines (· == '\n') s with
      | nil => exact absurd h (lines_ne _ s)
      | cons l ls =>
        rw [h] at this
        simpa [List.modifyHead] using this

/-! ## Preprocessed output -/

def nlc (c : Char) : Bool := c == '\n'

theorem line1_eq : line1 = ['#', 'l', 'i', 'n', 'e', ' ', '1', ' '] := rfl

theorem findLine1_spec (T : List Char) (hT : Tail nlc T) : ∀ (l before : List Char), (∀ c ∈ l, nlc c = false) →
    (∃ a b, l = a ++ line1 ++ b ∧ findLine1 before (l ++ T) = some (a.reverse ++ before, b ++ T) ∧
      ∀ a' b', l = a' ++ line1 ++ b' → a.length ≤ a'.length) ∨
    ((∀ a b, l ≠ a ++ line1 ++ b) ∧
      findLine1 before (l ++ T) = match T with | [] => none | d :: t => findLine1 (d :: (l.reverse ++ before)) t)
  | [], before, _ => by
    right
    refine ⟨fun a b h => ?_, ?_⟩
    · have := congrArg List.length h; rw [line1_eq] at this; simp at this
    · rcases hT with rfl | ⟨d, t, rfl, hd⟩
      · rfl
      · have hd' : d = '\n' := by simpa [nlc] using hd
        subst hd'
        rw [List.nil_append, findLine1, if_neg (by rw [line1_eq]; simp [List.isPrefixOf])]
        rfl
  | c :: l, before, h => by
    have hp := isPrefixOf_tail nlc T hT line1 (c :: l) (by rw [line1_eq]; decide)
    by_cases hc : line1.isPrefixOf (c :: l) = true
    · left
      obtain ⟨b, hb⟩ := List.isPrefixOf_iff_prefix.1 hc
      refine ⟨[], b, by simpa using hb.symm, ?_, by simp⟩
      rw [List.cons_append, findLine1, ← List.cons_append, hp, if_pos hc, ← hb, line1_eq]
      rfl
    · have hstep : findLine1 before (c :: l ++ T) = findLine1 (c :: before) (l ++ T) := by
        rw [List.cons_append, findLine1, ← List.cons_append, hp, if_neg hc]
      rcases findLine1_spec T hT l (c :: before) (fun x hx => h x (by simp [hx])) with ⟨a, b, h1, h2, h3⟩ | ⟨h1, h2⟩
      · left
        refine ⟨c :: a, b, by rw [h1]; rfl, by rw [hstep, h2]; simp, ?_⟩
        intro a' b' he
        cases a' with
        | nil => exact absurd (List.isPrefixOf_iff_prefix.2 ⟨b', by simpa using he.symm⟩) hc
        | cons x a' =>
          simp only [List.cons_append, List.cons.injEq] at he
          have := h3 a' b' he.2
          simpa using this
      · right
        refine ⟨?_, by rw [hstep, h2]; simp⟩
        intro a' b' he
        cases a' with
        | nil => exact absurd (List.isPrefixOf_iff_prefix.2 ⟨b', by simpa using he.symm⟩) hc
        | cons x a' =>
          simp only [List.cons_append, List.cons.injEq] at he
          exact h1 a' b' he.2

theorem atLineStart_app (b : List Char) : ∀ a : List Char, (∀ c ∈ a, nlc c = false) →
    (atLineStart (a ++ b) = true ↔ (∀ c ∈ a, c = ' ' ∨ c = '\t') ∧ atLineStart b = true)
  | [], _ => by simp
  | c :: a, h => by
    rw [List.cons_append, atLineStart]
    by_cases hc : c = ' ' ∨ c = '\t'
    · rw [if_pos hc, atLineStart_app b a (fun x hx => h x (by simp [hx]))]
      simp [hc]
    · rw [if_neg hc]
      have := h c (by simp)
      simp only [nlc] at this
      rw [this]
      simp [hc]

theorem linesAfter_tail (nl : Char → Bool) (b T : List Char) (hb : ∀ c ∈ b, nl c = false) (hT : Tail nl T) : lines nl (b ++ T) = b :: linesAfter nl T := by
  rcases hT with rfl | ⟨d, t, rfl, hd⟩
  · simpa [linesAfter] using lines_nonl nl b hb
  · exact lines_app nl d t hd b hb

theorem count_two (b : List Char) (h : ¬ b.count '"' < 2) : ∃ x n y : List Char, '"' ∉ x ∧ '"' ∉ n ∧ b = x ++ '"' :: (n ++ '"' :: y) := by
  obtain ⟨x, f, hx, rfl⟩ := char_split '"' b (List.count_pos_iff.1 (by omega))
  have hx0 : x.count '"' = 0 := List.count_eq_zero.2 hx
  rw [List.count_append, List.count_cons, hx0] at h
  rw [if_pos (by simp)] at h
  obtain ⟨n, y, hn, rfl⟩ := char_split '"' f (List.count_pos_iff.1 (by omega))
  exact ⟨x, n, y, hx, hn, rfl⟩

theorem starts_occ {l n : List Char} (h : Starts l n) : ∃ ws z : List Char, (∀ c ∈ ws, c = ' ' ∨ c = '\t') ∧ l = ws ++ line1 ++ z := by
  obtain ⟨ws, x, y, h1, _, _, h4⟩ := h
  exact ⟨ws, x ++ '"' :: n ++ '"' :: y, h1, by rw [h4]; change ws ++ line1 ++ x ++ _ ++ _ = _; simp only [List.append_assoc, List.cons_append]⟩

theorem ppLoop_lines : ∀ (k : Nat) (s : List Char), s.length = k → ∀ (fuel : Nat) (before : List Char), s.length < fuel →
    (atLineStart before = true → (∀ l ∈ lines nlc s, ¬ OpenStart l) →
      ∃ names, ppLoop fuel before s = some names ∧ Started (lines nlc s) names) ∧
    (atLineStart before = false → (∀ l ∈ (lines nlc s).tail, ¬ OpenStart l) →
      ∃ names, ppLoop fuel before s = some names ∧ Started (lines nlc s).tail names) := by
  intro k
  induction k using Nat.strongRecOn with
  | _ k ih =>
  intro s hk fuel before hfuel
  obtain ⟨l, T, hs, hl, hT⟩ : ∃ l T, s = l ++ T ∧ (∀ c ∈ l, nlc c = false) ∧ Tail nlc T := by
    rcases line_cases nlc s with h | ⟨l, d, t, h1, h2, h3⟩
    · exact ⟨s, [], by simp, h, Or.inl rfl⟩
    · exact ⟨l, d :: t, h1, h2, Or.inr ⟨d, t, rfl, h3⟩⟩
  have hlines : lines nlc s = l :: linesAfter nlc T := by rw [hs]; exact linesAfter_tail nlc l T hl hT
  rw [hlines]
  simp only [List.tail_cons]
  cases fuel with
  | zero => omega
  | succ fuel =>
  rcases findLine1_spec T hT l before hl with ⟨a, b, e1, e2, e3⟩ | ⟨e1, e2⟩
  · -- an occurrence in the line
    have ha : ∀ c ∈ a.reverse, nlc c = false := fun c hc => hl c (by rw [e1]; simp at hc; simp [hc])
    have hb : ∀ c ∈ b, nlc c = false := fun c hc => hl c (by rw [e1]; simp [hc])
    have hdrop : (line1.reverse ++ (a.reverse ++ before)).drop 8 = a.reverse ++ before := by rw [line1_eq]; rfl
    have hdirty : atLineStart (line1.reverse ++ (a.reverse ++ before)) = false := by rw [line1_eq]; rfl
    have hbT : lines nlc (b ++ T) = b :: linesAfter nlc T := linesAfter_tail nlc b T hb hT
    have hlen : (b ++ T).length + 8 ≤ s.length := by rw [hs, e1, line1_eq]; simp
    rw [hs, ppLoop, e2]
    simp only [hdrop]
    -- not at the line's start
    have bad : atLineStart (a.reverse ++ before) = false → (∀ l ∈ linesAfter nlc T, ¬ OpenStart l) →
        ∃ names, (if atLineStart (a.reverse ++ before) = false then ppLoop fuel (line1.reverse ++ (a.reverse ++ before)) (b ++ T)
          else match (b ++ T).dropWhile (· ≠ '"') with
            | [] => none
            | q :: r1 =>
              match r1.dropWhile (· ≠ '"') with
              | [] => none
              | q2 :: r2 =>
                (ppLoop fuel ((r1.takeWhile (· ≠ '"')).reverse ++ q :: (((b ++ T).takeWhile (· ≠ '"')).reverse ++ (line1.reverse ++ (a.reverse ++ before)))) (q2 :: r2)).map
                  (r1.takeWhile (· ≠ '"') :: ·)) = some names ∧ Started (linesAfter nlc T) names := by
      intro h ho
      rw [if_pos h]
      have := (ih (b ++ T).length (by omega) (b ++ T) rfl fuel (line1.reverse ++ (a.reverse ++ before)) (by omega)).2 hdirty
        (by rw [hbT]; exact ho)
      rw [hbT] at this
      exact this
    constructor
    · intro hat ho
      cases hst : atLineStart (a.reverse ++ before) with
      | false =>
        obtain ⟨names, n1, n2⟩ := bad hst (fun l hl => ho l (by simp [hl]))
        rw [hst] at n1
        refine ⟨names, n1, Started.skip (fun n hn => ?_) n2⟩
        obtain ⟨ws, z, w1, w2⟩ := starts_occ hn
        have hle := e3 ws z w2
        have : atLineStart (a.reverse ++ before) = true := by
          refine (atLineStart_app before _ ha).2 ⟨?_, hat⟩
          intro c hc
          have hpre : a <+: ws := by
            have p1 : a <+: l := ⟨line1 ++ b, by rw [e1]; simp⟩
            have p2 : ws <+: l := ⟨line1 ++ z, by rw [w2]; simp⟩
            exact List.prefix_of_prefix_length_le p1 p2 hle
          exact w1 c (hpre.subset (by simpa using hc))
        rw [hst] at this; cases this
      | true =>
        have hws := (atLineStart_app before _ ha).1 hst
        have hno := ho l (by simp)
        have hcnt : ¬ b.count '"' < 2 := fun h => hno ⟨a, b, fun c hc => hws.1 c (by simpa using hc), by rw [e1]; rfl, h⟩
        obtain ⟨x, n, y, hx, hn, rfl⟩ := count_two b hcnt
        rw [if_neg (by simp)]
        have e4 : x ++ '"' :: (n ++ '"' :: y) ++ T = x ++ '"' :: (n ++ '"' :: (y ++ T)) := by simp
        rw [e4, char_drop _ _ _ hx]
        simp only
        rw [char_drop _ _ _ hn]
        simp only
        rw [char_take _ _ _ hn, char_take _ _ _ hx]
        have hqT : lines nlc ('"' :: y ++ T) = ('"' :: y) :: linesAfter nlc T :=
          linesAfter_tail nlc ('"' :: y) T (fun c hc => hb c (by simp at hc ⊢; rcases hc with h | h <;> simp [h])) hT
        have hd2 : atLineStart (n.reverse ++ '"' :: (x.reverse ++ (line1.reverse ++ (a.reverse ++ before)))) = false := by
          have hna := atLineStart_app ('"' :: (x.reverse ++ (line1.reverse ++ (a.reverse ++ before)))) n.reverse
            (fun c hc => hb c (by simp at hc ⊢; simp [hc]))
          cases hh : atLineStart (n.reverse ++ '"' :: (x.reverse ++ (line1.reverse ++ (a.reverse ++ before)))) with
          | false => rfl
          | true => have := (hna.1 hh).2; simp [atLineStart] at this
        have := (ih ('"' :: y ++ T).length (by rw [← hk]; simp at hlen ⊢; omega) ('"' :: y ++ T) rfl fuel
          (n.reverse ++ '"' :: (x.reverse ++ (line1.reverse ++ (a.reverse ++ before)))) (by simp at hlen ⊢; omega)).2 hd2
        rw [hqT] at this
        obtain ⟨names, n1, n2⟩ := this (fun l hl => ho l (by simp at hl; simp [hl]))
        rw [List.cons_append] at n1
        refine ⟨n :: names, by rw [n1]; rfl, Started.take ?_ n2⟩
        exact ⟨a, x, y, fun c hc => hws.1 c (by simpa using hc), hx, hn, by rw [e1]; change _ = a ++ line1 ++ x ++ _ ++ _; simp only [List.append_assoc, List.cons_append]⟩
    · intro hat ho
      refine bad ?_ ho
      cases hst : atLineStart (a.reverse ++ before) with
      | false => rfl
      | true => have := ((atLineStart_app before _ ha).1 hst).2; rw [hat] at this; cases this
  · -- none
    have hcont : ∃ names, (∀ l ∈ linesAfter nlc T, ¬ OpenStart l) → ppLoop (fuel + 1) before s = some names ∧ Started (linesAfter nlc T) names := by
      by_cases ho : ∀ l ∈ linesAfter nlc T, ¬ OpenStart l
      · rw [hs, ppLoop, e2]
        rcases hT with rfl | ⟨d, t, rfl, hd⟩
        · exact ⟨[], fun _ => ⟨rfl, Started.nil⟩⟩
        · have hd' : d = '\n' := by simpa [nlc] using hd
          have := (ih t.length (by rw [← hk, hs]; simp; omega) t rfl (fuel + 1) (d :: (l.reverse ++ before)) (by
            have := hfuel; rw [hs] at this; simp at this; omega)).1 (by subst hd'; rfl) ho
          obtain ⟨names, n1, n2⟩ := this
          rw [ppLoop] at n1
          exact ⟨names, fun _ => ⟨n1, n2⟩⟩
      · exact ⟨[], fun h => absurd h ho⟩
    obtain ⟨names, hn⟩ := hcont
    constructor
    · intro _ ho
      obtain ⟨n1, n2⟩ := hn (fun l hl => ho l (by simp [hl]))
      refine ⟨names, n1, Started.skip (fun n h => ?_) n2⟩
      obtain ⟨ws, z, _, w2⟩ := starts_occ h
      exact e1 ws z w2
    · intro _ ho
      exact ⟨names, hn ho⟩

end Verif.Incl
