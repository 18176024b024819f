import Verif.Incl.Spec
/-
Lemmas for the GCC parser.
-/
namespace Verif.Incl
open Verif.Str

/-- what may follow the rest of a line: nothing or a line end -/
def Tail (nl : Char → Bool) (T : List Char) : Prop := T = [] ∨ ∃ c t, T = c :: t ∧ nl c = true

theorem isDigit_eq (c : Char) : isDigit c = c.isDigit := by
  unfold isDigit Char.isDigit
  rw [Bool.eq_iff_iff]
  simp [Char.le_def]

theorem isPrefixOf_tail (nl : Char → Bool) (T : List Char) (hT : Tail nl T) : ∀ (p a : List Char), (∀ c ∈ p, nl c = false) →
    p.isPrefixOf (a ++ T) = p.isPrefixOf a
  | [], a, _ => by simp
  | c :: p, [], h => by
    rcases hT with rfl | ⟨d, t, rfl, hd⟩
    · rfl
    · simp only [List.nil_append, List.isPrefixOf]
      have : c ≠ d := by rintro rfl; rw [h c (by simp)] at hd; cases hd
      simp [this]
  | c :: p, d :: a, h => by
    simp only [List.cons_append, List.isPrefixOf]
    rw [isPrefixOf_tail nl T hT p a (fun x hx => h x (by simp [hx]))]

theorem dropWhile_tail (nl q : Char → Bool) (T : List Char) (hT : Tail nl T) (hq : ∀ c, nl c = true → q c = false) :
    ∀ a : List Char, (a ++ T).dropWhile q = a.dropWhile q ++ T
  | [] => by
    rcases hT with rfl | ⟨d, t, rfl, hd⟩
    · rfl
    · simp [List.dropWhile_cons, hq d hd]
  | c :: a => by
    simp only [List.cons_append, List.dropWhile_cons]
    split
    · exact dropWhile_tail nl q T hT hq a
    · rfl

/-- splitting at the first quote -/
theorem quote_split (r : List Char) (h : '"' ∈ r) : ∃ n f, '"' ∉ n ∧ r = n ++ '"' :: f := by
  induction r with
  | nil => simp at h
  | cons c r ih =>
    by_cases hc : c = '"'
    · exact ⟨[], r, by simp, by rw [hc]; rfl⟩
    · have hm : '"' ∈ r := by
        rcases List.mem_cons.1 h with h | h
        · exact absurd h.symm hc
        · exact h
      obtain ⟨n, f, hn, he⟩ := ih hm
      exact ⟨c :: n, f, by simp [hn, Ne.symm hc], by rw [he]; rfl⟩

theorem quote_take (n X : List Char) (h : '"' ∉ n) : (n ++ '"' :: X).takeWhile (· ≠ '"') = n := by
  induction n with
  | nil => simp
  | cons c n ih =>
    simp at h
    rw [List.cons_append, List.takeWhile_cons, if_pos (by simp [Ne.symm h.1]), ih (by simpa using h.2)]

theorem quote_drop (n X : List Char) (h : '"' ∉ n) : (n ++ '"' :: X).dropWhile (· ≠ '"') = '"' :: X := by
  induction n with
  | nil => simp
  | cons c n ih =>
    simp at h
    rw [List.cons_append, List.dropWhile_cons, if_pos (by simp [Ne.symm h.1]), ih (by simpa using h.2)]

theorem quote_unique {n n' f f' : List Char} (h : '"' ∉ n) (h' : '"' ∉ n') (e : n ++ '"' :: f = n' ++ '"' :: f') : n = n' ∧ f = f' := by
  have a := quote_take n f h
  have b := quote_take n' f' h'
  have : n = n' := by rw [← a, ← b, e]
  subst this
  simpa using e

/-- what remains of a line -/
def Rest (s' s : List Char) : Prop := s' <:+ s

/-- the name part of a marker line -/
def NameOf (direct : Bool) (r n : List Char) : Prop :=
  ∃ f, '"' ∉ n ∧ r = n ++ '"' :: f ∧ n.head? ≠ some '<' ∧ (∀ c, n.getLast? = some c → isSlash c = false) ∧
    (" 1".toList <+: f ∨ direct = true)

theorem gccName_line (hf : Bool) (r T : List Char) (hT : Tail crlf T) (hr : ∀ c ∈ r, crlf c = false)
    (hopen : r.head? = some '<' ∨ '"' ∈ r) :
    ∃ p s' inc, gccName hf (r ++ T) = .cont p (s' ++ T) hf inc ∧ s' <:+ r ∧ crlf p = false ∧
      ∀ n, inc = some n ↔ NameOf (!hf) r n := by
  unfold gccName
  by_cases hlt : r.head? = some '<'
  · cases r with
    | nil => simp at hlt
    | cons c r =>
      simp at hlt; subst hlt
      refine ⟨'"', '<' :: r, none, by simp, List.suffix_refl _, rfl, fun n => ⟨by simp, ?_⟩⟩
      rintro ⟨f, h1, h2, h3, _⟩
      cases n with
      | nil => simp at h2
      | cons d n => simp at h2; exact absurd (by simp [← h2.1]) h3
  · obtain ⟨n, f, hn, rfl⟩ := quote_split r (hopen.resolve_left hlt)
    have hh : ((n ++ '"' :: f) ++ T).head? ≠ some '<' := by cases n <;> simp_all
    have hh' : n.head? ≠ some '<' := by cases n <;> simp_all
    rw [if_neg hh, List.append_assoc, List.cons_append, quote_take n _ hn, quote_drop n _ hn]
    simp only
    have hlast : (∀ c, n.getLast? = some c → isSlash c = false) ↔ isSlash (n.getLast?.getD '"') = false := by
      cases hl : n.getLast? with
      | none => simp; decide
      | some c => simp
    have hun : ∀ m, NameOf (!hf) (n ++ '"' :: f) m ↔ m = n ∧ (isSlash (n.getLast?.getD '"') = false) ∧
        (" 1".toList <+: f ∨ hf = false) := by
      intro m
      constructor
      · rintro ⟨f', h1, h2, h3, h4, h5⟩
        obtain ⟨rfl, rfl⟩ := quote_unique hn h1 h2
        exact ⟨rfl, hlast.1 h4, by simpa using h5⟩
      · rintro ⟨rfl, h1, h2⟩
        exact ⟨f, hn, rfl, hh', hlast.2 h1, by simpa using h2⟩
    have hp : [' ', '1'].isPrefixOf (f ++ T) = [' ', '1'].isPrefixOf f := isPrefixOf_tail crlf T hT _ _ (by decide)
    have hpp : [' ', '1'].isPrefixOf f = true ↔ " 1".toList <+: f := by rw [List.isPrefixOf_iff_prefix]; rfl
    rw [hp]
    have hcl : crlf (n.getLast?.getD '"') = false := by
      cases hl : n.getLast? with
      | none => rfl
      | some c => exact hr c (by simp [List.mem_of_getLast? hl])
    cases hs : isSlash (n.getLast?.getD '"') with
    | true =>
      refine ⟨_, '"' :: f, none, by rw [if_pos rfl]; rfl, by simp, hcl, fun m => ?_⟩
      rw [hun m]; simp [hs]
    | false =>
      rw [if_neg (by simp)]
      by_cases hc : ([' ', '1'].isPrefixOf f || !hf) = true
      · rw [if_pos hc]
        refine ⟨_, f, some n, rfl, ⟨n ++ ['"'], by simp⟩, rfl, fun m => ?_⟩
        rw [hun m, ← hpp]
        simp only [Bool.or_eq_true, Bool.not_eq_true'] at hc
        constructor
        · intro h; cases h; exact ⟨rfl, hs, hc⟩
        · rintro ⟨rfl, _⟩; rfl
      · rw [if_neg hc]
        refine ⟨_, f, none, rfl, ⟨n ++ ['"'], by simp⟩, rfl, fun m => ?_⟩
        rw [hun m, ← hpp]
        simp only [Bool.or_eq_true, Bool.not_eq_true'] at hc
        constructor
        · intro h; cases h
        · rintro ⟨_, _, h⟩; exact absurd h hc

theorem digits_drop (digits X : List Char) (h : ∀ c ∈ digits, c.isDigit = true) (hX : ∀ c, X.head? = some c → c.isDigit = false) :
    (digits ++ X).dropWhile isDigit = X := by
  induction digits with
  | nil =>
    cases X with
    | nil => rfl
    | cons c X => rw [List.nil_append, List.dropWhile_cons, if_neg]; rw [isDigit_eq, hX c rfl]; simp
  | cons c ds ih =>
    rw [List.cons_append, List.dropWhile_cons, if_pos (by rw [isDigit_eq]; exact h c (by simp)), ih (fun x hx => h x (by simp [hx]))]

theorem gccFound_line (hf : Bool) (s T : List Char) (hT : Tail crlf T) (hs : ∀ c ∈ s, crlf c = false)
    (hopen : ∀ digits r : List Char, (∀ c ∈ digits, c.isDigit = true) → s = digits ++ " \"".toList ++ r → r.head? = some '<' ∨ '"' ∈ r) :
    ∃ p s' inc, gccFound hf (s ++ T) = .cont p (s' ++ T) hf inc ∧ s' <:+ s ∧ crlf p = false ∧
      ∀ n, inc = some n ↔ ∃ digits r : List Char, (∀ c ∈ digits, c.isDigit = true) ∧ s = digits ++ " \"".toList ++ r ∧ NameOf (!hf) r n := by
  have hq : (" \"".toList : List Char) = [' ', '"'] := rfl
  simp only [hq] at hopen ⊢
  have hdec : s = s.takeWhile isDigit ++ s.dropWhile isDigit := (List.takeWhile_append_dropWhile).symm
  have hdig : ∀ c ∈ s.takeWhile isDigit, c.isDigit = true := by
    intro c hc; rw [← isDigit_eq]; exact List.all_eq_true.1 List.all_takeWhile c hc
  have hdrop := dropWhile_tail crlf isDigit T hT (by
    intro c hc; simp [crlf] at hc; rcases hc with rfl | rfl <;> decide) s
  have hsuf : s.dropWhile isDigit <:+ s := List.dropWhile_suffix _
  unfold gccFound
  rw [hdrop]
  generalize hX : s.dropWhile isDigit = X at *
  have hfact : ∀ n, (∃ digits r : List Char, (∀ c ∈ digits, c.isDigit = true) ∧ s = digits ++ [' ', '"'] ++ r ∧ NameOf (!hf) r n) ↔
      ∃ r, X = ' ' :: '"' :: r ∧ NameOf (!hf) r n := by
    intro n
    constructor
    · rintro ⟨d, r, h1, h2, h3⟩
      refine ⟨r, ?_, h3⟩
      rw [← hX, h2, List.append_assoc]
      exact digits_drop d _ h1 (by intro c hc; simp at hc; subst hc; decide)
    · rintro ⟨r, h1, h2⟩
      exact ⟨_, r, hdig, by rw [List.append_assoc]; exact hdec.trans (by rw [h1]; rfl), h2⟩
  simp only [hfact]
  have none_case : ∀ Y, X = Y → (∀ r, Y ≠ ' ' :: '"' :: r) → ∀ n, (none : Option (List Char)) = some n ↔ ∃ r, Y = ' ' :: '"' :: r ∧ NameOf (!hf) r n := by
    intro Y _ h n
    constructor
    · simp
    · rintro ⟨r, h1, _⟩; exact absurd h1 (h r)
  have hmem : ∀ c ∈ X, crlf c = false := fun c hc => hs c (hsuf.subset hc)
  match X, hX, hmem with
  | [], hX, _ =>
    rcases hT with rfl | ⟨d, t, rfl, hd⟩
    · exact ⟨' ', [], none, rfl, by simp, rfl, none_case _ rfl (by simp)⟩
    · have : d ≠ ' ' := by rintro rfl; simp [crlf] at hd
      simp only [List.nil_append]
      rw [if_pos this]
      exact ⟨' ', [], none, rfl, by simp, rfl, none_case _ rfl (by simp)⟩
  | c :: X1, hX, hmem =>
    simp only [List.cons_append]
    by_cases hc : c = ' '
    · rw [if_neg (by simp [hc])]
      subst hc
      have hs1 : X1 <:+ s := List.IsSuffix.trans (List.suffix_cons _ _) hsuf
      match X1, hX, hs1, hmem with
      | [], hX, hs1, _ =>
        rcases hT with rfl | ⟨d, t, rfl, hd⟩
        · exact ⟨' ', [], none, rfl, by simp, rfl, none_case _ rfl (by simp)⟩
        · have : d ≠ '"' := by rintro rfl; simp [crlf] at hd
          simp only [List.nil_append]
          rw [if_pos this]
          exact ⟨' ', [], none, rfl, by simp, rfl, none_case _ rfl (by simp)⟩
      | q :: r, hX, hs1, hmem =>
        simp only [List.cons_append]
        by_cases hq' : q = '"'
        · rw [if_neg (by simp [hq'])]
          subst hq'
          obtain ⟨p, s', inc, g1, g2, g3, g4⟩ := gccName_line hf r T hT (fun c hc => hmem c (by simp [hc]))
            (hopen _ r hdig (by rw [List.append_assoc]; exact hdec))
          refine ⟨p, s', inc, g1, g2.trans ((List.suffix_cons _ _).trans hs1), g3, fun n => ?_⟩
          rw [g4]
          constructor
          · intro h; exact ⟨r, rfl, h⟩
          · rintro ⟨r', h1, h2⟩; simp at h1; subst h1; exact h2
        · rw [if_pos hq']
          refine ⟨' ', q :: r, none, rfl, hs1, rfl, none_case _ rfl ?_⟩
          intro r' h; simp at h; exact hq' h.1
    · rw [if_pos hc]
      refine ⟨' ', c :: X1, none, rfl, hsuf, rfl, none_case _ rfl ?_⟩
      intro r' h; simp at h; exact hc h.1

theorem gccBody_line (hf : Bool) (s T : List Char) (hT : Tail crlf T) (hs : ∀ c ∈ s, crlf c = false)
    (hopen : ¬ OpenMarker ('#' :: s)) :
    ∃ p s' inc, gccBody hf (s ++ T) = .cont p (s' ++ T) (hf && !("#line ".toList.isPrefixOf ('#' :: s))) inc ∧ s' <:+ s ∧
      crlf p = false ∧ ∀ n, inc = some n ↔ Enters (!hf) ('#' :: s) n := by
  have i1 : "# ".toList = ['#', ' '] := rfl
  have i2 : "#line ".toList = ['#', 'l', 'i', 'n', 'e', ' '] := rfl
  have i3 : "line ".toList = ['l', 'i', 'n', 'e', ' '] := rfl
  have hpre : "#line ".toList.isPrefixOf ('#' :: s) = "line ".toList.isPrefixOf s := by
    rw [i2, i3]; simp [List.isPrefixOf]
  rw [hpre]
  unfold gccBody
  rw [isPrefixOf_tail crlf T hT _ s (by rw [i3]; decide)]
  -- the spec for the two introductions
  have hsp : ∀ n, Enters (!hf) ('#' :: s) n ↔
      (∃ r0, s = ' ' :: r0 ∧ ∃ d r : List Char, (∀ c ∈ d, c.isDigit = true) ∧ r0 = d ++ " \"".toList ++ r ∧ NameOf (!hf) r n) ∨
      (∃ r0, s = "line ".toList ++ r0 ∧ ∃ d r : List Char, (∀ c ∈ d, c.isDigit = true) ∧ r0 = d ++ " \"".toList ++ r ∧ NameOf true r n) := by
    intro n
    constructor
    · rintro ⟨intro, flags, hi, ⟨d, h1, h2, h3⟩, h4, h5, h6⟩
      rcases hi with rfl | rfl
      · left
        refine ⟨d ++ " \"".toList ++ (n ++ '"' :: flags), ?_, d, _, h1, rfl, flags, h2, rfl, h4, h5, ?_⟩
        · rw [i1] at h3; simpa using h3
        · rcases h6 with h | h | h
          · exact Or.inl h
          · exact Or.inr h
          · exact absurd h (by decide)
      · right
        refine ⟨d ++ " \"".toList ++ (n ++ '"' :: flags), ?_, d, _, h1, rfl, flags, h2, rfl, h4, h5, Or.inr rfl⟩
        rw [i2] at h3; rw [i3]; simpa using h3
    · rintro (⟨r0, h0, d, r, h1, rfl, f, h2, rfl, h3, h4, h5⟩ | ⟨r0, h0, d, r, h1, rfl, f, h2, rfl, h3, h4, h5⟩)
      · refine ⟨_, f, Or.inl rfl, ⟨d, h1, h2, ?_⟩, h3, h4, ?_⟩
        · rw [h0, i1]; simp
        · rcases h5 with h | h
          · exact Or.inl h
          · exact Or.inr (Or.inl h)
      · refine ⟨_, f, Or.inr rfl, ⟨d, h1, h2, ?_⟩, h3, h4, Or.inr (Or.inr rfl)⟩
        rw [h0, i2, i3]; simp
  by_cases hsp1 : s.head? = some ' '
  · cases s with
    | nil => simp at hsp1
    | cons c s =>
      simp at hsp1; subst hsp1
      have hl : "line ".toList.isPrefixOf (' ' :: s) = false := by rw [i3]; rfl
      rw [if_pos (by simp), hl]
      obtain ⟨p, s', inc, g1, g2, g3, g4⟩ := gccFound_line hf s T hT (fun c hc => hs c (by simp [hc])) (by
        intro d r h1 h2
        refine Decidable.byContradiction fun hno => hopen ⟨_, d, r, Or.inl rfl, h1, by rw [h2, i1]; simp, ?_, ?_⟩
        · intro h; exact hno (Or.inl h)
        · intro h; exact hno (Or.inr h))
      refine ⟨p, s', inc, by simpa using g1, g2.trans (List.suffix_cons _ _), g3, fun n => ?_⟩
      rw [g4, hsp]
      constructor
      · intro h; exact Or.inl ⟨s, rfl, h⟩
      · rintro (⟨r0, h0, h⟩ | ⟨r0, h0, h⟩)
        · simp at h0; subst h0; exact h
        · rw [i3] at h0; simp at h0
  · have hh : (s ++ T).head? ≠ some ' ' := by
      cases s with
      | nil =>
        rcases hT with rfl | ⟨d, t, rfl, hd⟩
        · simp
        · simp; rintro rfl; simp [crlf] at hd
      | cons c s => simpa using hsp1
    rw [if_neg hh]
    cases hl : "line ".toList.isPrefixOf s with
    | true =>
      obtain ⟨s5, rfl⟩ := List.isPrefixOf_iff_prefix.1 hl
      rw [if_pos rfl]
      have hd : ("line ".toList ++ s5 ++ T).drop 5 = s5 ++ T := by rw [i3]; rfl
      rw [hd]
      obtain ⟨p, s', inc, g1, g2, g3, g4⟩ := gccFound_line false s5 T hT (fun c hc => hs c (by simp [hc])) (by
        intro d r h1 h2
        refine Decidable.byContradiction fun hno => hopen ⟨_, d, r, Or.inr rfl, h1, by rw [h2, i2, i3]; simp, ?_, ?_⟩
        · intro h; exact hno (Or.inl h)
        · intro h; exact hno (Or.inr h))
      refine ⟨p, s', inc, by simpa using g1, g2.trans (List.suffix_append _ _), g3, fun n => ?_⟩
      rw [g4, hsp]
      constructor
      · intro h; exact Or.inr ⟨s5, rfl, h⟩
      · rintro (⟨r0, h0, h⟩ | ⟨r0, h0, h⟩)
        · rw [i3] at h0; simp at h0
        · have := List.append_cancel_left h0
          subst this; exact h
    | false =>
      rw [if_neg (by simp)]
      refine ⟨'#', s, none, by simp, List.suffix_refl _, rfl, fun n => ⟨by simp, ?_⟩⟩
      rw [hsp]
      rintro (⟨r0, h0, h⟩ | ⟨r0, h0, h⟩)
      · rw [h0] at hsp1; simp at hsp1
      · have := List.isPrefixOf_iff_prefix.2 ⟨r0, h0.symm⟩
        rw [hl] at this; cases this

/-! ## Lines -/

theorem lines_ne (nl : Char → Bool) (s : List Char) : lines nl s ≠ [] := by
  cases s with
  | nil => simp [lines]
  | cons c s => unfold lines; split
                · simp
                · split <;> simp

theorem lines_nonl (nl : Char → Bool) : ∀ l : List Char, (∀ c ∈ l, nl c = false) → lines nl l = [l]
  | [], _ => rfl
  | c :: l, h => by
    rw [lines, if_neg (by simp [h c (by simp)]), lines_nonl nl l (fun x hx => h x (by simp [hx]))]

theorem lines_app (nl : Char → Bool) (d : Char) (t : List Char) (hd : nl d = true) : ∀ l : List Char, (∀ c ∈ l, nl c = false) →
    lines nl (l ++ d :: t) = l :: lines nl t
  | [], _ => by rw [List.nil_append, lines, if_pos hd]
  | c :: l, h => by
    rw [List.cons_append, lines, if_neg (by simp [h c (by simp)]), lines_app nl d t hd l (fun x hx => h x (by simp [hx]))]

/-- the lines behind a line end -/
def linesAfter (nl : Char → Bool) : List Char → List (List Char)
  | [] => []
  | _ :: t => lines nl t

/-- induction over the lines of a text -/
theorem line_cases (nl : Char → Bool) (s : List Char) :
    (∀ c ∈ s, nl c = false) ∨ ∃ l d t, s = l ++ d :: t ∧ (∀ c ∈ l, nl c = false) ∧ nl d = true := by
  induction s with
  | nil => left; simp
  | cons c s ih =>
    by_cases hc : nl c = true
    · exact Or.inr ⟨[], c, s, rfl, by simp, hc⟩
    · rcases ih with h | ⟨l, d, t, h1, h2, h3⟩
      · left; intro x hx; rcases List.mem_cons.1 hx with rfl | hx
        · simpa using hc
        · exact h x hx
      · refine Or.inr ⟨c :: l, d, t, by rw [h1]; rfl, ?_, h3⟩
        intro x hx; rcases List.mem_cons.1 hx with rfl | hx
        · simpa using hc
        · exact h2 x hx

/-! ## The loop -/

theorem nextHash_mid (l T : List Char) (p : Char) (hl : ∀ c ∈ l, crlf c = false) (hp : crlf p = false ∨ l.head? ≠ some '#') (hT : Tail crlf T)
    : nextHash p (l ++ T) = (match T with | [] => none | d :: t => nextHash d t) := by
  induction l generalizing p with
  | nil =>
    rcases hT with rfl | ⟨d, t, rfl, hd⟩
    · rfl
    · rw [List.nil_append, nextHash, if_neg]
      rintro ⟨rfl, _⟩; simp [crlf] at hd
  | cons c l ih =>
    rw [List.cons_append, nextHash, if_neg, ih c (fun x hx => hl x (by simp [hx])) (Or.inl (hl c (by simp)))]
    rintro ⟨rfl, h⟩
    rcases hp with hp | hp
    · rcases h with rfl | rfl <;> simp [crlf] at hp
    · simp at hp

theorem enters_hash {d : Bool} {l n : List Char} (h : Enters d l n) : ∃ s, l = '#' :: s := by
  obtain ⟨i, f, hi, ⟨ds, _, _, h⟩, _⟩ := h
  rcases hi with rfl | rfl
  · have i1 : "# ".toList = ['#', ' '] := rfl
    rw [i1] at h; exact ⟨_, by simpa using h⟩
  · have i2 : "#line ".toList = ['#', 'l', 'i', 'n', 'e', ' '] := rfl
    rw [i2] at h; exact ⟨_, by simpa using h⟩

theorem noline_of_head {l : List Char} (h : l.head? ≠ some '#') : "#line ".toList.isPrefixOf l = false := by
  have i2 : "#line ".toList = ['#', 'l', 'i', 'n', 'e', ' '] := rfl
  cases l with
  | nil => rw [i2]; rfl
  | cons c l =>
    rw [i2]
    simp at h
    simp [List.isPrefixOf, Ne.symm h]

theorem gccLoop_lines : ∀ (fuel : Nat) (text : List Char) (nl : Char) (hf : Bool), text.length < fuel → crlf nl = true →
    (∀ l ∈ lines crlf text, ¬ OpenMarker l) →
    ∃ names, gccLoop fuel nl hf text = some names ∧ Entered (!hf) (lines crlf text) names
  | 0, _, _, _, h, _, _ => by omega
  | fuel + 1, text, nl, hf, hlen, hnl, hopen => by
    -- a line and what follows
    have key : ∀ (l T : List Char), text = l ++ T → (∀ c ∈ l, crlf c = false) → Tail crlf T →
        (∀ m ≤ fuel + 1, ∀ (d : Char) (t : List Char), T = d :: t → t.length < m → ∀ hf, ∃ names, gccLoop m d hf t = some names ∧ Entered (!hf) (lines crlf t) names) →
        lines crlf text = l :: (linesAfter crlf T) →
        ∃ names, gccLoop (fuel + 1) nl hf text = some names ∧ Entered (!hf) (lines crlf text) names := by
      intro l T he hl hT ih hlines
      have hnd : ¬ OpenMarker l := hopen l (by rw [hlines]; simp)
      -- once at the end of the line
      have fin : ∀ (m : Nat), m ≤ fuel + 1 → T.length < m → ∀ (p : Char) (s' : List Char) (hf : Bool), (∀ c ∈ s', crlf c = false) →
          (crlf p = false ∨ s'.head? ≠ some '#') →
          ∃ names, gccLoop m p hf (s' ++ T) = some names ∧ Entered (!hf) (linesAfter crlf T) names := by
        intro m hm hTm p s' hf hs' hp
        cases m with
        | zero => omega
        | succ m =>
          rw [gccLoop, nextHash_mid s' T p hs' hp hT]
          rcases hT with rfl | ⟨d, t, rfl, hd⟩
          · exact ⟨[], rfl, Entered.nil _⟩
          · obtain ⟨ns, h1, h2⟩ := ih (m + 1) hm d t rfl (by simp at hTm; omega) hf
            rw [gccLoop] at h1
            exact ⟨ns, h1, h2⟩
      rw [hlines]
      by_cases hh : l.head? = some '#'
      · cases l with
        | nil => simp at hh
        | cons c s =>
          simp at hh; subst hh
          have hs : ∀ c ∈ s, crlf c = false := fun c hc => hl c (by simp [hc])
          have hn : nl = '\n' ∨ nl = '\r' := by simpa [crlf] using hnl
          rw [gccLoop, he, List.cons_append, nextHash, if_pos ⟨rfl, hn⟩]
          obtain ⟨p, s', inc, g1, g2, g3, g4⟩ := gccBody_line hf s T hT hs hnd
          simp only [g1]
          obtain ⟨ns, n1, n2⟩ := fin fuel (by omega) (by rw [he] at hlen; simp at hlen; omega) p s' (hf && !("#line ".toList.isPrefixOf ('#' :: s)))
            (fun c hc => hs c (g2.subset hc)) (Or.inl g3)
          refine ⟨inc.toList ++ ns, by simp only [n1, Option.map_some], ?_⟩
          have hb : (!(hf && !("#line ".toList.isPrefixOf ('#' :: s)))) = (!hf || "#line ".toList.isPrefixOf ('#' :: s)) := by
            cases hf <;> simp
          rw [hb] at n2
          cases inc with
          | none => exact Entered.skip (fun n hn => by simpa using (g4 n).2 hn) n2
          | some n => exact Entered.take ((g4 n).1 rfl) n2
      · obtain ⟨ns, n1, n2⟩ := fin (fuel + 1) (Nat.le_refl _) (by rw [he] at hlen; simp at hlen; omega) nl l hf hl (Or.inr hh)
        rw [he]
        refine ⟨ns, n1, Entered.skip (fun n hn => ?_) ?_⟩
        · obtain ⟨s, rfl⟩ := enters_hash hn
          simp at hh
        · rw [noline_of_head hh, Bool.or_false]; exact n2
    rcases line_cases crlf text with h | ⟨l, d, t, h1, h2, h3⟩
    · exact key text [] (by simp) h (Or.inl rfl) (by simp) (lines_nonl crlf text h)
    · refine key l (d :: t) h1 h2 (Or.inr ⟨d, t, rfl, h3⟩) ?_ (by rw [h1]; exact lines_app crlf d t h3 l h2)
      intro m hm d' t' he ht hf'
      cases he
      have hlt : t.length < text.length := by rw [h1]; simp; omega
      have hop : ∀ l ∈ lines crlf t, ¬ OpenMarker l := by
        intro l' hl'; apply hopen; rw [h1, lines_app crlf d t h3 l h2]; simp [hl']
      exact gccLoop_lines m t d hf' ht h3 hop
termination_by fuel text => text.length

end Verif.Incl
