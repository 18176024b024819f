import Verif.Incl.Ms
import Verif.Str.CleanProps
/-
C69 to C72: the headers found in the output of compilers and preprocessors.
-/
namespace Verif.Incl
open Verif.Str

/-! ## C69: GCC and Clang -/

/-- C69. In every preprocessed text whose markers have a closing quote, exactly the headers entered by the
lines are found, in the order of the lines. -/
theorem C69_gcc (text : List Char) (hopen : ∀ l ∈ lines crlf text, ¬ OpenMarker l) :
    ∃ names, parseGcc text = some names ∧ Entered false (lines crlf text) names := by
  have h := gccLoop_lines (text.length + 1 + 1) text '\n' true (by omega) rfl hopen
  have h' := gccLoop_lines (text.length + 1) text '\n' true (by omega) rfl hopen
  unfold parseGcc
  by_cases hh : text.head? = some '#'
  · rw [if_pos hh]
    cases text with
    | nil => simp at hh
    | cons c s =>
      simp at hh; subst hh
      rw [gccLoop, nextHash, if_pos ⟨rfl, Or.inl rfl⟩] at h
      simpa using h
  · rw [if_neg hh]
    have e : nextHash ' ' text = nextHash '\n' text := by
      cases text with
      | nil => rfl
      | cons c s =>
        simp at hh
        rw [nextHash, nextHash, if_neg (by simp [hh]), if_neg (by simp [hh])]
    rw [gccLoop, e]
    rw [gccLoop] at h'
    exact h'

/-- C69. If the parser gives up, some marker has no closing quote on its line. -/
theorem C69_gcc_fails (text : List Char) (h : parseGcc text = none) : ∃ l ∈ lines crlf text, OpenMarker l := by
  refine Classical.byContradiction fun hno => ?_
  obtain ⟨names, h1, _⟩ := C69_gcc text (fun l hl ho => hno ⟨l, hl, ho⟩)
  rw [h] at h1; cases h1

theorem lines_mem (nl : Char → Bool) : ∀ (s l : List Char), l ∈ lines nl s → ∀ c ∈ l, nl c = false := by
  intro s
  induction s with
  | nil => intro l hl; simp [lines] at hl; subst hl; simp
  | cons c s ih =>
    intro l hl
    by_cases hc : nl c = true
    · rw [lines, if_pos hc] at hl
      rcases List.mem_cons.1 hl with rfl | hl
      · simp
      · exact ih l hl
    · rw [lines_rev nl c (by simpa using hc)] at hl
      cases he : lines nl s with
      | nil => exact absurd he (lines_ne nl s)
      | cons m ms =>
        rw [he] at hl
        rcases List.mem_cons.1 hl with rfl | hl
        · intro x hx
          rcases List.mem_cons.1 hx with rfl | hx
          · simpa using hc
          · exact ih m (by rw [he]; simp) x (by simpa using hx)
        · exact ih l (by rw [he]; simp at hl; simp [hl])

theorem Enters.mono {l n : List Char} {d : Bool} (h : Enters d l n) : Enters true l n := by
  obtain ⟨i, f, h1, h2, h3, h4, h5⟩ := h
  exact ⟨i, f, h1, h2, h3, h4, Or.inr (Or.inl rfl)⟩

theorem Enters.of_false {l n : List Char} (d : Bool) (h : Enters false l n) : Enters d l n := by
  obtain ⟨i, f, h1, h2, h3, h4, h5⟩ := h
  exact ⟨i, f, h1, h2, h3, h4, h5.imp id (fun h => Or.inr (h.resolve_left (by simp)))⟩

/-- a line enters at most one header -/
theorem Enters.unique {l n n' : List Char} {d d' : Bool} (h : Enters d l n) (h' : Enters d' l n') : n = n' := by
  have i1 : "# ".toList = ['#', ' '] := rfl
  have i2 : "#line ".toList = ['#', 'l', 'i', 'n', 'e', ' '] := rfl
  have i3 : " \"".toList = [' ', '"'] := rfl
  have main : ∀ (ds ds' f f' : List Char), (∀ c ∈ ds, c.isDigit = true) → (∀ c ∈ ds', c.isDigit = true) → '"' ∉ n → '"' ∉ n' →
      ds ++ " \"".toList ++ n ++ '"' :: f = ds' ++ " \"".toList ++ n' ++ '"' :: f' → n = n' := by
    intro ds ds' f f' hd hd' hn hn' he
    have a := digits_drop ds (' ' :: '"' :: (n ++ '"' :: f)) hd (by intro c hc; simp at hc; subst hc; decide)
    have b := digits_drop ds' (' ' :: '"' :: (n' ++ '"' :: f')) hd' (by intro c hc; simp at hc; subst hc; decide)
    have e : ds ++ (' ' :: '"' :: (n ++ '"' :: f)) = ds' ++ (' ' :: '"' :: (n' ++ '"' :: f')) := by
      rw [i3] at he; simpa using he
    rw [e, b] at a
    simp only [List.cons.injEq, true_and] at a
    exact (quote_unique hn' hn a).1.symm
  obtain ⟨i, f, hi, ⟨ds, a1, a2, a3⟩, _⟩ := h
  obtain ⟨i', f', hi', ⟨ds', b1, b2, b3⟩, _⟩ := h'
  rw [a3] at b3
  rcases hi with rfl | rfl <;> rcases hi' with rfl | rfl
  · refine main ds ds' f f' a1 b1 a2 b2 ?_
    simp only [List.append_assoc] at b3
    simpa only [List.append_assoc] using List.append_cancel_left b3
  · rw [i1, i2] at b3; simp at b3
  · rw [i1, i2] at b3; simp at b3
  · refine main ds ds' f f' a1 b1 a2 b2 ?_
    simp only [List.append_assoc] at b3
    simpa only [List.append_assoc] using List.append_cancel_left b3

theorem Entered.complete {d : Bool} {ls ns : List (List Char)} (h : Entered d ls ns) :
    ∀ l ∈ ls, ∀ n, Enters d l n → n ∈ ns := by
  induction h with
  | nil => intro l hl; simp at hl
  | @skip d l ls ns hno _ ih =>
    intro l' hl' n hn
    rcases List.mem_cons.1 hl' with rfl | hl'
    · exact absurd hn (hno n)
    · refine ih l' hl' n ?_
      cases d with
      | false => exact hn.of_false _
      | true => exact hn
  | @take d l ls ns n0 h0 _ ih =>
    intro l' hl' n hn
    rcases List.mem_cons.1 hl' with rfl | hl'
    · rw [hn.unique h0]; simp
    · refine List.mem_cons_of_mem _ (ih l' hl' n ?_)
      cases d with
      | false => exact hn.of_false _
      | true => exact hn

theorem Entered.sound {d : Bool} {ls ns : List (List Char)} (h : Entered d ls ns) : ∀ n ∈ ns, ∃ l ∈ ls, Enters true l n := by
  induction h with
  | nil => intro n hn; simp at hn
  | skip _ _ ih => intro n hn; obtain ⟨l, h1, h2⟩ := ih n hn; exact ⟨l, by simp [h1], h2⟩
  | take h0 _ ih =>
    intro n hn
    rcases List.mem_cons.1 hn with rfl | hn
    · exact ⟨_, by simp, h0.mono⟩
    · obtain ⟨l, h1, h2⟩ := ih n hn; exact ⟨l, by simp [h1], h2⟩

/-! ## C70: /showIncludes -/

/-- C70. In every output, exactly the paths shown by complete lines are found, in order. -/
theorem C70_show (text : List Char) : Shown ((lines (· == '\n') text).dropLast.map chomp) (parseShow text) := by
  have := showGo_lines text []
  simp only [List.reverse_nil, List.nil_append] at this
  have hid : (lines (· == '\n') text).modifyHead (fun x => x) = lines (· == '\n') text := by cases lines (· == '\n') text <;> rfl
  rw [hid] at this
  exact this

theorem Shown.mem {ls ns : List (List Char)} (h : Shown ls ns) (n : List Char) : n ∈ ns ↔ ∃ l ∈ ls, Shows l n := by
  induction h with
  | nil => simp
  | @skip l ls ns hno _ ih =>
    rw [ih]
    constructor
    · rintro ⟨l, h1, h2⟩; exact ⟨l, by simp [h1], h2⟩
    · rintro ⟨l', h1, h2⟩
      rcases List.mem_cons.1 h1 with rfl | h1
      · exact absurd h2 (hno n)
      · exact ⟨l', h1, h2⟩
  | @take l ls ns n0 h0 _ ih =>
    rw [List.mem_cons, ih]
    constructor
    · rintro (rfl | ⟨l, h1, h2⟩)
      · exact ⟨l, by simp, h0⟩
      · exact ⟨l, by simp [h1], h2⟩
    · rintro ⟨l', h1, h2⟩
      rcases List.mem_cons.1 h1 with rfl | h1
      · left
        rw [← showLine_iff] at h2 h0
        rw [h0] at h2; cases h2; rfl
      · exact Or.inr ⟨l', h1, h2⟩

/-- C70. A path is found exactly if a complete line shows it. -/
theorem C70_show_mem (text n : List Char) :
    n ∈ parseShow text ↔ ∃ l ∈ (lines (· == '\n') text).dropLast, Shows (chomp l) n := by
  rw [(C70_show text).mem]
  constructor
  · rintro ⟨l, h1, h2⟩
    obtain ⟨l', h3, rfl⟩ := List.mem_map.1 h1
    exact ⟨l', h3, h2⟩
  · rintro ⟨l, h1, h2⟩
    exact ⟨chomp l, List.mem_map.2 ⟨l, h1, rfl⟩, h2⟩

/-- Finding. A header on a network share is not found. -/
theorem C70_network_not_found :
    parseShow "Note: including file: \\\\server\\inc\\a.h\r\nNote: including file:  C:\\inc\\b.h\r\n".toList =
      ["C:\\inc\\b.h".toList] := by decide +kernel

/-- Finding. A last line without a line end is ignored. -/
theorem C70_unterminated : parseShow "Note: including file: C:\\a.h".toList = [] := by decide +kernel

example : Shows "Note: including file:  C:\\inc\\b.h".toList "C:\\inc\\b.h".toList :=
  ⟨"Note".toList, " including file".toList, 2, 'C', "\\inc\\b.h".toList, by decide, by decide, by decide, by decide, by decide,
    by decide, by decide, by decide⟩

/-! ## C71: Microsoft's preprocessed output -/

/-- C71. In every preprocessed text in which each `#line 1` has a quoted name, exactly the names of these
lines are found, in order. -/
theorem C71_preprocessed (text : List Char) (hopen : ∀ l ∈ lines (· == '\n') text, ¬ OpenStart l) :
    ∃ names, parsePP text = some names ∧ Started (lines (· == '\n') text) names :=
  (ppLoop_lines _ text rfl (text.length + 1) [] (by omega)).1 rfl hopen

/-- C71. If the parser gives up, some `#line 1` has no quoted name on its line. -/
theorem C71_fails (text : List Char) (h : parsePP text = none) : ∃ l ∈ lines (· == '\n') text, OpenStart l := by
  refine Classical.byContradiction fun hno => ?_
  obtain ⟨names, h1, _⟩ := C71_preprocessed text (fun l hl ho => hno ⟨l, hl, ho⟩)
  rw [h] at h1; cases h1

example : parsePP "#line 1 \"C:\\\\a.cpp\"\nint x; #line 1 \"no\"\n  #line 1 \"C:\\\\b.h\"\r\n#line 7 \"C:\\\\a.cpp\"\n".toList =
    some ["C:\\\\a.cpp".toList, "C:\\\\b.h".toList] := by decide +kernel

example : ∀ l ∈ lines (· == '\n') "#line 1 \"C:\\\\a.cpp\"\nint x;".toList, ¬ OpenStart l := by
  have e : lines (· == '\n') "#line 1 \"C:\\\\a.cpp\"\nint x;".toList = ["#line 1 \"C:\\\\a.cpp\"".toList, "int x;".toList] := by
    decide +kernel
  have hl : "#line 1 ".toList = ['#', 'l', 'i', 'n', 'e', ' ', '1', ' '] := rfl
  rw [e]
  intro l hl'
  simp only [List.mem_cons, List.not_mem_nil, or_false] at hl'
  rintro ⟨ws, z, h1, h2, h3⟩
  rw [hl] at h2
  rcases hl' with rfl | rfl
  · have e1 : "#line 1 \"C:\\\\a.cpp\"".toList = ['#', 'l', 'i', 'n', 'e', ' ', '1', ' '] ++ "\"C:\\\\a.cpp\"".toList := rfl
    rw [e1] at h2
    cases ws with
    | nil =>
      rw [List.nil_append] at h2
      have := List.append_cancel_left h2
      rw [← this] at h3
      exact absurd h3 (by decide)
    | cons c ws =>
      simp at h2
      have := h1 c (by simp)
      rw [← h2.1] at this
      exact absurd this (by decide)
  · have e1 : "int x;".toList = ['i', 'n', 't', ' ', 'x', ';'] := rfl
    rw [e1] at h2
    have := congrArg List.length h2
    simp at this
    omega

/-! ## C72: the list of headers -/

/-- the hash tells the names, and the paths they mean, from each other, and is never 0 for them -/
def Distinguishes (h : List Char → Nat) (p : Platform) (wd : List Char) (S : List Char → Prop) : Prop :=
  (∀ a b, S a → S b → h a = h b → a = b) ∧
  (∀ a b, S a → S b → h (key p (clean p wd a)) = h (key p (clean p wd b)) → key p (clean p wd a) = key p (clean p wd b)) ∧
  ∀ a, S a → h a ≠ 0 ∧ h (key p (clean p wd a)) ≠ 0

/-- what holds of the list after names -/
structure Listed (p : Platform) (wd : List Char) (names incs : List (List Char)) : Prop where
  /-- nothing is missing -/
  complete : ∀ n ∈ names, ∃ i ∈ incs, key p i = key p (clean p wd n)
  /-- the first spelling of each is kept, in order -/
  sub : List.Sublist incs (names.map (clean p wd))
  first : ∀ i ∈ incs, ∃ pre n post, names = pre ++ n :: post ∧ i = clean p wd n ∧
    ∀ m ∈ pre, key p (clean p wd m) ≠ key p (clean p wd n)
  /-- nothing is there twice -/
  nodup : (incs.map (key p)).Nodup

structure Inv (h : List Char → Nat) (p : Platform) (wd : List Char) (names : List (List Char)) (st : Parser) : Prop where
  listed : Listed p wd names st.includes
  c1 : ∀ x, x ∈ st.crcs1 ↔ ∃ n ∈ names, x = h n
  l1 : st.last1 = 0 ∨ st.last1 ∈ st.crcs1
  c2 : ∀ x, x ∈ st.crcs2 ↔ ∃ i ∈ st.includes, x = h (key p i)
  l2 : st.last2 = 0 ∨ st.last2 ∈ st.crcs2

theorem Listed.same {p : Platform} {wd : List Char} {names incs : List (List Char)} (h : Listed p wd names incs) (n : List Char)
    (hn : ∃ i ∈ incs, key p i = key p (clean p wd n)) : Listed p wd (names ++ [n]) incs := by
  refine ⟨?_, ?_, ?_, h.nodup⟩
  · intro m hm
    rcases List.mem_append.1 hm with hm | hm
    · exact h.complete m hm
    · simp at hm; subst hm; exact hn
  · rw [List.map_append]; exact h.sub.trans (List.sublist_append_left _ _)
  · intro i hi
    obtain ⟨pre, m, post, h1, h2, h3⟩ := h.first i hi
    exact ⟨pre, m, post ++ [n], by rw [h1]; simp, h2, h3⟩

theorem addInclude_inv {h : List Char → Nat} {p : Platform} {wd : List Char} {names : List (List Char)} {st : Parser} (n : List Char)
    (hd : Distinguishes h p wd (· ∈ names ++ [n])) (hi : Inv h p wd names st) : Inv h p wd (names ++ [n]) (addInclude h p wd st n) := by
  obtain ⟨d1, d2, d3⟩ := hd
  have mem_n : n ∈ names ++ [n] := by simp
  -- a name met before
  have old : h n ∈ st.crcs1 → n ∈ names := by
    intro hm
    obtain ⟨m, hm, he⟩ := (hi.c1 _).1 hm
    have := d1 n m mem_n (by simp [hm]) he
    rw [this]; exact hm
  have c1_same : n ∈ names → ∀ x, x ∈ st.crcs1 ↔ ∃ m ∈ names ++ [n], x = h m := by
    intro hn x
    rw [hi.c1]
    constructor
    · rintro ⟨m, h1, h2⟩; exact ⟨m, by simp [h1], h2⟩
    · rintro ⟨m, h1, h2⟩
      rcases List.mem_append.1 h1 with h1 | h1
      · exact ⟨m, h1, h2⟩
      · simp at h1; subst h1; exact ⟨m, hn, h2⟩
  unfold addInclude
  simp only
  split
  · rename_i h1
    have hn : n ∈ names := old (by
      rcases hi.l1 with h0 | h0
      · rw [h0] at h1; exact absurd h1 (d3 n mem_n).1
      · rw [h1]; exact h0)
    exact ⟨hi.listed.same n (hi.listed.complete n hn), c1_same hn, hi.l1, hi.c2, hi.l2⟩
  · split
    · rename_i h2
      have hn : n ∈ names := old h2
      exact ⟨hi.listed.same n (hi.listed.complete n hn), c1_same hn, Or.inr h2, hi.c2, hi.l2⟩
    · have c1' : ∀ x, x ∈ st.crcs1 ++ [h n] ↔ ∃ m ∈ names ++ [n], x = h m := by
        intro x
        rw [List.mem_append, hi.c1]
        constructor
        · rintro (⟨m, h1, h2⟩ | h1)
          · exact ⟨m, by simp [h1], h2⟩
          · exact ⟨n, mem_n, by simpa using h1⟩
        · rintro ⟨m, h1, h2⟩
          rcases List.mem_append.1 h1 with h1 | h1
          · exact Or.inl ⟨m, h1, h2⟩
          · simp at h1; subst h1; right; simp [h2]
      -- a path met before
      have old2 : h (key p (clean p wd n)) ∈ st.crcs2 → ∃ i ∈ st.includes, key p i = key p (clean p wd n) := by
        intro hm
        obtain ⟨i, hi1, he⟩ := (hi.c2 _).1 hm
        obtain ⟨pre, m, post, e1, e2, _⟩ := hi.listed.first i hi1
        refine ⟨i, hi1, ?_⟩
        rw [e2] at he ⊢
        exact (d2 n m mem_n (by rw [e1]; simp) he).symm
      split
      · rename_i h3
        have := old2 (by
          rcases hi.l2 with h0 | h0
          · rw [h0] at h3; exact absurd h3 (d3 n mem_n).2
          · rw [h3]; exact h0)
        exact ⟨hi.listed.same n this, c1', Or.inr (by simp), hi.c2, hi.l2⟩
      · split
        · rename_i h4
          exact ⟨hi.listed.same n (old2 h4), c1', Or.inr (by simp), hi.c2, Or.inr h4⟩
        · rename_i h4
          have hnew : ∀ i ∈ st.includes, key p i ≠ key p (clean p wd n) := by
            intro i hi1 he
            exact h4 ((hi.c2 _).2 ⟨i, hi1, by rw [he]⟩)
          refine ⟨⟨?_, ?_, ?_, ?_⟩, c1', Or.inr (by simp), ?_, Or.inr (by simp)⟩
          · intro m hm
            rcases List.mem_append.1 hm with hm | hm
            · obtain ⟨i, h1, h2⟩ := hi.listed.complete m hm
              exact ⟨i, by simp [h1], h2⟩
            · simp at hm; subst hm; exact ⟨clean p wd m, by simp, rfl⟩
          · rw [List.map_append]; exact List.Sublist.append hi.listed.sub (List.Sublist.refl _)
          · intro i hi1
            rcases List.mem_append.1 hi1 with hi1 | hi1
            · obtain ⟨pre, m, post, e1, e2, e3⟩ := hi.listed.first i hi1
              exact ⟨pre, m, post ++ [n], by rw [e1]; simp, e2, e3⟩
            · simp at hi1
              refine ⟨names, n, [], rfl, hi1, fun m hm he => ?_⟩
              obtain ⟨i, h1, h2⟩ := hi.listed.complete m hm
              exact hnew i h1 (h2.trans he)
          · rw [List.map_append, List.nodup_append]
            refine ⟨hi.listed.nodup, by simp, ?_⟩
            intro x hx y hy
            obtain ⟨i, h1, rfl⟩ := List.mem_map.1 hx
            simp at hy
            rw [hy]; exact hnew i h1
          · intro x
            rw [List.mem_append, hi.c2]
            constructor
            · rintro (⟨i, h1, h2⟩ | h1)
              · exact ⟨i, by simp [h1], h2⟩
              · exact ⟨clean p wd n, by simp, by simpa using h1⟩
            · rintro ⟨i, h1, h2⟩
              rcases List.mem_append.1 h1 with h1 | h1
              · exact Or.inl ⟨i, h1, h2⟩
              · simp at h1; subst h1; right; simp [h2]

theorem foldl_inv {h : List Char → Nat} {p : Platform} {wd : List Char} : ∀ (rest names : List (List Char)) (st : Parser),
    Distinguishes h p wd (· ∈ names ++ rest) → Inv h p wd names st → Inv h p wd (names ++ rest) (rest.foldl (addInclude h p wd) st)
  | [], names, st, _, hi => by simpa using hi
  | n :: rest, names, st, hd, hi => by
    have e : names ++ n :: rest = (names ++ [n]) ++ rest := by simp
    rw [e] at hd ⊢
    refine foldl_inv rest (names ++ [n]) _ hd (addInclude_inv n ?_ hi)
    obtain ⟨d1, d2, d3⟩ := hd
    exact ⟨fun a b ha hb => d1 a b (by simp at ha ⊢; rcases ha with h | h <;> simp [h]) (by simp at hb ⊢; rcases hb with h | h <;> simp [h]),
      fun a b ha hb => d2 a b (by simp at ha ⊢; rcases ha with h | h <;> simp [h]) (by simp at hb ⊢; rcases hb with h | h <;> simp [h]),
      fun a ha => d3 a (by simp at ha ⊢; rcases ha with h | h <;> simp [h])⟩

/-- C72. For every sequence of names whose hashes differ: each header is in the list, as the cleaned path in its
first spelling; in order of first appearance; and none twice. -/
theorem C72_list_partial (h : List Char → Nat) (p : Platform) (wd : List Char) (names : List (List Char))
    (hd : Distinguishes h p wd (· ∈ names)) : Listed p wd names (listOf h p wd names) := by
  have := foldl_inv (h := h) (p := p) (wd := wd) names [] {} (by simpa using hd)
    ⟨⟨by simp, by simp, by simp, by simp⟩, by simp, Or.inl rfl, by simp, Or.inl rfl⟩
  rw [List.nil_append] at this
  exact this.listed

/-- C72. Where case matters, the list contains exactly the cleaned paths of the names. -/
theorem C72_list_mem_partial (h : List Char → Nat) (wd : List Char) (names : List (List Char))
    (hd : Distinguishes h .linux wd (· ∈ names)) (i : List Char) :
    i ∈ listOf h .linux wd names ↔ ∃ n ∈ names, clean .linux wd n = i := by
  have hl := C72_list_partial h .linux wd names hd
  constructor
  · intro hi
    obtain ⟨pre, n, post, h1, h2, _⟩ := hl.first i hi
    exact ⟨n, by rw [h1]; simp, h2.symm⟩
  · rintro ⟨n, hn, rfl⟩
    obtain ⟨i, h1, h2⟩ := hl.complete n hn
    have h2' : i = clean .linux wd n := h2
    rw [← h2']; exact h1

/-- Finding. If the 32 bit hashes of two names are equal, the second header is missing from the list, and
nothing reports this. -/
theorem C72_collision_drops (h : List Char → Nat) (p : Platform) (wd a b : List Char) (hab : h a = h b) :
    listOf h p wd [a, b] = listOf h p wd [a] := by
  unfold listOf
  simp only [List.foldl_cons, List.foldl_nil]
  generalize hst : addInclude h p wd {} a = st
  have hl : h a = st.last1 := by
    rw [← hst]
    unfold addInclude
    simp only
    split
    · rename_i h0; exact h0
    · split
      · rfl
      · split
        · rfl
        · split <;> rfl
  unfold addInclude
  simp only
  rw [if_pos (by rw [← hab]; exact hl)]

/-- Finding. A header whose name hashes to 0 is missing if it comes first. -/
theorem C72_zero_drops (h : List Char → Nat) (p : Platform) (wd a : List Char) (h0 : h a = 0) :
    listOf h p wd [a] = [] := by
  unfold listOf
  simp only [List.foldl_cons, List.foldl_nil]
  unfold addInclude
  simp only
  rw [if_pos h0]

/-- a hash which tells all strings apart (for the examples) -/
def exHash (s : List Char) : Nat := s.foldl (fun a c => a * 256 + c.toNat) 1

example : Distinguishes exHash .windows "C:\\w".toList (· ∈ ["a.h".toList, "A.h".toList, "sub/../a.h".toList, "b.h".toList]) ∧
    listOf exHash .windows "C:\\w".toList ["a.h".toList, "A.h".toList, "sub/../a.h".toList, "b.h".toList] =
      ["C:\\w\\a.h".toList, "C:\\w\\b.h".toList] := by
  refine ⟨⟨?_, ?_, ?_⟩, by decide +kernel⟩
  · have : ∀ a ∈ ["a.h".toList, "A.h".toList, "sub/../a.h".toList, "b.h".toList], ∀ b ∈ ["a.h".toList, "A.h".toList, "sub/../a.h".toList, "b.h".toList],
        exHash a = exHash b → a = b := by decide +kernel
    exact fun a b ha hb => this a ha b hb
  · have : ∀ a ∈ ["a.h".toList, "A.h".toList, "sub/../a.h".toList, "b.h".toList], ∀ b ∈ ["a.h".toList, "A.h".toList, "sub/../a.h".toList, "b.h".toList],
        exHash (key .windows (clean .windows "C:\\w".toList a)) = exHash (key .windows (clean .windows "C:\\w".toList b)) →
        key .windows (clean .windows "C:\\w".toList a) = key .windows (clean .windows "C:\\w".toList b) := by decide +kernel
    exact fun a b ha hb => this a ha b hb
  · have : ∀ a ∈ ["a.h".toList, "A.h".toList, "sub/../a.h".toList, "b.h".toList], exHash a ≠ 0 ∧
        exHash (key .windows (clean .windows "C:\\w".toList a)) ≠ 0 := by decide +kernel
    exact this

/-! ## The whole way -/

/-- C69. For every preprocessed text in which markers have closing quotes, and hashes which tell the names in it
apart: the object's list contains every header entered with flag 1 (or by `#line`), as its cleaned path; it
contains nothing but cleaned paths of names in markers; and nothing twice. -/
theorem C69_headers_partial (h : List Char → Nat) (p : Platform) (wd text : List Char)
    (hopen : ∀ l ∈ lines crlf text, ¬ OpenMarker l)
    (hd : Distinguishes h p wd (fun n => ∃ l ∈ lines crlf text, Enters true l n)) :
    ∃ incs, processIncludes h p wd .gccPreprocessed text = some incs ∧
      (∀ l ∈ lines crlf text, ∀ n, Enters false l n → ∃ i ∈ incs, key p i = key p (clean p wd n)) ∧
      (∀ i ∈ incs, ∃ l ∈ lines crlf text, ∃ n, Enters true l n ∧ i = clean p wd n) ∧
      (incs.map (key p)).Nodup := by
  obtain ⟨names, h1, h2⟩ := C69_gcc text hopen
  have hl := C72_list_partial h p wd names
    ⟨fun a b ha hb => hd.1 a b (h2.sound a ha) (h2.sound b hb), fun a b ha hb => hd.2.1 a b (h2.sound a ha) (h2.sound b hb),
      fun a ha => hd.2.2 a (h2.sound a ha)⟩
  refine ⟨listOf h p wd names, by simp [processIncludes, h1], ?_, ?_, hl.nodup⟩
  · intro l hm n hn
    exact hl.complete n (h2.complete l hm n hn)
  · intro i hi
    obtain ⟨pre, n, post, e1, e2, _⟩ := hl.first i hi
    obtain ⟨l, hm, hn⟩ := h2.sound n (by rw [e1]; simp)
    exact ⟨l, hm, n, hn, e2⟩

example : parseGcc "# 1 \"main.cpp\"\n# 1 \"<built-in>\"\n# 1 \"a.h\" 1\n#pragma once\nint x;\n# 2 \"main.cpp\" 2\n# 1 \"/inc/b.h\" 1 3 4\n".toList =
    some ["a.h".toList, "/inc/b.h".toList] := by decide +kernel

example : Enters false "# 1 \"/inc/b.h\" 1 3 4".toList "/inc/b.h".toList :=
  ⟨"# ".toList, " 1 3 4".toList, Or.inl rfl, ⟨['1'], by decide, by decide, by decide⟩, by decide, by
    intro c hc
    have : "/inc/b.h".toList.getLast? = some 'h' := by decide
    rw [this] at hc; cases hc; decide, Or.inl ⟨" 3 4".toList, by decide⟩⟩

/-- Finding. A line of a raw string literal which looks like a marker is taken as one. -/
theorem C69_raw_string : parseGcc "const char * s = R\"(\n# 1 \"none.h\" 1\n)\";\n".toList = some ["none.h".toList] := by decide +kernel

/-! ## Escaped names -/

theorem compsGo_quoted : ∀ (s cur : List Char), '"' ∉ s → compsGo cur (quoted s) = compsGo cur s
  | [], _, _ => rfl
  | c :: s, cur, h => by
    have h' : '"' ∉ s := fun hm => h (by simp [hm])
    have hc : c ≠ '"' := fun he => h (by simp [he])
    rw [quoted]
    by_cases hb : c = '\\'
    · rw [if_pos (Or.inl hb), hb]
      have hsl : isSlash '\\' = true := rfl
      rw [compsGo, if_pos hsl, compsGo, if_pos hsl]
      by_cases hcur : cur = []
      · rw [if_pos hcur, if_pos rfl, compsGo_quoted s [] h', compsGo, if_pos hsl, if_pos hcur]
      · rw [if_neg hcur, if_pos rfl, compsGo_quoted s [] h', compsGo, if_pos hsl, if_neg hcur]
    · rw [if_neg (by simp [hb, hc]), compsGo, compsGo]
      by_cases hs : isSlash c = true
      · rw [if_pos hs, if_pos hs, compsGo_quoted s [] h']
      · rw [if_neg hs, if_neg hs, compsGo_quoted s _ h']

theorem quoted_getLast : ∀ s : List Char, (quoted s).getLast? = s.getLast?
  | [] => rfl
  | c :: s => by
    have ih := quoted_getLast s
    rw [quoted]
    cases s with
    | nil =>
      by_cases h : c = '\\' ∨ c = '"'
      · rw [if_pos h]; rfl
      · rw [if_neg h]; rfl
    | cons d s =>
      have hne : quoted (d :: s) ≠ [] := by rw [quoted]; split <;> simp
      cases hq : quoted (d :: s) with
      | nil => exact absurd hq hne
      | cons e q =>
        rw [hq] at ih
        rw [List.getLast?_cons_cons, ← ih]
        split
        · rw [List.getLast?_cons_cons, List.getLast?_cons_cons]
        · rw [List.getLast?_cons_cons]

theorem endsOpen_quoted (s : List Char) (h : '"' ∉ s) : endsOpen (quoted s) = endsOpen s := by
  unfold endsOpen comps
  rw [compsGo_quoted s [] h, quoted_getLast]

/-- C69. GCC prints backslashes in names doubled; on Windows the path found is the same nevertheless, for every
full path on a drive. -/
theorem C69_escaped_windows (wd : List Char) (d : Char) (s : List Char) (hd : d.isAlpha = true)
    (hs : ∃ sl t, isSlash sl = true ∧ s = sl :: t) (hq : '"' ∉ s) :
    clean .windows wd (quoted (d :: ':' :: s)) = clean .windows wd (d :: ':' :: s) := by
  have hns : isSlash d = false := by
    cases h : isSlash d with
    | false => rfl
    | true =>
      simp [isSlash] at h
      rcases h with rfl | rfl <;> exact absurd hd (by decide)
  have hnq : ¬ (d = '\\' ∨ d = '"') := by
    rintro (rfl | rfl) <;> exact absurd hd (by decide)
  have e : quoted (d :: ':' :: s) = d :: ':' :: quoted s := by
    rw [quoted, if_neg hnq, quoted, if_neg (by decide)]
  obtain ⟨sl, t, h1, rfl⟩ := hs
  have hx : ∃ sl' t', isSlash sl' = true ∧ quoted (sl :: t) = sl' :: t' := by
    rw [quoted]
    split
    · exact ⟨'\\', _, rfl, rfl⟩
    · exact ⟨sl, _, h1, rfl⟩
  obtain ⟨sl', t', h1', hx⟩ := hx
  obtain ⟨r, a1, a2⟩ := clean_windows wd (d :: ':' :: sl :: t) d (sl :: t) ⟨hns, Or.inl ⟨sl, t, h1, rfl, rfl⟩⟩
  obtain ⟨r', b1, b2⟩ := clean_windows wd (d :: ':' :: quoted (sl :: t)) d (quoted (sl :: t))
    ⟨hns, Or.inl ⟨sl', t', h1', by rw [hx], by rw [hx]⟩⟩
  have hr : r' = r := by
    rw [a1, b1, endsOpen_quoted _ hq]
    unfold comps
    rw [compsGo_quoted _ _ hq]
  unfold clean
  rw [e, a2, b2, hr]

example : quoted "C:\\inc\\x.h".toList = "C:\\\\inc\\\\x.h".toList ∧
    clean .windows [] (quoted "C:\\inc\\x.h".toList) = "C:\\inc\\x.h".toList := by decide +kernel

/-- Finding. GCC prints a quote in a name as `\"`; the name then seems to end with a slash, and the header is
not found. -/
theorem C69_escaped_quote :
    parseGcc ("# 1 \"".toList ++ quoted "a\"b.h".toList ++ "\" 1\n# 1 \"c.h\" 1\n".toList) = some ["c.h".toList] := by
  decide +kernel

end Verif.Incl
