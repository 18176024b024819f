import Verif.Xcode.Spec
/-! What is written reads back. -/
namespace Verif.Xcode
open Spec

theorem char_ne {c : Char} {n : Nat} (h : c.toNat ≠ n) {d : Char} (hd : d.toNat = n) : c ≠ d := fun e => h (e ▸ hd)

theorem plain_unquoted {c : Char} (h : plain c = true) : Unquoted c := by
  simp only [plain, Bool.or_eq_true, Bool.and_eq_true, decide_eq_true_eq, beq_iff_eq] at h
  simp only [Unquoted, List.mem_cons, List.not_mem_nil, or_false]
  rcases h with (((((h | h) | h) | h) | h) | h) | h <;> simp [h]

theorem unquoted_space {c : Char} (h : Unquoted c) : c ∉ [' ', '\t', '\n', '\r'] := by
  intro hc
  simp only [List.mem_cons, List.not_mem_nil, or_false] at hc
  rcases hc with rfl | rfl | rfl | rfl <;> exact absurd h (by decide)

theorem unquoted_ne {c d : Char} (h : Unquoted c) (hd : ¬ Unquoted d) : c ≠ d := fun e => hd (e ▸ h)

/-- what begins with such a character is not skipped -/
theorem skip_stop {c : Char} {r : Text} (hs : c ∉ [' ', '\t', '\n', '\r']) (hc : ¬ ['/', '/'] <+: c :: r) (hb : ¬ ['/', '*'] <+: c :: r) :
    skip .out (c :: r) = c :: r := by
  rw [skip.eq_def]
  split
  · next e => exact absurd (e ▸ ⟨_, rfl⟩) hc
  · next e => exact absurd (e ▸ ⟨_, rfl⟩) hb
  · next e => simp at e; rw [← e.1, ← e.2, if_neg hs]
  · next h _ => exact nomatch h
  · next h _ => exact nomatch h
  · next h _ => exact nomatch h
  · next e => simp at e

theorem skip_space {c : Char} (r : Text) (hs : c ∈ [' ', '\t', '\n', '\r']) : skip .out (c :: r) = skip .out r := by
  simp only [List.mem_cons, List.not_mem_nil, or_false] at hs
  rcases hs with rfl | rfl | rfl | rfl <;> rfl

theorem skip_tabs (n : Nat) (r : Text) : skip .out (List.replicate n '\t' ++ r) = skip .out r := by
  induction n with
  | zero => rfl
  | succ n ih => rw [List.replicate_succ, List.cons_append, skip_space _ (by decide), ih]

theorem readText_skip {t u : Text} (h : skip .out t = skip .out u) : readText t = readText u := by rw [readText, readText, h]

theorem readValue_skip {t u : Text} (h : skip .out t = skip .out u) (hl : t.length = u.length) : readValue t = readValue u := by
  rw [readValue, readValue, h, hl, readText_skip h]

/-- a run of such characters ends at the first other one -/
theorem take_drop {s : Text} {c : Char} {r : Text} (hs : ∀ x ∈ s, Unquoted x) (hc : ¬ Unquoted c) :
    (s ++ c :: r).takeWhile (fun x => decide (Unquoted x)) = s ∧ (s ++ c :: r).dropWhile (fun x => decide (Unquoted x)) = c :: r := by
  induction s with
  | nil => simp [hc]
  | cons a s ih =>
    have ha := hs a (List.mem_cons_self ..)
    have := ih fun x hx => hs x (List.mem_cons_of_mem _ hx)
    simp [ha, this]

/-- a text without quotes reads back -/
theorem readText_simple {s : Text} {c : Char} {r : Text} (hs : Simple s) (hn : NoComment s) (hc : ¬ Unquoted c) (hc' : c ≠ '*') :
    readText (s ++ c :: r) = some (s, c :: r) := by
  obtain ⟨hne, hu⟩ := hs
  cases s with
  | nil => exact absurd rfl hne
  | cons a s =>
    have ha := hu a (List.mem_cons_self ..)
    have hk : skip .out (a :: s ++ c :: r) = a :: (s ++ c :: r) := by
      refine skip_stop (unquoted_space ha) ?_ ?_
      · cases s with
        | nil =>
          intro ⟨x, hx⟩
          simp at hx
          exact hc (hx.2.1 ▸ by decide)
        | cons b s =>
          intro ⟨x, hx⟩
          simp at hx
          exact hn ⟨s, by rw [← hx.1, ← hx.2.1]; rfl⟩
      · cases s with
        | nil =>
          intro ⟨x, hx⟩
          simp at hx
          exact hc' hx.2.1.symm
        | cons b s =>
          intro ⟨x, hx⟩
          simp at hx
          exact absurd (hu b (by simp)) (hx.2.1 ▸ by decide)
    have ht := take_drop (r := r) hu hc
    have hq : a ≠ '"' := unquoted_ne ha (by decide)
    rw [readText, hk]
    split
    · next e => simp at e
    · next e => simp at e; exact absurd e.1 hq
    · next e =>
      simp at e
      rw [← e.1, ← e.2, if_pos ha]
      exact congrArg some (Prod.ext ht.1 ht.2)

/-- what stands between the quotes reads back -/
theorem quoted_body (s : Text) (r : Text) :
    quoted (s.flatMap (fun c => if plain c then [c] else if c = '\\' ∨ c = '"' then ['\\', c] else [c]) ++ '"' :: r) = some (s, r) := by
  induction s with
  | nil => rfl
  | cons c s ih =>
    rw [List.flatMap_cons, List.append_assoc]
    by_cases h : c = '\\' ∨ c = '"'
    · have hp : plain c = false := by rcases h with rfl | rfl <;> decide
      rw [hp, if_neg (by decide), if_pos h]
      rcases h with rfl | rfl
      · simp only [List.cons_append, List.nil_append, quoted, escaped, Option.bind_some, ih, Option.map_some]
      · simp only [List.cons_append, List.nil_append, quoted, escaped, Option.bind_some, ih, Option.map_some]
    · have : (if plain c = true then [c] else if c = '\\' ∨ c = '"' then ['\\', c] else [c]) = [c] := by
        split
        · rfl
        · rfl
      rw [this, List.singleton_append, quoted.eq_def]
      split
      · next e => simp at e
      · next e => simp at e; exact absurd (Or.inr e.1) h
      · next e => simp at e; exact absurd (Or.inl e.1) h
      · next e => simp at e; rw [← e.1, ← e.2, ih]; rfl

theorem body_plain {s : Text} (h : s.all plain = true) :
    s.flatMap (fun c => if plain c then [c] else if c = '\\' ∨ c = '"' then ['\\', c] else [c]) = s := by
  induction s with
  | nil => rfl
  | cons c s ih =>
    rw [List.all_cons, Bool.and_eq_true] at h
    rw [List.flatMap_cons, if_pos h.1, ih h.2]
    rfl

theorem process_quoted {s : Text} (h : s = [] ∨ s.all plain = false) :
    process s = '"' :: s.flatMap (fun c => if plain c then [c] else if c = '\\' ∨ c = '"' then ['\\', c] else [c]) ++ ['"'] := by
  rw [process]
  split
  · next e => subst e; rfl
  · next e =>
    rcases h with h | h
    · exact absurd h e
    · simp only [h]; rfl

theorem process_plain {s : Text} (h : s ≠ []) (hp : s.all plain = true) : process s = s := by
  rw [process, if_neg h]
  simp only [hp, if_true, body_plain hp]

/-- a text reads back, unless it looks like a comment -/
theorem readText_process {s : Text} {c : Char} {r : Text} (hn : NoComment s) (hc : ¬ Unquoted c) (hc' : c ≠ '*') :
    readText (process s ++ c :: r) = some (s, c :: r) := by
  by_cases h : s ≠ [] ∧ s.all plain = true
  · rw [process_plain h.1 h.2]
    exact readText_simple ⟨h.1, fun x hx => plain_unquoted (List.all_eq_true.1 h.2 x hx)⟩ hn hc hc'
  · have h' : s = [] ∨ s.all plain = false := by
      by_cases e : s = []
      · exact Or.inl e
      · exact Or.inr (by simpa using fun h2 => h ⟨e, h2⟩)
    rw [process_quoted h', List.append_assoc, List.singleton_append, readText, List.cons_append,
      skip_stop (by decide) (by intro ⟨x, hx⟩; simp at hx) (by intro ⟨x, hx⟩; simp at hx)]
    exact quoted_body s (c :: r)

/-- and does not begin with a parenthesis -/
theorem process_head (s : Text) (c : Char) (r : Text) (hn : NoComment s) (hc : ¬ Unquoted c) (hc' : c ≠ '*') :
    ∃ a u, skip .out (process s ++ c :: r) = a :: u ∧ a ≠ '(' ∧ a ≠ ')' := by
  have h := readText_process (r := r) hn hc hc'
  rw [readText] at h
  cases e : skip .out (process s ++ c :: r) with
  | nil => rw [e] at h; exact nomatch h
  | cons a u =>
    refine ⟨a, u, rfl, ?_, ?_⟩ <;>
    · rintro rfl
      rw [e] at h
      simp at h
      exact absurd h.1 (by decide)

theorem readValue_text {s : Text} {c : Char} {r : Text} (hn : NoComment s) (hc : ¬ Unquoted c) (hc' : c ≠ '*') :
    readValue (process s ++ c :: r) = some (.text s, c :: r) := by
  obtain ⟨a, u, e, h1, -⟩ := process_head s c r hn hc hc'
  rw [readValue, e, readText_process hn hc hc']
  split
  · next e' => simp at e'; exact absurd e'.1 h1
  · rfl

theorem setting_simple {name : Text} (h : Setting name) : Simple name := by
  refine ⟨h.1, fun c hc => ?_⟩
  rcases h.2 c hc with h | h | h
  · exact Or.inl h
  · exact Or.inr (Or.inl h)
  · exact Or.inr (Or.inr (Or.inr (by simp [h])))

theorem setting_noComment {name : Text} (h : Setting name) : NoComment name := by
  rintro ⟨r, rfl⟩
  rcases h.2 '/' (by simp) with h | h | h <;> exact absurd h (by decide)

/-- the name of a setting, then the rest -/
theorem readSetting_name {name : Text} (h : Setting name) (n : Nat) {t r : Text} {v : Value} (hv : readValue (' ' :: t) = some (v, ';' :: r)) :
    readSetting (List.replicate n '\t' ++ name ++ " =".toList ++ ' ' :: t) = some (name, v, r) := by
  have e1 : List.replicate n '\t' ++ name ++ " =".toList ++ ' ' :: t = List.replicate n '\t' ++ (name ++ ' ' :: ('=' :: ' ' :: t)) := by simp
  have h1 : readText (List.replicate n '\t' ++ (name ++ ' ' :: ('=' :: ' ' :: t))) = some (name, ' ' :: '=' :: ' ' :: t) := by
    rw [readText_skip (skip_tabs n _)]
    exact readText_simple (setting_simple h) (setting_noComment h) (by decide) (by decide)
  have h2 : skip .out (' ' :: '=' :: ' ' :: t) = '=' :: ' ' :: t := rfl
  have h3 : skip .out (';' :: r) = ';' :: r := rfl
  rw [e1, readSetting, h1]
  simp only [Option.bind_some, h2, hv, h3]


theorem readValue_text' {s : Text} {c : Char} {r : Text} (hn : NoComment s) (hc : ¬ Unquoted c) (hc' : c ≠ '*') :
    readValue (' ' :: (process s ++ c :: r)) = some (.text s, c :: r) := by
  obtain ⟨a, u, e, h1, -⟩ := process_head s c r hn hc hc'
  have hk : skip .out (' ' :: (process s ++ c :: r)) = a :: u := by rw [skip_space _ (by decide), e]
  have ht : readText (' ' :: (process s ++ c :: r)) = some (s, c :: r) := by
    rw [readText_skip (skip_space _ (by decide)), readText_process hn hc hc']
  rw [readValue, hk, ht]
  split
  · next e' => simp at e'; exact absurd e'.1 h1
  · rfl

/-- the members of a list read back -/
theorem members_write (n : Nat) (r : Text) : ∀ (vs : List Text) (fuel : Nat), vs.length < fuel → (∀ v ∈ vs, NoComment v) →
    members fuel ('\n' :: (vs.flatMap (fun v => List.replicate n '\t' ++ '\t' :: (process v ++ ",\n".toList)) ++ List.replicate n '\t' ++ ')' :: r)) =
      some (vs, r)
  | _, 0, h, _ => absurd h (Nat.not_lt_zero _)
  | [], fuel + 1, _, _ => by
    have : skip .out ('\n' :: (List.replicate n '\t' ++ ')' :: r)) = ')' :: r := by
      rw [skip_space _ (by decide), skip_tabs]
      rfl
    rw [members, List.flatMap_nil, List.nil_append, this]
    rfl
  | v :: vs, fuel + 1, hl, hn => by
    have ih := members_write n r vs fuel (by simpa using hl) fun x hx => hn x (List.mem_cons_of_mem _ hx)
    generalize hR : vs.flatMap (fun v => List.replicate n '\t' ++ '\t' :: (process v ++ ",\n".toList)) ++ List.replicate n '\t' ++ ')' :: r = R at ih
    have e : (v :: vs).flatMap (fun v => List.replicate n '\t' ++ '\t' :: (process v ++ ",\n".toList)) ++ List.replicate n '\t' ++ ')' :: r =
        List.replicate n '\t' ++ ('\t' :: (process v ++ ',' :: ('\n' :: R))) := by
      rw [← hR, List.flatMap_cons]
      simp [List.append_assoc]
    have hv := hn v (List.mem_cons_self ..)
    have hk : skip .out ('\n' :: (List.replicate n '\t' ++ ('\t' :: (process v ++ ',' :: ('\n' :: R))))) = skip .out (process v ++ ',' :: ('\n' :: R)) := by
      rw [skip_space _ (by decide), skip_tabs, skip_space _ (by decide)]
    obtain ⟨a, u, ea, -, h2⟩ := process_head v ',' ('\n' :: R) hv (by decide) (by decide)
    have ht : readText ('\n' :: (List.replicate n '\t' ++ ('\t' :: (process v ++ ',' :: ('\n' :: R))))) = some (v, ',' :: '\n' :: R) := by
      rw [readText_skip hk, readText_process hv (by decide) (by decide)]
    have hc : skip .out (',' :: '\n' :: R) = ',' :: '\n' :: R := rfl
    rw [e, members, hk, ea]
    split
    · next e' => simp at e'; exact absurd e'.1 h2
    · rw [ht]
      simp only [Option.bind_some, hc, ih, Option.map_some]

theorem length_le_flatMap {f : Text → Text} (h : ∀ v, 1 ≤ (f v).length) : ∀ vs : List Text, vs.length ≤ (vs.flatMap f).length
  | [] => Nat.le_refl _
  | v :: vs => by
    have := length_le_flatMap h vs
    have := h v
    rw [List.flatMap_cons, List.length_append, List.length_cons]
    omega

/-- a list reads back -/
theorem readValue_list (n : Nat) (r : Text) {vs : List Text} (hn : ∀ v ∈ vs, NoComment v) :
    readValue (' ' :: '(' :: '\n' :: (vs.flatMap (fun v => List.replicate n '\t' ++ '\t' :: (process v ++ ",\n".toList)) ++
      List.replicate n '\t' ++ ')' :: r)) = some (.list vs, r) := by
  have hl : vs.length < (' ' :: '(' :: '\n' :: (vs.flatMap (fun v => List.replicate n '\t' ++ '\t' :: (process v ++ ",\n".toList)) ++
      List.replicate n '\t' ++ ')' :: r)).length := by
    have := length_le_flatMap (f := fun v => List.replicate n '\t' ++ '\t' :: (process v ++ ",\n".toList)) (fun v => by simp; omega) vs
    simp only [List.length_cons, List.length_append] at this ⊢
    omega
  have h := members_write n r vs _ hl hn
  have hk : ∀ t, skip .out (' ' :: '(' :: t) = '(' :: t := fun _ => rfl
  rw [readValue, hk]
  simp only [h, Option.map_some]

/-- an argument reads back -/
theorem attr_escape : ∀ (s r : Text) (fuel : Nat), s.length < fuel → (∀ c ∈ s, c ∉ ['\t', '\n', '\r']) →
    attr fuel (escapeArgument s ++ '"' :: r) = some (s, r)
  | _, _, 0, h, _ => absurd h (Nat.not_lt_zero _)
  | [], r, fuel + 1, _, _ => rfl
  | c :: s, r, fuel + 1, h, hc => by
    have ih := attr_escape s r fuel (by simpa using h) fun x hx => hc x (List.mem_cons_of_mem _ hx)
    have h0 := hc c (List.mem_cons_self ..)
    have e : escapeArgument (c :: s) = (if c = '>' then "&gt;".toList else if c = '<' then "&lt;".toList else if c = '"' then "&quot;".toList
        else if c = '&' then "&amp;".toList else [c]) ++ escapeArgument s := rfl
    rw [e, List.append_assoc]
    generalize hR : escapeArgument s ++ '"' :: r = R at ih
    by_cases h1 : c = '>'
    · subst h1
      show attr (fuel + 1) ('&' :: 'g' :: 't' :: ';' :: R) = _
      rw [attr, if_neg (by decide), if_neg (by decide), if_pos rfl, entity]
      simp only [Option.bind_some, ih, Option.map_some]
    by_cases h2 : c = '<'
    · subst h2
      show attr (fuel + 1) ('&' :: 'l' :: 't' :: ';' :: R) = _
      rw [attr, if_neg (by decide), if_neg (by decide), if_pos rfl, entity]
      simp only [Option.bind_some, ih, Option.map_some]
    by_cases h3 : c = '"'
    · subst h3
      show attr (fuel + 1) ('&' :: 'q' :: 'u' :: 'o' :: 't' :: ';' :: R) = _
      rw [attr, if_neg (by decide), if_neg (by decide), if_pos rfl, entity]
      simp only [Option.bind_some, ih, Option.map_some]
    by_cases h4 : c = '&'
    · subst h4
      show attr (fuel + 1) ('&' :: 'a' :: 'm' :: 'p' :: ';' :: R) = _
      rw [attr, if_neg (by decide), if_neg (by decide), if_pos rfl, entity]
      simp only [Option.bind_some, ih, Option.map_some]
    rw [if_neg h1, if_neg h2, if_neg h3, if_neg h4, List.singleton_append, attr, if_neg h3, if_neg h2, if_neg h4, if_neg h0, ih]
    rfl

/-- what has neither a quote nor a backslash reads back between quotes -/
theorem quoted_simple (s : Text) (r : Text) (h : '"' ∉ s) (h' : '\\' ∉ s) : quoted (s ++ '"' :: r) = some (s, r) := by
  induction s with
  | nil => rfl
  | cons c s ih =>
    rw [List.mem_cons, not_or] at h h'
    rw [List.cons_append, quoted.eq_def]
    split
    · next e => simp at e
    · next e => simp at e; exact absurd e.1.symm h.1
    · next e => simp at e; exact absurd e.1.symm h'.1
    · next e => simp at e; rw [← e.1, ← e.2, ih h.2 h'.2]; rfl

end Verif.Xcode
