import Verif.Clean.Model
/-! C130: messages of workers without the patterns that MSBuild takes as errors. -/
namespace Verif.Clean
open Verif.Ext (Text lower startsI)

/-! ### what it is stated with -/

/-- the same text but for some colons that are spaces now -/
inductive Colons : Text → Text → Prop
  | nil : Colons [] []
  | keep {a b : Text} (c : Char) : Colons a b → Colons (c :: a) (c :: b)
  | colon {a b : Text} : Colons a b → Colons (':' :: a) (' ' :: b)

/-- `error` or `warning` and a space, in any case of letters, are not in a text -/
def NoError (t : Text) : Prop := ¬ ['e', 'r', 'r', 'o', 'r', ' '] <:+: t.map lower
def NoWarning (t : Text) : Prop := ¬ ['w', 'a', 'r', 'n', 'i', 'n', 'g', ' '] <:+: t.map lower

/-- a text, `error` in any case of letters, a space and other white space, a code, white space; a colon follows -/
structure Part where
  before : Text
  word : Text
  white : Text
  code : Text
  white2 : Text

def Part.text (p : Part) : Text := p.before ++ p.word ++ ' ' :: (p.white ++ p.code ++ p.white2)

/-- white space and a code, and white space -/
structure Part.Form (p : Part) : Prop where
  white : ∀ c ∈ p.white, c = ' ' ∨ c = '\r' ∨ c = '\n' ∨ c = '\t'
  code : p.code ≠ [] ∧ ∀ c ∈ p.code, ('A' ≤ c ∧ c ≤ 'Z') ∨ ('a' ≤ c ∧ c ≤ 'z') ∨ ('0' ≤ c ∧ c ≤ '9')
  white2 : ∀ c ∈ p.white2, c = ' ' ∨ c = '\r' ∨ c = '\n' ∨ c = '\t'

/-- the first error of a text -/
structure Part.Fine (p : Part) : Prop extends p.Form where
  word : p.word.map lower = ['e', 'r', 'r', 'o', 'r']
  first : NoError (p.before ++ p.word)

/-- the first warning of a text -/
structure Part.Warning (p : Part) : Prop extends p.Form where
  word : p.word.map lower = ['w', 'a', 'r', 'n', 'i', 'n', 'g']
  first : NoWarning (p.before ++ p.word)

/-! ### lemmas -/

theorem splitI_append {pat : Text} : ∀ {t : Text} {p : Text × Text}, splitI pat t = some p → t = p.1 ++ p.2 ∧ startsI pat p.2 = true
  | [], _, h => by simp [splitI] at h
  | c :: t, p, h => by
    rw [splitI] at h
    split at h
    · next hs => cases h; exact ⟨rfl, hs⟩
    · obtain ⟨q, hq, rfl⟩ := Option.map_eq_some_iff.1 h
      obtain ⟨h1, h2⟩ := splitI_append hq
      exact ⟨by simp [← h1], h2⟩

theorem splitI_none {pat : Text} (hp : pat ≠ []) : ∀ {t : Text}, ¬ pat <:+: t.map lower → splitI pat t = none
  | [], _ => rfl
  | c :: t, h => by
    rw [List.map_cons, List.infix_cons_iff] at h
    rw [splitI, if_neg, splitI_none hp fun e => h (.inr e)]
    · rfl
    · intro hs
      exact h (.inl (List.isPrefixOf_iff_prefix.1 hs))

theorem skip_append (p : Char → Bool) (t : Text) : (skip p t).1 ++ (skip p t).2 = t := List.takeWhile_append_dropWhile

theorem skipAll_append (t : Text) : (skipAll t).1 ++ (skipAll t).2 = t := by
  unfold skipAll
  simp only
  generalize ha : skip isLetter t = a
  generalize hb : skip isWhitespace a.2 = b
  generalize hc : skip isCode b.2 = c
  have h1 := skip_append isLetter t
  have h2 := skip_append isWhitespace a.2
  have h3 := skip_append isCode b.2
  have h4 := skip_append isWhitespace c.2
  rw [ha] at h1
  rw [hb] at h2
  rw [hc] at h3
  simp only [List.append_assoc]
  rw [h4, h3, h2, h1]

theorem token_append {t : Text} {p : Text × Text} (h : token t = some p) : t = p.1 ++ p.2 ∧ (startsI errorToken p.2 = true ∨ startsI warningToken p.2 = true) := by
  unfold token at h
  split at h
  · next q hq => cases h; exact ⟨(splitI_append hq).1, .inl (splitI_append hq).2⟩
  · exact ⟨(splitI_append h).1, .inr (splitI_append h).2⟩

theorem lower_letter {c : Char} (h : lower c = 'e' ∨ lower c = 'w') : isLetter c = true := by
  unfold lower at h
  unfold isLetter
  split at h
  · next hc => simp [hc]
  · rcases h with rfl | rfl <;> decide

theorem skipAll_pos {t : Text} (h : startsI errorToken t = true ∨ startsI warningToken t = true) : 0 < (skipAll t).1.length := by
  cases t with
  | nil => rcases h with h | h <;> simp [startsI, errorToken, warningToken] at h
  | cons c t =>
    have hc : lower c = 'e' ∨ lower c = 'w' := by
      rcases h with h | h
      · simp [startsI, errorToken] at h; exact .inl h.1.symm
      · simp [startsI, warningToken] at h; exact .inr h.1.symm
    simp [skipAll, skip, lower_letter hc]

theorem colons_refl : ∀ t : Text, Colons t t
  | [] => .nil
  | c :: t => .keep c (colons_refl t)

theorem colons_prefix {a b : Text} (h : Colons a b) : ∀ p : Text, Colons (p ++ a) (p ++ b)
  | [] => h
  | c :: p => .keep c (colons_prefix h p)

/-- C130: the cleaning ends, and changes nothing but colons, to spaces. -/
theorem loop_colons : ∀ (fuel : Nat) (t : Text), t.length < fuel → ∃ o, loop fuel t = some o ∧ Colons t o
  | 0, _, h => by omega
  | fuel + 1, t, h => by
    rw [loop]
    split
    · exact ⟨t, rfl, colons_refl t⟩
    · next a b htok =>
      obtain ⟨ht, hst⟩ := token_append htok
      have hp := skipAll_pos hst
      have happ := skipAll_append b
      have hlen : t.length = a.length + ((skipAll b).1.length + (skipAll b).2.length) := by
        rw [ht, List.length_append]
        conv => lhs; rw [← happ]
        simp
      simp only at ht
      split
      · next kept r hs =>
        rw [hs] at happ hlen hp
        simp only [List.length_cons] at hlen hp happ
        obtain ⟨o, ho, hc⟩ := loop_colons fuel r (by omega)
        refine ⟨a ++ kept ++ [' '] ++ o, by rw [ho]; rfl, ?_⟩
        rw [ht, ← happ]
        have := colons_prefix (Colons.colon hc) (a ++ kept)
        simpa using this
      · next kept r _ hs =>
        rw [hs] at happ hlen hp
        simp only at hlen hp happ
        obtain ⟨o, ho, hc⟩ := loop_colons fuel r (by omega)
        refine ⟨a ++ kept ++ o, by rw [ho]; rfl, ?_⟩
        rw [ht, ← happ]
        have := colons_prefix hc (a ++ kept)
        simpa using this

/-- C130: the cleaning of a message ends, and changes nothing but colons, to spaces. -/
theorem C130_colons (t : Text) : ∃ o, clean t = some o ∧ Colons t o := loop_colons _ t (by omega)

/-- C130: a message without the words is kept. -/
theorem C130_kept (t : Text) (h : NoError t) (h' : NoWarning t) : clean t = some t := by
  unfold clean
  have e : token t = none := by
    unfold token
    rw [splitI_none (pat := errorToken) (by decide) h]
    exact splitI_none (by decide) h'
  simp only [loop, e]

theorem loop_fuel : ∀ (fuel : Nat) (t : Text) (o : Text), loop fuel t = some o → ∀ k, loop (fuel + k) t = some o
  | 0, _, _, h, _ => by simp [loop] at h
  | fuel + 1, t, o, h, k => by
    rw [Nat.add_right_comm, loop]
    rw [loop] at h
    split at h
    · next e => simpa [e] using h
    · next a b e =>
      split at h
      · next kept r hs =>
        obtain ⟨x, hx, rfl⟩ := Option.map_eq_some_iff.1 h
        simp only [loop_fuel fuel r x hx k, Option.map_some]
      · next kept r hn hs =>
        obtain ⟨x, hx, rfl⟩ := Option.map_eq_some_iff.1 h
        have := loop_fuel fuel r x hx k
        rw [this]; rfl

theorem splitI_first {pat q b : Text} (hq : q.map lower = pat) (hp : pat ≠ []) : ∀ {a : Text}, ¬ pat <:+: (a ++ q.dropLast).map lower →
    splitI pat (a ++ q ++ b) = some (a, q ++ b)
  | [], _ => by
    have hs : startsI pat (q ++ b) = true := by
      rw [startsI, List.isPrefixOf_iff_prefix, List.map_append, hq]
      exact List.prefix_append _ _
    cases q with
    | nil => exact absurd hq.symm hp
    | cons c q =>
      rw [List.nil_append]
      rw [List.cons_append] at hs ⊢
      rw [splitI, if_pos hs]
  | c :: a, hn => by
    have hs : startsI pat (c :: a ++ q ++ b) ≠ true := by
      intro hs
      rw [startsI, List.isPrefixOf_iff_prefix] at hs
      have hlen : pat.length = q.length := by rw [← hq, List.length_map]
      have hq0 : q ≠ [] := by intro e; subst e; exact hp hq.symm
      have e : (c :: a ++ q ++ b).map lower = (c :: a ++ q.dropLast).map lower ++ ([q.getLast hq0] ++ b).map lower := by
        rw [← List.map_append]
        congr 1
        conv => lhs; rw [← List.dropLast_concat_getLast hq0]
        simp
      rw [e] at hs
      have hle : pat.length ≤ ((c :: a ++ q.dropLast).map lower).length := by
        simp only [List.length_map, List.length_append, List.length_cons, List.length_dropLast]
        omega
      exact hn (List.prefix_of_prefix_length_le hs (List.prefix_append _ _) hle).isInfix
    rw [List.cons_append, List.cons_append] at hs ⊢
    rw [splitI, if_neg hs, splitI_first hq hp fun h => hn ?_]
    · rfl
    · rw [List.cons_append, List.map_cons]
      exact h.trans (List.suffix_cons _ _).isInfix

theorem skip_all {p : Char → Bool} : ∀ {a : Text} {c : Char} {b : Text}, (∀ x ∈ a, p x = true) → p c = false → skip p (a ++ c :: b) = (a, c :: b)
  | [], c, b, _, hc => by simp [skip, hc]
  | x :: a, c, b, ha, hc => by
    have ih := skip_all (a := a) (c := c) (b := b) (fun y hy => ha y (List.mem_cons_of_mem _ hy)) hc
    have hx := ha x (by simp)
    simp only [skip, Prod.mk.injEq] at ih ⊢
    simp [hx, ih]

theorem white_iff {c : Char} : isWhitespace c = true ↔ c = ' ' ∨ c = '\r' ∨ c = '\n' ∨ c = '\t' := by
  simp [isWhitespace, or_assoc]

theorem code_iff {c : Char} : isCode c = true ↔ ('A' ≤ c ∧ c ≤ 'Z') ∨ ('a' ≤ c ∧ c ≤ 'z') ∨ ('0' ≤ c ∧ c ≤ '9') := by
  simp [isCode, isLetter, isNumber, or_assoc]

theorem white_code {c : Char} (h : isWhitespace c = true) : isCode c = false := by
  rcases white_iff.1 h with rfl | rfl | rfl | rfl <;> decide

theorem code_white {c : Char} (h : isCode c = true) : isWhitespace c = false := by
  cases hw : isWhitespace c with
  | false => rfl
  | true => rw [white_code hw] at h; cases h

theorem word_letters {t w : Text} (h : t.map lower = w) (hw : ∀ c ∈ w, isLetter c = true) : ∀ c ∈ t, isLetter c = true := by
  intro c hc
  have : lower c ∈ t.map lower := List.mem_map_of_mem hc
  rw [h] at this
  have := hw _ this
  unfold lower at this
  split at this
  · next hh => simp [isLetter, hh]
  · exact this

theorem skipAll_part {p : Part} (h : p.Form) (hw : ∀ c ∈ p.word, isLetter c = true) (b : Text) :
    skipAll (p.word ++ ' ' :: (p.white ++ p.code ++ p.white2 ++ ':' :: b)) = (p.word ++ ' ' :: (p.white ++ p.code ++ p.white2), ':' :: b) := by
  have h1 := skip_all (p := isLetter) (a := p.word) (c := ' ') (b := p.white ++ p.code ++ p.white2 ++ ':' :: b) hw (by decide)
  obtain ⟨x, code, hcode⟩ := List.exists_cons_of_ne_nil h.code.1
  have hx : isCode x = true := code_iff.2 (h.code.2 x (by simp [hcode]))
  have h2 : skip isWhitespace (' ' :: (p.white ++ p.code ++ p.white2 ++ ':' :: b)) = (' ' :: p.white, p.code ++ p.white2 ++ ':' :: b) := by
    have := skip_all (p := isWhitespace) (a := ' ' :: p.white) (c := x) (b := code ++ p.white2 ++ ':' :: b)
      (fun c hc => (List.mem_cons.1 hc).elim (fun e => e ▸ (by decide)) fun hc => white_iff.2 (h.white c hc)) (code_white hx)
    rw [hcode]
    simpa using this
  have h3 : skip isCode (p.code ++ p.white2 ++ ':' :: b) = (p.code, p.white2 ++ ':' :: b) := by
    rw [List.append_assoc]
    cases hw2 : p.white2 with
    | nil => exact skip_all (fun c hc => code_iff.2 (h.code.2 c hc)) (by decide)
    | cons y l => exact skip_all (fun c hc => code_iff.2 (h.code.2 c hc)) (white_code (white_iff.2 (h.white2 y (by simp [hw2]))))
  have h4 : skip isWhitespace (p.white2 ++ ':' :: b) = (p.white2, ':' :: b) := skip_all (fun c hc => white_iff.2 (h.white2 c hc)) (by decide)
  unfold skipAll
  simp only [h1, h2, h3, h4]
  simp

theorem clean_token {p : Part} (h : p.Form) (hw : ∀ c ∈ p.word, isLetter c = true) (b : Text)
    (ht : token (p.text ++ ':' :: b) = some (p.before, p.word ++ ' ' :: (p.white ++ p.code ++ p.white2 ++ ':' :: b))) :
    ∃ o, clean b = some o ∧ clean (p.text ++ ':' :: b) = some (p.text ++ ' ' :: o) := by
  obtain ⟨o, ho, _⟩ := C130_colons b
  refine ⟨o, ho, ?_⟩
  have hf := loop_fuel _ _ _ ho (p.text.length)
  unfold clean
  have : (p.text ++ ':' :: b).length = b.length + 1 + p.text.length := by simp; omega
  rw [this]
  simp only [loop, ht, skipAll_part h hw, hf, Option.map_some]
  simp [Part.text]

theorem split_part {p : Part} {w : Text} (hw : p.word.map lower = w) (hf : ¬ (w ++ [' ']) <:+: (p.before ++ p.word).map lower) (b : Text) :
    splitI (w ++ [' ']) (p.text ++ ':' :: b) = some (p.before, p.word ++ ' ' :: (p.white ++ p.code ++ p.white2 ++ ':' :: b)) := by
  have hq : (p.word ++ [' ']).map lower = w ++ [' '] := by
    rw [List.map_append, hw]
    rfl
  have hs := splitI_first (b := p.white ++ p.code ++ p.white2 ++ ':' :: b) (a := p.before) hq (by simp) (by
    rw [List.dropLast_concat]
    exact hf)
  have e : p.text ++ ':' :: b = p.before ++ (p.word ++ [' ']) ++ (p.white ++ p.code ++ p.white2 ++ ':' :: b) := by simp [Part.text]
  rw [e, hs]
  simp

/-- the colon of the first error becomes a space, and the rest is cleaned in the same way -/
theorem clean_part {p : Part} (h : p.Fine) (b : Text) : ∃ o, clean b = some o ∧ clean (p.text ++ ':' :: b) = some (p.text ++ ' ' :: o) := by
  refine clean_token h.toForm (word_letters h.word (by decide)) b ?_
  have := split_part h.word h.first b
  unfold token
  rw [show errorToken = ['e', 'r', 'r', 'o', 'r'] ++ [' '] from rfl, this]

/-- the same for the first warning of a text without errors -/
theorem clean_warning {p : Part} (h : p.Warning) (b : Text) (hn : NoError (p.text ++ ':' :: b)) :
    ∃ o, clean b = some o ∧ clean (p.text ++ ':' :: b) = some (p.text ++ ' ' :: o) := by
  refine clean_token h.toForm (word_letters h.word (by decide)) b ?_
  have := split_part h.word h.first b
  unfold token
  rw [splitI_none (pat := errorToken) (by decide) hn]
  exact this

/-- a message of parts, each with a colon, or a space, and an end -/
def message (c : Char) : List Part → Text → Text
  | [], e => e
  | p :: l, e => p.text ++ c :: message c l e

/-- C130: in a message of any number of errors, with no word `warning` behind the last, each gets a space for its colon, and nothing else is changed. -/
theorem C130_errors_partial (l : List Part) (e : Text) (h : ∀ p ∈ l, p.Fine) (he : NoError e) (hw : NoWarning e) :
    clean (message ':' l e) = some (message ' ' l e) := by
  induction l with
  | nil => exact C130_kept e he hw
  | cons p l ih =>
    obtain ⟨o, h1, h2⟩ := clean_part (h p (by simp)) (message ':' l e)
    rw [ih fun q hq => h q (List.mem_cons_of_mem _ hq)] at h1
    cases h1
    exact h2

/-- C130: in a message of any number of warnings and no error, each gets a space for its colon, and nothing else is changed. -/
theorem C130_warnings_partial (l : List Part) (e : Text) (h : ∀ p ∈ l, p.Warning) (he : NoError (message ':' l e)) (hw : NoWarning e) :
    clean (message ':' l e) = some (message ' ' l e) := by
  induction l with
  | nil => exact C130_kept e he hw
  | cons p l ih =>
    obtain ⟨o, h1, h2⟩ := clean_warning (h p (by simp)) (message ':' l e) he
    have hr : NoError (message ':' l e) := by
      intro hi
      refine he (hi.trans ?_)
      rw [message, List.map_append, List.map_cons]
      exact ((List.suffix_cons _ _).trans (List.suffix_append _ _)).isInfix
    rw [ih (fun q hq => h q (List.mem_cons_of_mem _ hq)) hr] at h1
    cases h1
    exact h2

/-- C130: errors, and behind the last of them warnings: each gets a space for its colon. -/
theorem C130_mixed_partial (l w : List Part) (e : Text) (h : ∀ p ∈ l, p.Fine) (h' : ∀ p ∈ w, p.Warning) (he : NoError (message ':' w e))
    (hw : NoWarning e) : clean (message ':' l (message ':' w e)) = some (message ' ' l (message ' ' w e)) := by
  induction l with
  | nil => exact C130_warnings_partial w e h' he hw
  | cons p l ih =>
    obtain ⟨o, h1, h2⟩ := clean_part (h p (by simp)) (message ':' l (message ':' w e))
    rw [ih fun q hq => h q (List.mem_cons_of_mem _ hq)] at h1
    cases h1
    exact h2

/-! ### examples -/

/-- two errors -/
def exPart : Part := ⟨['a', ':', ' '], ['E', 'r', 'r', 'o', 'r'], [], ['C', '2', '0'], [' ']⟩

/-- a warning -/
def exWarning : Part := ⟨['b', ':', ' '], ['w', 'A', 'r', 'n', 'i', 'n', 'g'], ['\t'], ['C', '4'], []⟩

theorem no_infix {pat : Text} (hp : pat ≠ []) : ∀ {t : Text}, splitI pat t = none → ¬ pat <:+: t.map lower
  | [], _ => fun h => hp (List.infix_nil.1 h)
  | c :: t, h => by
    rw [splitI] at h
    split at h
    · cases h
    · next hs =>
      rw [List.map_cons, List.infix_cons_iff]
      rintro (h1 | h1)
      · exact hs (List.isPrefixOf_iff_prefix.2 h1)
      · exact no_infix hp (Option.map_eq_none_iff.1 h) h1

theorem exFine : exPart.Fine where
  white := by simp [exPart]
  code := by simp [exPart]
  white2 := by simp [exPart]
  word := by decide +kernel
  first := no_infix (by decide) (by decide +kernel)

theorem exWarns : exWarning.Warning where
  white := by simp [exWarning]
  code := by simp [exWarning]
  white2 := by simp [exWarning]
  word := by decide +kernel
  first := no_infix (by decide) (by decide +kernel)

/-- `C130_mixed_partial`, and with it the other two: errors, then warnings -/
example : clean (message ':' [exPart, exPart] (message ':' [exWarning, exWarning] " x: y".toList)) =
    some (message ' ' [exPart, exPart] (message ' ' [exWarning, exWarning] " x: y".toList)) :=
  C130_mixed_partial _ _ _ (by simp [exFine]) (by simp [exWarns]) (no_infix (by decide) (by decide +kernel)) (no_infix (by decide) (by decide +kernel))

example : clean (message ':' [exPart, exPart] " x: y".toList) = some (message ' ' [exPart, exPart] " x: y".toList) := by decide +kernel

/-- `C130_kept`: a message with a colon -/
example : clean "note: x".toList = some "note: x".toList := by decide +kernel

/-- C130: a warning before an error stays as it is, since errors are looked for first. -/
theorem C130_warning_false : clean "warning C1: a\nerror C2: b".toList = some "warning C1: a\nerror C2  b".toList := by decide +kernel

/-- C130: an error behind the word `error` stays as it is, since the word is taken as the code of the first. -/
theorem C130_twice_false : clean "error error C1: a".toList = some "error error C1: a".toList := by decide +kernel

/-- C130: with two colons one stays, and white space before a colon does not matter to MSBuild. -/
theorem C130_two_false : clean "error C1:: a".toList = some "error C1 : a".toList := by decide +kernel

end Verif.Clean
