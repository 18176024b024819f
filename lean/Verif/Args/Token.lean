import Verif.Args.Model
/-
Splitting a command line into words, and putting words together again.
-/
namespace Verif.Args
open Verif.Str
open Verif.Cache (Tok)

/-- Whether a character is inside quotes, and whether it is behind a backslash. -/
abbrev Quote := Bool × Bool

/-- Behind the next character: a quote opens or closes, except behind a backslash. -/
def Quote.next (q : Quote) (c : Char) : Quote := (if c = '"' ∧ q.2 = false then !q.1 else q.1, c == '\\')

/-- Reading characters; `none` if there is a blank outside quotes. -/
def scan : Quote → List Char → Option Quote
  | q, [] => some q
  | q, c :: s => if c = ' ' ∧ q.1 = false then none else scan (q.next c) s

/-- One word of a command line: not empty, its quotes are closed, and its blanks are inside quotes. -/
def Word (w : Tok) : Prop := w ≠ [] ∧ (scan (false, false) w).map Prod.fst = some false

instance (w : Tok) : Decidable (Word w) := inferInstanceAs (Decidable (_ ∧ _))

/-- The quotes of a command line are closed. -/
def Closed (line : List Char) : Prop := (line.foldl Quote.next (false, false)).1 = false

instance (l : List Char) : Decidable (Closed l) := inferInstanceAs (Decidable (_ = _))

/-- Tokenising without indices: `cur` is the part of the current token read. -/
def tok : Quote → Option Tok → List Char → List Tok
  | _, cur, [] => cur.toList
  | q, cur, c :: s =>
    if c = ' ' ∧ (cur = none ∨ q.1 = false) then cur.toList ++ tok (q.next c) none s
    else tok (q.next c) (some (cur.getD [] ++ [c])) s

/-- Behind a backslash only quotes are special. -/
theorem tok_esc (b e : Bool) (cur : Option Tok) (s : List Char) (h : s.head? ≠ some '"') :
    tok (b, e) cur s = tok (b, false) cur s := by
  cases s with
  | nil => rfl
  | cons c s =>
    have : c ≠ '"' := by simpa using h
    simp [tok, Quote.next, this]

theorem take_grow {S : List Char} {st i k : Nat} {p r : List Char} (h : S.drop i = p ++ r) (hk : p.length = k) (hle : st ≤ i) :
    (S.drop st).take (i - st) ++ p = (S.drop st).take (i + k - st) := by
  have h1 : (S.drop st).take (i + k - st) = (S.drop st).take (i - st) ++ ((S.drop st).drop (i - st)).take k := by
    rw [show i + k - st = (i - st) + k by omega, List.take_add]
  rw [h1, List.drop_drop, show st + (i - st) = i by omega, h, ← hk]
  simp

theorem drop_step {S : List Char} {i : Nat} {p r : List Char} (h : S.drop i = p ++ r) : S.drop (i + p.length) = r := by
  rw [← List.drop_drop, h]; simp

theorem tokenGo_tok (S : List Char) : ∀ (n : Nat) (s : List Char) (i : Nat) (q : Bool) (cur : Option Nat),
    s.length ≤ n → S.drop i = s → i ≤ S.length → (∀ st, cur = some st → st ≤ i) →
    (tokenGo ' ' i q cur s).map (fun (a, b) => (S.drop a).take (b - a)) =
      tok (q, false) (cur.map fun st => (S.drop st).take (i - st)) s := by
  intro n
  induction n with
  | zero =>
    intro s i q cur hl hd _ _
    have : s = [] := List.length_eq_zero_iff.1 (by omega)
    subst this
    cases cur <;> simp [tokenGo, tok]
  | succ n ih =>
    intro s i q cur hl hd hi hc
    cases s with
    | nil => cases cur <;> simp [tokenGo, tok]
    | cons c s =>
      have hl' : s.length ≤ n := by simpa using hl
      have hlen : i + 1 ≤ S.length := by
        have := congrArg List.length hd; simp at this; omega
      have hd1 : S.drop (i + 1) = s := drop_step (p := [c]) hd
      have hcur : (cur.map fun st => (S.drop st).take (i - st)).getD [] ++ [c] =
          (S.drop (cur.getD i)).take (i + 1 - cur.getD i) := by
        cases cur with
        | none => simp [hd]
        | some st => exact take_grow (p := [c]) hd rfl (hc st rfl)
      have hst : ∀ st, some (cur.getD i) = some st → st ≤ i + 1 := by
        intro st h; cases h; cases cur with
        | none => simp
        | some st => simpa using Nat.le_succ_of_le (hc st rfl)
      rw [tok]
      rw [tokenGo.eq_3]
      by_cases h0 : cur = none ∧ c = ' '
      · obtain ⟨rfl, rfl⟩ := h0
        simp only [Option.map_none, true_and, true_or, if_true, Option.toList_none, List.nil_append]
        simpa [Quote.next] using ih s (i + 1) q none hl' hd1 hlen (by simp)
      rw [if_neg h0]
      dsimp only
      by_cases h1 : c = '"'
      · rw [if_pos h1, if_neg (by simp [h1]), hcur]
        simpa [Quote.next, h1] using ih s (i + 1) (!q) (some (cur.getD i)) hl' hd1 hlen hst
      rw [if_neg h1]
      by_cases h2 : c = '\\'
      · rw [if_pos h2, if_neg (by simp [h2]), hcur]
        split
        · rename_i r
          have hd2 : S.drop (i + 2) = r := drop_step (p := [c, '"']) hd
          have hlen2 : i + 2 ≤ S.length := by
            have := congrArg List.length hd; simp at this; omega
          have hcur2 : (S.drop (cur.getD i)).take (i + 1 - cur.getD i) ++ ['"'] =
              (S.drop (cur.getD i)).take (i + 2 - cur.getD i) :=
            take_grow (p := ['"']) (i := i + 1) hd1 rfl (hst _ rfl)
          have := ih r (i + 2) q (some (cur.getD i)) (by simp at hl'; omega) hd2 hlen2
              (fun st h => Nat.le_succ_of_le (hst st h))
          rw [this]
          simp [tok, Quote.next, h2, hcur2]
        · rename_i hne
          have h3 : s.head? ≠ some '"' := by
            cases s with
            | nil => simp
            | cons a s => intro e; cases e; exact hne s rfl
          have := ih s (i + 1) q (some (cur.getD i)) hl' hd1 hlen hst
          rw [this]
          simp only [Quote.next, h2, show ('\\' : Char) ≠ '"' by decide, false_and, if_false]
          rw [tok_esc q ('\\' == '\\') _ _ h3]
          rfl
      rw [if_neg h2]
      by_cases h3 : c = ' '
      · rw [if_pos h3]
        cases q with
        | true =>
          have hn : cur ≠ none := fun e => h0 ⟨e, h3⟩
          rw [if_pos rfl, if_neg (by simp [hn]), hcur]
          simpa [Quote.next, h1, beq_eq_false_iff_ne.2 h2] using ih s (i + 1) true (some (cur.getD i)) hl' hd1 hlen hst
        | false =>
          rw [if_neg (by simp), if_pos ⟨h3, Or.inr rfl⟩, List.map_cons]
          cases cur with
          | none => exact absurd ⟨rfl, h3⟩ h0
          | some st =>
            have := ih s (i + 1) false none hl' hd1 hlen (by simp)
            simp only [Option.map_none] at this
            simp [Quote.next, h3, this]
      rw [if_neg h3, if_neg (by simp [h3]), hcur]
      simpa [Quote.next, h1, beq_eq_false_iff_ne.2 h2] using ih s (i + 1) q (some (cur.getD i)) hl' hd1 hlen hst

theorem tokenize_eq (s : List Char) : tokenize ' ' s = tok (false, false) none s := by
  have := tokenGo_tok s s.length s 0 false none (Nat.le_refl _) rfl (Nat.zero_le _) (by simp)
  simpa [tokenize, tokenRanges] using this

/-! ### Words put together -/

/-- A text in which every word is followed by a blank; there may be more blanks. -/
inductive Trailed : List Tok → List Char → Prop
  | nil : Trailed [] []
  | blank {ws s} : Trailed ws s → Trailed ws (' ' :: s)
  | word (w) {ws s} : Trailed ws s → Trailed (w :: ws) (w ++ ' ' :: s)

/-- A text made of words separated by blanks. -/
inductive Laid : List Tok → List Char → Prop
  | nil : Laid [] []
  | blank {ws s} : Laid ws s → Laid ws (' ' :: s)
  | last (w) : Laid [w] w
  | word (w) {ws s} : Laid ws s → Laid (w :: ws) (w ++ ' ' :: s)

theorem Trailed.append {vs ws : List Tok} {s t : List Char} (h : Trailed vs s) (h' : Trailed ws t) :
    Trailed (vs ++ ws) (s ++ t) := by
  induction h with
  | nil => exact h'
  | blank _ ih => exact .blank ih
  | word w _ ih => simpa using Trailed.word w ih

theorem Trailed.laid {vs ws : List Tok} {s t : List Char} (h : Trailed vs s) (h' : Laid ws t) :
    Laid (vs ++ ws) (s ++ t) := by
  induction h with
  | nil => exact h'
  | blank _ ih => exact .blank ih
  | word w _ ih => simpa using Laid.word w ih

theorem Laid.append {vs ws : List Tok} {s t : List Char} (h : Laid vs s) (h' : Laid ws t) :
    Laid (vs ++ ws) (s ++ ' ' :: t) := by
  induction h with
  | nil => exact .blank h'
  | blank _ ih => exact .blank ih
  | last w => exact .word w h'
  | word w _ ih => simpa using Laid.word w ih

theorem scan_append (w v : List Char) : ∀ q, scan q (w ++ v) = (scan q w).bind (scan · v) := by
  induction w with
  | nil => intro q; simp [scan]
  | cons c w ih =>
    intro q
    rw [List.cons_append, scan, scan]
    split
    · rfl
    · exact ih _

/-- Reading a word, part of which is in `acc`. -/
theorem tok_scan (w r : List Char) : ∀ (q q' : Quote) (cur : Option Tok), scan q w = some q' →
    (cur = none → w.head? ≠ some ' ') → w ≠ [] ∨ cur ≠ none → tok q cur (w ++ r) = tok q' (some (cur.getD [] ++ w)) r := by
  induction w with
  | nil =>
    intro q q' cur h hn hne
    simp only [scan, Option.some.injEq] at h
    subst h
    cases cur with
    | none => simp at hne
    | some u => simp
  | cons c w ih =>
    intro q q' cur h hn _
    rw [scan] at h
    split at h
    · cases h
    · rename_i hb
      rw [List.cons_append, tok]
      have hb' : ¬ (c = ' ' ∧ (cur = none ∨ q.1 = false)) := by
        rintro ⟨e, h1 | h1⟩
        · exact hn h1 (by simp [e])
        · exact hb ⟨e, h1⟩
      rw [if_neg hb', ih _ _ _ h (by simp) (Or.inr (by simp))]
      simp

theorem word_head {w : Tok} (h : Word w) : w.head? ≠ some ' ' := by
  obtain ⟨h0, h1⟩ := h
  cases w with
  | nil => exact absurd rfl h0
  | cons c s => intro e; cases e; simp [scan] at h1

theorem word_scan {w : Tok} (h : Word w) : ∃ e, scan (false, false) w = some (false, e) := by
  have := h.2
  cases hs : scan (false, false) w with
  | none => simp [hs] at this
  | some q => rw [hs] at this; exact ⟨q.2, by cases q; simpa using this⟩

theorem tok_word {w : Tok} (r : List Char) (h : Word w) :
    tok (false, false) none (w ++ ' ' :: r) = w :: tok (false, false) none r := by
  obtain ⟨e, he⟩ := word_scan h
  rw [tok_scan w _ _ _ none he (fun _ => word_head h) (Or.inl h.1), tok]
  simp [Quote.next]

theorem tok_last {w : Tok} (h : Word w) : tok (false, false) none w = [w] := by
  obtain ⟨e, he⟩ := word_scan h
  have := tok_scan w [] _ _ none he (fun _ => word_head h) (Or.inl h.1)
  rw [List.append_nil] at this
  rw [this]; rfl

/-- Words laid out with blanks are what the text is split into. -/
theorem tokenize_laid {ws : List Tok} {s : List Char} (h : Laid ws s) (hw : ∀ w ∈ ws, Word w) : tokenize ' ' s = ws := by
  rw [tokenize_eq]
  induction h with
  | nil => rfl
  | @blank ws s _ ih =>
    have : tok (false, false) none (' ' :: s) = tok (false, false) none s := by
      conv => lhs; unfold tok
      simp [Quote.next]
    rw [this]; exact ih hw
  | last w => exact tok_last (hw w (by simp))
  | word w _ ih =>
    rw [tok_word _ (hw w (by simp)), ih fun v hv => hw v (by simp [hv])]

/-! ### Words of a command line -/

theorem tok_words (s : List Char) : ∀ (q : Quote) (cur : Option Tok), (s.foldl Quote.next q).1 = false →
    (∀ w, cur = some w → w ≠ [] ∧ scan (false, false) w = some q) → (cur = none → q = (false, false)) →
    ∀ w ∈ tok q cur s, Word w := by
  induction s with
  | nil =>
    intro q cur he hc hn w hw
    simp only [tok, Option.mem_toList] at hw
    have := hc w hw
    exact ⟨this.1, by rw [this.2]; simpa using he⟩
  | cons c s ih =>
    intro q cur he hc hn w hw
    rw [List.foldl_cons] at he
    rw [tok] at hw
    split at hw
    · rename_i hb
      obtain ⟨rfl, hb⟩ := hb
      have hq : q.1 = false := by
        rcases hb with hb | hb
        · rw [hn hb]
        · exact hb
      rcases List.mem_append.1 hw with hw | hw
      · simp only [Option.mem_toList] at hw
        have := hc w hw
        exact ⟨this.1, by rw [this.2]; simpa using hq⟩
      · have : q.next ' ' = (false, false) := by simp [Quote.next, hq]
        exact ih _ none he (by simp) (fun _ => this) w hw
    · rename_i hb
      refine ih _ _ he ?_ (by simp) w hw
      rintro u hu; cases hu
      refine ⟨by simp, ?_⟩
      rw [scan_append]
      have : scan (false, false) (cur.getD []) = some q := by
        cases cur with
        | none => simp [scan, hn rfl]
        | some v => exact (hc v rfl).2
      rw [this]
      simp only [Option.bind_some, scan]
      rw [if_neg]
      rintro ⟨e, h⟩
      exact hb ⟨e, Or.inr h⟩

/-- The tokens of a command line whose quotes are closed are words. -/
theorem words_tokenize {line : List Char} (h : Closed line) : ∀ w ∈ tokenize ' ' line, Word w := by
  rw [tokenize_eq]
  exact tok_words line _ none h (by simp) (fun _ => rfl)

end Verif.Args
