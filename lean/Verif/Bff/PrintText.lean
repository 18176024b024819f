import Verif.Bff.PrintModel
import Verif.Bff.PrintSpec
import Verif.Bff.TextTheorems
/-
The tokens of what `Print( .Name )` writes.
-/
namespace Verif.Bff.Print
open Lex

mutual
/-- the tokens behind `.Name =` -/
def toks : Val → List Tok
  | .str x => [.str (escape x)]
  | .bool b => [.bool b]
  | .strs l => .brace .cl :: (l.map (fun x => Tok.str (escape x)) ++ [.brace .cr])
  | .int i => [.num i]
  | .struct ms => .brace .sl :: (toksMs ms ++ [.brace .sr])
  | .structs _ => []
def toksMs : List (Str × Val) → List Tok
  | [] => []
  | m :: ms => .var m.1 :: .op .assign :: (toks m.2 ++ toksMs ms)
end

theorem text_spaces {s : Str} {ts : List Tok} (h : Text s ts) : ∀ n, Text (List.replicate n ' ' ++ s) ts
  | 0 => h
  | n + 1 => Text.space (.inl rfl) (text_spaces h n)

theorem text_indent {s : Str} {ts : List Tok} (h : Text s ts) (k : Nat) : Text (indent k ++ s) ts := text_spaces h _

theorem text_nl {s : Str} {ts : List Tok} (h : Text s ts) : Text ('\n' :: s) ts := Text.space (.inr (.inr (.inr rfl))) h
theorem text_sp {s : Str} {ts : List Tok} (h : Text s ts) : Text (' ' :: s) ts := Text.space (.inl rfl) h

theorem letter_no {c : Char} (h : c = ' ' ∨ c = '\n') : ¬ (Letter c ∨ Digit c) := by
  rcases h with rfl | rfl <;> decide

/-- a name and what follows it -/
theorem text_name {n s : Str} {ts : List Tok} (hn : Name n) (h : Text s ts) : Text (n ++ ' ' :: s) (.var n :: ts) := by
  obtain ⟨w, rfl, hw, hc⟩ := hn
  cases w with
  | nil => exact absurd rfl hw
  | cons d w =>
    refine Text.tok (Spell.var (.inl rfl) hc) ?_ (text_sp h)
    intro c e
    cases e
    exact letter_no (.inl rfl)

theorem text_assign {s : Str} {ts : List Tok} (h : Text s ts) : Text ('=' :: ' ' :: s) (.op .assign :: ts) := by
  refine Text.tok (w := ['=']) (Spell.op .assign) ?_ (text_sp h)
  intro c e
  cases e
  show ¬ ' ' = '='
  decide

theorem quotable_escape : ∀ {x : Str}, Clean x → Quotable '\'' (escape x)
  | [], _ => .nil
  | c :: s, h => by
    have hc := h c (by simp)
    have ih := quotable_escape (x := s) fun d hd => h d (List.mem_cons_of_mem _ hd)
    rw [escape]
    split
    · exact .escaped (by decide) (by decide) (by decide) ih
    · next hq => exact .plain hq hc.1 hc.2.2.1 hc.2.2.2.1 hc.2.2.2.2 ih

theorem text_str {x s : Str} {ts : List Tok} (hx : Clean x) (h : Text s ts) :
    Text ('\'' :: (escape x ++ '\'' :: '\n' :: s)) (.str (escape x) :: ts) := by
  have : '\'' :: (escape x ++ '\'' :: '\n' :: s) = ('\'' :: (escape x ++ ['\''])) ++ '\n' :: s := by simp
  rw [this]
  exact Text.tok (Spell.str (.inl rfl) (quotable_escape hx)) (fun c _ => by simp [Glues]) (text_nl h)

theorem text_brace (b : Br) {s : Str} {ts : List Tok} (h : Text s ts) : Text (brText b :: '\n' :: s) (.brace b :: ts) :=
  Text.tok (w := [brText b]) (Spell.brace b) (fun c _ => by simp [Glues]) (text_nl h)

theorem word_true : Lex.word "true".toList = .bool true := by decide +kernel
theorem word_false : Lex.word "false".toList = .bool false := by decide +kernel

theorem text_bool (b : Bool) {s : Str} {ts : List Tok} (h : Text s ts) :
    Text ((if b then "true".toList else "false".toList) ++ '\n' :: s) (.bool b :: ts) := by
  cases b
  · rw [← word_false]
    refine Text.tok (w := "false".toList) ?_ ?_ (text_nl h)
    · exact Spell.word (c := 'f') (w := "alse".toList) (by decide) (by decide +kernel)
    · intro c e; cases e; rw [word_false]; exact letter_no (.inr rfl)
  · rw [← word_true]
    refine Text.tok (w := "true".toList) ?_ ?_ (text_nl h)
    · exact Spell.word (c := 't') (w := "rue".toList) (by decide) (by decide +kernel)
    · intro c e; cases e; rw [word_true]; exact letter_no (.inr rfl)

/-! ### numbers -/

theorem digit_of {c : Char} (h : c.isDigit = true) : Digit c := by
  simp only [Char.isDigit, Bool.and_eq_true, decide_eq_true_eq] at h
  exact ⟨h.1, h.2⟩

theorem toDigits_zero_head : ∀ n : Nat, 0 < n → (Nat.toDigits 10 n).head? ≠ some '0' := by
  intro n
  induction n using Nat.strongRecOn with
  | ind n ih =>
    intro hn
    by_cases h : n < 10
    · rw [Nat.toDigits_of_lt_base h]
      have : n = 1 ∨ n = 2 ∨ n = 3 ∨ n = 4 ∨ n = 5 ∨ n = 6 ∨ n = 7 ∨ n = 8 ∨ n = 9 := by omega
      rcases this with rfl | rfl | rfl | rfl | rfl | rfl | rfl | rfl | rfl <;> decide
    · rw [Nat.toDigits_of_base_le (by omega) (by omega)]
      have := ih (n / 10) (by omega) (by omega)
      rw [List.head?_append]
      cases hd : (Nat.toDigits 10 (n / 10)).head? with
      | none => simp [List.head?_eq_none_iff, Nat.toDigits_ne_nil] at hd
      | some c => rw [hd] at this; simpa using this

theorem decimal_toDigits (n : Nat) : Decimal (Nat.toDigits 10 n) where
  ne := Nat.toDigits_ne_nil
  digits c hc := digit_of (Nat.isDigit_of_mem_toDigits (by omega) (by omega) hc)
  zero h := by
    by_cases hn : n = 0
    · subst hn; exact Nat.toDigits_zero 10
    · exact absurd h (toDigits_zero_head n (by omega))

theorem decimal_value (n : Nat) : decimal (Nat.toDigits 10 n) = n := by
  have := Nat.ofDigitChars_ten_toDigits (n := n)
  rw [Nat.ofDigitChars_eq_foldl] at this
  exact this

theorem dec_noNl (i : Int) : '\n' ∉ dec i := by
  have hd : ∀ n, '\n' ∉ Nat.toDigits 10 n := fun n h => absurd ((decimal_toDigits n).digits _ h) (by decide)
  unfold dec
  split
  · intro h
    rcases List.mem_cons.1 h with h | h
    · exact absurd h (by decide)
    · exact hd _ h
  · exact hd _

theorem text_int {i : Int} (h1 : -2147483648 ≤ i) (h2 : i ≤ 2147483647) {s : Str} {ts : List Tok} (h : Text s ts) :
    Text (dec i ++ '\n' :: s) (.num i :: ts) := by
  have hg : ∀ c, ('\n' :: s).head? = some c → ¬ Glues (.num i) c := by
    intro c e
    cases e
    show ¬ (Digit '\n' ∨ '\n' = 'x' ∨ '\n' = 'X')
    decide
  unfold dec
  split
  · next hi =>
    have e : (-(decimal (Nat.toDigits 10 i.natAbs) : Int)) = i := by rw [decimal_value]; omega
    have := Spell.neg (decimal_toDigits i.natAbs) (by rw [decimal_value]; omega)
    rw [e] at this
    exact Text.tok this hg (text_nl h)
  · next hi =>
    have e : (decimal (Nat.toDigits 10 i.natAbs) : Int) = i := by rw [decimal_value]; omega
    have := Spell.num (decimal_toDigits i.natAbs) (by rw [decimal_value]; omega)
    rw [e] at this
    exact Text.tok this hg (text_nl h)

/-! ### values -/

theorem text_elements (k : Nat) {s : Str} {ts : List Tok} (h : Text s ts) : ∀ {l : List Str}, (∀ x ∈ l, Clean x) →
    Text (elements k l ++ s) (l.map (fun x => Tok.str (escape x)) ++ ts)
  | [], _ => h
  | x :: l, hl => by
    have ih := text_elements k h (l := l) fun y hy => hl y (List.mem_cons_of_mem _ hy)
    have := text_indent (text_spaces (text_str (hl x (by simp)) ih) 4) k
    simpa [elements, element] using this

/-- the start of a variable with a comment -/
theorem text_comment {k : Nat} {n c s : Str} {ts : List Tok} (hn : Name n) (hc : '\n' ∉ c) (h : Text s ts) :
    Text (indent k ++ (n ++ (" = //".toList ++ (c ++ '\n' :: s)))) (.var n :: .op .assign :: ts) := by
  have := text_indent (text_name hn (text_assign (Text.slashes hc h))) k
  simpa using this

theorem notMem_append {a b : Str} (ha : '\n' ∉ a) (hb : '\n' ∉ b) : '\n' ∉ a ++ b := by
  simp [ha, hb]

mutual
theorem text_var (el : List (Str × Val) → Str) (vis : Str → Option Val) : ∀ (v : Val) (k : Nat) (n : Str) {s : Str} {ts : List Tok}, Name n →
    Writable vis v → Text s ts → Text (printVar el k n v ++ s) (.var n :: .op .assign :: (toks v ++ ts))
  | .str x, k, n, s, ts, hn, hv, h => by
    have hv : Clean x := hv
    have := text_indent (text_name hn (text_assign (text_str hv h))) k
    simpa [printVar, toks] using this
  | .bool b, k, n, s, ts, hn, hv, h => by
    have := text_indent (text_name hn (text_assign (text_bool b h))) k
    simpa [printVar, toks] using this
  | .int i, k, n, s, ts, hn, hv, h => by
    have hv : -2147483648 ≤ i ∧ i ≤ 2147483647 ∧ i % 256 ≠ 123 ∧ i % 256 ≠ 91 := hv
    have := text_indent (text_name hn (text_assign (text_int hv.1 hv.2.1 h))) k
    simpa [printVar, toks] using this
  | .strs l, k, n, s, ts, hn, hv, h => by
    have hv : ∀ x ∈ l, Clean x := hv
    have h1 := text_indent (text_brace .cl (text_elements k (text_indent (text_brace .cr h) k) hv)) k
    have := text_comment (k := k) hn (c := " ArrayOfStrings, size: ".toList ++ dec l.length) (notMem_append (by decide +kernel) (dec_noNl _)) h1
    simpa [printVar, toks, brText] using this
  | .struct ms, k, n, s, ts, hn, hv, h => by
    have hv : (ms.map (·.1)).Nodup ∧ WritableMs vis ms := by simpa only [Writable] using hv
    have h1 := text_indent (text_brace .sl (text_ms el vis ms (k + 1) hv.2 (text_indent (text_brace .sr h) k))) k
    have := text_comment (k := k) hn (c := " Struct".toList) (by decide +kernel) h1
    simpa [printVar, toks, brText] using this
  | .structs l, k, n, s, ts, hn, hv, h => by
    simp only [Writable] at hv
theorem text_ms (el : List (Str × Val) → Str) (vis : Str → Option Val) : ∀ (ms : List (Str × Val)) (k : Nat) {s : Str} {ts : List Tok},
    WritableMs vis ms → Text s ts → Text (printMs el k ms ++ s) (toksMs ms ++ ts)
  | [], k, s, ts, _, h => by simpa [printMs, toksMs] using h
  | m :: ms, k, s, ts, hm, h => by
    have hm : Name m.1 ∧ May (vis m.1) m.2 ∧ Writable vis m.2 ∧ WritableMs (also vis m.1 m.2) ms := by simpa only [WritableMs] using hm
    have := text_var el vis m.2 k m.1 hm.1 hm.2.2.1 (text_ms el (also vis m.1 m.2) ms k hm.2.2.2 h)
    simpa [printMs, toksMs] using this
end

end Verif.Bff.Print
