import Verif.Bff.LexSpec
/-
How much text each step of the tokenizer consumes.
-/
namespace Verif.Bff.Lex

theorem skipLine_le (s : Str) : (skipLine s).length ≤ s.length := by
  induction s with
  | nil => simp [skipLine]
  | cons c s ih => simp only [skipLine]; split <;> simp <;> omega

theorem skipLine_lt {s : Str} (h : s ≠ []) : (skipLine s).length < s.length := by
  cases s with
  | nil => exact absurd rfl h
  | cons c s => simp only [skipLine]; have := skipLine_le s; split <;> simp <;> omega

theorem lineOf_skipLine (s : Str) : lineOf s ++ skipLine s = s := by
  induction s with
  | nil => rfl
  | cons c s ih => simp only [lineOf, skipLine]; split <;> simp [ih]

theorem lineOf_le (s : Str) : (lineOf s).length ≤ s.length := by
  have := congrArg List.length (lineOf_skipLine s)
  simp at this; omega

theorem dropWhile_le {α : Type} (p : α → Bool) (s : List α) : (s.dropWhile p).length ≤ s.length :=
  (List.dropWhile_sublist p).length_le

theorem quoted_le {q : Char} : ∀ {s : Str} {e : Bool} {r : Str × Str}, quoted q e s = some r → r.2.length < s.length
  | [], e, r, h => by simp [quoted] at h
  | c :: s, e, r, h => by
    have ih := fun {e r} => quoted_le (q := q) (s := s) (e := e) (r := r)
    simp only [quoted] at h
    split at h
    · cases h
    · split at h
      · simp only [Option.map_eq_some_iff] at h
        obtain ⟨a, ha, rfl⟩ := h
        have := ih ha
        simp; omega
      · split at h
        · cases h; simp
        · simp only [Option.map_eq_some_iff] at h
          obtain ⟨a, ha, rfl⟩ := h
          have := ih ha
          simp; omega

theorem lexNum_tok {c : Char} {s : Str} {t : Tok} {r : Str} (h : lexNum c s = .tok t r) : r.length ≤ s.length := by
  unfold lexNum at h
  split at h
  · cases h; exact dropWhile_le _ _
  · cases h

theorem lexRest_le {c : Char} {s : Str} : (∀ t r, lexRest c s = .tok t r → r.length ≤ s.length) ∧
    (∀ r, lexRest c s ≠ .skip r) ∧ ∀ r, lexRest c s = .hash r → r = s ∧ c = '#' := by
  have hnum : (∀ t r, lexNum c s = .tok t r → r.length ≤ s.length) ∧
      (∀ r, lexNum c s ≠ .skip r) ∧ ∀ r, lexNum c s = .hash r → r = s ∧ c = '#' :=
    ⟨fun _ _ h => lexNum_tok h, by intro r; unfold lexNum; split <;> simp, by intro r; unfold lexNum; split <;> simp⟩
  unfold lexRest
  split
  · exact hnum
  · split
    · simp
    · simp
    · split
      · exact hnum
      · split
        · simp
        · split
          · simp
          · split
            · rename_i h; simp [h]
            · simp

theorem lex_tok {c : Char} {s : Str} {t : Tok} {r : Str} (h : lex c s = .tok t r) : r.length ≤ s.length := by
  unfold lex at h
  split at h
  · cases h
  · split at h
    · cases h
    · split at h
      · cases h; exact dropWhile_le _ _
      · split at h
        · unfold lexVar at h
          split at h
          · split at h
            · split at h
              · rename_i hq; cases h; have := quoted_le hq; simp at this ⊢; omega
              · cases h
            · split at h
              · cases h
              · cases h; exact dropWhile_le _ _
          · cases h
        · split at h
          · unfold lexStr at h
            split at h
            · rename_i hq; cases h; have := quoted_le hq; simp at this ⊢; omega
            · cases h
          · split at h
            · split at h
              · cases h; simp
              · exact lexRest_le.1 _ _ h
            · exact lexRest_le.1 _ _ h

theorem lex_skip {c : Char} {s r : Str} (h : lex c s = .skip r) : r.length ≤ s.length := by
  unfold lex at h
  split at h
  · cases h; exact dropWhile_le _ _
  · split at h
    · cases h
      have := skipLine_lt (s := c :: s) (by simp)
      simp at this; omega
    · split at h
      · cases h
      · split at h
        · unfold lexVar at h
          split at h
          · split at h
            · split at h <;> cases h
            · split at h <;> cases h
          · cases h
        · split at h
          · unfold lexStr at h
            split at h <;> cases h
          · split at h
            · split at h
              · cases h
              · exact absurd h (lexRest_le.2.1 _)
            · exact absurd h (lexRest_le.2.1 _)

theorem lex_hash {c : Char} {s r : Str} (h : lex c s = .hash r) : r = s ∧ c = '#' := by
  unfold lex at h
  split at h
  · cases h
  · split at h
    · cases h
    · split at h
      · cases h
      · split at h
        · unfold lexVar at h
          split at h
          · split at h
            · split at h <;> cases h
            · split at h <;> cases h
          · cases h
        · split at h
          · unfold lexStr at h
            split at h <;> cases h
          · split at h
            · split at h
              · cases h
              · exact lexRest_le.2.2 _ h
            · exact lexRest_le.2.2 _ h

theorem bind_ne_fuel {α β : Type} {x : Res α} {f : α → Res β} (hx : x ≠ .fuel) (hf : ∀ a, x = .ok a → f a ≠ .fuel) : (x >>= f) ≠ .fuel := by
  cases x with
  | ok a => exact hf a rfl
  | err => intro h; cases h
  | assert => intro h; cases h
  | fuel => exact absurd rfl hx

theorem lexLine_fuel : ∀ (n : Nat) (s : Str), s.length ≤ n → lexLine n s ≠ .fuel := by
  intro n
  induction n with
  | zero => intro s h; cases s with
    | nil => simp [lexLine]
    | cons => simp at h
  | succ n ih =>
    intro s h
    cases s with
    | nil => simp [lexLine]
    | cons c s =>
      simp only [List.length_cons] at h
      simp only [lexLine]
      split
      · rename_i hl; have := lex_skip hl; exact ih _ (by omega)
      · rename_i hl
        have := lex_tok hl
        exact bind_ne_fuel (ih _ (by omega)) (fun a _ => by simp)
      · simp
      · simp
      · simp

theorem term_len {W : World} {file : Str} {ev : Bool} {st : St} {ts : List Tok} {r : Bool × List Tok × St} (h : term W file ev st ts = .ok r) :
    r.2.1.length < ts.length := by
  unfold term at h
  split at h <;> (try split at h) <;> (try split at h) <;> cases h <;> simp <;> omega

theorem term_fuel {W : World} {file : Str} {ev : Bool} {st : St} {ts : List Tok} : term W file ev st ts ≠ .fuel := by
  unfold term
  split <;> (try split) <;> (try split) <;> simp

theorem negTerm_fuel {W : World} {file : Str} {ev : Bool} {st : St} {ts : List Tok} : negTerm W file ev st ts ≠ .fuel :=
  bind_ne_fuel term_fuel (fun a _ => by simp)

theorem negTerm_len {W : World} {file : Str} {ev : Bool} {st : St} {ts : List Tok} {r : Bool × List Tok × St} (h : negTerm W file ev st ts = .ok r) :
    r.2.1.length < ts.length := by
  unfold negTerm at h
  rw [Res.bind_eq_ok] at h
  obtain ⟨q, hq, h⟩ := h
  cases h
  have := term_len hq
  split at this <;> simp at this ⊢ <;> omega

theorem record_fuel {h : List Nat} {r : Nat} : record h r ≠ .fuel := by
  unfold record
  split
  · simp
  · split <;> simp

theorem terms_fuel {W : World} {file : Str} {ev : Bool} : ∀ (n : Nat) (st : St) (h : List Nat) (ts : List Tok), ts.length ≤ n →
    terms W file ev n st h ts ≠ .fuel := by
  intro n
  induction n with
  | zero =>
    intro st h ts hl
    have : ts = [] := List.length_eq_zero_iff.mp (by omega)
    subst this
    simp [terms]
  | succ n ih =>
    intro st h ts hl
    have step : ∀ us k, us.length ≤ n → (do
        let r ← negTerm W file ev st us
        let h ← record h (k ||| r.1.toNat)
        terms W file ev n r.2.2 h r.2.1) ≠ Res.fuel := by
      intro us k hu
      refine bind_ne_fuel negTerm_fuel (fun r hr => bind_ne_fuel record_fuel (fun h' _ => ih _ _ _ ?_))
      have := negTerm_len hr; omega
    unfold terms
    split
    · rename_i hc; cases hc; exact step _ _ (by simpa using hl)
    · rename_i hc; cases hc; exact step _ _ (by simpa using hl)
    · rename_i hc; cases hc
    · rename_i hc; cases hc
    · simp

theorem ifExpr_fuel {W : World} {file : Str} {ev : Bool} {st : St} {ts : List Tok} : ifExpr W file ev st ts ≠ .fuel := by
  refine bind_ne_fuel negTerm_fuel (fun r hr => bind_ne_fuel (terms_fuel _ _ _ _ ?_) (fun a _ => by simp))
  have := negTerm_len hr; omega

theorem takeWhile_dropWhile_len {α : Type} (p : α → Bool) (s : List α) : (s.takeWhile p).length + (s.dropWhile p).length = s.length := by
  have := congrArg List.length (List.takeWhile_append_dropWhile (p := p) (l := s))
  rwa [List.length_append] at this

theorem skipLine_blank (s : Str) : skipLine s = skipLine (s.dropWhile isBlank) := by
  induction s with
  | nil => rfl
  | cons a s ih =>
    simp only [List.dropWhile_cons]
    split
    · rename_i ha
      have : a ≠ '\n' := by rintro rfl; revert ha; decide
      simp only [skipLine, if_neg this]
      exact ih
    · rfl

theorem lineOf_len (s : Str) : (lineOf s).length + (skipLine s).length = s.length := by
  have := congrArg List.length (lineOf_skipLine s)
  simpa using this

theorem toEnd_props (allow : Bool) : ∀ (n d : Nat) (s : Str), s.length < n →
    toEnd allow n d s ≠ .fuel ∧ ∀ b, toEnd allow n d s = .ok b → b.1.length + b.2.2.length < s.length := by
  intro n
  induction n with
  | zero => intro d s h; omega
  | succ n ih =>
    intro d s h
    have hrec : ∀ d', s ≠ [] → (do
        let b ← toEnd allow n d' (skipLine s)
        pure (lineOf s ++ b.1, b.2)) ≠ Res.fuel ∧ ∀ b, (do
        let b ← toEnd allow n d' (skipLine s)
        pure (lineOf s ++ b.1, b.2)) = Res.ok b → b.1.length + b.2.2.length < s.length := by
      intro d' hs
      have hl := skipLine_lt hs
      have hll := lineOf_len s
      obtain ⟨i1, i2⟩ := ih d' (skipLine s) (by omega)
      refine ⟨bind_ne_fuel i1 (fun a _ => by simp), fun b hb => ?_⟩
      rw [Res.bind_eq_ok] at hb
      obtain ⟨q, hq, hb⟩ := hb
      cases hb
      have := i2 q hq
      simp only [List.length_append]
      omega
    simp only [toEnd]
    have hw := takeWhile_dropWhile_len isBlank s
    split
    · exact ⟨by simp, by simp⟩
    · rename_i c r hr
      have hs : s ≠ [] := by rintro rfl; simp at hr
      rw [hr] at hw
      simp only [List.length_cons] at hw
      have hd := dropWhile_le isBlank r
      split
      · split
        · exact ⟨by simp, by simp⟩
        · rename_i x hx
          split
          · refine ⟨by simp, fun b hb => ?_⟩
            cases hb
            simp only
            rw [skipLine_blank s, hr]
            have := skipLine_lt (s := c :: r) (by simp)
            simp at this; omega
          · split
            · split
              · refine ⟨by simp, fun b hb => ?_⟩
                cases hb
                simp only [List.length_drop]; omega
              · exact ⟨by simp, by simp⟩
            · split
              · split
                · refine ⟨by simp, fun b hb => ?_⟩
                  cases hb
                  simp only [List.length_drop]; omega
                · exact ⟨by simp, by simp⟩
              · exact hrec _ hs
      · exact hrec _ hs

theorem branches_props (W : World) (file : Str) : ∀ (n : Nat) (st : St) (v : Bool) (blk : Option Str) (e : End) (s : Str), s.length < n →
    branches W file n st v blk e s ≠ .fuel ∧ ∀ c, branches W file n st v blk e s = .ok c → c.2.1.length ≤ s.length ∧
      ∀ b, c.1 = some b → blk = some b ∨ b.length ≤ s.length := by
  intro n
  induction n with
  | zero => intro st v blk e s h; omega
  | succ n ih =>
    intro st v blk e s h
    cases e with
    | endif =>
      simp only [branches]
      refine ⟨by simp, fun c hc => ?_⟩
      cases hc
      exact ⟨by simp, fun b hb => .inl hb⟩
    | else_ =>
      obtain ⟨t1, t2⟩ := toEnd_props false (s.length + 1) 1 s (by omega)
      simp only [branches]
      refine ⟨bind_ne_fuel t1 (fun a _ => by simp), fun c hc => ?_⟩
      rw [Res.bind_eq_ok] at hc
      obtain ⟨q, hq, hc⟩ := hc
      cases hc
      have := t2 q hq
      refine ⟨by simp; omega, fun b hb => ?_⟩
      simp only at hb
      split at hb
      · exact .inl hb
      · cases hb; exact .inr (by omega)
    | elif =>
      simp only [branches]
      have hk := skipLine_le s
      obtain ⟨t1, t2⟩ := toEnd_props true ((skipLine s).length + 1) 1 (skipLine s) (by omega)
      constructor
      · refine bind_ne_fuel (lexLine_fuel _ _ (lineOf_le s)) (fun args _ => bind_ne_fuel ifExpr_fuel (fun r _ => bind_ne_fuel t1 (fun b hb => ?_)))
        have := t2 b hb
        split
        · simp
        · exact (ih _ _ _ _ _ (by omega)).1
      · intro c hc
        rw [Res.bind_eq_ok] at hc
        obtain ⟨args, _, hc⟩ := hc
        rw [Res.bind_eq_ok] at hc
        obtain ⟨r, _, hc⟩ := hc
        rw [Res.bind_eq_ok] at hc
        obtain ⟨b, hb, hc⟩ := hc
        have hlen := t2 b hb
        split at hc
        · cases hc
        · obtain ⟨i1, i2⟩ := (ih _ _ _ _ _ (by omega)).2 c hc
          refine ⟨by omega, fun b' hb' => ?_⟩
          rcases i2 b' hb' with h' | h'
          · split at h'
            · exact .inl h'
            · split at h'
              · cases h'; exact .inr (by omega)
              · cases h'
          · exact .inr (by omega)

theorem directive_fuel (W : World) {inc : St → Str → Res St} (hinc : ∀ st x, inc st x ≠ .fuel) (i : Nat) (st : St) (s : Str) :
    directive W inc i st s ≠ .fuel := by
  unfold directive
  refine bind_ne_fuel (lexLine_fuel _ _ (lineOf_le s)) (fun args _ => ?_)
  split
  · simp
  · split
    · split <;> simp
    · split <;> simp
    · split <;> simp
    · split
      · simp
      · split <;> simp
    · exact bind_ne_fuel (hinc _ _) (fun _ _ => by simp)
    · obtain ⟨t1, t2⟩ := toEnd_props true ((skipLine s).length + 1) 1 (skipLine s) (by omega)
      have hk := skipLine_le s
      refine bind_ne_fuel ifExpr_fuel (fun r _ => bind_ne_fuel t1 (fun b hb => bind_ne_fuel ?_ (fun _ _ => by simp)))
      have := t2 b hb
      exact (branches_props W _ _ _ _ _ _ _ (by omega)).1
    · simp

theorem directive_len (W : World) {inc : St → Str → Res St} {i : Nat} {st : St} {s : Str} {l : Left}
    (h : directive W inc i st s = .ok l) : l.rest.length ≤ s.length ∧ ∀ b, l.blk = some b → b.length ≤ s.length := by
  have hk := skipLine_le s
  unfold directive at h
  rw [Res.bind_eq_ok] at h
  obtain ⟨args, _, h⟩ := h
  split at h
  · cases h
  · split at h
    · split at h <;> cases h; exact ⟨hk, by simp⟩
    · split at h <;> cases h; exact ⟨hk, by simp⟩
    · split at h <;> cases h; exact ⟨hk, by simp⟩
    · split at h
      · cases h
      · split at h <;> cases h; exact ⟨hk, by simp⟩
    · rw [Res.bind_eq_ok] at h
      obtain ⟨q, _, h⟩ := h
      cases h
      exact ⟨hk, by simp⟩
    · obtain ⟨t1, t2⟩ := toEnd_props true ((skipLine s).length + 1) 1 (skipLine s) (by omega)
      rw [Res.bind_eq_ok] at h
      obtain ⟨r, _, h⟩ := h
      rw [Res.bind_eq_ok] at h
      obtain ⟨b, hb, h⟩ := h
      rw [Res.bind_eq_ok] at h
      obtain ⟨c, hc, h⟩ := h
      cases h
      have hbl := t2 b hb
      obtain ⟨i1, i2⟩ := (branches_props W _ _ _ _ _ _ _ (by omega)).2 c hc
      refine ⟨by simp only; omega, fun b' hb' => ?_⟩
      rcases i2 b' hb' with h' | h'
      · split at h'
        · cases h'; omega
        · cases h'
      · omega
    · cases h

theorem range_fuel (W : World) {inc : St → Str → Res St} (hinc : ∀ st x, inc st x ≠ .fuel) (i : Nat) : ∀ (n : Nat) (st : St) (s : Str),
    s.length ≤ n → range W inc i n st s ≠ .fuel := by
  intro n
  induction n with
  | zero => intro st s h; cases s with
    | nil => simp [range]
    | cons => simp at h
  | succ n ih =>
    intro st s h
    cases s with
    | nil => simp [range]
    | cons c s =>
      simp only [List.length_cons] at h
      simp only [range]
      split
      · rename_i hl; have := lex_skip hl; exact ih _ _ (by omega)
      · rename_i hl; have := lex_tok hl; exact ih _ _ (by omega)
      · simp
      · simp
      · rename_i hl
        obtain ⟨rfl, _⟩ := lex_hash hl
        refine bind_ne_fuel (directive_fuel W hinc i st _) (fun l hd => ?_)
        obtain ⟨d1, d2⟩ := directive_len W hd
        split
        · split
          · exact ih _ _ (by omega)
          · simp
        · rename_i b hb
          have := d2 b hb
          refine bind_ne_fuel (ih _ _ (by omega)) (fun st' _ => ?_)
          split
          · exact ih _ _ (by omega)
          · simp

theorem readFile_fuel (W : World) {inc : St → Str → Res St} (hinc : ∀ st x, inc st x ≠ .fuel) (st : St) (x : Str) :
    readFile W inc st x ≠ .fuel := by
  unfold readFile
  split
  · split
    · simp
    · exact range_fuel W hinc _ _ _ _ (Nat.le_refl _)
  · split
    · simp
    · exact range_fuel W hinc _ _ _ _ (Nat.le_refl _)

theorem tokFile_fuel (W : World) : ∀ (k : Nat) (st : St) (x : Str), tokFile W k st x ≠ .fuel
  | 0 => readFile_fuel W (by simp)
  | k + 1 => readFile_fuel W (tokFile_fuel W k)

end Verif.Bff.Lex
