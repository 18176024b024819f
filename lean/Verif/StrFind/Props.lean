import Verif.StrFind.Proof
/-
C110: comparing and searching strings gives the answers it should, and never reads outside of them.
-/
namespace Verif.StrFind

theorem Kind.way {f R} (h : Kind f R) : Way f R := by
  rcases h with ⟨rfl, rfl⟩ | ⟨rfl, rfl⟩
  · exact way_exact
  · exact way_low

/-- Two texts are equal if they have the same bytes, with a string or with characters in memory. -/
theorem C110_equal (s t r : Bytes) (hs : Text s) (ht : Text t) :
    eq s t = some (decide (s = t)) ∧ eqC (mem s) (t ++ 0 :: r) = some (decide (s = t)) := by
  refine ⟨?_, eqC_ok s t r hs ht⟩
  unfold eq
  split
  · rename_i h
    have : s ≠ t := fun e => h (by rw [e])
    simp [this]
  · exact eqC_ok s t [] hs ht

/-- Comparing gives alphabetical order, of which equality is that of all bytes, or of all letters. -/
theorem C110_compare (f : UInt8 → UInt8) (hf : f = exact ∨ f = low) (s t : Bytes) (hs : Text s) (ht : Text t) :
    ∃ o, compare f (mem s) (mem t) = some o ∧ (o = .lt ↔ Before f s t) ∧ (o = .gt ↔ Before f t s) ∧
      (o = .eq ↔ s.map f = t.map f) := by
  have hz : ∀ a, f a = 0 ↔ a = 0 := by
    rcases hf with rfl | rfl
    · exact fun _ => Iff.rfl
    · exact low_zero
  obtain ⟨o, h0, h1, h2, h3⟩ := compare_ok hz s t hs ht
  refine ⟨o, h0, ⟨h1, ?_⟩, ⟨h2, ?_⟩, ⟨h3, ?_⟩⟩
  · intro h
    cases o with
    | lt => rfl
    | eq => exact absurd h (before_irrefl (h3 rfl))
    | gt => exact absurd h (before_asymm (h2 rfl))
  · intro h
    cases o with
    | lt => exact absurd h (before_asymm (h1 rfl))
    | eq => exact absurd h (before_irrefl (h3 rfl).symm)
    | gt => rfl
  · intro h
    cases o with
    | lt => exact absurd (h1 rfl) (before_irrefl h)
    | eq => rfl
    | gt => exact absurd (h2 rfl) (before_irrefl h.symm)

/-- This is an order, so that strings can be sorted. -/
theorem C110_order (f : UInt8 → UInt8) (s t u : Bytes) :
    ¬ Before f s s ∧ (Before f s t → ¬ Before f t s) ∧ (Before f s t → Before f t u → Before f s u) :=
  ⟨before_irrefl rfl, before_asymm, before_trans⟩

/-- Ignoring case, two texts are equal exactly if they agree letter by letter. -/
theorem C110_equal_letters (s t : Bytes) : s.map low = t.map low ↔ Agree sameLetter s t := by
  constructor
  · intro h
    induction s generalizing t with
    | nil =>
        cases t with
        | nil => exact .nil
        | cons _ _ => exact absurd h (by simp)
    | cons x s ih =>
        cases t with
        | nil => exact absurd h (by simp)
        | cons y t =>
            simp only [List.map_cons] at h
            injection h with h1 h2
            exact .cons ((low_iff x y).1 h1) (ih t h2)
  · intro h
    induction h with
    | nil => rfl
    | cons h _ ih => simp [(low_iff _ _).2 h, ih]

/-- Ignoring case, letters are ordered as small ones. -/
theorem C110_small_letters (c : UInt8) :
    (low c).toNat = if 65 ≤ c.toNat ∧ c.toNat ≤ 90 then c.toNat + 32 else c.toNat := by
  have h : ∀ n : Fin 256, (low (UInt8.ofNat n.1)).toNat = if 65 ≤ n.1 ∧ n.1 ≤ 90 then n.1 + 32 else n.1 := by decide +kernel
  have := h ⟨c.toNat, UInt8.toNat_lt c⟩
  simpa using this

/-- `Find` gives the first place between `start` and `stop` that a text is at, if there is one. -/
theorem C110_find {f R} (hk : Kind f R) (s t : Bytes) (ht : Text t) (start stop : Option Nat)
    (h1 : start.getD 0 ≤ stop.getD s.length) (h2 : stop.getD s.length ≤ s.length) :
    ∃ o, find f s t start stop = some o ∧
      First (fun i => start.getD 0 ≤ i ∧ i + t.length ≤ stop.getD s.length ∧ At R s t i) o := by
  unfold find
  simp only
  rw [if_neg (by omega), if_neg (by omega), if_neg (by omega)]
  obtain ⟨o, e, h⟩ := findLoop_ok hk.way (s := s) (r := [0]) ht (stop.getD s.length + 1 - (start.getD 0 + t.length)) (start.getD 0)
    (by omega)
  refine ⟨o, e, h.congr fun i => ?_⟩
  constructor
  · intro ⟨a, b, c⟩; exact ⟨a, by omega, c⟩
  · intro ⟨a, b, c⟩; exact ⟨a, by omega, c⟩

theorem C110_find_chars {f R} (hk : Kind f R) (s t r : Bytes) (ht : Text t) (start stop : Option Nat)
    (h1 : start.getD 0 ≤ stop.getD s.length) (h2 : stop.getD s.length ≤ s.length) :
    ∃ o, findC f s (t ++ 0 :: r) start stop = some o ∧
      First (fun i => start.getD 0 ≤ i ∧ i + t.length ≤ stop.getD s.length ∧ At R s t i) o := by
  unfold findC
  rw [strLen_ok t r ht]
  simp only
  rw [if_neg (by omega), if_neg (by omega), if_neg (by omega)]
  obtain ⟨o, e, h⟩ := findLoop_ok hk.way (s := s) (r := 0 :: r) ht (stop.getD s.length + 1 - (start.getD 0 + t.length)) (start.getD 0)
    (by omega)
  refine ⟨o, e, h.congr fun i => ?_⟩
  constructor
  · intro ⟨a, b, c⟩; exact ⟨a, by omega, c⟩
  · intro ⟨a, b, c⟩; exact ⟨a, by omega, c⟩

/-- The first place of a character. -/
theorem C110_find_char {f R} (hk : Kind f R) (s : Bytes) (c : UInt8) (start stop : Option Nat)
    (h1 : start.getD 0 ≤ stop.getD s.length) (h2 : stop.getD s.length ≤ s.length) :
    ∃ o, findChar f s c start stop = some o ∧
      First (fun i => start.getD 0 ≤ i ∧ i < stop.getD s.length ∧ ∃ b, s[i]? = some b ∧ R b c) o := by
  unfold findChar
  simp only
  rw [if_neg (by omega), if_neg (by omega), if_neg (by omega)]
  obtain ⟨o, e, h⟩ := charLoop_ok hk.way (s := s) (c := c) (stop.getD s.length - start.getD 0) (start.getD 0) (by omega)
  refine ⟨o, e, h.congr fun i => ?_⟩
  constructor
  · intro ⟨a, b, c⟩; exact ⟨a, by omega, c⟩
  · intro ⟨a, b, c⟩; exact ⟨a, by omega, c⟩

/-- `FindLast` gives the last place not before `stop` and, if there is a `start`, not after it.
Missing: without `start` the text has to fit, `C110_find_last_long_false`. -/
theorem C110_find_last_partial {f R} (hk : Kind f R) (s t : Bytes) (ht : Text t) (stop : Option Nat) :
    (stop.getD 0 + t.length ≤ s.length →
      ∃ o, findLast f s t none stop = some o ∧ Last (fun i => stop.getD 0 ≤ i ∧ At R s t i) o) ∧
    (∀ p, stop.getD 0 ≤ p → p ≤ s.length →
      ∃ o, findLast f s t (some p) stop = some o ∧ Last (fun i => stop.getD 0 ≤ i ∧ i ≤ p ∧ At R s t i) o) := by
  constructor
  · intro h
    unfold findLast
    simp only
    rw [if_neg (by omega), if_neg (by omega)]
    obtain ⟨o, e, h'⟩ := lastLoop_ok hk.way (s := s) (r := [0]) ht (stop.getD 0) (s.length - t.length + 1 - stop.getD 0) (by omega)
    refine ⟨o, e, h'.congr fun i => ?_⟩
    constructor
    · intro ⟨a, b, c⟩; exact ⟨a, c⟩
    · intro ⟨a, c⟩
      have := at_bound c
      exact ⟨a, by omega, c⟩
  · intro p h1 h2
    unfold findLast
    simp only
    rw [if_neg (by omega), if_neg (by omega)]
    obtain ⟨o, e, h'⟩ := lastLoop_ok hk.way (s := s) (r := [0]) ht (stop.getD 0) (p + 1 - stop.getD 0) (by omega)
    refine ⟨o, e, h'.congr fun i => ?_⟩
    constructor
    · intro ⟨a, b, c⟩; exact ⟨a, by omega, c⟩
    · intro ⟨a, b, c⟩; exact ⟨a, by omega, c⟩

/-- The last place of a character. -/
theorem C110_find_last_char {f R} (hk : Kind f R) (s : Bytes) (c : UInt8) (hc : c ≠ 0) (start stop : Option Nat)
    (h1 : start.getD 0 ≤ s.length) :
    ∃ o, findLastChar f s c start stop = some o ∧
      Last (fun i : Nat => stop.getD 0 ≤ i ∧ (∀ p, start = some p → i ≤ p) ∧ ∃ b, s[i]? = some b ∧ R b c) o := by
  have hw := hk.way
  have hR0 : ¬ R 0 c := fun h => hc ((hw.zero c).1 (((hw.iff 0 c).2 h).symm.trans ((hw.zero 0).2 rfl)))
  have hlen : (mem s).length = s.length + 1 := by simp [mem]
  have hin : ∀ i : Nat, (∃ b, (mem s)[i]? = some b ∧ R b c) ↔ ∃ b, s[i]? = some b ∧ R b c := by
    intro i
    by_cases h : i < s.length
    · rw [mem_get h]
    · constructor
      · rintro ⟨b, hb, hr⟩
        have hi := (List.getElem?_eq_some_iff.1 hb).1
        have : i = s.length := by omega
        subst this
        simp [mem] at hb
        subst hb
        exact absurd hr hR0
      · rintro ⟨b, hb, _⟩
        exact absurd (List.getElem?_eq_some_iff.1 hb).1 h
  unfold findLastChar
  cases start with
  | none =>
      simp only
      obtain ⟨o, e, h⟩ := lastCharLoop_ok hw (s := s) (c := c) (stop.getD 0) (s.length - stop.getD 0) (by omega)
      refine ⟨o, e, h.congr fun i => ?_⟩
      rw [hin]
      constructor
      · intro ⟨a, b, d⟩; exact ⟨a, nofun, d⟩
      · intro ⟨a, _, d⟩
        have ⟨x, hx, _⟩ := d
        have := (List.getElem?_eq_some_iff.1 hx).1
        exact ⟨a, by omega, d⟩
  | some p =>
      simp only [Option.getD_some] at h1
      simp only
      rw [if_neg (by omega)]
      obtain ⟨o, e, h⟩ := lastCharLoop_ok hw (s := s) (c := c) (stop.getD 0) (p + 1 - stop.getD 0) (by omega)
      refine ⟨o, e, h.congr fun i => ?_⟩
      rw [hin]
      constructor
      · intro ⟨a, b, d⟩; exact ⟨a, fun q hq => by cases hq; omega, d⟩
      · intro ⟨a, b, d⟩
        have := b p rfl
        exact ⟨a, by omega, d⟩

/-- `BeginsWith` and `EndsWith` say whether the string has such a beginning or end. -/
theorem C110_begins_ends {f R} (hk : Kind f R) (s t : Bytes) (ht : Text t) :
    (∃ b, beginsWith f s t = some b ∧ (b = true ↔ ∃ x y, s = x ++ y ∧ Agree R x t)) ∧
    (∃ b, endsWith f s t = some b ∧ (b = true ↔ ∃ x y, s = x ++ y ∧ Agree R y t)) := by
  constructor
  · unfold beginsWith
    split
    · rename_i h
      refine ⟨false, rfl, ⟨nofun, ?_⟩⟩
      rintro ⟨x, y, rfl, ha⟩
      have := ha.length
      simp at h
      omega
    · exact cmp_ok hk.way s t [0] ht
  · unfold endsWith
    split
    · rename_i h
      refine ⟨false, rfl, ⟨nofun, ?_⟩⟩
      rintro ⟨x, y, rfl, ha⟩
      have := ha.length
      simp at h
      omega
    · rename_i h
      obtain ⟨b, e, hb⟩ := cmp_at hk.way (s := s) (r := [0]) ht (show s.length - t.length ≤ s.length by omega)
      refine ⟨b, e, hb.trans ?_⟩
      constructor
      · rintro ⟨x, y, z, e, hl, ha⟩
        have := ha.length
        have hz : z = [] := by
          have := congrArg List.length e
          simp at this
          exact List.length_eq_zero_iff.1 (by omega)
        subst hz
        exact ⟨x, y, by simpa using e, ha⟩
      · rintro ⟨x, y, rfl, ha⟩
        have := ha.length
        exact ⟨x, y, [], by simp, by simp; omega, ha⟩

/-- The first and the last character. -/
theorem C110_begins_ends_char (s : Bytes) (c : UInt8) :
    beginsWithChar s c = some (decide (s.head? = some c)) ∧ endsWithChar s c = some (decide (s.getLast? = some c)) := by
  cases s with
  | nil => simp [beginsWithChar, endsWithChar]
  | cons x s =>
      constructor
      · simp [beginsWithChar, mem]
      · unfold endsWithChar
        rw [if_neg (by simp), mem_get (by simp), ← List.getLast?_eq_getElem?]
        cases h : (x :: s).getLast? with
        | none => simp at h
        | some y => simp

end Verif.StrFind
