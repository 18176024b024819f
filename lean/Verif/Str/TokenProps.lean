import Verif.Str.TextSpec
/-! Property C29: tokenising and quote removal. -/
namespace Verif.Str

theorem quotesBefore_succ (s : List Char) (i : Nat) :
    quotesBefore s (i + 1) = quotesBefore s i + (if UnescapedQuote s i then 1 else 0) := by
  unfold quotesBefore
  rw [List.range_succ, List.filter_append, List.length_append]
  split <;> simp [*]

/-- position `i` is not an escaped quote -/
def NotEscaped (s : List Char) (i : Nat) : Prop := ¬ (0 < i ∧ s[i - 1]? = some '\\' ∧ s[i]? = some '"')

theorem unescapedQuote_iff {s : List Char} {i : Nat} (h : NotEscaped s i) : UnescapedQuote s i ↔ s[i]? = some '"' := by
  unfold NotEscaped at h
  unfold UnescapedQuote
  constructor
  · exact fun h => h.1
  · exact fun h' => ⟨h', fun h'' => h ⟨h''.1, h''.2, h'⟩⟩

/-- ranges in order, non-empty, with a gap between them, inside `[lo, hi]` -/
def Ranges (lo hi : Nat) (l : List (Nat × Nat)) : Prop :=
  l.Pairwise (fun r q => r.2 < q.1) ∧ ∀ r ∈ l, lo ≤ r.1 ∧ r.1 < r.2 ∧ r.2 ≤ hi

def Covered (l : List (Nat × Nat)) (j : Nat) : Prop := ∃ r ∈ l, r.1 ≤ j ∧ j < r.2

def TokGoal (sep : Char) (S : List Char) (i : Nat) (cur : Option Nat) (out : List (Nat × Nat)) : Prop :=
  match cur with
  | none => Ranges i S.length out ∧ ∀ j, i ≤ j → (Covered out j ↔ j < S.length ∧ ¬ IsSep sep S j)
  | some st => ∃ e rest, out = (st, e) :: rest ∧ i ≤ e ∧ e ≤ S.length ∧ Ranges (e + 1) S.length rest ∧
      ∀ j, i ≤ j → (Covered out j ↔ j < S.length ∧ ¬ IsSep sep S j)

theorem drop_cons {S s : List Char} {i : Nat} {c : Char} (h : S.drop i = c :: s) :
    S[i]? = some c ∧ S.drop (i + 1) = s ∧ i < S.length := by
  have h1 : S[i]? = some c := by
    have := congrArg List.head? h
    simpa [List.head?_drop] using this
  refine ⟨h1, ?_, ?_⟩
  · have := congrArg (List.drop 1) h
    simpa [List.drop_drop] using this
  · rcases Nat.lt_or_ge i S.length with h | h
    · exact h
    · rw [List.getElem?_eq_none h] at h1; cases h1

theorem tokGoal_step {sep : Char} {S : List Char} {i n st : Nat} {out : List (Nat × Nat)}
    (hi : ∀ j, i ≤ j → j < n → j < S.length ∧ ¬ IsSep sep S j) (hn : i ≤ n) (hst : st ≤ i)
    (h : TokGoal sep S n (some st) out) : TokGoal sep S i (some st) out := by
  obtain ⟨e, rest, h1, h2, h3, h4, h5⟩ := h
  refine ⟨e, rest, h1, by omega, h3, h4, fun j hj => ?_⟩
  by_cases hjn : n ≤ j
  · exact h5 j hjn
  · constructor
    · exact fun _ => hi j hj (by omega)
    · exact fun _ => ⟨(st, e), by simp [h1], by show st ≤ j; omega, by show j < e; omega⟩

/-- a token that starts at `i` gives the goal for "no current token" -/
theorem tokGoal_start {sep : Char} {S : List Char} {i : Nat} {out : List (Nat × Nat)} (hi : i < S.length ∧ ¬ IsSep sep S i)
    (h : TokGoal sep S (i + 1) (some i) out) : TokGoal sep S i none out := by
  obtain ⟨e, rest, h1, h2, h3, h4, h5⟩ := tokGoal_step (i := i) (fun j h1 h2 => by
    have : j = i := by omega
    exact this ▸ hi) (by omega) (Nat.le_refl _) h
  have he : i + 1 ≤ e := by
    obtain ⟨e', rest', h1', h2', _⟩ := h
    rw [h1] at h1'; cases h1'; exact h2'
  refine ⟨⟨?_, ?_⟩, h5⟩
  · rw [h1]
    refine List.pairwise_cons.2 ⟨fun r hr => ?_, h4.1⟩
    have := (h4.2 r hr).1
    show e < r.1; omega
  · intro r hr
    rw [h1] at hr
    rcases List.mem_cons.1 hr with rfl | hr
    · exact ⟨Nat.le_refl _, he, h3⟩
    · have := h4.2 r hr
      omega

theorem tokenGo_spec (sep : Char) (S : List Char) (hq : sep ≠ '"') (hb : sep ≠ '\\') : ∀ (n i : Nat) (quote : Bool)
    (cur : Option Nat), S.length - i = n → NotEscaped S i → quote = (quotesBefore S i % 2 == 1) →
    (cur = none → quote = false) → (∀ st, cur = some st → st < i) → i ≤ S.length →
    TokGoal sep S i cur (tokenGo sep i quote cur (S.drop i)) := by
  intro n
  induction n using Nat.strongRecOn with
  | _ n ih =>
  intro i quote cur hn hne hqt hcq hst hi
  match hd : S.drop i with
  | [] =>
    have hl : i = S.length := by
      have := congrArg List.length hd
      simp at this; omega
    cases cur with
    | none =>
      rw [tokenGo]
      refine ⟨⟨List.Pairwise.nil, by simp⟩, fun j hj => ?_⟩
      constructor
      · rintro ⟨_, h, _⟩; cases h
      · intro h; omega
    | some st =>
      rw [tokenGo]
      refine ⟨i, [], rfl, Nat.le_refl _, hi, ⟨List.Pairwise.nil, by simp⟩, fun j hj => ?_⟩
      constructor
      · rintro ⟨r, hr, h1, h2⟩
        simp at hr; subst hr
        dsimp only at h2; omega
      · intro h; omega
  | c :: s =>
    obtain ⟨hc, hs, hlt⟩ := drop_cons hd
    have hsucc := quotesBefore_succ S i
    have hnq : c ≠ '"' → quotesBefore S (i + 1) = quotesBefore S i := by
      intro h
      rw [hsucc, if_neg (by rw [unescapedQuote_iff hne, hc]; simpa using h)]
      rfl
    have hne' : ¬ (c = '\\' ∧ s.head? = some '"') → NotEscaped S (i + 1) := by
      intro h ⟨_, h2, h3⟩
      rw [Nat.add_sub_cancel, hc] at h2
      cases h2
      refine h ⟨rfl, ?_⟩
      rw [← hs, List.head?_drop]; exact h3
    have hsepc : IsSep sep S i ↔ c = sep ∧ quote = false := by
      unfold IsSep
      rw [hc, hqt]
      have := Nat.mod_two_eq_zero_or_one (quotesBefore S i)
      simp
    -- the current token goes on
    have cont : ∀ q' n', c ≠ sep ∨ quote = true → n' = 1 ∨ (n' = 2 ∧ c = '\\' ∧ s.head? = some '"') →
        NotEscaped S (i + n') → q' = (quotesBefore S (i + n') % 2 == 1) →
        TokGoal sep S i cur (tokenGo sep (i + n') q' (some (cur.getD i)) (S.drop (i + n'))) := by
      intro q' n' hns hn' hne2 hq'
      have hlen : i + n' ≤ S.length := by
        rcases hn' with h | ⟨h, _, h3⟩
        · omega
        · rw [← hs, List.head?_drop] at h3
          have := (List.getElem?_eq_some_iff.1 h3).1
          omega
      have hstt : cur.getD i ≤ i := by
        cases cur with
        | none => exact Nat.le_refl _
        | some st => exact Nat.le_of_lt (hst st rfl)
      have hg := ih (S.length - (i + n')) (by omega) (i + n') q' (some (cur.getD i)) rfl hne2 hq' (by simp)
        (by intro st h; cases h; omega) hlen
      have hin : ∀ j, i ≤ j → j < i + n' → j < S.length ∧ ¬ IsSep sep S j := by
        intro j h1 h2
        refine ⟨by omega, ?_⟩
        rcases Nat.eq_or_lt_of_le h1 with rfl | h1
        · rw [hsepc]
          rintro ⟨h3, h4⟩
          rcases hns with h | h
          · exact h h3
          · rw [h4] at h; cases h
        · rcases hn' with h | ⟨h, _, h3⟩
          · omega
          · have : j = i + 1 := by omega
            subst this
            rw [← hs, List.head?_drop] at h3
            intro h4
            rw [IsSep, h3] at h4
            exact hq (by simpa using h4.1.symm)
      cases cur with
      | some st => exact tokGoal_step hin (by omega) hstt hg
      | none =>
        have hg' : TokGoal sep S (i + 1) (some i) (tokenGo sep (i + n') q' (some i) (S.drop (i + n'))) := by
          exact tokGoal_step (fun j h1 h2 => hin j (by omega) h2) (by omega) (by omega) hg
        exact tokGoal_start (hin i (Nat.le_refl _) (by omega)) hg'
    have one : ∀ q', c ≠ sep ∨ quote = true → ¬ (c = '\\' ∧ s.head? = some '"') →
        q' = (quotesBefore S (i + 1) % 2 == 1) →
        TokGoal sep S i cur (tokenGo sep (i + 1) q' (some (cur.getD i)) s) := by
      intro q' h1 h2 h3
      have := cont q' 1 h1 (Or.inl rfl) (hne' h2) h3
      rwa [hs] at this
    rw [tokenGo]
    split
    · rename_i h
      obtain ⟨rfl, rfl⟩ := h
      have hqf := hcq rfl
      subst hqf
      have hg := ih (S.length - (i + 1)) (by omega) (i + 1) false none rfl (hne' fun h => hb h.1)
        (by rw [hnq hq]; exact hqt) (fun _ => rfl) (by simp) hlt
      rw [hs] at hg
      refine ⟨⟨hg.1.1, fun r hr => ?_⟩, fun j hj => ?_⟩
      · have := hg.1.2 r hr
        omega
      · rcases Nat.eq_or_lt_of_le hj with rfl | hj
        · constructor
          · rintro ⟨r, hr, h1, h2⟩
            have := hg.1.2 r hr
            omega
          · intro h; exact absurd (hsepc.2 ⟨rfl, rfl⟩) h.2
        · exact hg.2 j hj
    · rename_i hns
      dsimp only
      split
      · rename_i hcq'
        subst hcq'
        refine one _ (Or.inl (Ne.symm hq)) (fun h => absurd h.1 (by decide)) ?_
        rw [hsucc, if_pos ((unescapedQuote_iff hne).2 hc), hqt]
        have := Nat.mod_two_eq_zero_or_one (quotesBefore S i)
        rcases this with h | h <;> simp [Nat.add_mod, h]
      · rename_i hcq'
        split
        · rename_i hcb
          subst hcb
          split
          · rename_i s'
            have hs2 : S.drop (i + 2) = s' ∧ S[i + 1]? = some '"' := by
              obtain ⟨h1, h2, _⟩ := drop_cons hs
              exact ⟨h2, h1⟩
            have hnu : quotesBefore S (i + 2) = quotesBefore S i := by
              rw [show i + 2 = (i + 1) + 1 from rfl, quotesBefore_succ, hnq hcq', if_neg]
              · rfl
              · intro h
                exact h.2 ⟨by omega, by rw [Nat.add_sub_cancel]; exact hc⟩
            have := cont quote 2 (Or.inl (Ne.symm hb)) (Or.inr ⟨rfl, rfl, rfl⟩) (by
              rintro ⟨_, h2, _⟩
              rw [show i + 2 - 1 = i + 1 from rfl, hs2.2] at h2
              exact absurd h2 (by decide)) (by rw [hnu]; exact hqt)
            rwa [hs2.1] at this
          · rename_i hns'
            refine one _ (Or.inl (Ne.symm hb)) ?_ (by rw [hnq hcq']; exact hqt)
            rintro ⟨_, h⟩
            cases s with
            | nil => cases h
            | cons a s => simp at h; subst h; exact hns' s rfl
        · rename_i hcb
          split
          · rename_i hsep
            subst hsep
            cases quote with
            | true => exact one true (Or.inr rfl) (fun h => hcb h.1) (by rw [hnq hcq']; exact hqt)
            | false =>
              cases cur with
              | none => exact absurd ⟨rfl, rfl⟩ hns
              | some st =>
                have hg := ih (S.length - (i + 1)) (by omega) (i + 1) false none rfl (hne' fun h => hcb h.1)
                  (by rw [hnq hcq']; exact hqt) (fun _ => rfl) (by simp) hlt
                rw [hs] at hg
                refine ⟨i, _, rfl, Nat.le_refl _, hi, hg.1, fun j hj => ?_⟩
                rcases Nat.eq_or_lt_of_le hj with rfl | hj
                · constructor
                  · rintro ⟨r, hr, h1, h2⟩
                    rcases List.mem_cons.1 hr with rfl | hr
                    · exact absurd h2 (Nat.lt_irrefl _)
                    · have := hg.1.2 r hr
                      omega
                  · intro h; exact absurd (hsepc.2 ⟨rfl, rfl⟩) h.2
                · rw [← hg.2 j hj]
                  constructor
                  · rintro ⟨r, hr, h1, h2⟩
                    rcases List.mem_cons.1 hr with rfl | hr
                    · dsimp only at h2; omega
                    · exact ⟨r, hr, h1, h2⟩
                  · rintro ⟨r, hr, h⟩
                    exact ⟨r, List.mem_cons_of_mem _ hr, h⟩
          · rename_i hsep
            exact one quote (Or.inl hsep) (fun h => hcb h.1) (by rw [hnq hcq']; exact hqt)

/-- C29. Tokenising: for every string and separator (other than a quote or a backslash) the ranges
returned are non-empty, in order and separated, and they cover exactly the positions that do not hold a
separator outside quotes. So tokens are exactly the maximal runs between such separators. -/
theorem C29_tokenRanges (sep : Char) (s : List Char) (hq : sep ≠ '"') (hb : sep ≠ '\\') :
    Ranges 0 s.length (tokenRanges sep s) ∧
    ∀ j, Covered (tokenRanges sep s) j ↔ j < s.length ∧ ¬ IsSep sep s j := by
  have := tokenGo_spec sep s hq hb _ 0 false none rfl (fun h => absurd h.1 (by omega)) rfl (fun _ => rfl)
    (by simp) (Nat.zero_le _)
  exact ⟨this.1, fun j => this.2 j (Nat.zero_le _)⟩

/-- C29. The strings returned are the substrings at those ranges; none is empty, and without quotes no
token contains the separator. -/
theorem C29_tokenize (sep : Char) (s : List Char) (hq : sep ≠ '"') (hb : sep ≠ '\\') :
    (∀ t ∈ tokenize sep s, t ≠ [] ∧ ∃ a, t = (s.drop a).take t.length) ∧
    ('"' ∉ s → ∀ t ∈ tokenize sep s, sep ∉ t) := by
  obtain ⟨⟨_, h1⟩, h2⟩ := C29_tokenRanges sep s hq hb
  constructor
  · intro t ht
    obtain ⟨⟨a, b⟩, hr, rfl⟩ := List.mem_map.1 ht
    have := h1 _ hr
    dsimp only at this ⊢
    have hl : ((s.drop a).take (b - a)).length = b - a := by simp; omega
    refine ⟨fun h => ?_, a, by rw [hl]⟩
    rw [h] at hl; simp at hl; omega
  · intro hnq t ht hm
    obtain ⟨⟨a, b⟩, hr, rfl⟩ := List.mem_map.1 ht
    dsimp only at hm
    obtain ⟨k, hk, hk2⟩ := List.getElem_of_mem hm
    have hlt : k < b - a := by simp at hk; omega
    have hs : s[a + k]? = some sep := by
      have : ((s.drop a).take (b - a))[k]? = some sep := by rw [List.getElem?_eq_getElem hk, hk2]
      simpa [List.getElem?_take, hlt] using this
    have hc : Covered (tokenRanges sep s) (a + k) := ⟨(a, b), hr, by show a ≤ a + k; omega, by show a + k < b; omega⟩
    refine ((h2 _).1 hc).2 ⟨hs, ?_⟩
    have : quotesBefore s (a + k) = 0 := by
      unfold quotesBefore
      rw [List.length_eq_zero_iff, List.filter_eq_nil_iff]
      intro j _ hj
      have hj := (of_decide_eq_true hj).1
      exact hnq (List.mem_of_getElem? hj)
    rw [this]

example : tokenize ' ' "  a \"b c\" d".toList = ["a".toList, "\"b c\"".toList, "d".toList] := by
  simp [tokenize, tokenRanges, tokenGo]

theorem removeQuotes_spec (S : List Char) : ∀ (n i : Nat), S.length - i = n → NotEscaped S i → i ≤ S.length →
    removeQuotes (S.drop i) = ((List.range' i (S.length - i)).filter fun j => decide (Kept S j)).filterMap (S[·]?) := by
  intro n
  induction n using Nat.strongRecOn with
  | _ n ih =>
  intro i hn hne hi
  match hd : S.drop i with
  | [] =>
    have := congrArg List.length hd
    simp at this
    have h0 : S.length - i = 0 := by omega
    rw [h0]; rfl
  | c :: s =>
    obtain ⟨hc, hs, hlt⟩ := drop_cons hd
    have hr : List.range' i (S.length - i) = i :: List.range' (i + 1) (S.length - (i + 1)) := by
      rw [show S.length - i = (S.length - (i + 1)) + 1 by omega, List.range'_succ]
    have hne' : ¬ (c = '\\' ∧ s.head? = some '"') → NotEscaped S (i + 1) := by
      intro h ⟨_, h2, h3⟩
      rw [Nat.add_sub_cancel, hc] at h2
      cases h2
      refine h ⟨rfl, ?_⟩
      rw [← hs, List.head?_drop]; exact h3
    have next : S[i + 1]? = s.head? := by rw [← hs, List.head?_drop]
    have one : ¬ (c = '\\' ∧ s.head? = some '"') → removeQuotes s =
        ((List.range' (i + 1) (S.length - (i + 1))).filter fun j => decide (Kept S j)).filterMap (S[·]?) := by
      intro h
      rw [← hs]
      exact ih (S.length - (i + 1)) (by omega) (i + 1) rfl (hne' h) hlt
    have kept : c ≠ '"' → ¬ (c = '\\' ∧ s.head? = some '"') → Kept S i := by
      intro h1 h2
      refine ⟨fun h => ?_, fun h => ?_⟩
      · rw [UnescapedQuote, hc] at h; exact h1 (by simpa using h.1)
      · rw [hc, next] at h; exact h2 ⟨by simpa using h.1, h.2⟩
    rw [hr, removeQuotes.eq_def]
    dsimp only
    split
    · rename_i h
      subst h
      have hk : ¬ Kept S i := fun h => h.1 ((unescapedQuote_iff hne).2 hc)
      rw [List.filter_cons_of_neg (by simpa using hk)]
      exact one fun h => absurd h.1 (by decide)
    · rename_i hq
      split
      · rename_i hb
        subst hb
        split
        · rename_i s'
          obtain ⟨h1, h2, h3⟩ := drop_cons hs
          have hk : ¬ Kept S i := fun h => h.2 ⟨hc, h1⟩
          have hk1 : Kept S (i + 1) := by
            refine ⟨fun h => h.2 ⟨by omega, by rw [Nat.add_sub_cancel]; exact hc⟩, fun h => ?_⟩
            rw [h1] at h; exact absurd h.1 (by decide)
          have hr2 : List.range' (i + 1) (S.length - (i + 1)) = (i + 1) :: List.range' (i + 2) (S.length - (i + 2)) := by
            rw [show S.length - (i + 1) = (S.length - (i + 2)) + 1 by omega, List.range'_succ]
          rw [List.filter_cons_of_neg (by simpa using hk), hr2, List.filter_cons_of_pos (by simpa using hk1),
            List.filterMap_cons_some h1, ← h2, ih (S.length - (i + 2)) (by omega) (i + 2) rfl ?_ h3]
          rintro ⟨_, h4, _⟩
          rw [show i + 2 - 1 = i + 1 from rfl, h1] at h4
          exact absurd h4 (by decide)
        · rename_i hns
          have hnn : ¬ ('\\' = '\\' ∧ s.head? = some '"') := by
            rintro ⟨_, h⟩
            cases s with
            | nil => cases h
            | cons a s => simp at h; subst h; exact hns s rfl
          rw [List.filter_cons_of_pos (by simpa using kept hq hnn), List.filterMap_cons_some hc, one hnn]
      · rename_i hb
        have hnn : ¬ (c = '\\' ∧ s.head? = some '"') := fun h => hb h.1
        rw [List.filter_cons_of_pos (by simpa using kept hq hnn), List.filterMap_cons_some hc, one hnn]

/-- C29. Quote removal keeps, in order, exactly the characters that are neither an unescaped quote nor the
backslash before a quote. -/
theorem C29_removeQuotes (s : List Char) :
    removeQuotes s = ((List.range s.length).filter fun j => decide (Kept s j)).filterMap (s[·]?) := by
  have := removeQuotes_spec s _ 0 rfl (fun h => absurd h.1 (by omega)) (Nat.zero_le _)
  rw [List.drop_zero, Nat.sub_zero] at this
  rw [this, List.range_eq_range']

example : removeQuotes "\"a b\" \\\"c\\d".toList = "a b \"c\\d".toList := by simp [removeQuotes]

end Verif.Str
