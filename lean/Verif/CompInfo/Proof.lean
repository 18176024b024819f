import Verif.CompInfo.Spec
namespace Verif.CompInfo
open Verif.Str

theorem go_plain (l : Text) : ∀ (i st : Nat) (s : Text), '"' ∉ l → '\n' ∉ l →
    tokenGo '\n' i false (some st) (l ++ '\n' :: s) = (st, i + l.length) :: tokenGo '\n' (i + l.length + 1) false none s := by
  induction l with
  | nil => intro i st s _ _; simp [tokenGo]
  | cons c l ih =>
    intro i st s hq hn
    have hc : c ≠ '"' := fun e => hq (by simp [e])
    have hcn : c ≠ '\n' := fun e => hn (by simp [e])
    have hq' : '"' ∉ l := fun e => hq (by simp [e])
    have hn' : '\n' ∉ l := fun e => hn (by simp [e])
    have key : tokenGo '\n' i false (some st) (c :: (l ++ '\n' :: s)) = tokenGo '\n' (i + 1) false (some st) (l ++ '\n' :: s) := by
      by_cases hb : c = '\\'
      · subst hb
        cases l with
        | nil => simp [tokenGo]
        | cons d l =>
          have hd : d ≠ '"' := fun e => hq' (by simp [e])
          rw [tokenGo]
          simp only [reduceCtorEq, false_and, if_false, Option.getD_some, List.cons_append]
          rw [if_neg (by decide), if_pos trivial]
          split
          · rename_i h; injection h with h1 h2; exact absurd h1 hd
          · rfl
      · rw [tokenGo]
        simp [hc, hb, hcn]
    rw [List.cons_append, key, ih (i + 1) st s hq' hn']
    simp [Nat.add_assoc, Nat.add_comm, Nat.add_left_comm]

theorem go_line {l : Text} (h0 : l ≠ []) (hq : '"' ∉ l) (hn : '\n' ∉ l) (i : Nat) (s : Text) :
    tokenGo '\n' i false none (l ++ '\n' :: s) = (i, i + l.length) :: tokenGo '\n' (i + l.length + 1) false none s := by
  have e : tokenGo '\n' i false none (l ++ '\n' :: s) = tokenGo '\n' i false (some i) (l ++ '\n' :: s) := by
    cases l with
    | nil => exact absurd rfl h0
    | cons c l =>
      have hcn : c ≠ '\n' := fun e => hn (by simp [e])
      rw [List.cons_append, tokenGo, tokenGo]
      simp [hcn]
  rw [e, go_plain l i i s hq hn]

theorem go_headA (i : Nat) (s : Text) :
    tokenGo '\n' i false none ("#include \"...\" search starts here:".toList ++ '\n' :: s) =
      (i, i + "#include \"...\" search starts here:".toList.length) ::
        tokenGo '\n' (i + "#include \"...\" search starts here:".toList.length + 1) false none s := by
  have : "#include \"...\" search starts here:".toList =
    ['#','i','n','c','l','u','d','e',' ','"','.','.','.','"',' ','s','e','a','r','c','h',' ','s','t','a','r','t','s',' ','h','e','r','e',':'] := by decide
  rw [this]
  simp [tokenGo]

/-- cutting a line out of a text it is in -/
theorem cut (P l s : Text) : ((P ++ (l ++ s)).drop P.length).take (P.length + l.length - P.length) = l := by
  simp

/-- a line in the middle of a text -/
theorem tokens_line {l : Text} (hl : ∀ i s, tokenGo '\n' i false none (l ++ '\n' :: s) =
      (i, i + l.length) :: tokenGo '\n' (i + l.length + 1) false none s) (P s : Text) :
    (tokenGo '\n' P.length false none (l ++ '\n' :: s)).map (fun (a, b) => ((P ++ (l ++ '\n' :: s)).drop a).take (b - a)) =
      l :: (tokenGo '\n' (P ++ (l ++ ['\n'])).length false none s).map
        (fun (a, b) => (((P ++ (l ++ ['\n'])) ++ s).drop a).take (b - a)) := by
  rw [hl]
  simp only [List.map_cons, cut]
  have e1 : (P ++ (l ++ ['\n'])).length = P.length + l.length + 1 := by simp; omega
  have e2 : (P ++ (l ++ ['\n'])) ++ s = P ++ (l ++ '\n' :: s) := by simp
  rw [e1, e2]

/-- a list followed by more: one line for each, and then what comes of the rest -/
theorem line_tokens {l : Text} {o : Option Text} (h : Line l o) : ∀ i s, tokenGo '\n' i false none (l ++ '\n' :: s) =
      (i, i + l.length) :: tokenGo '\n' (i + l.length + 1) false none s := by
  cases h with
  | headA => exact go_headA
  | headB => exact go_line (by decide) (by decide) (by decide)
  | path a b h0 h1 h2 hq hn =>
    exact go_line (by simp) (by simp [List.mem_replicate, hq]) (by simp [List.mem_replicate, hn])

theorem dropWhile_replicate (n : Nat) (s : Text) : (List.replicate n ' ' ++ s).dropWhile (· == ' ') = s.dropWhile (· == ' ') := by
  induction n with
  | zero => rfl
  | succ n ih => simp [List.replicate_succ, ih]

theorem dropWhile_none {s : Text} (h : s.head? ≠ some ' ') : s.dropWhile (· == ' ') = s := by
  cases s with
  | nil => rfl
  | cons c s =>
    have : c ≠ ' ' := fun e => h (by simp [e])
    simp [this]

theorem trim_path {p : Text} (a b : Nat) (h0 : p ≠ []) (h1 : p.head? ≠ some ' ') (h2 : p.getLast? ≠ some ' ') :
    trim (List.replicate a ' ' ++ p ++ List.replicate b ' ') = p := by
  rw [trim, List.append_assoc, dropWhile_replicate]
  have e : (p ++ List.replicate b ' ').head? ≠ some ' ' := by
    cases p with
    | nil => exact absurd rfl h0
    | cons c p => simpa using h1
  rw [dropWhile_none e, List.reverse_append, List.reverse_replicate, dropWhile_replicate, dropWhile_none (by simpa using h2),
    List.reverse_reverse]

theorem scan_lines {t : Text} {ps : List Text} (h : Lines t ps) : ∀ (P s : Text) (old : List Text),
    ∃ P', P' = P ++ t ∧
    scan ((tokenGo '\n' P.length false none (t ++ s)).map (fun (a, b) => ((P ++ (t ++ s)).drop a).take (b - a))) old =
      scan ((tokenGo '\n' P'.length false none s).map (fun (a, b) => ((P' ++ s).drop a).take (b - a))) (old ++ ps) := by
  induction h with
  | nil => intro P s old; exact ⟨P, by simp, by simp⟩
  | @head l t ps hl ht ih =>
    intro P s old
    obtain ⟨P', he, hs⟩ := ih (P ++ (l ++ ['\n'])) s old
    refine ⟨P', by rw [he]; simp, ?_⟩
    rw [show l ++ '\n' :: t ++ s = l ++ '\n' :: (t ++ s) by simp, tokens_line (line_tokens hl)]
    rw [← hs]
    cases hl with
    | headA => exact (by rw [scan, if_neg (by decide), if_neg (by decide), if_pos (by decide)])
    | headB => exact (by rw [scan, if_neg (by decide), if_neg (by decide), if_pos (by decide)])
  | @path l t p ps hl ht ih =>
    intro P s old
    obtain ⟨P', he, hs⟩ := ih (P ++ (l ++ ['\n'])) s (old ++ [p])
    refine ⟨P', by rw [he]; simp, ?_⟩
    rw [show l ++ '\n' :: t ++ s = l ++ '\n' :: (t ++ s) by simp, tokens_line (line_tokens hl)]
    rw [show old ++ p :: ps = old ++ [p] ++ ps by simp, ← hs]
    cases hl with
    | path a b h0 h1 h2 hq hn => rw [scan, if_pos (by simp [List.replicate_succ]), trim_path _ _ h0 h1 h2]

/-- after the last line nothing matters -/
theorem scan_end (P s : Text) (old : List Text) :
    scan ((tokenGo '\n' P.length false none (endOf ++ '\n' :: s)).map
      (fun (a, b) => ((P ++ (endOf ++ '\n' :: s)).drop a).take (b - a))) old = (old, true) := by
  rw [tokens_line (go_line (by decide) (by decide) (by decide)), scan, if_neg (by decide), if_pos (by decide)]

theorem isPrefixOf_iff (a s : Text) : a.isPrefixOf s = true ↔ ∃ r, s = a ++ r := by
  rw [List.isPrefixOf_iff_prefix]
  exact ⟨fun ⟨r, h⟩ => ⟨r, h.symm⟩, fun ⟨r, h⟩ => ⟨r, h.symm⟩⟩

theorem heads_iff (s : Text) : Heads s ↔ startA.isPrefixOf s = true ∨ startB.isPrefixOf s = true := by
  rw [isPrefixOf_iff, isPrefixOf_iff]; rfl

theorem scan_odd {l : Text} (h : Odd l) (P s : Text) (old : List Text) :
    scan ((tokenGo '\n' P.length false none (l ++ '\n' :: s)).map
      (fun (a, b) => ((P ++ (l ++ '\n' :: s)).drop a).take (b - a))) old = (old, false) := by
  obtain ⟨h0, hq, hn, h1, h2, h3⟩ := h
  rw [tokens_line (go_line h0 hq hn), scan, if_neg h1, if_neg, if_neg]
  · intro h; apply h2; rw [heads_iff]; simpa using h
  · intro h; exact h3 ((isPrefixOf_iff _ _).1 h)

theorem find_some {w s r : Text} (h : find w s = some r) : ∃ p, s = p ++ r ∧ w.isPrefixOf r = true ∧
    ∀ p' q, p = p' ++ q → q ≠ [] → w.isPrefixOf (q ++ r) = false := by
  induction s with
  | nil =>
    rw [find] at h
    split at h
    · rename_i hw
      cases h
      exact ⟨[], rfl, by rw [hw]; rfl, fun p' q e hq => by simp at e; exact absurd e.2 hq⟩
    · exact nomatch h
  | cons c s ih =>
    rw [find] at h
    split at h
    · rename_i hw
      cases h
      exact ⟨[], rfl, hw, fun p' q e hq => by simp at e; exact absurd e.2 hq⟩
    · rename_i hw
      obtain ⟨p, e, hp, hb⟩ := ih h
      refine ⟨c :: p, by rw [e]; rfl, hp, ?_⟩
      intro p' q e' hq
      cases p' with
      | nil =>
        simp at e'; subst e'
        rw [e] at hw
        exact Bool.eq_false_iff.2 hw
      | cons d p' =>
        injection e' with _ e'
        exact hb p' q e' hq

theorem find_none {w s : Text} (h : find w s = none) : ∀ p q, s = p ++ q → w.isPrefixOf q = false := by
  induction s with
  | nil =>
    intro p q e
    rw [find] at h
    split at h
    · exact nomatch h
    · rename_i hw
      simp at e
      rw [e.2]
      cases w with
      | nil => exact absurd rfl hw
      | cons => rfl
  | cons c s ih =>
    intro p q e
    rw [find] at h
    split at h
    · exact nomatch h
    · rename_i hw
      cases p with
      | nil => simp at e; subst e; exact Bool.eq_false_iff.2 hw
      | cons d p => injection e with _ e; exact ih h p q e

/-- the text from the first place on at which one of the two starts -/
theorem section_first {pre rest : Text} (hb : Before pre rest) (hr : Heads rest) : section_ (pre ++ rest) = some rest := by
  -- what is found ends in what was asked for
  have tail : ∀ {w r : Text}, (∀ s, w.isPrefixOf s = true → Heads s) → find w (pre ++ rest) = some r →
      r.length ≤ rest.length := by
    intro w r hw h
    obtain ⟨p, e, hp, _⟩ := find_some h
    rcases Nat.lt_or_ge rest.length r.length with hl | hl
    · exfalso
      have hle : p.length ≤ pre.length := by
        have := congrArg List.length e
        simp at this; omega
      have e1 : pre = p ++ pre.drop p.length := by
        have := congrArg (List.take p.length) e
        rw [List.take_append_of_le_length hle, List.take_append_of_le_length (Nat.le_refl _), List.take_length] at this
        conv => lhs; rw [← List.take_append_drop p.length pre, this]
      have e2 : r = pre.drop p.length ++ rest := by
        rw [e1, List.append_assoc] at e
        exact (List.append_cancel_left e).symm
      refine hb p _ e1 ?_ (e2 ▸ hw r hp)
      intro h0
      rw [h0] at e2
      simp at e2
      rw [e2] at hl; omega
    · exact hl
  have at_ : ∀ {w : Text}, w.isPrefixOf rest = true → (∀ s, w.isPrefixOf s = true → Heads s) →
      find w (pre ++ rest) = some rest := by
    intro w hw hh
    cases h : find w (pre ++ rest) with
    | none => have := find_none h pre rest rfl; rw [hw] at this; exact nomatch this
    | some r =>
      have hl := tail hh h
      obtain ⟨p, e, _, hf⟩ := find_some h
      have hge : pre.length ≤ p.length := by
        have := congrArg List.length e
        simp at this; omega
      have e1 : p = pre ++ p.drop pre.length := by
        have := congrArg (List.take pre.length) e
        rw [List.take_append_of_le_length (Nat.le_refl _), List.take_append_of_le_length hge, List.take_length] at this
        conv => lhs; rw [← List.take_append_drop pre.length p, ← this]
      have e2 : rest = p.drop pre.length ++ r := by
        rw [e1, List.append_assoc] at e
        exact List.append_cancel_left e
      by_cases h0 : p.drop pre.length = []
      · rw [h0] at e2; rw [e2]; rfl
      · have := hf pre _ e1 h0
        rw [← e2, hw] at this; exact nomatch this
  have hA : ∀ s, startA.isPrefixOf s = true → Heads s := fun s h => (heads_iff s).2 (.inl h)
  have hB : ∀ s, startB.isPrefixOf s = true → Heads s := fun s h => (heads_iff s).2 (.inr h)
  rcases (heads_iff rest).1 hr with h | h
  · rw [section_, at_ h hA]
    cases hf : find startB (pre ++ rest) with
    | none => rfl
    | some b =>
      have := tail hB hf
      show some (if rest.length < b.length then b else rest) = some rest
      rw [if_neg (by omega)]
  · rw [section_, at_ h hB]
    cases hf : find startA (pre ++ rest) with
    | none => rfl
    | some a =>
      have hl := tail hA hf
      show some (if a.length < rest.length then rest else a) = some rest
      split
      · rfl
      · obtain ⟨p, e, _, _⟩ := find_some hf
        have hh : a.length = rest.length := by omega
        exact congrArg some ((List.append_inj_right' e hh.symm).symm)

theorem section_none {err : Text} (h : ∀ p q, err = p ++ q → ¬ Heads q) : section_ err = none := by
  cases hA : find startA err with
  | some a =>
    obtain ⟨p, e, hp, _⟩ := find_some hA
    exact absurd ((heads_iff a).2 (.inl hp)) (h p a e)
  | none =>
    cases hB : find startB err with
    | some b =>
      obtain ⟨p, e, hp, _⟩ := find_some hB
      exact absurd ((heads_iff b).2 (.inr hp)) (h p b e)
    | none => rw [section_, hA, hB]

end Verif.CompInfo
