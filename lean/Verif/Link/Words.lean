import Verif.Link.Spec
import Verif.Args.Forward
/-
The words of the command lines of linkers, librarians and other programs: proofs.
-/
namespace Verif.Link
open Verif.Str
open Verif.Args
open Verif.Cache (Tok)

/-! ### Searching -/

theorem findSub_some {p : Tok} : ∀ {t u v : Tok}, findSub p t = some (u, v) → At p t u v := by
  intro t
  induction t with
  | nil => intro u v h; simp [findSub] at h
  | cons c s ih =>
    intro u v h
    rw [findSub] at h
    by_cases hp : p.isPrefixOf (c :: s) = true
    · rw [if_pos hp] at h
      simp only [Option.some.injEq, Prod.mk.injEq] at h
      obtain ⟨rfl, rfl⟩ := h
      refine ⟨?_, fun _ _ _ => by simp⟩
      obtain ⟨r, hr⟩ := List.isPrefixOf_iff_prefix.1 hp
      rw [← hr]; simp
    · rw [if_neg hp] at h
      simp only [Option.map_eq_some_iff, Prod.exists, Prod.mk.injEq] at h
      obtain ⟨u', v', h1, rfl, rfl⟩ := h
      obtain ⟨e, hmin⟩ := ih h1
      refine ⟨by rw [List.cons_append, List.cons_append, ← e], ?_⟩
      intro u2 v2 e2
      cases u2 with
      | nil => exact absurd (List.isPrefixOf_iff_prefix.2 ⟨v2, by simpa using e2.symm⟩) hp
      | cons a u2 =>
        simp only [List.cons_append, List.cons.injEq] at e2
        have := hmin u2 v2 e2.2
        simpa using this

theorem findSub_none {p : Tok} (hp : p ≠ []) : ∀ {t : Tok}, findSub p t = none → Lacks p t := by
  intro t
  induction t with
  | nil => intro _ u v e; cases p with
    | nil => exact hp rfl
    | cons a p => simp at e
  | cons c s ih =>
    intro h u v e
    rw [findSub] at h
    by_cases hq : p.isPrefixOf (c :: s) = true
    · rw [if_pos hq] at h; cases h
    · rw [if_neg hq, Option.map_eq_none_iff] at h
      cases u with
      | nil => exact hq (List.isPrefixOf_iff_prefix.2 ⟨v, by simpa using e.symm⟩)
      | cons a u =>
        simp only [List.cons_append, List.cons.injEq] at e
        exact ih h u v e.2

theorem at_unique {p t u v u' v' : Tok} (h : At p t u v) (h' : At p t u' v') : u' = u ∧ v' = v := by
  have hl : u.length = u'.length := Nat.le_antisymm (h.2 _ _ h'.1) (h'.2 _ _ h.1)
  have e := h.1.symm.trans h'.1
  rw [List.append_assoc, List.append_assoc] at e
  obtain ⟨h1, h2⟩ := List.append_inj e hl
  exact ⟨h1.symm, (List.append_cancel_left h2).symm⟩

theorem at_not_lacks {p t u v : Tok} (h : At p t u v) (h' : Lacks p t) : False := h' u v h.1

theorem beforeEnd_some {p t u : Tok} : beforeEnd p t = some u ↔ t = u ++ p := by
  unfold beforeEnd
  split
  · rename_i h
    obtain ⟨r, rfl⟩ := List.isSuffixOf_iff_suffix.1 h
    simp only [Option.some.injEq, List.length_append, Nat.add_sub_cancel, List.take_left, List.append_cancel_right_eq]
  · rename_i h
    simp only [false_iff, reduceCtorEq]
    rintro rfl
    exact h (List.isSuffixOf_iff_suffix.2 ⟨u, rfl⟩)

theorem beforeEnd_none {p t : Tok} (h : beforeEnd p t = none) (u : Tok) : t ≠ u ++ p := by
  intro e
  rw [beforeEnd_some.2 e] at h
  cases h

theorem msOption_iff {name : String} {t : Tok} {c : Char} {value : Tok} :
    MsOption name t c value ↔ isStart t name = true ∧ t.head? = some c ∧ value = t.drop (name.length + 1) := by
  constructor
  · rintro ⟨hc, m, rfl, hm⟩
    have hl : m.length = name.length := by
      have := congrArg List.length hm
      rw [List.length_map, List.length_map, String.length_toList] at this
      exact this
    have hs : sameI (List.take name.length (m ++ value)) name.toList = true := by
      rw [← hl, List.take_left]; simpa [sameI] using hm
    refine ⟨?_, by simp, by rw [← hl]; simp⟩
    rcases hc with rfl | rfl <;>
    · simp only [List.cons_append, isStart, Bool.and_eq_true, decide_eq_true_eq]
      exact ⟨by simp [hl], hs⟩
  · rintro ⟨h, hc, rfl⟩
    cases t with
    | nil => simp at hc
    | cons a r =>
      simp only [List.head?_cons, Option.some.injEq] at hc
      subst hc
      have key : (a = '/' ∨ a = '-') ∧ (decide (name.length ≤ r.length) && sameI (r.take name.length) name.toList) = true := by
        unfold isStart at h
        split at h
        · rename_i e; cases e; exact ⟨Or.inl rfl, h⟩
        · rename_i e; cases e; exact ⟨Or.inr rfl, h⟩
        · cases h
      refine ⟨key.1, r.take name.length, by simp, ?_⟩
      have := (Bool.and_eq_true_iff.1 key.2).2
      simpa [sameI] using this

theorem msOption_unique {name : String} {t : Tok} {c c' : Char} {v v' : Tok} (h : MsOption name t c v) (h' : MsOption name t c' v') :
    c' = c ∧ v' = v := by
  rw [msOption_iff] at h h'
  exact ⟨by simpa [h.2.1] using h'.2.1.symm, h'.2.2.trans h.2.2.symm⟩

theorem isStart_msOption {name : String} {t : Tok} (h : isStart t name = true) :
    ∃ c, MsOption name t c (t.drop (name.length + 1)) ∧ t.take 1 = [c] := by
  cases t with
  | nil => simp [isStart] at h
  | cons a r => exact ⟨a, msOption_iff.2 ⟨h, rfl, rfl⟩, rfl⟩

/-! ### Laying out -/

theorem trailed_spread (u v : Tok) (inputs : List Name) : Trailed (inputs.map fun i => u ++ i ++ v) (textOf (spread u v inputs)) := by
  induction inputs with
  | nil => exact .nil
  | cons i is ih =>
    have : textOf (spread u v (i :: is)) = (u ++ i ++ v) ++ ' ' :: textOf (spread u v is) := by
      simp [spread, textOf]
    rw [this]
    exact .word _ ih

theorem trailed_spread_delim (u v : Tok) (inputs : List Name) :
    Trailed (inputs.map fun i => u ++ i ++ v) (textOf (spread u v inputs ++ [.delim])) := by
  rw [textOf_append]
  have := (trailed_spread u v inputs).append (ws := []) (t := [' ']) (.blank .nil)
  rwa [List.append_nil] at this

theorem trailed_between (u v : Tok) (inputs : List Name) :
    Trailed (inputs.map fun i => u ++ i ++ v) (textOf (between u v inputs ++ [.delim])) := by
  induction inputs with
  | nil => exact .blank .nil
  | cons i is ih =>
    cases is with
    | nil =>
      have : textOf (between u v [i] ++ [.delim]) = (u ++ i ++ v) ++ [' '] := by simp [between, textOf]
      rw [this]
      exact .word _ .nil
    | cons j js =>
      have : textOf (between u v (i :: j :: js) ++ [.delim]) = (u ++ i ++ v) ++ ' ' :: textOf (between u v (j :: js) ++ [.delim]) := by
        simp [between, textOf, textOf_append]
      rw [this]
      exact .word _ ih

theorem textOf_commas (q : Tok) (refs : List Name) : textOf (commas q refs) = [','].intercalate (refs.map fun r => q ++ r ++ q) := by
  induction refs with
  | nil => rfl
  | cons i is ih =>
    cases is with
    | nil => simp [commas, textOf, List.intercalate]
    | cons j js =>
      have : textOf (commas q (i :: j :: js)) = q ++ i ++ q ++ ',' :: textOf (commas q (j :: js)) := by simp [commas, textOf]
      rw [this, ih]
      simp [List.intercalate]

theorem trailed_one' (w : Tok) {cs : List Call} (h : textOf cs = w ++ [' ']) : Trailed [w] (textOf cs) := h ▸ trailed_one w

theorem trimSlashes_spec (s : List Char) :
    (∃ k, s = trimSlashes s ++ List.replicate k '\\') ∧ (trimSlashes s).getLast? ≠ some '\\' := by
  have h1 : s.reverse = s.reverse.takeWhile (· = '\\') ++ s.reverse.dropWhile (· = '\\') := by simp
  have h2 : s.reverse.takeWhile (· = '\\') = List.replicate (s.reverse.takeWhile (· = '\\')).length '\\' := by
    rw [List.eq_replicate_iff]
    refine ⟨rfl, fun b hb => ?_⟩
    have := List.all_takeWhile (p := fun c => decide (c = '\\')) (l := s.reverse)
    rw [List.all_eq_true] at this
    simpa using this b hb
  constructor
  · refine ⟨(s.reverse.takeWhile (· = '\\')).length, ?_⟩
    have := congrArg List.reverse h1
    rw [List.reverse_reverse, List.reverse_append] at this
    rw [h2, List.reverse_replicate] at this
    exact this
  · unfold trimSlashes
    rw [List.getLast?_reverse]
    intro h
    have := List.head?_dropWhile_not (p := fun c => decide (c = '\\')) s.reverse
    rw [h] at this
    simp at this

theorem trim_unique {p q s : List Char} (hp : ∃ k, s = p ++ List.replicate k '\\') (hp' : p.getLast? ≠ some '\\')
    (hq : ∃ k, s = q ++ List.replicate k '\\') (hq' : q.getLast? ≠ some '\\') : q = p := by
  have key : ∀ {a : List Char} {k : Nat}, s = a ++ List.replicate k '\\' → a.getLast? ≠ some '\\' → trimSlashes s = a := by
    intro a k e h
    unfold trimSlashes
    rw [e, List.reverse_append, List.reverse_replicate, List.dropWhile_append_of_pos (by simp)]
    have : a.reverse.dropWhile (fun c => decide (c = '\\')) = a.reverse := by
      cases hr : a.reverse with
      | nil => rfl
      | cons b r =>
        have hb : b ≠ '\\' := by
          rw [← List.head?_reverse, hr] at h
          simpa using h
        simp [List.dropWhile, hb]
    rw [this, List.reverse_reverse]
  obtain ⟨k, hk⟩ := hp
  obtain ⟨m, hm⟩ := hq
  rw [← key hk hp', ← key hm hq']

/-! ### Linkers -/

/-- `Turned` for a linker -/
def Linker.Turns (clean : Name → Name) (l : Linker) : Tok → List Tok → Prop :=
  Turned clean l.msvc l.name (l.range 1 l.libs2Start) (l.range l.libs2Start l.assemblyStart) (l.range 1 l.assemblyStart) l.assemblyFiles

theorem token_turns (clean : Name → Name) (l : Linker) (t : Tok) :
    ∃ cs ws, l.token clean t = some cs ∧ l.Turns clean t ws ∧ Trailed ws (textOf cs) := by
  unfold Linker.token
  by_cases h1 : (findSub "%1".toList t).isSome = true
  · rw [if_pos h1]
    unfold Linker.inputCalls
    cases h0 : findSub "%1[0]".toList t with
    | some r => exact ⟨_, _, rfl, .first (findSub_some h0), trailed_spread_delim _ _ _⟩
    | none =>
      have n0 := findSub_none (by decide) h0
      dsimp only
      cases h2 : findSub "%1[1]".toList t with
      | some r => exact ⟨_, _, rfl, .second n0 (findSub_some h2), trailed_spread_delim _ _ _⟩
      | none =>
        have n1 := findSub_none (by decide) h2
        dsimp only
        cases h3 : findSub "%1".toList t with
        | some r => exact ⟨_, _, rfl, .all n0 n1 (findSub_some h3), trailed_spread_delim _ _ _⟩
        | none => rw [h3] at h1; cases h1
  · rw [if_neg h1]
    have n1 : Lacks "%1".toList t := findSub_none (by decide) (by simpa using h1)
    cases h2 : findSub "%2".toList t with
    | some r => exact ⟨_, _, rfl, .output n1 (findSub_some h2), trailed_one' _ (by simp [textOf])⟩
    | none =>
      have n2 := findSub_none (by decide) h2
      dsimp only
      by_cases hm : l.msvc = true
      · rw [if_pos hm]
        cases h3 : findSub "%3".toList t with
        | some r => exact ⟨_, _, rfl, .resources hm n1 n2 (findSub_some h3), trailed_spread _ _ _⟩
        | none =>
          have n3 := findSub_none (by decide) h3
          dsimp only
          by_cases hs : isStart t "LIBPATH:" = true
          · rw [if_pos hs]
            obtain ⟨c, hc, ht⟩ := isStart_msOption hs
            refine ⟨_, _, rfl, .path hm n1 n2 n3 hc (trimSlashes_spec _).1 (trimSlashes_spec _).2, trailed_one' _ ?_⟩
            rw [ht]
            have h9 : "LIBPATH:".length + 1 = 9 := by decide
            simp [textOf, h9]
          · rw [if_neg hs]
            refine ⟨_, _, rfl, .kept n1 n2 (fun _ => ⟨n3, ?_⟩), trailed_one' _ (by simp [textOf])⟩
            intro c v hv
            exact hs (msOption_iff.1 hv).1
      · rw [if_neg hm]
        exact ⟨_, _, rfl, .kept n1 n2 (fun h => absurd h hm), trailed_one' _ (by simp [textOf])⟩

theorem lacks_longer {p q r t : Tok} (e : q = p ++ r) (h : Lacks p t) : Lacks q t := by
  intro u v hv
  subst e
  exact h u (r ++ v) (by rw [hv]; simp)

theorem lacks0 {t : Tok} (h : Lacks "%1".toList t) : Lacks "%1[0]".toList t := lacks_longer (r := "[0]".toList) (by decide) h

theorem lacks1 {t : Tok} (h : Lacks "%1".toList t) : Lacks "%1[1]".toList t := lacks_longer (r := "[1]".toList) (by decide) h

theorem turned_unique {clean : Name → Name} {msvc : Bool} {name : Name} {a b c d : List Name} {t : Tok} {ws ws' : List Tok}
    (h : Turned clean msvc name a b c d t ws) (h' : Turned clean msvc name a b c d t ws') : ws' = ws := by
  cases h with
  | first h1 =>
    cases h' with
    | first g1 => obtain ⟨rfl, rfl⟩ := at_unique h1 g1; rfl
    | second g1 _ | all g1 _ _ => exact (at_not_lacks h1 g1).elim
    | output g1 _ | resources _ g1 _ _ | path _ g1 _ _ _ _ _ | kept g1 _ _ => exact (at_not_lacks h1 (lacks0 g1)).elim
  | second h0 h1 =>
    cases h' with
    | first g1 => exact (at_not_lacks g1 h0).elim
    | second _ g1 => obtain ⟨rfl, rfl⟩ := at_unique h1 g1; rfl
    | all _ g1 _ => exact (at_not_lacks h1 g1).elim
    | output g1 _ | resources _ g1 _ _ | path _ g1 _ _ _ _ _ | kept g1 _ _ => exact (at_not_lacks h1 (lacks1 g1)).elim
  | all h0 h1 h2 =>
    cases h' with
    | first g1 => exact (at_not_lacks g1 h0).elim
    | second _ g1 => exact (at_not_lacks g1 h1).elim
    | all _ _ g1 => obtain ⟨rfl, rfl⟩ := at_unique h2 g1; rfl
    | output g1 _ | resources _ g1 _ _ | path _ g1 _ _ _ _ _ | kept g1 _ _ => exact (at_not_lacks h2 g1).elim
  | output h1 h2 =>
    cases h' with
    | first g1 => exact (at_not_lacks g1 (lacks0 h1)).elim
    | second _ g1 => exact (at_not_lacks g1 (lacks1 h1)).elim
    | all _ _ g1 => exact (at_not_lacks g1 h1).elim
    | output _ g1 => obtain ⟨rfl, rfl⟩ := at_unique h2 g1; rfl
    | resources _ _ g1 _ | path _ _ g1 _ _ _ _ | kept _ g1 _ => exact (at_not_lacks h2 g1).elim
  | resources hm h1 h2 h3 =>
    cases h' with
    | first g1 => exact (at_not_lacks g1 (lacks0 h1)).elim
    | second _ g1 => exact (at_not_lacks g1 (lacks1 h1)).elim
    | all _ _ g1 => exact (at_not_lacks g1 h1).elim
    | output _ g1 => exact (at_not_lacks g1 h2).elim
    | resources _ _ _ g1 => obtain ⟨rfl, rfl⟩ := at_unique h3 g1; rfl
    | path _ _ _ g1 _ _ _ => exact (at_not_lacks h3 g1).elim
    | kept _ _ g1 => exact (at_not_lacks h3 (g1 hm).1).elim
  | path hm h1 h2 h3 h4 h5 h6 =>
    cases h' with
    | first g1 => exact (at_not_lacks g1 (lacks0 h1)).elim
    | second _ g1 => exact (at_not_lacks g1 (lacks1 h1)).elim
    | all _ _ g1 => exact (at_not_lacks g1 h1).elim
    | output _ g1 => exact (at_not_lacks g1 h2).elim
    | resources _ _ _ g1 => exact (at_not_lacks g1 h3).elim
    | path _ _ _ _ g4 g5 g6 =>
      obtain ⟨rfl, rfl⟩ := msOption_unique h4 g4
      rw [trim_unique h5 h6 g5 g6]
    | kept _ _ g1 => exact absurd h4 ((g1 hm).2 _ _)
  | kept h1 h2 h3 =>
    cases h' with
    | first g1 => exact (at_not_lacks g1 (lacks0 h1)).elim
    | second _ g1 => exact (at_not_lacks g1 (lacks1 h1)).elim
    | all _ _ g1 => exact (at_not_lacks g1 h1).elim
    | output _ g1 => exact (at_not_lacks g1 h2).elim
    | resources hm _ _ g1 => exact (at_not_lacks g1 (h3 hm).1).elim
    | path hm _ _ _ g4 _ _ => exact absurd g4 ((h3 hm).2 _ _)
    | kept _ _ _ => rfl

theorem eachToken_unique {R : Tok → List Tok → Prop} (hR : ∀ t a b, R t a → R t b → b = a) {ts ws : List Tok} (h : EachToken R ts ws) :
    ∀ {ws'}, EachToken R ts ws' → ws' = ws := by
  induction h with
  | nil => intro ws' h'; cases h'; rfl
  | cons h1 _ ih =>
    intro ws' h'
    cases h' with
    | cons g1 g2 => rw [hR _ _ _ h1 g1, ih g2]

theorem tokenCalls_turns (clean : Name → Name) (l : Linker) (ts : List Tok) :
    ∃ cs ws, tokenCalls (l.token clean) ts = some cs ∧ EachToken (l.Turns clean) ts ws ∧ Trailed ws (textOf cs) := by
  induction ts with
  | nil => exact ⟨[], [], rfl, .nil, .nil⟩
  | cons t ts ih =>
    obtain ⟨cs, ws, h1, h2, h3⟩ := token_turns clean l t
    obtain ⟨cs', ws', g1, g2, g3⟩ := ih
    refine ⟨cs ++ cs', ws ++ ws', ?_, .cons h2 g2, ?_⟩
    · simp [tokenCalls, h1, g1]
    · rw [textOf_append]; exact h3.append g3

/-! ### Other programs -/

theorem libraryToken_ended (name : Name) (inputs : List Name) (t : Tok) :
    ∃ ws, Ended name inputs none t ws ∧ Trailed ws (textOf (libraryToken name inputs t)) := by
  unfold libraryToken
  cases h1 : beforeEnd "%1".toList t with
  | some u =>
    rw [beforeEnd_some.1 h1]
    have := trailed_spread_delim u [] inputs
    simp only [List.append_nil] at this
    exact ⟨_, .inputs, this⟩
  | none =>
    dsimp only
    cases h2 : beforeEnd "\"%1\"".toList t with
    | some u =>
      rw [beforeEnd_some.1 h2]
      have := trailed_spread_delim (u ++ ['"']) ['"'] inputs
      simp only [List.append_assoc, List.singleton_append] at this
      exact ⟨_, .inputsQuoted, by simpa using this⟩
    | none =>
      dsimp only
      cases h3 : beforeEnd "%2".toList t with
      | some u => rw [beforeEnd_some.1 h3]; exact ⟨_, .output, trailed_one' _ (by simp [textOf])⟩
      | none =>
        dsimp only
        cases h4 : beforeEnd "\"%2\"".toList t with
        | some u => rw [beforeEnd_some.1 h4]; exact ⟨_, .outputQuoted, trailed_one' _ (by simp [textOf])⟩
        | none =>
          exact ⟨_, .kept (fun u => ⟨beforeEnd_none h1 u, beforeEnd_none h2 u, beforeEnd_none h3 u, beforeEnd_none h4 u⟩)
            (fun h => absurd rfl h), trailed_one' _ (by simp [textOf])⟩

theorem execToken_ended (name : Name) (inputs : List Name) (t : Tok) :
    ∃ ws, Ended name inputs none t ws ∧ Trailed ws (textOf (execToken name inputs t)) := by
  unfold execToken
  cases h1 : beforeEnd "%1".toList t with
  | some u =>
    rw [beforeEnd_some.1 h1]
    have := trailed_between u [] inputs
    simp only [List.append_nil] at this
    exact ⟨_, .inputs, this⟩
  | none =>
    dsimp only
    cases h2 : beforeEnd "\"%1\"".toList t with
    | some u =>
      rw [beforeEnd_some.1 h2]
      have := trailed_between (u ++ ['"']) ['"'] inputs
      simp only [List.append_assoc, List.singleton_append] at this
      exact ⟨_, .inputsQuoted, by simpa using this⟩
    | none =>
      dsimp only
      cases h3 : beforeEnd "%2".toList t with
      | some u => rw [beforeEnd_some.1 h3]; exact ⟨_, .output, trailed_one' _ (by simp [textOf])⟩
      | none =>
        dsimp only
        cases h4 : beforeEnd "\"%2\"".toList t with
        | some u => rw [beforeEnd_some.1 h4]; exact ⟨_, .outputQuoted, trailed_one' _ (by simp [textOf])⟩
        | none =>
          exact ⟨_, .kept (fun u => ⟨beforeEnd_none h1 u, beforeEnd_none h2 u, beforeEnd_none h3 u, beforeEnd_none h4 u⟩)
            (fun h => absurd rfl h), trailed_one' _ (by simp [textOf])⟩

theorem csToken_ended (name : Name) (inputs refs : List Name) (t : Tok) :
    ∃ ws, Ended name inputs (some refs) t ws ∧ Trailed ws (textOf (csToken name inputs refs t)) := by
  unfold csToken
  cases h1 : beforeEnd "%1".toList t with
  | some u =>
    rw [beforeEnd_some.1 h1]
    have := trailed_between u [] inputs
    simp only [List.append_nil] at this
    exact ⟨_, .inputs, this⟩
  | none =>
    dsimp only
    cases h2 : beforeEnd "\"%1\"".toList t with
    | some u =>
      rw [beforeEnd_some.1 h2]
      have := trailed_between (u ++ ['"']) ['"'] inputs
      simp only [List.append_assoc, List.singleton_append] at this
      exact ⟨_, .inputsQuoted, by simpa using this⟩
    | none =>
      dsimp only
      cases h3 : beforeEnd "%2".toList t with
      | some u => rw [beforeEnd_some.1 h3]; exact ⟨_, .output, trailed_one' _ (by simp [textOf])⟩
      | none =>
        dsimp only
        cases h4 : beforeEnd "\"%2\"".toList t with
        | some u => rw [beforeEnd_some.1 h4]; exact ⟨_, .outputQuoted, trailed_one' _ (by simp [textOf])⟩
        | none =>
          dsimp only
          cases h5 : beforeEnd "%3".toList t with
          | some u =>
            rw [beforeEnd_some.1 h5]
            exact ⟨_, .refs rfl, trailed_one' _ (by simp [textOf, textOf_append, textOf_commas])⟩
          | none =>
            dsimp only
            cases h6 : beforeEnd "\"%3\"".toList t with
            | some u =>
              rw [beforeEnd_some.1 h6]
              exact ⟨_, .refsQuoted rfl, trailed_one' _ (by simp [textOf, textOf_append, textOf_commas])⟩
            | none =>
              exact ⟨_, .kept (fun u => ⟨beforeEnd_none h1 u, beforeEnd_none h2 u, beforeEnd_none h3 u, beforeEnd_none h4 u⟩)
                (fun _ u => ⟨beforeEnd_none h5 u, beforeEnd_none h6 u⟩), trailed_one' _ (by simp [textOf])⟩

theorem ended_unique {name : Name} {inputs : List Name} {refs : Option (List Name)} {t : Tok} {ws ws' : List Tok}
    (h : Ended name inputs refs t ws) (h' : Ended name inputs refs t ws') : ws' = ws := by
  have last : ∀ {a b p q : Tok} {x y : Char}, a ++ p = b ++ q → p.getLast? = some x → q.getLast? = some y → x = y := by
    intro a b p q x y e hp hq
    have := congrArg List.getLast? e
    rw [List.getLast?_append, List.getLast?_append, hp, hq] at this
    simpa using this
  have last2 : ∀ {a b p q : Tok} {x y : Char}, a ++ p = b ++ q → p.dropLast.getLast? = some x → q.dropLast.getLast? = some y → x = y := by
    intro a b p q x y e hp hq
    have hp0 : p ≠ [] := by rintro rfl; simp at hp
    have hq0 : q ≠ [] := by rintro rfl; simp at hq
    have := congrArg List.dropLast e
    rw [List.dropLast_append_of_ne_nil hp0, List.dropLast_append_of_ne_nil hq0] at this
    exact last this hp hq
  generalize ht : t = t' at h h'
  cases h with
  | inputs =>
    rename_i u
    generalize e : u ++ "%1".toList = s at h'
    cases h' with
    | inputs => rw [List.append_cancel_right e]
    | inputsQuoted | output | outputQuoted | refs _ | refsQuoted _ => exact absurd (last e rfl rfl) (by decide)
    | kept h1 _ => exact absurd e.symm (h1 u).1
  | inputsQuoted =>
    rename_i u
    generalize e : u ++ "\"%1\"".toList = s at h'
    cases h' with
    | inputs | output | refs _ => exact absurd (last e rfl rfl) (by decide)
    | inputsQuoted => rw [List.append_cancel_right e]
    | outputQuoted | refsQuoted _ => exact absurd (last2 e rfl rfl) (by decide)
    | kept h1 _ => exact absurd e.symm (h1 u).2.1
  | output =>
    rename_i u
    generalize e : u ++ "%2".toList = s at h'
    cases h' with
    | output => rw [List.append_cancel_right e]
    | inputs | inputsQuoted | outputQuoted | refs _ | refsQuoted _ => exact absurd (last e rfl rfl) (by decide)
    | kept h1 _ => exact absurd e.symm (h1 u).2.2.1
  | outputQuoted =>
    rename_i u
    generalize e : u ++ "\"%2\"".toList = s at h'
    cases h' with
    | inputs | output | refs _ => exact absurd (last e rfl rfl) (by decide)
    | outputQuoted => rw [List.append_cancel_right e]
    | inputsQuoted | refsQuoted _ => exact absurd (last2 e rfl rfl) (by decide)
    | kept h1 _ => exact absurd e.symm (h1 u).2.2.2
  | refs hr =>
    rename_i u rs
    generalize e : u ++ "%3".toList = s at h'
    cases h' with
    | refs hr' => rw [hr] at hr'; cases hr'; rw [List.append_cancel_right e]
    | inputs | inputsQuoted | output | outputQuoted | refsQuoted _ => exact absurd (last e rfl rfl) (by decide)
    | kept _ h2 => exact absurd e.symm (h2 (by rw [hr]; simp) u).1
  | refsQuoted hr =>
    rename_i u rs
    generalize e : u ++ "\"%3\"".toList = s at h'
    cases h' with
    | inputs | output | refs _ => exact absurd (last e rfl rfl) (by decide)
    | refsQuoted hr' => rw [hr] at hr'; cases hr'; rw [List.append_cancel_right e]
    | inputsQuoted | outputQuoted => exact absurd (last2 e rfl rfl) (by decide)
    | kept _ h2 => exact absurd e.symm (h2 (by rw [hr]; simp) u).2
  | kept h1 h2 =>
    cases h' with
    | inputs => exact absurd rfl (h1 _).1
    | inputsQuoted => exact absurd rfl (h1 _).2.1
    | output => exact absurd rfl (h1 _).2.2.1
    | outputQuoted => exact absurd rfl (h1 _).2.2.2
    | refs hr => exact absurd rfl (h2 (by rw [hr]; simp) _).1
    | refsQuoted hr => exact absurd rfl (h2 (by rw [hr]; simp) _).2
    | kept _ _ => rfl

theorem flatMap_each {R : Tok → List Tok → Prop} {f : Tok → List Call} (h : ∀ t, ∃ ws, R t ws ∧ Trailed ws (textOf (f t))) (ts : List Tok) :
    ∃ ws, EachToken R ts ws ∧ Trailed ws (textOf (ts.flatMap f)) := by
  induction ts with
  | nil => exact ⟨[], .nil, .nil⟩
  | cons t ts ih =>
    obtain ⟨ws, h1, h2⟩ := h t
    obtain ⟨ws', g1, g2⟩ := ih
    refine ⟨ws ++ ws', .cons h1 g1, ?_⟩
    rw [List.flatMap_cons, textOf_append]
    exact h2.append g2

end Verif.Link
