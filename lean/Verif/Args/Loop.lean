import Verif.Args.Forward
/-
The passes, and the loop over the tokens.
-/
namespace Verif.Args
open Verif.Str
open Verif.Cache (Tok isArg isStart isArg_iff isStart_iff)

/-- What the function of a pass may do with a token. -/
def PassSpec (d : Driver) (c : Ctx) (pass : Pass) (t next : Tok) (r : Did) : Prop :=
  (r = .no ∧ Free (passRules d c.isLocal pass) t ∧ ∀ vs b, ¬ Replaced c d pass t next vs b) ∨
  (∃ b, r = .yes b [] ∧ Picks (passRules d c.isLocal pass) t b) ∨
  (∃ b cs vs, r = .yes b cs ∧ Replaced c d pass t next vs b ∧ Trailed vs (textOf cs)) ∨
  (r = .bad ∧ d.isCL = true ∧ c.isLocal = false ∧ pass = .compilePreprocessed ∧
    (t = "/I\"".toList ∨ t = "-I\"".toList))

/-- A table of rules, and nothing is replaced. -/
theorem passSpec_rules {d : Driver} {c : Ctx} {pass : Pass} {t next : Tok} {r : Did}
    (h : r = byRules (passRules d c.isLocal pass) t) (hr : ∀ vs b, ¬ Replaced c d pass t next vs b) :
    PassSpec d c pass t next r := by
  subst h
  cases e : byRules (passRules d c.isLocal pass) t with
  | no => exact Or.inl ⟨rfl, (byRules_no (good_passRules _ _ _)).1 e, hr⟩
  | yes b cs =>
    obtain ⟨rfl, h⟩ := byRules_yes (good_passRules _ _ _) e
    exact Or.inr (Or.inl ⟨b, rfl, h⟩)
  | bad => exact absurd e firstOf_bad

/-! ### Preprocessing -/

theorem analyzer_eq (t : Tok) : analyzer t = analyzerRules.map (ruleOf · t) := rfl

theorem winrt_text : "/D__cplusplus_winrt ".toList = "/D__cplusplus_winrt".toList ++ [' '] := rfl

theorem processPre_spec (d : Driver) (c : Ctx) (t next : Tok) : PassSpec d c .preprocess t next (processPre d t) := by
  have other : d.isCL = false → ∀ vs b, ¬ Replaced c d .preprocess t next vs b := by
    intro h vs b hr
    cases hr; simp [Driver.isCL] at h
  cases d with
  | cl cl =>
    by_cases h : isArg t "ZW" = true
    · refine Or.inr (Or.inr (Or.inl ⟨false, _, _, by simp only [processPre]; rw [if_pos h],
        .winrt ((taken_iff (r := .msWhole "ZW") trivial).2 (by simp [ruleOf, alone, h])), ?_⟩))
      simp only [textOf, List.append_nil]
      rw [winrt_text]
      exact trailed_one _
    · refine passSpec_rules ?_ ?_
      · simp only [processPre]
        rw [if_neg h]
        cases cl <;> rfl
      · intro vs b hr
        cases hr with
        | winrt ht =>
          have := (taken_iff (r := .msWhole "ZW") trivial).1 ht
          simp [ruleOf, alone, h] at this
  | gcc cl => exact passSpec_rules (by cases cl <;> rfl) (other rfl)
  | vbcc => exact passSpec_rules rfl (other rfl)
  | qtRcc => exact passSpec_rules rfl (other rfl)
  | orbis => exact passSpec_rules rfl (other rfl)
  | snc => exact passSpec_rules rfl (other rfl)
  | cuda => exact passSpec_rules rfl (other rfl)
  | codeWarrior => exact passSpec_rules rfl (other rfl)
  | greenHills => exact passSpec_rules rfl (other rfl)
  | generic => exact passSpec_rules rfl (other rfl)

/-! ### Compiling what is preprocessed: Microsoft -/

theorem isStart_of_isArg {t : Tok} {o : String} (h : isArg t o = true) : isStart t o = true := by
  rw [isStart_iff]
  rcases (isArg_iff t o).1 h with h | h
  · exact ⟨[], Or.inl (by simpa using h)⟩
  · exact ⟨[], Or.inr (by simpa using h)⟩

theorem sd_eq (t : Tok) (l : List (Option Bool)) :
    firstOf ((if isArg t "sourceDependencies" then some true else none) :: alone (isStart t "sourceDependencies") :: l) =
      firstOf (ruleOf (.msValue "sourceDependencies") t :: l) := by
  simp only [ruleOf, stripWithArgMS]
  by_cases h : isArg t "sourceDependencies" = true
  · simp [h, isStart_of_isArg h, firstOf]
  · by_cases h' : isStart t "sourceDependencies" = true
    · simp [h, h', alone, firstOf]
    · simp [h, h', alone, firstOf]

theorem clTail_eq (t : Tok) : clTail t = byRules [.msValue "FI", .msValue "sourceDependencies"] t := by
  unfold clTail byRules
  simp only [List.map_cons, List.map_nil]
  have := sd_eq t []
  change firstOf (stripWithArgMS "FI" t :: _) = firstOf (stripWithArgMS "FI" t :: _)
  cases stripWithArgMS "FI" t with
  | some b => rfl
  | none => exact this

/-- The parts of an include option are those which the model cuts out. -/
theorem includeArg_iff {t pre path post : Tok} (x : Char) (rest : Tok) (hx : x = '/' ∨ x = '-') (ht : t = x :: 'I' :: rest) :
    IncludeArg t pre path post ↔
      ∃ P Q, P = (if t[2]? = some '"' then 3 else 2) ∧ Q = (if t.getLast? = some '"' then 1 else 0) ∧ P + Q ≤ t.length ∧
        pre = t.take P ∧ path = (t.drop P).take (t.length - P - Q) ∧ post = t.drop (t.length - Q) := by
  have h2 : t[2]? = rest.head? := by subst ht; cases rest <;> rfl
  constructor
  · rintro ⟨e, hpre, hpost, h1, h3⟩
    -- the length of `pre`
    have hP : pre.length = if t[2]? = some '"' then 3 else 2 := by
      rw [h2]
      simp only [List.mem_cons, List.not_mem_nil, or_false] at hpre
      have two : pre = ['/', 'I'] ∨ pre = ['-', 'I'] → pre.length = if rest.head? = some '"' then 3 else 2 := by
        intro h
        have hl : pre.length = 2 := by rcases h with rfl | rfl <;> rfl
        have : rest = path ++ post := by
          rcases h with rfl | rfl <;> rw [ht] at e <;> simp at e <;> exact e.2
        rw [if_neg (by rw [this]; exact h1 hl), hl]
      have three : pre = ['/', 'I', '"'] ∨ pre = ['-', 'I', '"'] → pre.length = if rest.head? = some '"' then 3 else 2 := by
        intro h
        have : rest.head? = some '"' := by
          rcases h with rfl | rfl <;> rw [ht] at e <;> simp at e <;> rw [e.2] <;> rfl
        rw [if_pos this]
        rcases h with rfl | rfl <;> rfl
      rcases hpre with h | h | h | h
      · exact two (Or.inl h)
      · exact two (Or.inr h)
      · exact three (Or.inl h)
      · exact three (Or.inr h)
    have hQ : post.length = if t.getLast? = some '"' then 1 else 0 := by
      simp only [List.mem_cons, List.not_mem_nil, or_false] at hpost
      rcases hpost with h | h
      · rw [if_neg (h3 h), h]; rfl
      · rw [if_pos, h]; · rfl
        rw [e, h, List.getLast?_append]; rfl
    refine ⟨pre.length, post.length, hP, hQ, ?_, ?_, ?_, ?_⟩
    · rw [e]; simp
    · rw [e]; simp
    · rw [e]; simp [Nat.add_sub_cancel]
    · rw [e]
      rw [show (pre ++ path ++ post).length - post.length = (pre ++ path).length by simp; omega]
      simp
  · rintro ⟨P, Q, hP, hQ, hle, rfl, rfl, rfl⟩
    have hlen : 2 ≤ t.length := by subst ht; simp
    have hsplit : t = t.take P ++ (t.drop P).take (t.length - P - Q) ++ t.drop (t.length - Q) := by
      have a : (t.drop P).drop (t.length - P - Q) = t.drop (t.length - Q) := by
        rw [List.drop_drop]; congr 1; omega
      rw [← a, List.append_assoc, List.take_append_drop, List.take_append_drop]
    refine ⟨hsplit, ?_, ?_, ?_, ?_⟩
    · by_cases hq : t[2]? = some '"'
      · rw [if_pos hq] at hP; subst hP
        rw [h2] at hq
        cases rest with
        | nil => simp at hq
        | cons y rest =>
          simp at hq; subst hq; subst ht
          rcases hx with rfl | rfl <;> simp
      · rw [if_neg hq] at hP; subst hP; subst ht
        rcases hx with rfl | rfl <;> simp
    · by_cases hq : t.getLast? = some '"'
      · rw [if_pos hq] at hQ; subst hQ
        have hne : t ≠ [] := by subst ht; simp
        have h1 : t.drop (t.length - 1) = [t.getLast hne] := by
          conv => lhs; rw [← List.dropLast_concat_getLast hne]
          rw [show (t.dropLast ++ [t.getLast hne]).length - 1 = t.dropLast.length by simp]
          simp
        rw [List.getLast?_eq_some_getLast hne] at hq
        simp only [Option.some.injEq] at hq
        rw [h1, hq]; simp
      · rw [if_neg hq] at hQ; subst hQ; simp
    · intro hl
      have hP2 : P = 2 := by
        simp only [List.length_take] at hl
        by_cases hq : t[2]? = some '"'
        · rw [if_pos hq] at hP; omega
        · rw [if_neg hq] at hP; exact hP
      subst hP2
      have hq : t[2]? ≠ some '"' := by
        intro hq; rw [if_pos hq] at hP; omega
      have : (t.drop 2).take (t.length - 2 - Q) ++ t.drop (t.length - Q) = t.drop 2 := by
        have a : (t.drop 2).drop (t.length - 2 - Q) = t.drop (t.length - Q) := by
          rw [List.drop_drop]; congr 1; omega
        rw [← a, List.take_append_drop]
      rw [this]
      rw [h2] at hq
      subst ht
      simpa using hq
    · intro hpost hq
      rw [if_pos hq] at hQ; subst hQ
      have := congrArg List.length hpost
      simp at this; omega

theorem startI_cases {t : Tok} (h : isStart t "I" = true) : ∃ x rest, (x = '/' ∨ x = '-') ∧ t = x :: 'I' :: rest := by
  obtain ⟨r, h | h⟩ := (isStart_iff t "I").1 h
  · exact ⟨'/', r, Or.inl rfl, h⟩
  · exact ⟨'-', r, Or.inr rfl, h⟩

theorem includeArg_start {t pre path post : Tok} (h : IncludeArg t pre path post) : isStart t "I" = true := by
  obtain ⟨e, hpre, _⟩ := h
  rw [isStart_iff]
  simp only [List.mem_cons, List.not_mem_nil, or_false] at hpre
  rcases hpre with rfl | rfl | rfl | rfl
  · exact ⟨path ++ post, Or.inl (by rw [e]; simp)⟩
  · exact ⟨path ++ post, Or.inr (by rw [e]; simp)⟩
  · exact ⟨'"' :: (path ++ post), Or.inl (by rw [e]; simp)⟩
  · exact ⟨'"' :: (path ++ post), Or.inr (by rw [e]; simp)⟩

theorem clInclude_spec (cl : Bool) (c : Ctx) (t next : Tok) (hl : c.isLocal = false) (hs : isStart t "I" = true) :
    (clInclude c t = .no ∧ ∀ vs b, ¬ Replaced c (.cl cl) .compilePreprocessed t next vs b) ∨
    (∃ b cs vs, clInclude c t = .yes b cs ∧ Replaced c (.cl cl) .compilePreprocessed t next vs b ∧ Trailed vs (textOf cs)) ∨
    (clInclude c t = .bad ∧ (t = "/I\"".toList ∨ t = "-I\"".toList)) := by
  obtain ⟨x, rest, hx, ht⟩ := startI_cases hs
  unfold clInclude
  dsimp only
  generalize hP : (if t[2]? = some '"' then 3 else 2) = P
  generalize hQ : (if t.getLast? = some '"' then 1 else 0) = Q
  have h2 : t[2]? = rest.head? := by subst ht; cases rest <;> rfl
  by_cases hbad : t.length < P + Q
  · rw [if_pos hbad]
    refine Or.inr (Or.inr ⟨rfl, ?_⟩)
    by_cases hq : t[2]? = some '"'
    · rw [if_pos hq] at hP; subst hP
      rw [h2] at hq
      cases rest with
      | nil => simp at hq
      | cons y rest =>
        simp at hq; subst hq
        have : rest = [] := by
          have hQ1 : Q ≤ 1 := by rw [← hQ]; split <;> omega
          subst ht
          simp at hbad
          exact List.length_eq_zero_iff.1 (by omega)
        subst this
        subst ht
        rcases hx with rfl | rfl <;> simp
    · rw [if_neg hq] at hP; subst hP
      exfalso
      rw [h2] at hq
      subst ht
      by_cases hr : rest = []
      · subst hr
        simp at hQ
        subst hQ
        simp at hbad
      · have := List.length_pos_iff.2 hr
        have hQ1 : Q ≤ 1 := by rw [← hQ]; split <;> omega
        simp at hbad; omega
  · rw [if_neg hbad]
    have hinc := fun pre path post => includeArg_iff (t := t) (pre := pre) (path := path) (post := post) x rest hx ht
    by_cases hf : isFullPath c.plat ((t.drop P).take (t.length - P - Q)) = true
    · rw [if_pos hf]
      refine Or.inl ⟨rfl, ?_⟩
      intro vs b hr
      cases hr with
      | «include» _ hi hn _ =>
        obtain ⟨P', Q', hP', hQ', _, _, rfl, _⟩ := (hinc _ _ _).1 hi
        rw [hP] at hP'; rw [hQ] at hQ'; subst hP'; subst hQ'
        rw [hf] at hn; cases hn
    · rw [if_neg hf]
      refine Or.inr (Or.inl ⟨_, _, [t.take P ++ c.remoteRoot ++ '\\' :: (t.drop P).take (t.length - P - Q) ++ t.drop (t.length - Q)],
        rfl, .include hl ?_ (by simpa using hf) ?_, ?_⟩)
      · exact (hinc _ _ _).2 ⟨P, Q, hP.symm, hQ.symm, by omega, rfl, rfl, rfl⟩
      · rw [isArg_iff]; simp
      · have := trailed_one (t.take P ++ c.remoteRoot ++ '\\' :: (t.drop P).take (t.length - P - Q) ++ t.drop (t.length - Q))
        simpa [textOf] using this

theorem clCompile_spec (cl : Bool) (c : Ctx) (t next : Tok) :
    PassSpec (.cl cl) c .compilePreprocessed t next (clCompile c t) := by
  have hgood := good_compile (.cl cl) c.isLocal
  have hfront : firstOf ([stripWithArgMS "Yu" t, stripWithArgMS "Fp" t] ++ if c.isLocal then [] else [stripWithArgMS "Fd" t]) =
      byRules ([.msValue "Yu", .msValue "Fp"] ++ if c.isLocal then [] else [.msValue "Fd"]) t := by
    cases c.isLocal <;> rfl
  have hrules : compileRules (.cl cl) c.isLocal =
      ([.msValue "Yu", .msValue "Fp"] ++ if c.isLocal then [] else [.msValue "Fd"]) ++ [.msValue "FI", .msValue "sourceDependencies"] := rfl
  -- without replacements
  have simple : clCompile c t = byRules (compileRules (.cl cl) c.isLocal) t →
      (∀ vs b, ¬ Replaced c (.cl cl) .compilePreprocessed t next vs b) → PassSpec (.cl cl) c .compilePreprocessed t next (clCompile c t) :=
    fun h h' => passSpec_rules h h'
  have happ := byRules_append ([.msValue "Yu", .msValue "Fp"] ++ if c.isLocal then [] else [.msValue "Fd"])
    [.msValue "FI", .msValue "sourceDependencies"] t
  rw [← hrules] at happ
  cases hf : byRules ([.msValue "Yu", .msValue "Fp"] ++ if c.isLocal then [] else [.msValue "Fd"]) t with
  | bad => exact absurd hf firstOf_bad
  | yes b cs =>
    have e : clCompile c t = .yes b cs := by unfold clCompile; rw [hfront, hf]
    rw [hf] at happ
    obtain ⟨rfl, h⟩ := byRules_yes hgood happ
    exact Or.inr (Or.inl ⟨b, e, h⟩)
  | no =>
    rw [hf] at happ
    simp only [Did.orElse] at happ
    by_cases hi : c.isLocal = false ∧ isStart t "I" = true
    · have e : clCompile c t = match clInclude c t with | .no => clTail t | r => r := by
        unfold clCompile; rw [hfront, hf]; dsimp only; rw [if_pos hi]
        cases clInclude c t <;> rfl
      rcases clInclude_spec cl c t next hi.1 hi.2 with ⟨h1, h2⟩ | ⟨b, cs, vs, h1, h2, h3⟩ | ⟨h1, h2⟩
      · rw [h1] at e
        refine simple ?_ h2
        rw [e, happ, clTail_eq]
      · rw [h1] at e
        exact Or.inr (Or.inr (Or.inl ⟨b, cs, vs, e, h2, h3⟩))
      · rw [h1] at e
        exact Or.inr (Or.inr (Or.inr ⟨e, rfl, hi.1, rfl, h2⟩))
    · refine simple ?_ ?_
      · unfold clCompile; rw [hfront, hf]; dsimp only
        rw [if_neg hi, happ, clTail_eq]
      · intro vs b hr
        cases hr with
        | «include» hl hinc _ _ => exact hi ⟨hl, includeArg_start hinc⟩

/-! ### Compiling what is preprocessed: GCC and Clang -/

theorem language_cppOutput (l : Tok) : Language l (cppOutput l) := by
  unfold cppOutput
  by_cases h1 : l = "c".toList
  · rw [if_pos h1]; exact Or.inl ⟨("c", "cpp-output"), by simp [languages], h1, rfl⟩
  rw [if_neg h1]
  by_cases h2 : l = "c++".toList ∨ l = "objective-c".toList ∨ l = "objective-c++".toList
  · rw [if_pos h2]
    rcases h2 with h | h | h
    · exact Or.inl ⟨("c++", "c++-cpp-output"), by simp [languages], h, by rw [h]; rfl⟩
    · exact Or.inl ⟨("objective-c", "objective-c-cpp-output"), by simp [languages], h, by rw [h]; rfl⟩
    · exact Or.inl ⟨("objective-c++", "objective-c++-cpp-output"), by simp [languages], h, by rw [h]; rfl⟩
  rw [if_neg h2]
  refine Or.inr ⟨?_, rfl⟩
  intro p hp
  simp only [languages, List.mem_cons, List.not_mem_nil, or_false] at hp
  rcases hp with rfl | rfl | rfl | rfl
  · exact h1
  · exact fun h => h2 (Or.inl h)
  · exact fun h => h2 (Or.inr (Or.inl h))
  · exact fun h => h2 (Or.inr (Or.inr h))

theorem xLanguage_spec (c : Ctx) (t next : Tok) :
    (xLanguage c t next = .no ∧ ¬ (c.updateX = true ∧ t = "-x".toList ∧ next ≠ [])) ∨
    (xLanguage c t next = .yes true [.add t, .delim, .add (cppOutput next), .delim] ∧
      c.updateX = true ∧ t = "-x".toList ∧ next ≠ []) := by
  unfold xLanguage
  by_cases h1 : c.updateX = false
  · rw [if_pos h1]; exact Or.inl ⟨rfl, by simp [h1]⟩
  rw [if_neg h1]
  by_cases h2 : t = "-x".toList ∧ next ≠ []
  · rw [if_pos h2]; exact Or.inr ⟨rfl, by simpa using h1, h2⟩
  · rw [if_neg h2]; exact Or.inl ⟨rfl, fun h => h2 h.2⟩

theorem trailed_two (v w : Tok) : Trailed [v, w] (v ++ ' ' :: (w ++ [' '])) := .word v (.word w .nil)

theorem gccCompile_spec (cl : Bool) (c : Ctx) (t next : Tok) :
    PassSpec (.gcc cl) c .compilePreprocessed t next (gccCompile c cl t next) := by
  have hgood := good_compile (.gcc cl) c.isLocal
  have hfront : firstOf ((if cl then [stripWithArg "-I" t] else []) ++ [stripWithArg "-isysroot" t]) =
      byRules ((if cl then [.value "-I"] else []) ++ [.value "-isysroot"]) t := by
    cases cl <;> rfl
  have hback : firstOf ((if c.isLocal then dependency t else []) ++ [stripWithArg "-include-pch" t, stripWithArg "-include" t]) =
      byRules ((if c.isLocal then [.whole "-MD", .value "-MF"] else []) ++ [.value "-include-pch", .value "-include"]) t := by
    cases c.isLocal <;> rfl
  have hrules : compileRules (.gcc cl) c.isLocal = ((if cl then [.value "-I"] else []) ++ [.value "-isysroot"]) ++
      ((if c.isLocal then [.whole "-MD", .value "-MF"] else []) ++ [.value "-include-pch", .value "-include"]) := by
    cases cl <;> cases c.isLocal <;> rfl
  have happ := byRules_append ((if cl then [.value "-I"] else []) ++ [.value "-isysroot"])
    ((if c.isLocal then [.whole "-MD", .value "-MF"] else []) ++ [.value "-include-pch", .value "-include"]) t
  rw [← hrules] at happ
  cases hf : byRules ((if cl then [.value "-I"] else []) ++ [.value "-isysroot"]) t with
  | bad => exact absurd hf firstOf_bad
  | yes b cs =>
    have e : gccCompile c cl t next = .yes b cs := by unfold gccCompile; rw [hfront, hf]
    rw [hf] at happ
    obtain ⟨rfl, h⟩ := byRules_yes hgood happ
    exact Or.inr (Or.inl ⟨b, e, h⟩)
  | no =>
    rw [hf] at happ
    simp only [Did.orElse] at happ
    have rest : (if c.isLocal then xLanguage c t next else .no) = .no →
        (∀ vs b, ¬ Replaced c (.gcc cl) .compilePreprocessed t next vs b) →
        PassSpec (.gcc cl) c .compilePreprocessed t next (gccCompile c cl t next) := by
      intro h h'
      refine passSpec_rules ?_ h'
      change _ = byRules (compileRules (.gcc cl) c.isLocal) t
      unfold gccCompile; rw [hfront, hf]; dsimp only
      rw [h, happ, hback]
    cases hl : c.isLocal with
    | false =>
      refine rest (by simp [hl]) ?_
      intro vs b hr
      cases hr with
      | language h => rw [hl] at h; cases h
    | true =>
      rcases xLanguage_spec c t next with ⟨h1, h2⟩ | ⟨h1, h2, rfl, h4⟩
      · refine rest (by simp [hl, h1]) ?_
        intro vs b hr
        cases hr with
        | language _ hu hn _ => exact h2 ⟨hu, rfl, hn⟩
      · refine Or.inr (Or.inr (Or.inl ⟨true, [.add "-x".toList, .delim, .add (cppOutput next), .delim], ["-x".toList, cppOutput next], ?_,
          .language hl h2 h4 (language_cppOutput next), ?_⟩))
        · unfold gccCompile; rw [hfront, hf]; dsimp only
          rw [hl, if_pos rfl, h1]
        · exact trailed_two _ _

theorem processCompile_spec (d : Driver) (c : Ctx) (t next : Tok) :
    PassSpec d c .compilePreprocessed t next (processCompile d c t next) := by
  have other : (∀ b, d ≠ .cl b) → (∀ b, d ≠ .gcc b) → ∀ vs b, ¬ Replaced c d .compilePreprocessed t next vs b := by
    intro h h' vs b hr
    cases hr with
    | language => exact h' _ rfl
    | «include» => exact h _ rfl
  cases d with
  | cl cl => exact clCompile_spec cl c t next
  | gcc cl => exact gccCompile_spec cl c t next
  | vbcc => exact passSpec_rules rfl (other (by simp) (by simp))
  | qtRcc => exact passSpec_rules rfl (other (by simp) (by simp))
  | orbis => exact passSpec_rules rfl (other (by simp) (by simp))
  | snc => exact passSpec_rules rfl (other (by simp) (by simp))
  | cuda => exact passSpec_rules rfl (other (by simp) (by simp))
  | codeWarrior => exact passSpec_rules rfl (other (by simp) (by simp))
  | greenHills => exact passSpec_rules rfl (other (by simp) (by simp))
  | generic => exact passSpec_rules rfl (other (by simp) (by simp))

/-! ### The loop -/

/-- The function of the pass. -/
def processPass (d : Driver) (c : Ctx) (pass : Pass) (t next : Tok) : Did :=
  match pass with
  | .preprocess => processPre d t
  | .compilePreprocessed => processCompile d c t next
  | _ => .no

theorem process_eq (d : Driver) (c : Ctx) (pass : Pass) (t next : Tok) :
    process d c pass t next = (processPass d c pass t next).orElse ((processCommon d c t).orElse (processSubst d c t)) := by
  unfold process processPass
  cases pass with
  | preprocess => cases processPre d t <;> rfl
  | compilePreprocessed => simp [Did.orElse]
  | compile => simp [Did.orElse]
  | prepSimple => simp [Did.orElse]

theorem processPass_spec (d : Driver) (c : Ctx) (pass : Pass) (t next : Tok) :
    PassSpec d c pass t next (processPass d c pass t next) := by
  cases pass with
  | preprocess => exact processPre_spec d c t next
  | compilePreprocessed => exact processCompile_spec d c t next
  | compile => exact Or.inl ⟨rfl, by simp [passRules, Free], by intro vs b h; cases h⟩
  | prepSimple => exact Or.inl ⟨rfl, by simp [passRules, Free], by intro vs b h; cases h⟩

/-- The behaviour for this token is undefined: `%3` without precompiled header, or `/I"` on a worker. -/
def Undefined (d : Driver) (c : Ctx) (pass : Pass) (t : Tok) : Prop :=
  d.isCL = true ∧ ((c.pchObj = [] ∧ ¬ NoHole '3' t) ∨
    (c.isLocal = false ∧ pass = .compilePreprocessed ∧ (t = "/I\"".toList ∨ t = "-I\"".toList)))

theorem loop_spec (d : Driver) (c : Ctx) (pass : Pass) : ∀ (ts : List Tok) (skip : Bool),
    (∀ cs, loop (process d c pass) skip ts = some cs →
      ∃ ws, Forwarded d c pass (if skip then ts.drop 1 else ts) ws ∧ Trailed ws (textOf cs)) ∧
    (loop (process d c pass) skip ts = none → ∃ t ∈ ts, Undefined d c pass t) := by
  intro ts
  induction ts with
  | nil =>
    intro skip
    constructor
    · intro cs h
      cases skip <;> simp [loop] at h <;> subst h <;> exact ⟨[], by simpa using Forwarded.nil, .nil⟩
    · cases skip <;> simp [loop]
  | cons t ts ih =>
    intro skip
    cases skip with
    | true =>
      refine ⟨fun cs h => ?_, fun h => ?_⟩
      · simpa using (ih false).1 cs h
      · obtain ⟨x, hx, hu⟩ := (ih false).2 h
        exact ⟨x, List.mem_cons_of_mem _ hx, hu⟩
    | false =>
      have spec := processPass_spec d c pass t (ts.headD [])
      have rest := processRest_spec d c t
      have later : ∀ skip, loop (process d c pass) skip ts = none → ∃ x ∈ t :: ts, Undefined d c pass x := by
        intro skip h
        obtain ⟨x, hx, hu⟩ := (ih skip).2 h
        exact ⟨x, List.mem_cons_of_mem _ hx, hu⟩
      rw [loop]
      simp only [Bool.false_eq_true, if_false]
      rw [process_eq]
      rcases spec with ⟨h1, h2, h3⟩ | ⟨b, h1, hr⟩ | ⟨b, pcs, vs, h1, h2, h3⟩ | ⟨h1, h2, h3, h4, h5⟩
      · rw [h1]
        rw [show Did.orElse .no ((processCommon d c t).orElse (processSubst d c t)) = (processCommon d c t).orElse (processSubst d c t) from rfl]
        rcases rest with ⟨r1, r2⟩ | ⟨rcs, vs, r1, r2, r3⟩ | ⟨r1, r2, r3, u, v, r4⟩
        · rw [r1]
          refine ⟨fun cs h => ?_, fun h => later false (by simpa using h)⟩
          simp only [Option.map_eq_some_iff] at h
          obtain ⟨cs', h, rfl⟩ := h
          obtain ⟨ws, hw1, hw2⟩ := (ih false).1 cs' h
          refine ⟨[t] ++ ws, .plain h2 h3 r2 (by simpa using hw1), ?_⟩
          rw [textOf_append]
          exact Trailed.append (by simpa [textOf] using trailed_one t) hw2
        · rw [r1]
          refine ⟨fun cs h => ?_, fun h => later false (by simpa using h)⟩
          simp only [Option.map_eq_some_iff] at h
          obtain ⟨cs', h, rfl⟩ := h
          obtain ⟨ws, hw1, hw2⟩ := (ih false).1 cs' h
          refine ⟨vs ++ ws, .plain h2 h3 r2 (by simpa using hw1), ?_⟩
          rw [textOf_append]
          exact r3.append hw2
        · rw [r1]
          refine ⟨fun cs h => by simp at h, fun _ => ⟨t, by simp, r2, Or.inl ⟨r3, fun h => h u v r4.1⟩⟩⟩
      · rw [h1]
        simp only [Did.orElse]
        refine ⟨fun cs h => ?_, fun h => later b (by simpa using h)⟩
        simp only [Option.map_eq_some_iff] at h
        obtain ⟨cs', h, rfl⟩ := h
        obtain ⟨ws, hw1, hw2⟩ := (ih b).1 cs' h
        cases b with
        | false => exact ⟨ws, .removed hr (by simpa using hw1), by simpa using hw2⟩
        | true => exact ⟨ws, .removedValue hr (by simpa using hw1), by simpa using hw2⟩
      · rw [h1]
        simp only [Did.orElse]
        refine ⟨fun cs h => ?_, fun h => later b (by simpa using h)⟩
        simp only [Option.map_eq_some_iff] at h
        obtain ⟨cs', h, rfl⟩ := h
        obtain ⟨ws, hw1, hw2⟩ := (ih b).1 cs' h
        rw [textOf_append]
        cases b with
        | false => exact ⟨vs ++ ws, .replaced h2 (by simpa using hw1), h3.append hw2⟩
        | true => exact ⟨vs ++ ws, .replacedValue h2 (by simpa using hw1), h3.append hw2⟩
      · rw [h1]
        simp only [Did.orElse]
        exact ⟨fun cs h => by simp at h, fun _ => ⟨t, by simp, h2, Or.inr ⟨h3, h4, h5⟩⟩⟩

end Verif.Args
