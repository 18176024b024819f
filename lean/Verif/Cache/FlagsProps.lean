import Verif.Cache.FlagsModel
import Verif.IO.CompressProps
import Verif.Str.TokenProps
/-! C66: which objects are cached and distributed. C67: the files stored for an object. -/
namespace Verif.Cache
open Verif.Str

/-! ### Specification: properties of the list of options -/

/-- The option is given, in one of its two spellings. -/
def Given (l : List Tok) (arg : String) : Prop := ('/' :: arg.toList) ∈ l ∨ ('-' :: arg.toList) ∈ l

/-- An option starting like this is given. -/
def GivenStart (l : List Tok) (arg : String) : Prop :=
  ∃ r, ('/' :: (arg.toList ++ r)) ∈ l ∨ ('-' :: (arg.toList ++ r)) ∈ l

/-- The last option about static analysis switches it on. -/
def Analysis (l : List Tok) : Prop :=
  ∃ a t b, l = a ++ t :: b ∧ (∃ r, t = '/' :: ("analyze".toList ++ r) ∨ t = '-' :: ("analyze".toList ++ r)) ∧
    t ≠ "/analyze-".toList ∧ t ≠ "-analyze-".toList ∧ ¬ GivenStart b "analyze"

/-- Coverage is switched on for good, or the last option about it switches it on. -/
def Coverage (l : List Tok) : Prop :=
  "--coverage".toList ∈ l ∨
  ∃ a b, l = a ++ "-ftest-coverage".toList :: b ∧ "-fno-test-coverage".toList ∉ b

/-- The language is given as Objective-C. -/
def ObjectiveC (l : List Tok) : Prop :=
  "-fobjc-arc".toList ∈ l ∨ ∃ a b, l = a ++ "-x".toList :: "objective-c".toList :: b

/-! ### the tokens -/

theorem isArg_iff (t : Tok) (arg : String) : isArg t arg = true ↔ t = '/' :: arg.toList ∨ t = '-' :: arg.toList := by
  unfold isArg
  split
  · simp
  · simp
  · rename_i h1 h2
    constructor
    · intro h; cases h
    · rintro (h | h)
      · exact absurd h (h1 _)
      · exact absurd h (h2 _)

theorem isStart_iff (t : Tok) (arg : String) :
    isStart t arg = true ↔ ∃ r, t = '/' :: (arg.toList ++ r) ∨ t = '-' :: (arg.toList ++ r) := by
  unfold isStart
  split
  · rename_i r
    rw [List.isPrefixOf_iff_prefix]
    constructor
    · rintro ⟨r', h⟩; exact ⟨r', Or.inl (by rw [h])⟩
    · rintro ⟨r', h | h⟩
      · exact ⟨r', by simpa using (List.cons.inj h).2.symm⟩
      · simp at h
  · rename_i r
    rw [List.isPrefixOf_iff_prefix]
    constructor
    · rintro ⟨r', h⟩; exact ⟨r', Or.inr (by rw [h])⟩
    · rintro ⟨r', h | h⟩
      · simp at h
      · exact ⟨r', by simpa using (List.cons.inj h).2.symm⟩
  · rename_i h1 h2
    constructor
    · intro h; cases h
    · rintro ⟨r', h | h⟩
      · exact absurd h (h1 _)
      · exact absurd h (h2 _)

/-- Second character of a token with that option. -/
theorem isArg_second {t : Tok} {arg : String} (h : isArg t arg = true) : t.drop 1 = arg.toList := by
  rcases (isArg_iff t arg).mp h with rfl | rfl <;> rfl

theorem isStart_second {t : Tok} {arg : String} (h : isStart t arg = true) : ∃ r, t.drop 1 = arg.toList ++ r := by
  obtain ⟨r, rfl | rfl⟩ := (isStart_iff t arg).mp h <;> exact ⟨r, rfl⟩

theorem excl_arg {t : Tok} {a b : String} (h : isArg t a = true) (hne : a.toList ≠ b.toList) : isArg t b = false := by
  cases h' : isArg t b with
  | false => rfl
  | true => exact absurd ((isArg_second h).symm.trans (isArg_second h')) hne

/-- An option and one that starts differently. -/
theorem excl_start {t : Tok} {a b : String} (h : isStart t a = true) (hne : a.toList.take 1 ≠ b.toList.take 1)
    (ha : a.toList ≠ []) (hb : b.toList ≠ []) : isStart t b = false ∧ isArg t b = false := by
  obtain ⟨r, hr⟩ := isStart_second h
  have key : ∀ r', t.drop 1 = b.toList ++ r' → False := by
    intro r' h'
    rw [hr] at h'
    cases ea : a.toList with
    | nil => exact ha ea
    | cons x xs =>
      cases eb : b.toList with
      | nil => exact hb eb
      | cons y ys =>
        rw [ea, eb] at h' hne
        simp at h' hne
        exact hne h'.1
  constructor
  · cases h' : isStart t b with
    | false => rfl
    | true => exact (isStart_second h').elim fun r' hr' => (key r' hr').elim
  · cases h' : isArg t b with
    | false => rfl
    | true => exact (key [] (by simpa using isArg_second h')).elim

theorem excl_arg_start {t : Tok} {a b : String} (h : isArg t a = true) (hne : a.toList.take 1 ≠ b.toList.take 1)
    (ha : a.toList ≠ []) (hb : b.toList ≠ []) : isStart t b = false :=
  (excl_start (t := t) (a := a) (b := b) ((isStart_iff t a).mpr ⟨[], by
    rcases (isArg_iff t a).mp h with rfl | rfl <;> simp⟩) hne ha hb).1

/-- What one token does to what matters. -/
theorem msTok_spec (s : Ms) (t : Tok) :
    (msTok s t).flags.family = s.flags.family ∧ (msTok s t).flags.creatingPCH = s.flags.creatingPCH ∧
    (msTok s t).flags.usingPCH = s.flags.usingPCH ∧ (msTok s t).flags.gcov = s.flags.gcov ∧
    (msTok s t).flags.cached = s.flags.cached ∧ (msTok s t).flags.distributed = s.flags.distributed ∧
    (msTok s t).flags.pdb = (s.flags.pdb || ((isArg t "Zi" || isArg t "ZI") && s.flags.family ≠ .clangCl)) ∧
    (msTok s t).clr = (s.clr || isStart t "clr") ∧
    (msTok s t).winRT = (s.winRT || isArg t "ZW") ∧
    (msTok s t).preOnly = (s.preOnly || isArg t "P") ∧
    (msTok s t).flags.analysis = (if isStart t "analyze" then !isArg t "analyze-" else s.flags.analysis) ∧
    (msTok s t).flags.deopt = (s.flags.deopt || isStart t "dynamicdeopt") := by
  by_cases h1 : isArg t "Zi" = true
  · have a1 := excl_arg_start (b := "clr") h1 (by decide) (by decide) (by decide)
    have a2 := excl_arg (b := "ZW") h1 (by decide)
    have a3 := excl_arg (b := "P") h1 (by decide)
    have a4 := excl_arg_start (b := "analyze") h1 (by decide) (by decide) (by decide)
    have a5 := excl_arg_start (b := "dynamicdeopt") h1 (by decide) (by decide) (by decide)
    unfold msTok
    by_cases hc : s.flags.family = .clangCl <;> simp [h1, hc, a1, a2, a3, a4, a5]
  have h1 := Bool.eq_false_iff.mpr h1
  by_cases h2 : isArg t "ZI" = true
  · have a1 := excl_arg_start (b := "clr") h2 (by decide) (by decide) (by decide)
    have a2 := excl_arg (b := "ZW") h2 (by decide)
    have a3 := excl_arg (b := "P") h2 (by decide)
    have a4 := excl_arg_start (b := "analyze") h2 (by decide) (by decide) (by decide)
    have a5 := excl_arg_start (b := "dynamicdeopt") h2 (by decide) (by decide) (by decide)
    unfold msTok
    by_cases hc : s.flags.family = .clangCl <;> simp [h1, h2, hc, a1, a2, a3, a4, a5]
  have h2 := Bool.eq_false_iff.mpr h2
  by_cases h3 : isStart t "clr" = true
  · have a2 := (excl_start (b := "ZW") h3 (by decide) (by decide) (by decide)).2
    have a3 := (excl_start (b := "P") h3 (by decide) (by decide) (by decide)).2
    have a4 := (excl_start (b := "analyze") h3 (by decide) (by decide) (by decide)).1
    have a5 := (excl_start (b := "dynamicdeopt") h3 (by decide) (by decide) (by decide)).1
    simp [msTok, h1, h2, h3, a2, a3, a4, a5]
  have h3 := Bool.eq_false_iff.mpr h3
  by_cases h4 : isArg t "ZW" = true
  · have a3 := excl_arg (b := "P") h4 (by decide)
    have a4 := excl_arg_start (b := "analyze") h4 (by decide) (by decide) (by decide)
    have a5 := excl_arg_start (b := "dynamicdeopt") h4 (by decide) (by decide) (by decide)
    simp [msTok, h1, h2, h3, h4, a3, a4, a5]
  have h4 := Bool.eq_false_iff.mpr h4
  by_cases h5 : isArg t "P" = true
  · have a4 := excl_arg_start (b := "analyze") h5 (by decide) (by decide) (by decide)
    have a5 := excl_arg_start (b := "dynamicdeopt") h5 (by decide) (by decide) (by decide)
    simp [msTok, h1, h2, h3, h4, h5, a4, a5]
  have h5 := Bool.eq_false_iff.mpr h5
  by_cases h6 : isArg t "WX" = true
  · have a4 := excl_arg_start (b := "analyze") h6 (by decide) (by decide) (by decide)
    have a5 := excl_arg_start (b := "dynamicdeopt") h6 (by decide) (by decide) (by decide)
    simp [msTok, h1, h2, h3, h4, h5, h6, a4, a5]
  have h6 := Bool.eq_false_iff.mpr h6
  by_cases h7 : isStart t "analyze" = true
  · have a5 := (excl_start (b := "dynamicdeopt") h7 (by decide) (by decide) (by decide)).1
    by_cases h8 : isArg t "analyze-" = true
    · simp [msTok, h1, h2, h3, h4, h5, h6, h7, h8, a5]
    · have h8 := Bool.eq_false_iff.mpr h8
      simp [msTok, h1, h2, h3, h4, h5, h6, h7, h8, a5]
  have h7 := Bool.eq_false_iff.mpr h7
  by_cases h9 : isStart t "dynamicdeopt" = true
  · simp [msTok, h1, h2, h3, h4, h5, h6, h7, h9]
  have h9 := Bool.eq_false_iff.mpr h9
  unfold msTok
  by_cases h10 : (decide (s.flags.family = .clangCl) && isArg t "nostdinc") = true
  · simp only [h1, h2, h3, h4, h5, h6, h7, h9, h10]; simp
  · simp only [h1, h2, h3, h4, h5, h6, h7, h9, h10]; simp

/-- Static analysis after a list of options, starting from `b`. -/
def anaFold (b : Bool) (l : List Tok) : Bool :=
  l.foldl (fun b t => if isStart t "analyze" then !isArg t "analyze-" else b) b

theorem msFold (l : List Tok) : ∀ s : Ms,
    (l.foldl msTok s).flags.family = s.flags.family ∧ (l.foldl msTok s).flags.creatingPCH = s.flags.creatingPCH ∧
    (l.foldl msTok s).flags.usingPCH = s.flags.usingPCH ∧ (l.foldl msTok s).flags.gcov = s.flags.gcov ∧
    (l.foldl msTok s).flags.cached = s.flags.cached ∧ (l.foldl msTok s).flags.distributed = s.flags.distributed ∧
    (l.foldl msTok s).flags.pdb = (s.flags.pdb || (l.any (fun t => isArg t "Zi" || isArg t "ZI") && s.flags.family ≠ .clangCl)) ∧
    (l.foldl msTok s).clr = (s.clr || l.any (isStart · "clr")) ∧
    (l.foldl msTok s).winRT = (s.winRT || l.any (isArg · "ZW")) ∧
    (l.foldl msTok s).preOnly = (s.preOnly || l.any (isArg · "P")) ∧
    (l.foldl msTok s).flags.analysis = anaFold s.flags.analysis l ∧
    (l.foldl msTok s).flags.deopt = (s.flags.deopt || l.any (isStart · "dynamicdeopt")) := by
  induction l with
  | nil => intro s; simp [anaFold]
  | cons t l ih =>
    intro s
    obtain ⟨a1, a2, a3, a4, a5, a6, a7, a8, a9, a10, a11, a12⟩ := msTok_spec s t
    obtain ⟨b1, b2, b3, b4, b5, b6, b7, b8, b9, b10, b11, b12⟩ := ih (msTok s t)
    simp only [List.foldl_cons, List.any_cons]
    refine ⟨b1.trans a1, b2.trans a2, b3.trans a3, b4.trans a4, b5.trans a5, b6.trans a6, ?_, ?_, ?_, ?_, ?_, ?_⟩
    · rw [b7, a7, a1]
      cases (isArg t "Zi" || isArg t "ZI") <;> cases s.flags.pdb <;> simp
    · rw [b8, a8, Bool.or_assoc]
    · rw [b9, a9, Bool.or_assoc]
    · rw [b10, a10, Bool.or_assoc]
    · rw [b11, a11, anaFold, anaFold, List.foldl_cons]
    · rw [b12, a12, Bool.or_assoc]

theorem any_zi (l : List Tok) : l.any (fun t => isArg t "Zi" || isArg t "ZI") =
    (l.any (isArg · "Zi") || l.any (isArg · "ZI")) := by
  induction l with
  | nil => rfl
  | cons t l ih =>
    simp only [List.any_cons, ih]
    cases isArg t "Zi" <;> cases isArg t "ZI" <;> simp

theorem any_isArg (l : List Tok) (arg : String) : l.any (isArg · arg) = true ↔ Given l arg := by
  rw [List.any_eq_true]
  constructor
  · rintro ⟨t, ht, h⟩
    rcases (isArg_iff t arg).mp h with rfl | rfl
    · exact Or.inl ht
    · exact Or.inr ht
  · rintro (h | h)
    · exact ⟨_, h, (isArg_iff _ _).mpr (Or.inl rfl)⟩
    · exact ⟨_, h, (isArg_iff _ _).mpr (Or.inr rfl)⟩

theorem any_isStart (l : List Tok) (arg : String) : l.any (isStart · arg) = true ↔ GivenStart l arg := by
  rw [List.any_eq_true]
  constructor
  · rintro ⟨t, ht, h⟩
    obtain ⟨r, rfl | rfl⟩ := (isStart_iff t arg).mp h
    · exact ⟨r, Or.inl ht⟩
    · exact ⟨r, Or.inr ht⟩
  · rintro ⟨r, h | h⟩
    · exact ⟨_, h, (isStart_iff _ _).mpr ⟨r, Or.inl rfl⟩⟩
    · exact ⟨_, h, (isStart_iff _ _).mpr ⟨r, Or.inr rfl⟩⟩

theorem anaFold_none (b : Bool) (l : List Tok) (h : ¬ GivenStart l "analyze") : anaFold b l = b := by
  induction l generalizing b with
  | nil => rfl
  | cons t l ih =>
    have ht : isStart t "analyze" = false := by
      cases h' : isStart t "analyze" with
      | false => rfl
      | true =>
        exfalso; apply h
        rw [← any_isStart]; simp [h']
    have hl : ¬ GivenStart l "analyze" := by
      rw [← any_isStart] at h ⊢
      simp only [List.any_cons, Bool.or_eq_true, not_or] at h
      exact h.2
    simp only [anaFold, List.foldl_cons, ht]
    exact ih b hl

theorem anaFold_append (b : Bool) (l l' : List Tok) : anaFold b (l ++ l') = anaFold (anaFold b l) l' := by
  simp [anaFold, List.foldl_append]

/-- Either nothing is said, or there is a last word. -/
theorem last_start (l : List Tok) (arg : String) : ¬ GivenStart l arg ∨
    ∃ a t b, l = a ++ t :: b ∧ isStart t arg = true ∧ ¬ GivenStart b arg := by
  induction l with
  | nil => left; rw [← any_isStart]; simp
  | cons x l ih =>
    rcases ih with h | ⟨a, t, b, rfl, h1, h2⟩
    · cases hx : isStart x arg with
      | true => exact Or.inr ⟨[], x, l, rfl, hx, h⟩
      | false =>
        left
        rw [← any_isStart] at h ⊢
        simpa [hx] using h
    · exact Or.inr ⟨x :: a, t, b, rfl, h1, h2⟩

theorem anaFold_iff (l : List Tok) : anaFold false l = true ↔ Analysis l := by
  constructor
  · intro h
    rcases last_start l "analyze" with h' | ⟨a, t, b, rfl, h1, h2⟩
    · rw [anaFold_none _ _ h'] at h; cases h
    · rw [anaFold_append, show t :: b = [t] ++ b from rfl, anaFold_append, anaFold_none _ _ h2] at h
      simp only [anaFold, List.foldl_cons, List.foldl_nil, h1] at h
      have h : isArg t "analyze-" = false := by simpa using h
      have hn : ¬ isArg t "analyze-" = true := by rw [h]; decide
      rw [isArg_iff] at hn
      exact ⟨a, t, b, rfl, (isStart_iff _ _).mp h1, fun e => hn (Or.inl e), fun e => hn (Or.inr e), h2⟩
  · rintro ⟨a, t, b, rfl, h1, h2, h3, h4⟩
    rw [anaFold_append, show t :: b = [t] ++ b from rfl, anaFold_append, anaFold_none _ _ h4]
    have hs := (isStart_iff t "analyze").mpr h1
    have hn : isArg t "analyze-" = false := by
      cases e : isArg t "analyze-" with
      | false => rfl
      | true => rcases (isArg_iff _ _).mp e with e | e
                · exact absurd e h2
                · exact absurd e h3
    simp [anaFold, hs, hn]

/-- C66. With the Microsoft compiler and clang in its mode, exactly when an object may be cached: the compiler
allows it, no managed code, not just preprocessing, and debug information is not kept in a separate database. -/
theorem C66_msvc_cached (c : Compiler) (args : List Char) (creating using_ : Bool)
    (hf : c.family = .msvc ∨ c.family = .clangCl) :
    (determineFlags c args creating using_).cached = true ↔
      c.cacheable = true ∧ ¬ GivenStart (tokenize ' ' args) "clr" ∧ ¬ Given (tokenize ' ' args) "P" ∧
      ¬ (c.family = .msvc ∧ (Given (tokenize ' ' args) "Zi" ∨ Given (tokenize ' ' args) "ZI")) := by
  have key : determineFlags c args creating using_ = msFinish c ((tokenize ' ' args).foldl msTok
      { flags := { family := c.family, creatingPCH := creating, usingPCH := using_ } }) := by
    rcases hf with h | h <;> simp only [determineFlags, h]
  rw [key]
  generalize tokenize ' ' args = l
  obtain ⟨b1, b2, b3, b4, b5, b6, b7, b8, b9, b10, b11, b12⟩ :=
    msFold l { flags := { family := c.family, creatingPCH := creating, usingPCH := using_ } }
  simp only [Bool.false_or] at b7 b8 b9 b10 b12
  rw [← any_isStart, ← any_isArg, ← any_isArg, ← any_isArg]
  have e7 := any_zi l
  rw [e7] at b7
  unfold msFinish
  rw [b8, b10]
  cases hclr : l.any (isStart · "clr") <;> cases hp : l.any (isArg · "P")
  · simp only [b7, Bool.not_false, Bool.and_self, if_true, Bool.and_eq_true, Bool.not_eq_true']
    rcases hf with h | h
    · cases l.any (isArg · "Zi") <;> cases l.any (isArg · "ZI") <;> simp [h]
    · simp [h]
  all_goals simp [b5]

/-- C66. Exactly when it may be compiled elsewhere. -/
theorem C66_msvc_distributed (c : Compiler) (args : List Char) (creating using_ : Bool)
    (hf : c.family = .msvc ∨ c.family = .clangCl) :
    (determineFlags c args creating using_).distributed = true ↔
      c.distributable = true ∧ creating = false ∧ c.sourceMapping = false ∧
      ¬ GivenStart (tokenize ' ' args) "clr" ∧ ¬ Given (tokenize ' ' args) "P" ∧ ¬ Given (tokenize ' ' args) "ZW" ∧
      ¬ Analysis (tokenize ' ' args) := by
  have key : determineFlags c args creating using_ = msFinish c ((tokenize ' ' args).foldl msTok
      { flags := { family := c.family, creatingPCH := creating, usingPCH := using_ } }) := by
    rcases hf with h | h <;> simp only [determineFlags, h]
  rw [key]
  generalize tokenize ' ' args = l
  obtain ⟨b1, b2, b3, b4, b5, b6, b7, b8, b9, b10, b11, b12⟩ :=
    msFold l { flags := { family := c.family, creatingPCH := creating, usingPCH := using_ } }
  simp only [Bool.false_or] at b7 b8 b9 b10 b12
  rw [← any_isStart, ← any_isArg, ← any_isArg, ← anaFold_iff]
  unfold msFinish
  rw [b8, b10]
  cases hclr : l.any (isStart · "clr") <;> cases hp : l.any (isArg · "P")
  · simp only [b9, b2, b11, Bool.not_false, Bool.and_self, if_true]
    cases c.distributable <;> cases creating <;> cases c.sourceMapping <;> cases l.any (isArg · "ZW") <;>
      cases anaFold false l <;> simp
  all_goals simp [b6]

/-! ### GCC and Clang -/

theorem gcTok_spec (s : Gc) (t : Tok) (n : Option Tok) :
    (gcTok s t n).flags.family = s.flags.family ∧ (gcTok s t n).flags.creatingPCH = s.flags.creatingPCH ∧
    (gcTok s t n).flags.analysis = s.flags.analysis ∧ (gcTok s t n).flags.deopt = s.flags.deopt ∧
    (gcTok s t n).coverage = (s.coverage || decide (t = "--coverage".toList)) ∧
    (gcTok s t n).flags.gcov = (if t = "-ftest-coverage".toList then true
      else if t = "-fno-test-coverage".toList then false else s.flags.gcov) ∧
    (gcTok s t n).objectiveC = (s.objectiveC || decide (t = "-fobjc-arc".toList) ||
      decide (t = "-x".toList ∧ n = some "objective-c".toList)) := by
  by_cases h1 : t = "-fdiagnostics-color=auto".toList
  · subst h1
    refine ⟨?_, ?_, ?_, ?_, ?_, ?_, ?_⟩ <;> simp [gcTok] <;> decide
  by_cases h2 : ("-fdiagnostics-color".toList.isPrefixOf t || decide (t = "-fno-diagnostics-color".toList)) = true
  · have hne : ∀ x : List Char, ("-fdiagnostics-color".toList.isPrefixOf x || decide (x = "-fno-diagnostics-color".toList)) = false → t ≠ x := by
      intro x hx e; subst e; rw [h2] at hx; cases hx
    have a1 := hne "--coverage".toList (by decide)
    have a2 := hne "-ftest-coverage".toList (by decide)
    have a3 := hne "-fno-test-coverage".toList (by decide)
    have a4 := hne "-fobjc-arc".toList (by decide)
    have a5 := hne "-x".toList (by decide)
    unfold gcTok
    rw [if_neg h1, if_pos h2]
    simp only [a1, a2, a3, a4, a5, decide_false, false_and, Bool.or_false, if_false, and_self]
  by_cases h3 : t = "-ftest-coverage".toList
  · subst h3
    unfold gcTok
    rw [if_neg h1, if_neg h2, if_pos rfl]
    refine ⟨rfl, rfl, rfl, rfl, ?_, rfl, ?_⟩
    · have e1 : ¬ ("-ftest-coverage".toList = "--coverage".toList) := by decide
      simp only [e1, decide_false, Bool.or_false]
    · have e1 : ¬ ("-ftest-coverage".toList = "-fobjc-arc".toList) := by decide
      have e2 : ¬ ("-ftest-coverage".toList = "-x".toList) := by decide
      simp only [e1, e2, false_and, decide_false, Bool.or_false]
  by_cases h4 : t = "-fno-test-coverage".toList
  · subst h4
    unfold gcTok
    rw [if_neg h1, if_neg h2, if_neg h3, if_pos rfl]
    refine ⟨rfl, rfl, rfl, rfl, ?_, ?_, ?_⟩
    · have e1 : ¬ ("-fno-test-coverage".toList = "--coverage".toList) := by decide
      simp only [e1, decide_false, Bool.or_false]
    · rw [if_neg h3, if_pos rfl]
    · have e1 : ¬ ("-fno-test-coverage".toList = "-fobjc-arc".toList) := by decide
      have e2 : ¬ ("-fno-test-coverage".toList = "-x".toList) := by decide
      simp only [e1, e2, false_and, decide_false, Bool.or_false]
  by_cases h5 : t = "--coverage".toList
  · subst h5
    unfold gcTok
    rw [if_neg h1, if_neg h2, if_neg h3, if_neg h4, if_pos rfl]
    refine ⟨rfl, rfl, rfl, rfl, by simp, ?_, ?_⟩
    · rw [if_neg h3, if_neg h4]
    · have e1 : ¬ ("--coverage".toList = "-fobjc-arc".toList) := by decide
      have e2 : ¬ ("--coverage".toList = "-x".toList) := by decide
      simp only [e1, e2, false_and, decide_false, Bool.or_false]
  by_cases h6 : "-Werror".toList.isPrefixOf t = true
  · have hne : ∀ x : List Char, "-Werror".toList.isPrefixOf x = false → t ≠ x := by
      intro x hx e; subst e; rw [h6] at hx; cases hx
    have a4 := hne "-fobjc-arc".toList (by decide)
    have a5 := hne "-x".toList (by decide)
    unfold gcTok
    rw [if_neg h1, if_neg h2, if_neg h3, if_neg h4, if_neg h5, if_pos h6]
    simp only [h3, h4, h5, a4, a5, decide_false, false_and, Bool.or_false, if_false, and_self]
  by_cases h7 : t = "-fobjc-arc".toList
  · subst h7
    unfold gcTok
    rw [if_neg h1, if_neg h2, if_neg h3, if_neg h4, if_neg h5, if_neg h6, if_pos rfl]
    simp only [h3, h4, h5, decide_false, Bool.or_false, if_false, decide_true, Bool.or_true, Bool.true_or, and_self]
  by_cases h8 : t = "-x".toList
  · subst h8
    unfold gcTok
    rw [if_neg h1, if_neg h2, if_neg h3, if_neg h4, if_neg h5, if_neg h6, if_neg h7, if_pos rfl]
    by_cases hn : n = some "objective-c".toList
    · rw [if_pos hn]
      simp only [h3, h4, h5, h7, hn, decide_false, Bool.or_false, if_false, decide_true, Bool.or_true, and_self]
    · rw [if_neg hn]
      simp only [h3, h4, h5, h7, hn, decide_false, Bool.or_false, if_false, and_false, and_self]
  · unfold gcTok
    rw [if_neg h1, if_neg h2, if_neg h3, if_neg h4, if_neg h5, if_neg h6, if_neg h7, if_neg h8]
    split
    · simp only [h3, h4, h5, h7, h8, decide_false, false_and, Bool.or_false, if_false, and_self]
    · split
      · simp only [h3, h4, h5, h7, h8, decide_false, false_and, Bool.or_false, if_false, and_self]
      · simp only [h3, h4, h5, h7, h8, decide_false, false_and, Bool.or_false, if_false, and_self]

/-- Coverage after a list of options, starting from `b`. -/
def covFold (b : Bool) (l : List Tok) : Bool :=
  l.foldl (fun b t => if t = "-ftest-coverage".toList then true
    else if t = "-fno-test-coverage".toList then false else b) b

theorem gcLoop_spec : ∀ (l : List Tok) (s : Gc),
    (gcLoop l s).flags.family = s.flags.family ∧ (gcLoop l s).flags.creatingPCH = s.flags.creatingPCH ∧
    (gcLoop l s).flags.analysis = s.flags.analysis ∧ (gcLoop l s).flags.deopt = s.flags.deopt ∧
    ((gcLoop l s).coverage = true ↔ s.coverage = true ∨ "--coverage".toList ∈ l) ∧
    (gcLoop l s).flags.gcov = covFold s.flags.gcov l ∧
    ((gcLoop l s).objectiveC = true ↔ s.objectiveC = true ∨ ObjectiveC l) := by
  intro l
  induction l with
  | nil =>
    intro s
    refine ⟨rfl, rfl, rfl, rfl, by simp [gcLoop], rfl, ?_⟩
    simp only [gcLoop]
    constructor
    · exact Or.inl
    · rintro (h | h | ⟨a, b, h⟩)
      · exact h
      · cases h
      · simp at h
  | cons t l ih =>
    intro s
    obtain ⟨a1, a2, a3, a4, a5, a6, a7⟩ := gcTok_spec s t l.head?
    obtain ⟨b1, b2, b3, b4, b5, b6, b7⟩ := ih (gcTok s t l.head?)
    simp only [gcLoop]
    refine ⟨b1.trans a1, b2.trans a2, b3.trans a3, b4.trans a4, ?_, ?_, ?_⟩
    · rw [b5, a5, Bool.or_eq_true, decide_eq_true_eq, List.mem_cons, or_assoc, eq_comm (a := t)]
    · rw [b6, a6]; rfl
    · rw [b7, a7, Bool.or_eq_true, Bool.or_eq_true, decide_eq_true_eq, decide_eq_true_eq, or_assoc, or_assoc]
      refine or_congr_right ?_
      constructor
      · rintro (rfl | ⟨rfl, hn⟩ | h)
        · exact Or.inl (by simp)
        · cases l with
          | nil => cases hn
          | cons y l =>
            simp only [List.head?_cons, Option.some.injEq] at hn
            exact Or.inr ⟨[], l, by rw [hn]; rfl⟩
        · rcases h with h | ⟨a, b, h⟩
          · exact Or.inl (List.mem_cons_of_mem _ h)
          · exact Or.inr ⟨t :: a, b, by rw [h]; rfl⟩
      · rintro (h | ⟨a, b, h⟩)
        · rcases List.mem_cons.mp h with h | h
          · exact Or.inl h.symm
          · exact Or.inr (Or.inr (Or.inl h))
        · cases a with
          | nil =>
            obtain ⟨e1, e2⟩ := List.cons.inj h
            exact Or.inr (Or.inl ⟨e1, by rw [e2]; rfl⟩)
          | cons y a =>
            obtain ⟨e1, e2⟩ := List.cons.inj h
            exact Or.inr (Or.inr (Or.inr ⟨a, b, e2⟩))

theorem covFold_spec (l : List Tok) : ∀ b, covFold b l = true ↔
    (∃ a c, l = a ++ "-ftest-coverage".toList :: c ∧ "-fno-test-coverage".toList ∉ c) ∨
    (b = true ∧ "-fno-test-coverage".toList ∉ l) := by
  induction l with
  | nil =>
    intro b
    constructor
    · intro h; exact Or.inr ⟨h, by simp⟩
    · rintro (⟨a, c, h, -⟩ | ⟨h, -⟩)
      · exact absurd h (by simp)
      · exact h
  | cons t l ih =>
    intro b
    have e : covFold b (t :: l) = covFold (if t = "-ftest-coverage".toList then true
      else if t = "-fno-test-coverage".toList then false else b) l := rfl
    rw [e, ih]
    constructor
    · rintro (⟨a, c, h, hc⟩ | ⟨h, hl⟩)
      · exact Or.inl ⟨t :: a, c, by rw [h]; rfl, hc⟩
      · by_cases h1 : t = "-ftest-coverage".toList
        · exact Or.inl ⟨[], l, by rw [h1]; rfl, hl⟩
        · rw [if_neg h1] at h
          by_cases h2 : t = "-fno-test-coverage".toList
          · rw [if_pos h2] at h; cases h
          · rw [if_neg h2] at h
            refine Or.inr ⟨h, fun hm => ?_⟩
            rcases List.mem_cons.mp hm with hm | hm
            · exact h2 hm.symm
            · exact hl hm
    · rintro (⟨a, c, h, hc⟩ | ⟨h, hl⟩)
      · cases a with
        | nil =>
          obtain ⟨e1, e2⟩ := List.cons.inj h
          exact Or.inr ⟨by rw [if_pos e1], by rw [e2]; exact hc⟩
        | cons y a =>
          obtain ⟨e1, e2⟩ := List.cons.inj h
          exact Or.inl ⟨a, c, e2, hc⟩
      · refine Or.inr ⟨?_, fun hm => hl (List.mem_cons_of_mem _ hm)⟩
        have h2 : t ≠ "-fno-test-coverage".toList := fun e => hl (by rw [e]; exact List.mem_cons_self)
        rw [if_neg h2, h, ite_self]

theorem covFold_iff (l : List Tok) : covFold false l = true ↔
    ∃ a b, l = a ++ "-ftest-coverage".toList :: b ∧ "-fno-test-coverage".toList ∉ b := by
  rw [covFold_spec]
  constructor
  · rintro (h | ⟨h, -⟩)
    · exact h
    · cases h
  · exact Or.inl

/-- C66. With GCC and Clang, exactly when an object may be compiled elsewhere; caching depends on the compiler only. -/
theorem C66_gcc (c : Compiler) (args : List Char) (creating using_ : Bool)
    (hf : c.family = .gcc ∨ c.family = .clang) :
    ((determineFlags c args creating using_).distributed = true ↔
      c.distributable = true ∧ creating = false ∧ c.sourceMapping = false ∧
      ¬ ObjectiveC (tokenize ' ' args) ∧ ¬ Coverage (tokenize ' ' args)) ∧
    (determineFlags c args creating using_).cached = c.cacheable := by
  have key : ∃ b, determineFlags c args creating using_ = otherFinish c (gcFinish (gcLoop (tokenize ' ' args)
      { flags := { family := c.family, creatingPCH := creating, usingPCH := using_, colorAuto := b } })) := by
    rcases hf with h | h
    · exact ⟨false, by simp only [determineFlags, h]⟩
    · exact ⟨true, by simp only [determineFlags, h]⟩
  obtain ⟨b, key⟩ := key
  rw [key]
  generalize tokenize ' ' args = l
  obtain ⟨b1, b2, b3, b4, b5, b6, b7⟩ :=
    gcLoop_spec l { flags := { family := c.family, creatingPCH := creating, usingPCH := using_, colorAuto := b } }
  generalize gcLoop l { flags := { family := c.family, creatingPCH := creating, usingPCH := using_, colorAuto := b } } = s at *
  simp only [Bool.false_eq_true, false_or] at b5 b7
  refine ⟨?_, rfl⟩
  have hcov : (gcFinish s).flags.gcov = true ↔ Coverage l := by
    unfold gcFinish Coverage
    rw [← covFold_iff]
    by_cases h : s.coverage = true
    · rw [if_pos h]; exact ⟨fun _ => Or.inl (b5.mp h), fun _ => rfl⟩
    · rw [if_neg h, b6]
      have : ¬ "--coverage".toList ∈ l := fun e => h (b5.mpr e)
      simp only [this, false_or]
  have hobj : (gcFinish s).objectiveC = true ↔ ObjectiveC l := by
    unfold gcFinish
    split <;> exact b7
  have hpch : (gcFinish s).flags.creatingPCH = creating := by
    unfold gcFinish
    split <;> exact b2
  unfold otherFinish
  simp only
  rw [← hcov, ← hobj, hpch]
  cases c.distributable <;> cases creating <;> cases c.sourceMapping <;> cases (gcFinish s).objectiveC <;>
    cases (gcFinish s).flags.gcov <;> simp

/-- C66. With all compilers: a precompiled header and sources with path mappings are only ever compiled locally by
the compilers for which this is stated, and nothing is cached or distributed that the compiler does not allow. -/
theorem C66_allowed (c : Compiler) (args : List Char) (creating using_ : Bool) :
    ((determineFlags c args creating using_).cached = true → c.cacheable = true) ∧
    ((determineFlags c args creating using_).distributed = true → c.distributable = true) ∧
    ((determineFlags c args creating using_).distributed = true → c.family ≠ .orbis →
      creating = false ∧ c.sourceMapping = false) := by
  cases hf : c.family
  case msvc =>
    have h1 := C66_msvc_cached c args creating using_ (Or.inl hf)
    have h2 := C66_msvc_distributed c args creating using_ (Or.inl hf)
    exact ⟨fun h => (h1.mp h).1, fun h => (h2.mp h).1, fun h _ => ⟨(h2.mp h).2.1, (h2.mp h).2.2.1⟩⟩
  case clangCl =>
    have h1 := C66_msvc_cached c args creating using_ (Or.inr hf)
    have h2 := C66_msvc_distributed c args creating using_ (Or.inr hf)
    exact ⟨fun h => (h1.mp h).1, fun h => (h2.mp h).1, fun h _ => ⟨(h2.mp h).2.1, (h2.mp h).2.2.1⟩⟩
  case gcc =>
    have h := C66_gcc c args creating using_ (Or.inl hf)
    exact ⟨fun e => by rw [← h.2]; exact e, fun e => (h.1.mp e).1, fun e _ => ⟨(h.1.mp e).2.1, (h.1.mp e).2.2.1⟩⟩
  case clang =>
    have h := C66_gcc c args creating using_ (Or.inr hf)
    exact ⟨fun e => by rw [← h.2]; exact e, fun e => (h.1.mp e).1, fun e _ => ⟨(h.1.mp e).2.1, (h.1.mp e).2.2.1⟩⟩
  all_goals
    simp [determineFlags, hf, otherFinish]
    try (cases creating <;> cases c.sourceMapping <;> simp)

example : (determineFlags ⟨.msvc, true, true, false⟩ "/c /Z7 /analyze /analyze- %1".toList false false) =
    { family := .msvc, cached := true, distributed := true } := by decide +kernel
example : (determineFlags ⟨.msvc, true, true, false⟩ "/c /Zi %1".toList false false) =
    { family := .msvc, pdb := true, distributed := true } := by decide +kernel
example : (determineFlags ⟨.clang, true, true, false⟩ "-c --coverage -fno-test-coverage %1".toList false false) =
    { family := .clang, cached := true, gcov := true, colorAuto := true } := by decide +kernel
example : Analysis (tokenize ' ' "/c /analyze- -analyze:ruleset x".toList) := by
  rw [← anaFold_iff]; decide +kernel

/-- C66, finding. "Objective C/C++ cannot be distributed", but Objective-C++ named with `-x` is. -/
theorem C66_objectiveCpp_distributed :
    (determineFlags ⟨.clang, true, true, false⟩ "-x objective-c++ -c %1 -o %2".toList false false).distributed = true := by
  decide +kernel

/-- C66, finding. An option in quotes is not recognised, although the compiler sees it without: this object is
cached although its debug information is in a database that is not. -/
theorem C66_quoted_not_recognised :
    (determineFlags ⟨.msvc, true, true, false⟩ "\"/Zi\" /c %1".toList false false).cached = true ∧
    removeQuotes "\"/Zi\"".toList = "/Zi".toList := by
  decide +kernel

/-! ### files of an object -/

theorem gcov_only_gcc (c : Compiler) (args : List Char) (creating using_ : Bool) :
    (determineFlags c args creating using_).family = c.family ∧
    (determineFlags c args creating using_).creatingPCH = creating ∧
    (c.family = .gcc ∨ c.family = .clang ∨ (determineFlags c args creating using_).gcov = false) ∧
    (c.family = .msvc ∨ c.family = .clangCl ∨ ((determineFlags c args creating using_).analysis = false ∧
      (determineFlags c args creating using_).deopt = false)) := by
  cases hf : c.family
  case msvc | clangCl =>
    simp only [determineFlags, hf]
    obtain ⟨b1, b2, b3, b4, -⟩ := msFold (tokenize ' ' args)
      { flags := { family := c.family, creatingPCH := creating, usingPCH := using_ } }
    rw [hf] at b1 b2 b3 b4
    unfold msFinish
    split <;> simp [b1, b2, b4]
  case gcc | clang =>
    simp only [determineFlags, hf]
    have : ∀ s : Gc, (otherFinish c (gcFinish s)).family = s.flags.family ∧
        (otherFinish c (gcFinish s)).creatingPCH = s.flags.creatingPCH ∧
        (otherFinish c (gcFinish s)).analysis = s.flags.analysis ∧
        (otherFinish c (gcFinish s)).deopt = s.flags.deopt := by
      intro s
      unfold otherFinish gcFinish
      split <;> exact ⟨rfl, rfl, rfl, rfl⟩
    obtain ⟨t1, t2, t3, t4⟩ := this (gcLoop (tokenize ' ' args) _)
    rw [t1, t2, t3, t4]
    obtain ⟨b1, b2, b3, b4, -⟩ := gcLoop_spec (tokenize ' ' args) _
    rw [b1, b2, b3, b4]
    simp
  all_goals simp [determineFlags, hf, otherFinish]

/-- C67. The object and its further files fit into what is stored, except for one combination: a precompiled header
with static analysis and dynamic deoptimisation. -/
theorem C67_fits_iff (c : Compiler) (args : List Char) (creating using_ : Bool) :
    1 + (extraFiles (determineFlags c args creating using_)).length ≤ 4 ↔
      ¬ (creating = true ∧ (determineFlags c args creating using_).analysis = true ∧
        (determineFlags c args creating using_).deopt = true) := by
  obtain ⟨h1, h2, h3, h4⟩ := gcov_only_gcc c args creating using_
  generalize determineFlags c args creating using_ = f at *
  unfold extraFiles
  rw [h2]
  rcases h4 with h4 | h4 | ⟨h4, h5⟩
  · have hg : f.gcov = false := by
      rcases h3 with h3 | h3 | h3
      · rw [h4] at h3; cases h3
      · rw [h4] at h3; cases h3
      · exact h3
    rw [h1, h4, hg]
    cases creating <;> cases f.analysis <;> cases f.deopt <;> decide
  · have hg : f.gcov = false := by
      rcases h3 with h3 | h3 | h3
      · rw [h4] at h3; cases h3
      · rw [h4] at h3; cases h3
      · exact h3
    rw [h1, h4, hg]
    cases creating <;> cases f.analysis <;> cases f.deopt <;> decide
  · rw [h4, h5]
    cases creating <;> cases f.gcov <;> simp
    all_goals split <;> simp

/-- C67, finding. That combination is cacheable: storing such an object in the cache fails an assertion, and in
release builds writes outside two arrays of four elements on the stack. -/
theorem C67_five_files :
    (determineFlags ⟨.msvc, true, true, false⟩ "/c /analyze /dynamicdeopt %1".toList true false).cached = true ∧
    (extraFiles (determineFlags ⟨.msvc, true, true, false⟩ "/c /analyze /dynamicdeopt %1".toList true false)).length = 4 ∧
    ∀ files : List IO.FileView, files.length = 1 + 4 → IO.createFromFiles files = none := by
  refine ⟨by decide +kernel, by decide +kernel, ?_⟩
  intro files h
  unfold IO.createFromFiles
  rw [if_pos (by omega)]

/-- C67. Which further files an object has. -/
theorem C67_which (f : Flags) :
    (Extra.pchObj ∈ extraFiles f ↔ f.creatingPCH = true ∧ (f.family = .msvc ∨ f.family = .clangCl)) ∧
    (Extra.pchAst ∈ extraFiles f ↔ f.creatingPCH = true ∧ f.analysis = true) ∧
    (Extra.analysisXml ∈ extraFiles f ↔ f.analysis = true) ∧
    (Extra.gcno ∈ extraFiles f ↔ f.gcov = true) ∧ (Extra.altObj ∈ extraFiles f ↔ f.deopt = true) := by
  unfold extraFiles
  by_cases h : f.family = .msvc ∨ f.family = .clangCl
  · cases f.creatingPCH <;> cases f.analysis <;> cases f.gcov <;> cases f.deopt <;> simp [h]
  · cases f.creatingPCH <;> cases f.analysis <;> cases f.gcov <;> cases f.deopt <;> simp [h]

/-- C67. The further files are all different. -/
theorem C67_distinct (f : Flags) : (extraFiles f).Nodup := by
  unfold extraFiles
  cases f.creatingPCH <;> cases f.analysis <;> cases f.gcov <;> cases f.deopt <;> simp <;> split <;> simp

/-- C66. Exactly when the cache is consulted. An object that uses a precompiled header with the Microsoft compiler
only takes part if the header itself came from, or went into, the cache. -/
theorem C66_should_use (f : Flags) (o : CacheOpts) : shouldUseCache f o = true ↔
    f.cached = true ∧ o.allowed = true ∧ (o.read = true ∨ o.write = true) ∧
    (o.isolated = true → o.noUnity = true) ∧ (f.family = .msvc → f.usingPCH = true → o.pchKey ≠ 0) := by
  unfold shouldUseCache
  by_cases hf : f.family = .msvc <;> by_cases hk : o.pchKey = 0 <;>
  cases f.cached <;> cases o.allowed <;> cases o.read <;> cases o.write <;> cases o.isolated <;> cases o.noUnity <;>
    cases f.usingPCH <;> simp [hf, hk]

end Verif.Cache
