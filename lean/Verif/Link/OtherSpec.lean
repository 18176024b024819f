import Verif.Link.Other
import Verif.Link.Words
/-
What the options of a linker say about libraries, stated on its own, and proofs that this is how they are read.
-/
namespace Verif.Link
open Verif.Str
open Verif.Cache (Tok)

/-! ### What the options say -/

/-- `t` is an option of this kind, and `v` the rest of the token -/
def OptionOf (msvc : Bool) (t : Tok) (s : Slot) (v : Tok) : Prop :=
  match s with
  | .ignore => msvc = true ∧ ∃ c, MsOption "NODEFAULTLIB:" t c v
  | .default => msvc = true ∧ ∃ c, MsOption "DEFAULTLIB:" t c v
  | .msPath => msvc = true ∧ ∃ c, MsOption "LIBPATH:" t c v
  | .path => msvc = false ∧ t = '-' :: 'L' :: v
  | .lib => msvc = false ∧ t = '-' :: 'l' :: v

/-- what one or two tokens say -/
inductive Item where
  /-- an option and its value as it is written -/
  | value (s : Slot) (raw : Tok)
  | ignoreAll
  /-- from here on `-l` means a static library -/
  | mode (isStatic : Bool)
  /-- a file -/
  | input (t : Tok)
  deriving DecidableEq

/-- the token stands for inputs or the output -/
def Placeholder (t : Tok) : Prop := ∃ v, t = '%' :: v ∨ t = '\'' :: '%' :: v ∨ t = '"' :: '%' :: v

/-- the token begins like an option -/
def Dashed (msvc : Bool) (t : Tok) : Prop := t.head? = some '-' ∨ msvc = true ∧ t.head? = some '/'

/-- the tokens and what they say, in order -/
inductive Reads (msvc : Bool) : List Tok → List Item → Prop
  | nil : Reads msvc [] []
  | here {t s v ts is} : OptionOf msvc t s v → v ≠ [] → Reads msvc ts is → Reads msvc (t :: ts) (.value s v :: is)
  | next {t s u ts is} : OptionOf msvc t s [] → Reads msvc ts is → Reads msvc (t :: u :: ts) (.value s u :: is)
  | ignoreAll {t c ts is} : msvc = true → MsOption "NODEFAULTLIB" t c [] → Reads msvc ts is → Reads msvc (t :: ts) (.ignoreAll :: is)
  | dynamic {t ts is} : msvc = false → (∃ o ∈ dynamicOptions, t = o.toList) → Reads msvc ts is → Reads msvc (t :: ts) (.mode false :: is)
  | static {t ts is} : msvc = false → (∃ o ∈ staticOptions, t = o.toList) → Reads msvc ts is → Reads msvc (t :: ts) (.mode true :: is)
  | other {t ts is} : Dashed msvc t → (∀ s v, ¬ OptionOf msvc t s v) → (msvc = true → ∀ c, ¬ MsOption "NODEFAULTLIB" t c []) →
      (msvc = false → ∀ o ∈ dynamicOptions ++ staticOptions, t ≠ o.toList) → Reads msvc ts is → Reads msvc (t :: ts) is
  | placeholder {t ts is} : ¬ Dashed msvc t → Placeholder t → Reads msvc ts is → Reads msvc (t :: ts) is
  | input {t ts is} : ¬ Dashed msvc t → ¬ Placeholder t → Reads msvc ts is → Reads msvc (t :: ts) (.input t :: is)

/-- the values of an option, without quotes; empty ones do not count -/
def values (s : Slot) (items : List Item) : List Name :=
  items.filterMap fun
    | .value s' raw => if s' = s ∧ stripQuotes raw ≠ [] then some (stripQuotes raw) else none
    | _ => none

/-- the paths, in order -/
def pathsOf (clean : Name → Name) (slash : Char) (items : List Item) : List Name :=
  items.filterMap fun
    | .value .msPath raw => if stripQuotes raw ≠ [] then some (ensureSlash slash (clean (stripQuotes raw))) else none
    | .value .path raw => if stripQuotes raw ≠ [] then some (stripQuotes raw) else none
    | _ => none

/-- the files -/
def inputsOf (items : List Item) : List Name :=
  items.filterMap fun
    | .input t => some (stripQuotes t)
    | _ => none

/-- the mode after these items -/
def modeAfter (start : Bool) (items : List Item) : Bool :=
  items.foldl (fun m i => match i with | .mode b => b | _ => m) start

/-- `-l` with this value was given when the mode was `m` -/
def DashL (items : List Item) (m : Bool) (v : Name) : Prop :=
  ∃ a raw b, items = a ++ .value .lib raw :: b ∧ v = stripQuotes raw ∧ modeAfter false a = m

/-! ### Reading -/

theorem sameI_iff {a b : List Char} : sameI a b = true ↔ a.map lower = b.map lower := by simp [sameI]

theorem isArg_iff {t : Tok} {o : String} : isArg t o = true ↔ ∃ c, MsOption o t c [] := by
  constructor
  · intro h
    unfold isArg at h
    split at h
    · rename_i r
      exact ⟨'/', Or.inl rfl, r, by simp, sameI_iff.1 h⟩
    · rename_i r
      exact ⟨'-', Or.inr rfl, r, by simp, sameI_iff.1 h⟩
    · cases h
  · rintro ⟨c, hc, m, rfl, hm⟩
    rcases hc with rfl | rfl <;> · simp only [List.append_nil, isArg]; exact sameI_iff.2 hm

theorem isStart_iff {t : Tok} {o : String} : isStart t o = true ↔ ∃ c, MsOption o t c (t.drop (o.length + 1)) := by
  constructor
  · intro h; obtain ⟨c, hc, _⟩ := isStart_msOption h; exact ⟨c, hc⟩
  · rintro ⟨c, hc⟩; exact (msOption_iff.1 hc).1

theorem prefix_iff {t : Tok} {c : Char} : isStartDash t c = true ↔ ∃ v, t = '-' :: c :: v := by
  unfold isStartDash
  rw [List.isPrefixOf_iff_prefix]
  constructor
  · rintro ⟨v, rfl⟩; exact ⟨v, rfl⟩
  · rintro ⟨v, rfl⟩; exact ⟨v, rfl⟩

/-- two names of options of which none begins the other -/
theorem msOption_disjoint {a b : String} {t : Tok} {c d : Char} {u v : Tok} (h : MsOption a t c u) (h' : MsOption b t d v)
    (hd : ¬ (a.toList.map lower).isPrefixOf (b.toList.map lower) ∧ ¬ (b.toList.map lower).isPrefixOf (a.toList.map lower)) : False := by
  obtain ⟨_, m, rfl, hm⟩ := h
  obtain ⟨_, n, e, hn⟩ := h'
  simp only [List.cons_append, List.cons.injEq] at e
  have e2 := congrArg (List.map lower) e.2
  rw [List.map_append, List.map_append, hm, hn] at e2
  rcases Nat.le_total (a.toList.map lower).length (b.toList.map lower).length with hl | hl
  · exact hd.1 (List.isPrefixOf_iff_prefix.2 (List.prefix_of_prefix_length_le ⟨_, e2⟩ ⟨_, rfl⟩ hl))
  · exact hd.2 (List.isPrefixOf_iff_prefix.2 (List.prefix_of_prefix_length_le ⟨_, e2.symm⟩ ⟨_, rfl⟩ hl))

theorem slotOf_some {msvc : Bool} {t : Tok} {s : Slot} {v : Tok} : slotOf msvc t = some (s, v) ↔ OptionOf msvc t s v := by
  constructor
  · intro h
    unfold slotOf at h
    cases msvc with
    | true =>
      simp only [if_true] at h
      by_cases h1 : isStart t "NODEFAULTLIB:" = true
      · rw [if_pos h1] at h; cases h
        obtain ⟨c, hc⟩ := isStart_iff.1 h1
        exact ⟨rfl, c, hc⟩
      · rw [if_neg h1] at h
        by_cases h2 : isStart t "DEFAULTLIB:" = true
        · rw [if_pos h2] at h; cases h
          obtain ⟨c, hc⟩ := isStart_iff.1 h2
          exact ⟨rfl, c, hc⟩
        · rw [if_neg h2] at h
          by_cases h3 : isStart t "LIBPATH:" = true
          · rw [if_pos h3] at h; cases h
            obtain ⟨c, hc⟩ := isStart_iff.1 h3
            exact ⟨rfl, c, hc⟩
          · rw [if_neg h3] at h; cases h
    | false =>
      simp only [Bool.false_eq_true, if_false] at h
      by_cases h1 : isStartDash t 'L' = true
      · rw [if_pos h1] at h; cases h
        obtain ⟨w, rfl⟩ := prefix_iff.1 h1
        exact ⟨rfl, rfl⟩
      · rw [if_neg h1] at h
        by_cases h2 : isStartDash t 'l' = true
        · rw [if_pos h2] at h; cases h
          obtain ⟨w, rfl⟩ := prefix_iff.1 h2
          exact ⟨rfl, rfl⟩
        · rw [if_neg h2] at h; cases h
  · intro h
    cases s with
    | ignore =>
      obtain ⟨rfl, c, hc⟩ := h
      obtain ⟨h1, _, h3⟩ := msOption_iff.1 hc
      simp only [slotOf, if_true, h1]
      rw [h3]; rfl
    | default =>
      obtain ⟨rfl, c, hc⟩ := h
      obtain ⟨h1, _, h3⟩ := msOption_iff.1 hc
      have h0 : ¬ isStart t "NODEFAULTLIB:" = true := by
        intro h0; obtain ⟨d, hd⟩ := isStart_iff.1 h0
        exact msOption_disjoint hc hd (by decide)
      simp only [slotOf, if_true, h1, if_neg h0]
      rw [h3]; rfl
    | msPath =>
      obtain ⟨rfl, c, hc⟩ := h
      obtain ⟨h1, _, h3⟩ := msOption_iff.1 hc
      have h0 : ¬ isStart t "NODEFAULTLIB:" = true := by
        intro h0; obtain ⟨d, hd⟩ := isStart_iff.1 h0
        exact msOption_disjoint hc hd (by decide)
      have h2 : ¬ isStart t "DEFAULTLIB:" = true := by
        intro h0; obtain ⟨d, hd⟩ := isStart_iff.1 h0
        exact msOption_disjoint hc hd (by decide)
      simp only [slotOf, if_true, h1, if_neg h0, if_neg h2]
      rw [h3]; rfl
    | path => obtain ⟨rfl, rfl⟩ := h; simp [slotOf, isStartDash]
    | lib => obtain ⟨rfl, rfl⟩ := h; simp [slotOf, isStartDash]

theorem slotOf_none {msvc : Bool} {t : Tok} (h : slotOf msvc t = none) (s : Slot) (v : Tok) : ¬ OptionOf msvc t s v := by
  intro ho
  rw [slotOf_some.2 ho] at h
  cases h

theorem optionOf_dashed {msvc : Bool} {t : Tok} {s : Slot} {v : Tok} (h : OptionOf msvc t s v) : Dashed msvc t := by
  have ms : ∀ {o c w}, MsOption o t c w → msvc = true → Dashed msvc t := by
    rintro o c w ⟨hc, m, rfl, _⟩ hm
    rcases hc with rfl | rfl
    · exact Or.inr ⟨hm, rfl⟩
    · exact Or.inl rfl
  cases s with
  | ignore | default | msPath => obtain ⟨hm, c, hc⟩ := h; exact ms hc hm
  | path | lib => obtain ⟨_, rfl⟩ := h; exact Or.inl rfl

theorem noDefault_not_option {t : Tok} {c : Char} {s : Slot} {v : Tok} (h : MsOption "NODEFAULTLIB" t c []) (ho : OptionOf true t s v) :
    False := by
  cases s with
  | ignore =>
    obtain ⟨_, d, _, m, e, hm⟩ := ho
    obtain ⟨_, n, e', hn⟩ := h
    rw [e'] at e
    simp only [List.append_nil, List.cons_append, List.cons.injEq] at e
    have h1 := congrArg List.length hm
    have h2 := congrArg List.length hn
    have h3 := congrArg List.length e.2
    simp only [List.length_map, List.length_append] at h1 h2 h3
    rw [h2, h1] at h3
    rw [show ("NODEFAULTLIB".toList).length = 12 by decide, show ("NODEFAULTLIB:".toList).length = 13 by decide] at h3
    omega
  | default => obtain ⟨_, d, hd⟩ := ho; exact msOption_disjoint h hd (by decide)
  | msPath => obtain ⟨_, d, hd⟩ := ho; exact msOption_disjoint h hd (by decide)
  | path | lib => obtain ⟨h1, _⟩ := ho; cases h1

theorem mode_not_option {t : Tok} {s : Slot} {v : Tok} (h : ∃ o ∈ dynamicOptions ++ staticOptions, t = o.toList) :
    ¬ OptionOf false t s v := by
  intro ho
  obtain ⟨o, ho', rfl⟩ := h
  have key : ∀ o ∈ dynamicOptions ++ staticOptions, slotOf false o.toList = none := by decide
  have := key o ho'
  rw [slotOf_some.2 ho] at this
  cases this

theorem mode_dashed {t : Tok} (h : ∃ o ∈ dynamicOptions ++ staticOptions, t = o.toList) : Dashed false t := by
  obtain ⟨o, ho', rfl⟩ := h
  have key : ∀ o ∈ dynamicOptions ++ staticOptions, o.toList.head? = some '-' := by decide
  exact Or.inl (key o ho')

/-- an item as `readTokens` deals with it -/
def applyItem (clean : Name → Name) (slash : Char) (p : Parsed) : Item → Parsed
  | .value s raw => store clean slash s raw p
  | .ignoreAll => { p with ignoreAll := true }
  | .mode b => { p with isStatic := b }
  | .input t => { p with libs := p.libs ++ [stripQuotes t] }

theorem placeholder_iff {t : Tok} : ["%", "'%", "\"%"].any (·.toList.isPrefixOf t) = true ↔ Placeholder t := by
  simp only [List.any_cons, List.any_nil, Bool.or_false, Bool.or_eq_true, List.isPrefixOf_iff_prefix]
  constructor
  · rintro (⟨v, rfl⟩ | ⟨v, rfl⟩ | ⟨v, rfl⟩)
    · exact ⟨v, Or.inl rfl⟩
    · exact ⟨v, Or.inr (Or.inl rfl)⟩
    · exact ⟨v, Or.inr (Or.inr rfl)⟩
  · rintro ⟨v, rfl | rfl | rfl⟩
    · exact Or.inl ⟨v, rfl⟩
    · exact Or.inr (Or.inl ⟨v, rfl⟩)
    · exact Or.inr (Or.inr ⟨v, rfl⟩)

theorem any_iff {l : List String} {t : Tok} : l.any (·.toList = t) = true ↔ ∃ o ∈ l, t = o.toList := by
  simp only [List.any_eq_true, decide_eq_true_eq]
  constructor <;> · rintro ⟨o, h, e⟩; exact ⟨o, h, e.symm⟩

/-- the end of the options is where a value is needed -/
inductive EndsOpen (msvc : Bool) : List Tok → Prop
  | mk {ts t s is} : Reads msvc ts is → OptionOf msvc t s [] → EndsOpen msvc (ts ++ [t])

theorem readTokens_spec (clean : Name → Name) (slash : Char) (msvc : Bool) : ∀ (n : Nat) (ts : List Tok), ts.length ≤ n → ∀ p : Parsed,
    (∃ is, Reads msvc ts is ∧ readTokens clean slash msvc none ts p = some (is.foldl (applyItem clean slash) p)) ∨
    (readTokens clean slash msvc none ts p = none ∧ EndsOpen msvc ts) := by
  intro n
  induction n with
  | zero =>
    intro ts h p
    have : ts = [] := by cases ts with | nil => rfl | cons => simp at h
    subst this
    exact Or.inl ⟨[], .nil, by simp [readTokens]⟩
  | succ n ih =>
    intro ts h p
    cases ts with
    | nil => exact Or.inl ⟨[], .nil, by simp [readTokens]⟩
    | cons t ts =>
      have hl : ts.length ≤ n := by simpa using h
      have grow : ∀ {is0 : List Item} {pre : List Tok}, (∀ {us js}, Reads msvc us js → Reads msvc (pre ++ us) (is0 ++ js)) →
          ∀ us, EndsOpen msvc us → EndsOpen msvc (pre ++ us) := by
        intro is0 pre hr us he
        cases he with
        | mk h1 h2 => rw [← List.append_assoc]; exact .mk (hr h1) h2
      rw [readTokens.eq_def]
      dsimp only
      by_cases h1 : (msvc && isArg t "NODEFAULTLIB") = true
      · rw [if_pos h1]
        obtain ⟨hm, ha⟩ := Bool.and_eq_true_iff.1 h1
        obtain ⟨c, hc⟩ := isArg_iff.1 ha
        rcases ih ts hl { p with ignoreAll := true } with ⟨is, hr, e⟩ | ⟨e, he⟩
        · exact Or.inl ⟨.ignoreAll :: is, .ignoreAll hm hc hr, e⟩
        · exact Or.inr ⟨e, grow (is0 := [.ignoreAll]) (pre := [t]) (fun h => .ignoreAll hm hc h) _ he⟩
      · rw [if_neg h1]
        have hnd : msvc = true → ∀ c, ¬ MsOption "NODEFAULTLIB" t c [] := by
          intro hm c hc
          exact h1 (Bool.and_eq_true_iff.2 ⟨hm, isArg_iff.2 ⟨c, hc⟩⟩)
        cases hs : slotOf msvc t with
        | some r =>
          obtain ⟨s, v⟩ := r
          have ho := slotOf_some.1 hs
          cases v with
          | nil =>
            dsimp only
            cases ts with
            | nil => exact Or.inr ⟨by simp [readTokens], EndsOpen.mk (ts := []) .nil ho⟩
            | cons u ts =>
              rw [readTokens]
              rcases ih ts (by simp at h; omega) (store clean slash s u p) with ⟨is, hr, e⟩ | ⟨e, he⟩
              · exact Or.inl ⟨.value s u :: is, .next ho hr, e⟩
              · exact Or.inr ⟨e, grow (is0 := [.value s u]) (pre := [t, u]) (fun h => .next ho h) _ he⟩
          | cons c v =>
            dsimp only
            rcases ih ts hl (store clean slash s (c :: v) p) with ⟨is, hr, e⟩ | ⟨e, he⟩
            · exact Or.inl ⟨.value s (c :: v) :: is, .here ho (by simp) hr, e⟩
            · exact Or.inr ⟨e, grow (is0 := [.value s (c :: v)]) (pre := [t]) (fun h => .here ho (by simp) h) _ he⟩
        | none =>
          dsimp only
          have hno := fun s v => slotOf_none hs s v
          unfold plainToken
          by_cases c1 : (msvc && (decide (t.head? = some '/') || decide (t.head? = some '-'))) = true
          · rw [if_pos c1]
            obtain ⟨hm, hd⟩ := Bool.and_eq_true_iff.1 c1
            have hD : Dashed msvc t := by
              simp only [Bool.or_eq_true, decide_eq_true_eq] at hd
              rcases hd with hd | hd
              · exact Or.inr ⟨hm, hd⟩
              · exact Or.inl hd
            have hfalse : msvc = false → ∀ o ∈ dynamicOptions ++ staticOptions, t ≠ o.toList := by intro h; rw [hm] at h; cases h
            rcases ih ts hl p with ⟨is, hr, e⟩ | ⟨e, he⟩
            · exact Or.inl ⟨is, .other hD hno hnd hfalse hr, e⟩
            · exact Or.inr ⟨e, grow (is0 := []) (pre := [t]) (fun h => .other hD hno hnd hfalse h) _ he⟩
          · rw [if_neg c1]
            by_cases c2 : (! msvc && dynamicOptions.any (·.toList = t)) = true
            · rw [if_pos c2]
              obtain ⟨hm, hd⟩ := Bool.and_eq_true_iff.1 c2
              have hm' : msvc = false := by simpa using hm
              have hx := any_iff.1 hd
              rcases ih ts hl { p with isStatic := false } with ⟨is, hr, e⟩ | ⟨e, he⟩
              · exact Or.inl ⟨.mode false :: is, .dynamic hm' hx hr, e⟩
              · exact Or.inr ⟨e, grow (is0 := [.mode false]) (pre := [t]) (fun h => .dynamic hm' hx h) _ he⟩
            · rw [if_neg c2]
              by_cases c3 : (! msvc && staticOptions.any (·.toList = t)) = true
              · rw [if_pos c3]
                obtain ⟨hm, hd⟩ := Bool.and_eq_true_iff.1 c3
                have hm' : msvc = false := by simpa using hm
                have hx := any_iff.1 hd
                rcases ih ts hl { p with isStatic := true } with ⟨is, hr, e⟩ | ⟨e, he⟩
                · exact Or.inl ⟨.mode true :: is, .static hm' hx hr, e⟩
                · exact Or.inr ⟨e, grow (is0 := [.mode true]) (pre := [t]) (fun h => .static hm' hx h) _ he⟩
              · rw [if_neg c3]
                have hfalse : msvc = false → ∀ o ∈ dynamicOptions ++ staticOptions, t ≠ o.toList := by
                  intro hm o ho e
                  rcases List.mem_append.1 ho with ho | ho
                  · exact c2 (by simp only [hm, Bool.not_false, Bool.true_and]; exact any_iff.2 ⟨o, ho, e⟩)
                  · exact c3 (by simp only [hm, Bool.not_false, Bool.true_and]; exact any_iff.2 ⟨o, ho, e⟩)
                by_cases c4 : (! msvc && decide (t.head? = some '-')) = true
                · rw [if_pos c4]
                  have hD : Dashed msvc t := Or.inl (by simpa using (Bool.and_eq_true_iff.1 c4).2)
                  rcases ih ts hl p with ⟨is, hr, e⟩ | ⟨e, he⟩
                  · exact Or.inl ⟨is, .other hD hno hnd hfalse hr, e⟩
                  · exact Or.inr ⟨e, grow (is0 := []) (pre := [t]) (fun h => .other hD hno hnd hfalse h) _ he⟩
                · rw [if_neg c4]
                  have hD : ¬ Dashed msvc t := by
                    cases msvc
                    · rintro (hd | ⟨hd, _⟩)
                      · exact c4 (by simp [hd])
                      · cases hd
                    · rintro (hd | ⟨_, hd⟩)
                      · exact c1 (by simp [hd])
                      · exact c1 (by simp [hd])
                  by_cases c5 : ["%", "'%", "\"%"].any (·.toList.isPrefixOf t) = true
                  · rw [if_pos c5]
                    have hP := placeholder_iff.1 c5
                    rcases ih ts hl p with ⟨is, hr, e⟩ | ⟨e, he⟩
                    · exact Or.inl ⟨is, .placeholder hD hP hr, e⟩
                    · exact Or.inr ⟨e, grow (is0 := []) (pre := [t]) (fun h => .placeholder hD hP h) _ he⟩
                  · rw [if_neg c5]
                    have hP : ¬ Placeholder t := fun hp => c5 (placeholder_iff.2 hp)
                    rcases ih ts hl { p with libs := p.libs ++ [stripQuotes t] } with ⟨is, hr, e⟩ | ⟨e, he⟩
                    · exact Or.inl ⟨.input t :: is, .input hD hP hr, e⟩
                    · exact Or.inr ⟨e, grow (is0 := [.input t]) (pre := [t]) (fun h => .input hD hP h) _ he⟩

theorem optionOf_unique {msvc : Bool} {t : Tok} {s s' : Slot} {v v' : Tok} (h : OptionOf msvc t s v) (h' : OptionOf msvc t s' v') :
    s' = s ∧ v' = v := by
  have := (slotOf_some.2 h).symm.trans (slotOf_some.2 h')
  simp only [Option.some.injEq, Prod.mk.injEq] at this
  exact ⟨this.1.symm, this.2.symm⟩

theorem dynamic_not_static {t : Tok} (h : ∃ o ∈ dynamicOptions, t = o.toList) (h' : ∃ o ∈ staticOptions, t = o.toList) : False := by
  obtain ⟨o, ho, rfl⟩ := h
  obtain ⟨o', ho', e⟩ := h'
  have key : ∀ a ∈ dynamicOptions, ∀ b ∈ staticOptions, a.toList ≠ b.toList := by decide
  exact key o ho o' ho' e

theorem noDefault_dashed {t : Tok} {c : Char} {msvc : Bool} (hm : msvc = true) (h : MsOption "NODEFAULTLIB" t c []) : Dashed msvc t := by
  obtain ⟨hc, m, rfl, _⟩ := h
  rcases hc with rfl | rfl
  · exact Or.inr ⟨hm, rfl⟩
  · exact Or.inl rfl


/-- the tokens say only one thing -/
theorem reads_unique {msvc : Bool} {ts : List Tok} {is : List Item} (h : Reads msvc ts is) : ∀ {js}, Reads msvc ts js → js = is := by
  have inl : ∀ {t : Tok}, (∃ o ∈ dynamicOptions, t = o.toList) → ∃ o ∈ dynamicOptions ++ staticOptions, t = o.toList :=
    fun ⟨o, h, e⟩ => ⟨o, List.mem_append.2 (Or.inl h), e⟩
  have inr : ∀ {t : Tok}, (∃ o ∈ staticOptions, t = o.toList) → ∃ o ∈ dynamicOptions ++ staticOptions, t = o.toList :=
    fun ⟨o, h, e⟩ => ⟨o, List.mem_append.2 (Or.inr h), e⟩
  induction h with
  | nil => intro js h'; cases h'; rfl
  | here ho hv _ ih =>
    intro js h'
    cases h' with
    | here go gv g => obtain ⟨rfl, rfl⟩ := optionOf_unique ho go; rw [ih g]
    | next go g => obtain ⟨rfl, rfl⟩ := optionOf_unique ho go; exact absurd rfl hv
    | ignoreAll gm gc g => subst gm; exact (noDefault_not_option gc ho).elim
    | dynamic gm go g => subst gm; exact absurd ho (mode_not_option (inl go))
    | static gm go g => subst gm; exact absurd ho (mode_not_option (inr go))
    | other _ gn _ _ g => exact absurd ho (gn _ _)
    | placeholder gd _ _ | input gd _ _ => exact absurd (optionOf_dashed ho) gd
  | next ho _ ih =>
    intro js h'
    cases h' with
    | here go gv g => obtain ⟨rfl, rfl⟩ := optionOf_unique ho go; exact absurd rfl gv
    | next go g => obtain ⟨rfl, _⟩ := optionOf_unique ho go; rw [ih g]
    | ignoreAll gm gc g => subst gm; exact (noDefault_not_option gc ho).elim
    | dynamic gm go g => subst gm; exact absurd ho (mode_not_option (inl go))
    | static gm go g => subst gm; exact absurd ho (mode_not_option (inr go))
    | other _ gn _ _ g => exact absurd ho (gn _ _)
    | placeholder gd _ _ | input gd _ _ => exact absurd (optionOf_dashed ho) gd
  | ignoreAll hm hc _ ih =>
    intro js h'
    subst hm
    cases h' with
    | here go gv g => exact (noDefault_not_option hc go).elim
    | next go g => exact (noDefault_not_option hc go).elim
    | ignoreAll gm gc g => rw [ih g]
    | dynamic gm go g => cases gm
    | static gm go g => cases gm
    | other _ gn ga _ g => exact absurd hc (ga rfl _)
    | placeholder gd _ _ | input gd _ _ => exact absurd (noDefault_dashed rfl hc) gd
  | dynamic hm hx _ ih =>
    intro js h'
    subst hm
    cases h' with
    | here go gv g => exact absurd go (mode_not_option (inl hx))
    | next go g => exact absurd go (mode_not_option (inl hx))
    | ignoreAll gm gc g => cases gm
    | dynamic gm go g => rw [ih g]
    | static gm go g => exact (dynamic_not_static hx go).elim
    | other _ gn ga gf g => obtain ⟨o, h1, h2⟩ := inl hx; exact absurd h2 (gf rfl o h1)
    | placeholder gd _ _ | input gd _ _ => exact absurd (mode_dashed (inl hx)) gd
  | static hm hx _ ih =>
    intro js h'
    subst hm
    cases h' with
    | here go gv g => exact absurd go (mode_not_option (inr hx))
    | next go g => exact absurd go (mode_not_option (inr hx))
    | ignoreAll gm gc g => cases gm
    | dynamic gm go g => exact (dynamic_not_static go hx).elim
    | static gm go g => rw [ih g]
    | other _ gn ga gf g => obtain ⟨o, h1, h2⟩ := inr hx; exact absurd h2 (gf rfl o h1)
    | placeholder gd _ _ | input gd _ _ => exact absurd (mode_dashed (inr hx)) gd
  | other hd hn ha hf _ ih =>
    intro js h'
    cases h' with
    | here go gv g => exact absurd go (hn _ _)
    | next go g => exact absurd go (hn _ _)
    | ignoreAll gm gc g => exact absurd gc (ha gm _)
    | dynamic gm go g => obtain ⟨o, h1, h2⟩ := inl go; exact absurd h2 (hf gm o h1)
    | static gm go g => obtain ⟨o, h1, h2⟩ := inr go; exact absurd h2 (hf gm o h1)
    | other _ _ _ _ g => exact ih g
    | placeholder gd _ _ | input gd _ _ => exact absurd hd gd
  | placeholder hd hp _ ih =>
    intro js h'
    cases h' with
    | here go gv g => exact absurd (optionOf_dashed go) hd
    | next go g => exact absurd (optionOf_dashed go) hd
    | ignoreAll gm gc g => exact absurd (noDefault_dashed gm gc) hd
    | dynamic gm go g => subst gm; exact absurd (mode_dashed (inl go)) hd
    | static gm go g => subst gm; exact absurd (mode_dashed (inr go)) hd
    | other gd _ _ _ g => exact absurd gd hd
    | placeholder _ _ g => exact ih g
    | input _ gp _ => exact absurd hp gp
  | input hd hp _ ih =>
    intro js h'
    cases h' with
    | here go gv g => exact absurd (optionOf_dashed go) hd
    | next go g => exact absurd (optionOf_dashed go) hd
    | ignoreAll gm gc g => exact absurd (noDefault_dashed gm gc) hd
    | dynamic gm go g => subst gm; exact absurd (mode_dashed (inl go)) hd
    | static gm go g => subst gm; exact absurd (mode_dashed (inr go)) hd
    | other gd _ _ _ g => exact absurd gd hd
    | placeholder _ gp _ => exact absurd gp hp
    | input _ _ g => rw [ih g]

end Verif.Link
