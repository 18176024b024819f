import Verif.Link.OtherSpec
/-
The libraries a linker depends on because they are named on its command line: proofs.
-/
namespace Verif.Link
open Verif.Str
open Verif.Cache (Tok)

/-! ### When options end too early -/

theorem readTokens_none {clean : Name → Name} {slash : Char} {msvc : Bool} {t : Tok} (us : List Tok) (p : Parsed)
    (h : msvc = true → ∀ c, ¬ MsOption "NODEFAULTLIB" t c []) :
    readTokens clean slash msvc none (t :: us) p =
      match slotOf msvc t with
      | some (s, []) => readTokens clean slash msvc (some s) us p
      | some (s, c :: v) => readTokens clean slash msvc none us (store clean slash s (c :: v) p)
      | none => readTokens clean slash msvc none us (plainToken msvc t p) := by
  rw [readTokens.eq_def]
  have : ¬ (msvc && isArg t "NODEFAULTLIB") = true := by
    intro hh
    obtain ⟨hm, ha⟩ := Bool.and_eq_true_iff.1 hh
    obtain ⟨c, hc⟩ := isArg_iff.1 ha
    exact h hm c hc
  dsimp only
  rw [if_neg this]
  rcases slotOf msvc t with _ | ⟨s, _ | ⟨c, v⟩⟩ <;> rfl

theorem readTokens_append {clean : Name → Name} {slash : Char} {msvc : Bool} {ts : List Tok} {is : List Item} (h : Reads msvc ts is)
    (us : List Tok) : ∀ p, readTokens clean slash msvc none (ts ++ us) p =
      readTokens clean slash msvc none us (is.foldl (applyItem clean slash) p) := by
  have nd : ∀ {t s v}, OptionOf msvc t s v → msvc = true → ∀ c, ¬ MsOption "NODEFAULTLIB" t c [] := by
    intro t s v ho hm c hc
    subst hm
    exact noDefault_not_option hc ho
  have undashed : ∀ {t : Tok}, ¬ Dashed msvc t → slotOf msvc t = none ∧ (msvc = true → ∀ c, ¬ MsOption "NODEFAULTLIB" t c []) ∧
      (msvc && (decide (t.head? = some '/') || decide (t.head? = some '-'))) = false ∧
      (! msvc && dynamicOptions.any (·.toList = t)) = false ∧ (! msvc && staticOptions.any (·.toList = t)) = false ∧
      (! msvc && decide (t.head? = some '-')) = false := by
    intro t hd
    refine ⟨?_, ?_, ?_, ?_, ?_, ?_⟩
    · cases hs : slotOf msvc t with
      | none => rfl
      | some r => exact absurd (optionOf_dashed (slotOf_some.1 (by rw [hs]))) hd
    · intro hm c hc; exact hd (noDefault_dashed hm hc)
    · cases msvc
      · rfl
      · have h1 : t.head? ≠ some '/' := fun e => hd (Or.inr ⟨rfl, e⟩)
        have h2 : t.head? ≠ some '-' := fun e => hd (Or.inl e)
        simp [h1, h2]
    · cases msvc
      · rw [Bool.not_false, Bool.true_and]
        apply Bool.eq_false_iff.2
        intro hh
        obtain ⟨o, h1, h2⟩ := any_iff.1 hh
        exact hd (mode_dashed ⟨o, List.mem_append.2 (Or.inl h1), h2⟩)
      · rfl
    · cases msvc
      · rw [Bool.not_false, Bool.true_and]
        apply Bool.eq_false_iff.2
        intro hh
        obtain ⟨o, h1, h2⟩ := any_iff.1 hh
        exact hd (mode_dashed ⟨o, List.mem_append.2 (Or.inr h1), h2⟩)
      · rfl
    · have h2 : t.head? ≠ some '-' := fun e => hd (Or.inl e)
      simp [h2]
  induction h with
  | nil => intro p; rfl
  | @here t s v ts is ho hv _ ih =>
    intro p
    cases v with
    | nil => exact absurd rfl hv
    | cons c v =>
      rw [List.cons_append, readTokens_none _ _ (nd ho), slotOf_some.2 ho]
      dsimp only
      rw [ih]; rfl
  | @next t s u ts is ho _ ih =>
    intro p
    rw [List.cons_append, readTokens_none _ _ (nd ho), slotOf_some.2 ho]
    dsimp only
    rw [List.cons_append, readTokens, ih]; rfl
  | @ignoreAll t c ts is hm hc _ ih =>
    intro p
    rw [List.cons_append, readTokens.eq_def]
    dsimp only
    rw [if_pos (Bool.and_eq_true_iff.2 ⟨hm, isArg_iff.2 ⟨c, hc⟩⟩), ih]; rfl
  | @dynamic t ts is hm hx _ ih =>
    intro p
    subst hm
    have hx' : ∃ o ∈ dynamicOptions ++ staticOptions, t = o.toList := by
      obtain ⟨o, h, e⟩ := hx; exact ⟨o, List.mem_append.2 (Or.inl h), e⟩
    have hs : slotOf false t = none := by
      cases hs : slotOf false t with
      | none => rfl
      | some r => exact absurd (slotOf_some.1 (by rw [hs])) (mode_not_option hx')
    rw [List.cons_append, readTokens_none _ _ (by intro h; cases h), hs]
    dsimp only
    have : plainToken false t p = { p with isStatic := false } := by
      unfold plainToken
      rw [if_neg (by simp), if_pos (by rw [any_iff.2 hx]; rfl)]
    rw [this, ih]; rfl
  | @static t ts is hm hx _ ih =>
    intro p
    subst hm
    have hx' : ∃ o ∈ dynamicOptions ++ staticOptions, t = o.toList := by
      obtain ⟨o, h, e⟩ := hx; exact ⟨o, List.mem_append.2 (Or.inr h), e⟩
    have hs : slotOf false t = none := by
      cases hs : slotOf false t with
      | none => rfl
      | some r => exact absurd (slotOf_some.1 (by rw [hs])) (mode_not_option hx')
    rw [List.cons_append, readTokens_none _ _ (by intro h; cases h), hs]
    dsimp only
    have hnd : ¬ (! false && dynamicOptions.any (·.toList = t)) = true := by
      intro hh
      exact dynamic_not_static (any_iff.1 (by simpa using hh)) hx
    have : plainToken false t p = { p with isStatic := true } := by
      unfold plainToken
      rw [if_neg (by simp), if_neg hnd, if_pos (by rw [any_iff.2 hx]; rfl)]
    rw [this, ih]; rfl
  | @other t ts is hd hn ha hf _ ih =>
    intro p
    have hs : slotOf msvc t = none := by
      cases hs : slotOf msvc t with
      | none => rfl
      | some r => exact absurd (slotOf_some.1 (by rw [hs])) (hn _ _)
    rw [List.cons_append, readTokens_none _ _ ha, hs]
    dsimp only
    have : plainToken msvc t p = p := by
      unfold plainToken
      cases msvc with
      | true =>
        have : (decide (t.head? = some '/') || decide (t.head? = some '-')) = true := by
          rcases hd with hd | ⟨_, hd⟩ <;> simp [hd]
        rw [if_pos (by rw [this]; rfl)]
      | false =>
        have h1 : ¬ (! false && dynamicOptions.any (·.toList = t)) = true := by
          intro hh
          obtain ⟨o, h1, h2⟩ := any_iff.1 (show dynamicOptions.any (·.toList = t) = true by simpa using hh)
          exact hf rfl o (List.mem_append.2 (Or.inl h1)) h2
        have h2 : ¬ (! false && staticOptions.any (·.toList = t)) = true := by
          intro hh
          obtain ⟨o, h1, h2⟩ := any_iff.1 (show staticOptions.any (·.toList = t) = true by simpa using hh)
          exact hf rfl o (List.mem_append.2 (Or.inr h1)) h2
        have h3 : t.head? = some '-' := by
          rcases hd with hd | ⟨hd, _⟩
          · exact hd
          · cases hd
        rw [if_neg (by simp), if_neg h1, if_neg h2, if_pos (by simp [h3])]
    rw [this, ih]
  | @placeholder t ts is hd hp _ ih =>
    intro p
    obtain ⟨hs, ha, h1, h2, h3, h4⟩ := undashed hd
    rw [List.cons_append, readTokens_none _ _ ha, hs]
    dsimp only
    have : plainToken msvc t p = p := by
      unfold plainToken
      rw [h1, h2, h3, h4, if_neg (by decide), if_neg (by decide), if_neg (by decide), if_neg (by decide), if_pos (placeholder_iff.2 hp)]
    rw [this, ih]
  | @input t ts is hd hp _ ih =>
    intro p
    obtain ⟨hs, ha, h1, h2, h3, h4⟩ := undashed hd
    rw [List.cons_append, readTokens_none _ _ ha, hs]
    dsimp only
    have : plainToken msvc t p = { p with libs := p.libs ++ [stripQuotes t] } := by
      unfold plainToken
      rw [h1, h2, h3, h4, if_neg (by decide), if_neg (by decide), if_neg (by decide), if_neg (by decide),
        if_neg (fun h => hp (placeholder_iff.1 h))]
    rw [this, ih]; rfl

theorem readTokens_ok {clean : Name → Name} {slash : Char} {msvc : Bool} {ts : List Tok} {is : List Item} (h : Reads msvc ts is) (p : Parsed) :
    readTokens clean slash msvc none ts p = some (is.foldl (applyItem clean slash) p) := by
  have := readTokens_append (clean := clean) (slash := slash) h [] p
  rw [List.append_nil] at this
  rw [this, readTokens]

theorem readTokens_open {clean : Name → Name} {slash : Char} {msvc : Bool} {ts : List Tok} (p : Parsed) :
    readTokens clean slash msvc none ts p = none ↔ EndsOpen msvc ts := by
  constructor
  · intro h
    rcases readTokens_spec clean slash msvc ts.length ts (Nat.le_refl _) p with ⟨is, _, e⟩ | ⟨_, he⟩
    · rw [h] at e; cases e
    · exact he
  · intro h
    cases h with
    | @mk ts t s is hr ho =>
      rw [readTokens_append hr, readTokens_none _ _ (by intro hm c hc; subst hm; exact noDefault_not_option hc ho), slotOf_some.2 ho]
      rfl

/-! ### What is collected -/

theorem values_append (s : Slot) (a b : List Item) : values s (a ++ b) = values s a ++ values s b := by simp [values]
theorem pathsOf_append (clean : Name → Name) (slash : Char) (a b : List Item) :
    pathsOf clean slash (a ++ b) = pathsOf clean slash a ++ pathsOf clean slash b := by simp [pathsOf]
theorem inputsOf_append (a b : List Item) : inputsOf (a ++ b) = inputsOf a ++ inputsOf b := by simp [inputsOf]
theorem modeAfter_append (m : Bool) (a b : List Item) : modeAfter m (a ++ b) = modeAfter (modeAfter m a) b := by simp [modeAfter]

/-- what has been collected after these items -/
structure Collected (clean : Name → Name) (slash : Char) (is : List Item) (p : Parsed) : Prop where
  all : p.ignoreAll = true ↔ .ignoreAll ∈ is
  mode : p.isStatic = modeAfter false is
  ignore : p.ignore = values .ignore is
  defaults : p.defaults = values .default is
  libs : p.libs = inputsOf is
  paths : p.paths = pathsOf clean slash is
  dynamics : ∀ v, v ∈ p.dynamics ↔ DashL is false v ∧ v.head? ≠ some ':'
  statics : ∀ v, v ∈ p.statics ↔ DashL is true v ∧ v.head? ≠ some ':'
  files : ∀ v, v ∈ p.files ↔ ∃ m, DashL is m (':' :: v)

theorem dashL_snoc {is : List Item} {i : Item} {m : Bool} {v : Name} :
    DashL (is ++ [i]) m v ↔ DashL is m v ∨ ∃ raw, i = .value .lib raw ∧ v = stripQuotes raw ∧ modeAfter false is = m := by
  constructor
  · rintro ⟨a, raw, b, e, hv, hm⟩
    rcases List.eq_nil_or_concat b with rfl | ⟨b', j, rfl⟩
    · obtain ⟨h1, h2⟩ := List.append_inj' e rfl
      cases h2
      subst h1
      exact Or.inr ⟨raw, rfl, hv, hm⟩
    · rw [List.concat_eq_append] at e
      have e' : is ++ [i] = (a ++ .value .lib raw :: b') ++ [j] := by rw [e]; simp
      obtain ⟨h1, h2⟩ := List.append_inj' e' rfl
      exact Or.inl ⟨a, raw, b', h1, hv, hm⟩
  · rintro (⟨a, raw, b, rfl, hv, hm⟩ | ⟨raw, rfl, hv, hm⟩)
    · exact ⟨a, raw, b ++ [i], by simp, hv, hm⟩
    · exact ⟨is, raw, [], rfl, hv, hm⟩

theorem dashL_nil {m : Bool} {v : Name} : ¬ DashL [] m v := by
  rintro ⟨a, raw, b, e, _⟩
  simp at e

theorem collected_step {clean : Name → Name} {slash : Char} {is : List Item} {p : Parsed} (h : Collected clean slash is p) (i : Item) :
    Collected clean slash (is ++ [i]) (applyItem clean slash p i) := by
  have keep : ∀ {q : Parsed}, (∀ raw, i ≠ .value .lib raw) → q.dynamics = p.dynamics → q.statics = p.statics → q.files = p.files →
      (∀ v, v ∈ q.dynamics ↔ DashL (is ++ [i]) false v ∧ v.head? ≠ some ':') ∧
      (∀ v, v ∈ q.statics ↔ DashL (is ++ [i]) true v ∧ v.head? ≠ some ':') ∧
      (∀ v, v ∈ q.files ↔ ∃ m, DashL (is ++ [i]) m (':' :: v)) := by
    intro q hi h1 h2 h3
    have hd : ∀ m v, DashL (is ++ [i]) m v ↔ DashL is m v := by
      intro m v
      rw [dashL_snoc]
      constructor
      · rintro (h | ⟨raw, e, _⟩)
        · exact h
        · exact absurd e (hi raw)
      · exact Or.inl
    refine ⟨fun v => ?_, fun v => ?_, fun v => ?_⟩
    · rw [h1, h.dynamics, hd]
    · rw [h2, h.statics, hd]
    · rw [h3, h.files]; simp only [hd]
  have mem : ∀ j : Item, j ∈ is ++ [i] ↔ j ∈ is ∨ j = i := by intro j; simp
  cases i with
  | ignoreAll =>
    obtain ⟨k1, k2, k3⟩ := keep (q := applyItem clean slash p .ignoreAll) (by intro raw e; cases e) rfl rfl rfl
    refine ⟨?_, ?_, ?_, ?_, ?_, ?_, k1, k2, k3⟩
    · simp [applyItem]
    · rw [modeAfter_append]; exact h.mode
    · rw [values_append]; simp [applyItem, h.ignore, values]
    · rw [values_append]; simp [applyItem, h.defaults, values]
    · rw [inputsOf_append]; simp [applyItem, h.libs, inputsOf]
    · rw [pathsOf_append]; simp [applyItem, h.paths, pathsOf]
  | mode b =>
    obtain ⟨k1, k2, k3⟩ := keep (q := applyItem clean slash p (.mode b)) (by intro raw e; cases e) rfl rfl rfl
    refine ⟨?_, ?_, ?_, ?_, ?_, ?_, k1, k2, k3⟩
    · simp [applyItem, h.all]
    · rw [modeAfter_append]; simp [applyItem, modeAfter]
    · rw [values_append]; simp [applyItem, h.ignore, values]
    · rw [values_append]; simp [applyItem, h.defaults, values]
    · rw [inputsOf_append]; simp [applyItem, h.libs, inputsOf]
    · rw [pathsOf_append]; simp [applyItem, h.paths, pathsOf]
  | input t =>
    obtain ⟨k1, k2, k3⟩ := keep (q := applyItem clean slash p (.input t)) (by intro raw e; cases e) rfl rfl rfl
    refine ⟨?_, ?_, ?_, ?_, ?_, ?_, k1, k2, k3⟩
    · simp [applyItem, h.all]
    · rw [modeAfter_append]; exact h.mode
    · rw [values_append]; simp [applyItem, h.ignore, values]
    · rw [values_append]; simp [applyItem, h.defaults, values]
    · rw [inputsOf_append]; simp [applyItem, h.libs, inputsOf]
    · rw [pathsOf_append]; simp [applyItem, h.paths, pathsOf]
  | value s raw =>
    cases s with
    | ignore =>
      obtain ⟨k1, k2, k3⟩ := keep (q := applyItem clean slash p (.value .ignore raw)) (by intro raw e; cases e)
        (by simp only [applyItem, store]; split <;> rfl) (by simp only [applyItem, store]; split <;> rfl)
        (by simp only [applyItem, store]; split <;> rfl)
      refine ⟨?_, ?_, ?_, ?_, ?_, ?_, k1, k2, k3⟩
      · rw [mem]; simp only [applyItem, store]; split <;> simp [h.all]
      · rw [modeAfter_append]; simp only [applyItem, store]; split <;> exact h.mode
      · rw [values_append]; simp only [applyItem, store]; split <;> simp [h.ignore, values, *]
      · rw [values_append]; simp only [applyItem, store]; split <;> simp [h.defaults, values, *]
      · rw [inputsOf_append]; simp only [applyItem, store]; split <;> simp [h.libs, inputsOf]
      · rw [pathsOf_append]; simp only [applyItem, store]; split <;> simp [h.paths, pathsOf, *]
    | default =>
      obtain ⟨k1, k2, k3⟩ := keep (q := applyItem clean slash p (.value .default raw)) (by intro raw e; cases e)
        (by simp only [applyItem, store]; split <;> rfl) (by simp only [applyItem, store]; split <;> rfl)
        (by simp only [applyItem, store]; split <;> rfl)
      refine ⟨?_, ?_, ?_, ?_, ?_, ?_, k1, k2, k3⟩
      · rw [mem]; simp only [applyItem, store]; split <;> simp [h.all]
      · rw [modeAfter_append]; simp only [applyItem, store]; split <;> exact h.mode
      · rw [values_append]; simp only [applyItem, store]; split <;> simp [h.ignore, values, *]
      · rw [values_append]; simp only [applyItem, store]; split <;> simp [h.defaults, values, *]
      · rw [inputsOf_append]; simp only [applyItem, store]; split <;> simp [h.libs, inputsOf]
      · rw [pathsOf_append]; simp only [applyItem, store]; split <;> simp [h.paths, pathsOf, *]
    | msPath =>
      obtain ⟨k1, k2, k3⟩ := keep (q := applyItem clean slash p (.value .msPath raw)) (by intro raw e; cases e)
        (by simp only [applyItem, store]; split <;> rfl) (by simp only [applyItem, store]; split <;> rfl)
        (by simp only [applyItem, store]; split <;> rfl)
      refine ⟨?_, ?_, ?_, ?_, ?_, ?_, k1, k2, k3⟩
      · rw [mem]; simp only [applyItem, store]; split <;> simp [h.all]
      · rw [modeAfter_append]; simp only [applyItem, store]; split <;> exact h.mode
      · rw [values_append]; simp only [applyItem, store]; split <;> simp [h.ignore, values, *]
      · rw [values_append]; simp only [applyItem, store]; split <;> simp [h.defaults, values, *]
      · rw [inputsOf_append]; simp only [applyItem, store]; split <;> simp [h.libs, inputsOf]
      · rw [pathsOf_append]; simp only [applyItem, store]; split <;> simp [h.paths, pathsOf, *]
    | path =>
      obtain ⟨k1, k2, k3⟩ := keep (q := applyItem clean slash p (.value .path raw)) (by intro raw e; cases e)
        (by simp only [applyItem, store]; split <;> rfl) (by simp only [applyItem, store]; split <;> rfl)
        (by simp only [applyItem, store]; split <;> rfl)
      refine ⟨?_, ?_, ?_, ?_, ?_, ?_, k1, k2, k3⟩
      · rw [mem]; simp only [applyItem, store]; split <;> simp [h.all]
      · rw [modeAfter_append]; simp only [applyItem, store]; split <;> exact h.mode
      · rw [values_append]; simp only [applyItem, store]; split <;> simp [h.ignore, values, *]
      · rw [values_append]; simp only [applyItem, store]; split <;> simp [h.defaults, values, *]
      · rw [inputsOf_append]; simp only [applyItem, store]; split <;> simp [h.libs, inputsOf]
      · rw [pathsOf_append]; simp only [applyItem, store]; split <;> simp [h.paths, pathsOf, *]
    | lib =>
      have hd : ∀ m v, DashL (is ++ [.value .lib raw]) m v ↔ DashL is m v ∨ (v = stripQuotes raw ∧ p.isStatic = m) := by
        intro m v
        rw [dashL_snoc, h.mode]
        constructor
        · rintro (h | ⟨r, e, h1, h2⟩)
          · exact Or.inl h
          · cases e; exact Or.inr ⟨h1, h2⟩
        · rintro (h | ⟨h1, h2⟩)
          · exact Or.inl h
          · exact Or.inr ⟨raw, rfl, h1, h2⟩
      refine ⟨?_, ?_, ?_, ?_, ?_, ?_, ?_, ?_, ?_⟩
      · rw [mem]; simp only [applyItem, store]; split
        · simp [h.all]
        · split <;> simp [h.all]
      · rw [modeAfter_append]; simp only [applyItem, store]; split
        · exact h.mode
        · split <;> exact h.mode
      · rw [values_append]; simp only [applyItem, store]; split
        · simp [h.ignore, values]
        · split <;> simp [h.ignore, values]
      · rw [values_append]; simp only [applyItem, store]; split
        · simp [h.defaults, values]
        · split <;> simp [h.defaults, values]
      · rw [inputsOf_append]; simp only [applyItem, store]; split
        · simp [h.libs, inputsOf]
        · split <;> simp [h.libs, inputsOf]
      · rw [pathsOf_append]; simp only [applyItem, store]; split
        · simp [h.paths, pathsOf]
        · split <;> simp [h.paths, pathsOf]
      · intro v
        rw [hd]; simp only [applyItem, store]; split
        · rename_i hc; rw [h.dynamics]
          constructor
          · rintro ⟨h1, h2⟩; exact ⟨Or.inl h1, h2⟩
          · rintro ⟨h1 | ⟨rfl, _⟩, h2⟩
            · exact ⟨h1, h2⟩
            · exact absurd hc h2
        · rename_i hc
          split
          · rename_i hs; rw [h.dynamics]
            constructor
            · rintro ⟨h1, h2⟩; exact ⟨Or.inl h1, h2⟩
            · rintro ⟨h1 | ⟨_, h3⟩, h2⟩
              · exact ⟨h1, h2⟩
              · rw [hs] at h3; cases h3
          · rename_i hs
            rw [List.mem_append, h.dynamics, List.mem_singleton]
            constructor
            · rintro (⟨h1, h2⟩ | rfl)
              · exact ⟨Or.inl h1, h2⟩
              · exact ⟨Or.inr ⟨rfl, by simpa using hs⟩, hc⟩
            · rintro ⟨h1 | ⟨h1, _⟩, h2⟩
              · exact Or.inl ⟨h1, h2⟩
              · exact Or.inr h1
      · intro v
        rw [hd]; simp only [applyItem, store]; split
        · rename_i hc; rw [h.statics]
          constructor
          · rintro ⟨h1, h2⟩; exact ⟨Or.inl h1, h2⟩
          · rintro ⟨h1 | ⟨rfl, _⟩, h2⟩
            · exact ⟨h1, h2⟩
            · exact absurd hc h2
        · rename_i hc
          split
          · rename_i hs
            rw [List.mem_append, h.statics, List.mem_singleton]
            constructor
            · rintro (⟨h1, h2⟩ | rfl)
              · exact ⟨Or.inl h1, h2⟩
              · exact ⟨Or.inr ⟨rfl, hs⟩, hc⟩
            · rintro ⟨h1 | ⟨h1, _⟩, h2⟩
              · exact Or.inl ⟨h1, h2⟩
              · exact Or.inr h1
          · rename_i hs; rw [h.statics]
            constructor
            · rintro ⟨h1, h2⟩; exact ⟨Or.inl h1, h2⟩
            · rintro ⟨h1 | ⟨_, h3⟩, h2⟩
              · exact ⟨h1, h2⟩
              · exact absurd h3 hs
      · intro v
        simp only [hd, applyItem, store]; split
        · rename_i hc
          rw [List.mem_append, h.files, List.mem_singleton]
          constructor
          · rintro (⟨m, h1⟩ | rfl)
            · exact ⟨m, Or.inl h1⟩
            · refine ⟨p.isStatic, Or.inr ⟨?_, rfl⟩⟩
              cases hq : stripQuotes raw with
              | nil => rw [hq] at hc; cases hc
              | cons a r => rw [hq] at hc; simp only [List.head?_cons, Option.some.injEq] at hc; simp [hc]
          · rintro ⟨m, h1 | ⟨h1, _⟩⟩
            · exact Or.inl ⟨m, h1⟩
            · rw [← h1]; exact Or.inr rfl
        · rename_i hc
          have : v ∈ p.files ↔ ∃ m, DashL is m (':' :: v) ∨ (':' :: v) = stripQuotes raw ∧ p.isStatic = m := by
            rw [h.files]
            constructor
            · rintro ⟨m, h1⟩; exact ⟨m, Or.inl h1⟩
            · rintro ⟨m, h1 | ⟨h1, _⟩⟩
              · exact ⟨m, h1⟩
              · rw [← h1] at hc; exact absurd rfl hc
          split <;> exact this

theorem collected (clean : Name → Name) (slash : Char) (is : List Item) : Collected clean slash is (is.foldl (applyItem clean slash) {}) := by
  have : ∀ (is js : List Item) (p : Parsed), Collected clean slash js p → Collected clean slash (js ++ is) (is.foldl (applyItem clean slash) p) := by
    intro is
    induction is with
    | nil => intro js p h; simpa using h
    | cons i is ih =>
      intro js p h
      have := ih (js ++ [i]) _ (collected_step h i)
      simpa using this
  have := this is [] {} ⟨by simp, rfl, rfl, rfl, rfl, rfl, by intro v; simp [dashL_nil], by intro v; simp [dashL_nil], by intro v; simp [dashL_nil]⟩
  simpa using this

/-! ### Default libraries -/

theorem mem_eraseI {n x : Name} {ds : List Name} (h : x ∈ eraseI n ds) : x ∈ ds := by
  induction ds with
  | nil => simp [eraseI] at h
  | cons d ds ih =>
    rw [eraseI] at h
    split at h
    · exact List.mem_cons_of_mem _ h
    · rcases List.mem_cons.1 h with rfl | h
      · simp
      · exact List.mem_cons_of_mem _ (ih h)

theorem mem_eraseI_of {n x : Name} {ds : List Name} (h : x ∈ ds) (hn : sameI n x = false) : x ∈ eraseI n ds := by
  induction ds with
  | nil => simp at h
  | cons d ds ih =>
    rw [eraseI]
    rcases List.mem_cons.1 h with rfl | h
    · rw [hn]; simp
    · split
      · exact h
      · exact List.mem_cons_of_mem _ (ih h)

/-- no two are the same up to case -/
def DistinctI (ds : List Name) : Prop := ds.Pairwise fun a b => a.map lower ≠ b.map lower

theorem eraseI_distinct {n : Name} {ds : List Name} (h : DistinctI ds) : DistinctI (eraseI n ds) ∧ ∀ x ∈ eraseI n ds, sameI n x = false := by
  induction ds with
  | nil => exact ⟨by simp [eraseI, DistinctI], by simp [eraseI]⟩
  | cons d ds ih =>
    have hd := List.pairwise_cons.1 h
    rw [eraseI]
    split
    · rename_i hs
      refine ⟨hd.2, fun x hx => ?_⟩
      have h1 := hd.1 x hx
      apply Bool.eq_false_iff.2
      intro h2
      exact h1 ((sameI_iff.1 hs).symm.trans (sameI_iff.1 h2))
    · rename_i hs
      obtain ⟨i1, i2⟩ := ih hd.2
      refine ⟨List.pairwise_cons.2 ⟨fun x hx => hd.1 x (mem_eraseI hx), i1⟩, fun x hx => ?_⟩
      rcases List.mem_cons.1 hx with rfl | hx
      · exact Bool.eq_false_iff.2 hs
      · exact i2 x hx

theorem mem_foldl_eraseI {x : Name} (ns : List Name) : ∀ ds, DistinctI ds →
    (x ∈ ns.foldl (fun ds n => eraseI n ds) ds ↔ x ∈ ds ∧ ∀ n ∈ ns, sameI n x = false) := by
  induction ns with
  | nil => intro ds _; simp
  | cons n ns ih =>
    intro ds h
    obtain ⟨h1, h2⟩ := eraseI_distinct (n := n) h
    rw [List.foldl_cons, ih _ h1]
    constructor
    · rintro ⟨a, b⟩
      refine ⟨mem_eraseI a, fun m hm => ?_⟩
      rcases List.mem_cons.1 hm with rfl | hm
      · exact h2 x a
      · exact b m hm
    · rintro ⟨a, b⟩
      exact ⟨mem_eraseI_of a (b n (by simp)), fun m hm => b m (List.mem_cons_of_mem _ hm)⟩

theorem foldl_eraseI_keeps {x : Name} (ns : List Name) : ∀ ds, x ∈ ds → (∀ n ∈ ns, sameI n x = false) →
    x ∈ ns.foldl (fun ds n => eraseI n ds) ds := by
  induction ns with
  | nil => intro ds h _; exact h
  | cons n ns ih => intro ds h hn; exact ih _ (mem_eraseI_of h (hn n (by simp))) (fun m hm => hn m (List.mem_cons_of_mem _ hm))

/-! ### What is found -/

/-- the first of these names for which there is something -/
def FirstHit (look : Name → Found) (f : Found) (names : List Name) (n : Name) : Prop :=
  ∃ a b, names = a ++ n :: b ∧ look n = f ∧ ∀ m ∈ a, look m = .nothing

/-- one of the files named on the command line, or a default library that is not ignored -/
def NamedFile (is : List Item) (lib : Name) : Prop :=
  lib ∈ inputsOf is ∨ lib ∈ values .default is ∧ .ignoreAll ∉ is ∧ ∀ i ∈ values .ignore is, i.map lower ≠ lib.map lower

/-- a path with a drive letter -/
def Drive (lib : Name) : Prop := ∃ c d r, lib = c :: ':' :: d :: r

/-- `n` is what is found for something the options name, and it is a file or not (`f`): for a file with a drive letter, this file; for
other files the first path that has it; for `-l` the first path that has the shared library or else the static one; for `-l` after
`-Bstatic` the first path that has the static library; for `-l:` the first path that has the file -/
inductive Hit (clean : Name → Name) (slash : Char) (look : Name → Found) (msvc : Bool) (paths : List Name) (is : List Item) (f : Found) (n : Name) :
    Prop
  | drive {lib} : NamedFile is lib → Drive lib → n = clean lib → look n = f → Hit clean slash look msvc paths is f n
  | named {lib} : NamedFile is lib → ¬ Drive lib → FirstHit look f (paths.map (candidate clean slash · lib)) n →
      Hit clean slash look msvc paths is f n
  | shared {lib a path b} : msvc = false → DashL is false lib → lib.head? ≠ some ':' → paths = a ++ path :: b →
      (∀ q ∈ a, ∀ e ∈ [".so", ".a"], look (candidate clean slash q ("lib".toList ++ lib ++ e.toList)) = .nothing) →
      (n = candidate clean slash path ("lib".toList ++ lib ++ ".so".toList) ∨
        look (candidate clean slash path ("lib".toList ++ lib ++ ".so".toList)) = .nothing ∧
          n = candidate clean slash path ("lib".toList ++ lib ++ ".a".toList)) → look n = f → Hit clean slash look msvc paths is f n
  | static {lib} : msvc = false → DashL is true lib → lib.head? ≠ some ':' →
      FirstHit look f (paths.map (candidate clean slash · ("lib".toList ++ lib ++ ".a".toList))) n → Hit clean slash look msvc paths is f n
  | file {lib m} : msvc = false → DashL is m (':' :: lib) → FirstHit look f (paths.map (candidate clean slash · lib)) n →
      Hit clean slash look msvc paths is f n

theorem firstOf_some {look : Name → Found} {n : Name} : ∀ {names ds}, firstOf look names = some ds → (n ∈ ds ↔ FirstHit look .file names n) := by
  intro names
  induction names with
  | nil =>
    intro ds h
    simp only [firstOf, Option.some.injEq] at h
    subst h
    constructor
    · intro h; cases h
    · rintro ⟨a, b, e, _⟩; simp at e
  | cons x names ih =>
    intro ds h
    rw [firstOf] at h
    cases hx : look x with
    | file =>
      rw [hx] at h
      simp only [Option.some.injEq] at h
      subst h
      constructor
      · intro h
        rw [List.mem_singleton] at h
        subst h
        exact ⟨[], names, rfl, hx, by simp⟩
      · rintro ⟨a, b, e, h1, h2⟩
        cases a with
        | nil => cases e; simp
        | cons y a => cases e; have := h2 x (by simp); rw [hx] at this; cases this
    | notFile => rw [hx] at h; cases h
    | nothing =>
      rw [hx] at h
      rw [ih h]
      constructor
      · rintro ⟨a, b, rfl, h1, h2⟩
        refine ⟨x :: a, b, rfl, h1, fun m hm => ?_⟩
        rcases List.mem_cons.1 hm with rfl | hm
        · exact hx
        · exact h2 m hm
      · rintro ⟨a, b, e, h1, h2⟩
        cases a with
        | nil => cases e; rw [hx] at h1; cases h1
        | cons y a => cases e; exact ⟨a, b, rfl, h1, fun m hm => h2 m (List.mem_cons_of_mem _ hm)⟩

theorem firstOf_none {look : Name → Found} : ∀ {names}, firstOf look names = none ↔ ∃ n, FirstHit look .notFile names n := by
  intro names
  induction names with
  | nil =>
    simp only [firstOf, false_iff, reduceCtorEq]
    rintro ⟨n, a, b, e, _⟩
    simp at e
  | cons x names ih =>
    rw [firstOf]
    cases hx : look x with
    | file =>
      simp only [false_iff, reduceCtorEq]
      rintro ⟨n, a, b, e, h1, h2⟩
      cases a with
      | nil => cases e; rw [hx] at h1; cases h1
      | cons y a => cases e; have := h2 x (by simp); rw [hx] at this; cases this
    | notFile => simp only [true_iff]; exact ⟨x, [], names, rfl, hx, by simp⟩
    | nothing =>
      dsimp only
      rw [ih]
      constructor
      · rintro ⟨n, a, b, rfl, h1, h2⟩
        refine ⟨n, x :: a, b, rfl, h1, fun m hm => ?_⟩
        rcases List.mem_cons.1 hm with rfl | hm
        · exact hx
        · exact h2 m hm
      · rintro ⟨n, a, b, e, h1, h2⟩
        cases a with
        | nil => cases e; rw [hx] at h1; cases h1
        | cons y a => cases e; exact ⟨n, a, b, rfl, h1, fun m hm => h2 m (List.mem_cons_of_mem _ hm)⟩

theorem allOf_none {look : Name → Found} : ∀ {cs}, allOf look cs = none ↔ ∃ c ∈ cs, ∃ n, FirstHit look .notFile c n := by
  intro cs
  induction cs with
  | nil => simp [allOf]
  | cons c cs ih =>
    rw [allOf]
    cases h1 : firstOf look c with
    | none =>
      simp only [true_iff]
      exact ⟨c, by simp, firstOf_none.1 h1⟩
    | some a =>
      have hc : ¬ ∃ n, FirstHit look .notFile c n := by rw [← firstOf_none, h1]; simp
      cases h2 : allOf look cs with
      | none =>
        simp only [true_iff]
        obtain ⟨d, hd, hn⟩ := ih.1 h2
        exact ⟨d, List.mem_cons_of_mem _ hd, hn⟩
      | some b =>
        simp only [false_iff, reduceCtorEq]
        rintro ⟨d, hd, hn⟩
        rcases List.mem_cons.1 hd with rfl | hd
        · exact hc hn
        · have := ih.2 ⟨d, hd, hn⟩; rw [h2] at this; cases this

theorem allOf_some {look : Name → Found} {n : Name} : ∀ {cs ds}, allOf look cs = some ds → (n ∈ ds ↔ ∃ c ∈ cs, FirstHit look .file c n) := by
  intro cs
  induction cs with
  | nil => intro ds h; simp only [allOf, Option.some.injEq] at h; subst h; simp
  | cons c cs ih =>
    intro ds h
    rw [allOf] at h
    cases h1 : firstOf look c with
    | none => rw [h1] at h; cases h
    | some a =>
      cases h2 : allOf look cs with
      | none => rw [h1, h2] at h; cases h
      | some b =>
        rw [h1, h2] at h
        simp only [Option.some.injEq] at h
        subst h
        rw [List.mem_append, firstOf_some h1, ih h2]
        simp

theorem drive_iff {lib : Name} : (lib.length > 2 ∧ lib[1]? = some ':') ↔ Drive lib := by
  constructor
  · rintro ⟨h1, h2⟩
    match lib, h1, h2 with
    | c :: e :: d :: r, _, h2 => simp at h2; subst h2; exact ⟨c, d, r, rfl⟩
  · rintro ⟨c, d, r, rfl⟩; simp

/-- the first path at which one of two names is there -/
theorem firstHit_pairs {look : Name → Found} {f : Found} (x y : Name → Name) {n : Name} : ∀ {paths : List Name},
    FirstHit look f (paths.flatMap fun p => [x p, y p]) n ↔ (∃ a p b, paths = a ++ p :: b ∧ (∀ q ∈ a, look (x q) = .nothing ∧ look (y q) = .nothing) ∧
      (n = x p ∨ look (x p) = .nothing ∧ n = y p) ∧ look n = f) := by
  intro paths
  induction paths with
  | nil =>
    constructor
    · rintro ⟨a, b, e, _⟩; simp at e
    · rintro ⟨a, p, b, e, _⟩; simp at e
  | cons q paths ih =>
    rw [List.flatMap_cons]
    constructor
    · rintro ⟨a, b, e, h1, h2⟩
      match a, e, h2 with
      | [], e, _ =>
        simp only [List.cons_append, List.nil_append, List.cons.injEq] at e
        exact ⟨[], q, paths, rfl, by simp, Or.inl e.1.symm, h1⟩
      | [u], e, h2 =>
        simp only [List.cons_append, List.nil_append, List.cons.injEq] at e
        obtain ⟨rfl, e2, _⟩ := e
        exact ⟨[], q, paths, rfl, by simp, Or.inr ⟨h2 _ (by simp), e2.symm⟩, h1⟩
      | u :: v :: a, e, h2 =>
        simp only [List.cons_append, List.nil_append, List.cons.injEq] at e
        obtain ⟨rfl, rfl, e3⟩ := e
        obtain ⟨a', p, b', rfl, g1, g2, g3⟩ := ih.1 ⟨a, b, e3, h1, fun m hm => h2 m (by simp [hm])⟩
        refine ⟨q :: a', p, b', rfl, fun r hr => ?_, g2, g3⟩
        rcases List.mem_cons.1 hr with rfl | hr
        · exact ⟨h2 _ (by simp), h2 _ (by simp)⟩
        · exact g1 r hr
    · rintro ⟨a, p, b, e, g1, g2, g3⟩
      cases a with
      | nil =>
        cases e
        rcases g2 with rfl | ⟨g2, rfl⟩
        · exact ⟨[], y q :: paths.flatMap fun p => [x p, y p], rfl, g3, by simp⟩
        · exact ⟨[x q], paths.flatMap fun p => [x p, y p], rfl, g3, by simpa using g2⟩
      | cons r a =>
        cases e
        obtain ⟨a', b', e', h1, h2⟩ := ih.2 ⟨a, p, b, rfl, fun r hr => g1 r (List.mem_cons_of_mem _ hr), g2, g3⟩
        obtain ⟨k1, k2⟩ := g1 q (by simp)
        refine ⟨x q :: y q :: a', b', by rw [e']; rfl, h1, fun m hm => ?_⟩
        rcases List.mem_cons.1 hm with rfl | hm
        · exact k1
        · rcases List.mem_cons.1 hm with rfl | hm
          · exact k2
          · exact h2 m hm

/-- what is tried is what the options name -/
theorem wanted_hit {clean : Name → Name} {slash : Char} {look : Name → Found} {msvc : Bool} {env : List Name} {is : List Item} {p : Parsed}
    (hp : Collected clean slash is p) (hd : DistinctI (values .default is)) {f : Found} {n : Name} :
    (∃ c ∈ wanted clean slash msvc env p, FirstHit look f c n) ↔ Hit clean slash look msvc (pathsOf clean slash is ++ env) is f n := by
  have hdef : ∀ lib, lib ∈ p.libs ++ keptDefaults p ↔ NamedFile is lib := by
    intro lib
    rw [List.mem_append, hp.libs]
    unfold NamedFile keptDefaults
    by_cases ha : p.ignoreAll = true
    · rw [if_pos ha]
      have := hp.all.1 ha
      simp [this]
    · rw [if_neg ha]
      have hna : .ignoreAll ∉ is := fun h => ha (hp.all.2 h)
      rw [hp.defaults, hp.ignore, mem_foldl_eraseI _ _ hd]
      simp only [sameI, beq_eq_false_iff_ne, ne_eq, hna, not_false_eq_true, true_and]
  have hfile : ∀ lib, FirstHit look f (fileCandidates clean slash (p.paths ++ env) lib) n ↔
      (Drive lib ∧ n = clean lib ∧ look n = f) ∨ (¬ Drive lib ∧ FirstHit look f ((p.paths ++ env).map (candidate clean slash · lib)) n) := by
    intro lib
    unfold fileCandidates
    by_cases hdr : Drive lib
    · rw [if_pos (drive_iff.2 hdr)]
      constructor
      · rintro ⟨a, b, e, h1, h2⟩
        cases a with
        | nil => simp only [List.nil_append, List.cons.injEq] at e; exact Or.inl ⟨hdr, by rw [← e.1]; simp [candidate], h1⟩
        | cons y a => simp at e
      · rintro (⟨_, rfl, h⟩ | ⟨h, _⟩)
        · exact ⟨[], [], by simp [candidate], h, by simp⟩
        · exact absurd hdr h
    · rw [if_neg (fun h => hdr (drive_iff.1 h))]
      simp [hdr]
  rw [← hp.paths]
  unfold wanted
  constructor
  · rintro ⟨c, hc, hh⟩
    rcases List.mem_append.1 hc with hc | hc
    · obtain ⟨lib, hl, rfl⟩ := List.mem_map.1 hc
      have hl' := (hdef lib).1 hl
      rcases (hfile lib).1 hh with ⟨h1, h2, h3⟩ | ⟨h1, h2⟩
      · exact .drive hl' h1 h2 h3
      · exact .named hl' h1 h2
    · cases msvc with
      | true => simp at hc
      | false =>
        simp only [Bool.false_eq_true, if_false, List.mem_append, List.mem_map] at hc
        rcases hc with (⟨lib, hl, rfl⟩ | ⟨lib, hl, rfl⟩) | ⟨lib, hl, rfl⟩
        · obtain ⟨h1, h2⟩ := (hp.dynamics lib).1 hl
          obtain ⟨a, path, b, e, g1, g2, g3⟩ := (firstHit_pairs
            (fun p => candidate clean slash p ("lib".toList ++ lib ++ ".so".toList))
            (fun p => candidate clean slash p ("lib".toList ++ lib ++ ".a".toList))).1 hh
          refine .shared rfl h1 h2 e (fun q hq x hx => ?_) g2 g3
          rcases List.mem_cons.1 hx with rfl | hx
          · exact (g1 q hq).1
          · rw [List.mem_singleton] at hx; subst hx; exact (g1 q hq).2
        · obtain ⟨h1, h2⟩ := (hp.statics lib).1 hl
          exact .static rfl h1 h2 hh
        · obtain ⟨m, hm⟩ := (hp.files lib).1 hl
          exact .file rfl hm hh
  · intro h
    cases h with
    | @drive lib h1 h2 h3 h4 =>
      exact ⟨_, List.mem_append.2 (Or.inl (List.mem_map.2 ⟨lib, (hdef lib).2 h1, rfl⟩)), (hfile lib).2 (Or.inl ⟨h2, h3, h4⟩)⟩
    | @named lib h1 h2 h3 =>
      exact ⟨_, List.mem_append.2 (Or.inl (List.mem_map.2 ⟨lib, (hdef lib).2 h1, rfl⟩)), (hfile lib).2 (Or.inr ⟨h2, h3⟩)⟩
    | @shared lib a path b hm h1 h2 e g1 g2 g3 =>
      subst hm
      refine ⟨dynamicCandidates clean slash (p.paths ++ env) lib, List.mem_append.2 (Or.inr ?_), ?_⟩
      · simp only [Bool.false_eq_true, if_false, List.mem_append, List.mem_map]
        exact Or.inl (Or.inl ⟨lib, (hp.dynamics lib).2 ⟨h1, h2⟩, rfl⟩)
      · exact (firstHit_pairs
            (fun p => candidate clean slash p ("lib".toList ++ lib ++ ".so".toList))
            (fun p => candidate clean slash p ("lib".toList ++ lib ++ ".a".toList))).2
          ⟨a, path, b, e, fun q hq => ⟨g1 q hq ".so" (by simp), g1 q hq ".a" (by simp)⟩, g2, g3⟩
    | @static lib hm h1 h2 h3 =>
      subst hm
      refine ⟨_, List.mem_append.2 (Or.inr ?_), h3⟩
      simp only [Bool.false_eq_true, if_false, List.mem_append, List.mem_map]
      exact Or.inl (Or.inr ⟨lib, (hp.statics lib).2 ⟨h1, h2⟩, rfl⟩)
    | @file lib m hm h1 h2 =>
      subst hm
      refine ⟨_, List.mem_append.2 (Or.inr ?_), h2⟩
      simp only [Bool.false_eq_true, if_false, List.mem_append, List.mem_map]
      exact Or.inr ⟨lib, (hp.files lib).2 ⟨m, h1⟩, rfl⟩

end Verif.Link
