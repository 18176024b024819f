import Verif.Args.Unique
/-
C77 and C78: the options of a command line reach the compiler.
-/
namespace Verif.Args
open Verif.Str
open Verif.Cache (Tok isArg isStart isArg_iff isStart_iff)

/-- Related one by one. -/
inductive Each {α β : Type} (R : α → β → Prop) : List α → List β → Prop
  | nil : Each R [] []
  | cons {a b as bs} : R a b → Each R as bs → Each R (a :: as) (b :: bs)

/-! ### C77 -/

/-- The words the compiler is given are exactly those the description of the pass makes of the tokens, in this order, and
the options added. -/
theorem C77_words {d : Driver} {c : Ctx} {pass : Pass} {si : Bool} {line : List Char} {a : Args}
    (h : buildArgs d c pass si line = some a) :
    ∃ ws, Forwarded d c pass (tokenize ' ' line) ws ∧ (∀ ws', Forwarded d c pass (tokenize ' ' line) ws' → ws' = ws) ∧
      Laid (ws ++ extras d c pass si) a.text ∧
      ((∀ w ∈ ws ++ extras d c pass si, Word w) → tokenize ' ' a.text = ws ++ extras d c pass si) := by
  obtain ⟨ws, h1, h2⟩ := buildArgs_laid h
  exact ⟨ws, h1, fun ws' h' => forwarded_unique h' h1, h2, tokenize_laid h2⟩

theorem forwarded_compile {d : Driver} {c : Ctx} {ts ws : List Tok} (h : Forwarded d c .compile ts ws) :
    ∃ wss, Each (Becomes d c) ts wss ∧ ws = wss.flatten := by
  induction h with
  | nil => exact ⟨[], .nil, rfl⟩
  | removed hp => obtain ⟨r, hr, _⟩ := picks_mem hp; simp [passRules] at hr
  | removedValue hp => obtain ⟨r, hr, _⟩ := picks_mem hp; simp [passRules] at hr
  | replaced hr => cases hr
  | replacedValue hr => cases hr
  | plain _ _ hb _ ih =>
    obtain ⟨wss, h1, rfl⟩ := ih
    exact ⟨_ :: wss, .cons hb h1, rfl⟩

/-- Compiling from the source file: every token reaches the compiler, in order. Tokens are dropped only if they are
options which every pass leaves out, and changed only by filling in placeholders. -/
theorem C77_compile {d : Driver} {c : Ctx} {si : Bool} {line : List Char} {a : Args}
    (h : buildArgs d c .compile si line = some a) :
    ∃ wss, Each (Becomes d c) (tokenize ' ' line) wss ∧ Laid (wss.flatten ++ extras d c .compile si) a.text := by
  obtain ⟨ws, h1, h2⟩ := buildArgs_laid h
  obtain ⟨wss, h3, rfl⟩ := forwarded_compile h1
  exact ⟨wss, h3, h2⟩

/-- There is a command line, unless a token is one of those the drivers cannot deal with. -/
theorem C77_defined {d : Driver} {c : Ctx} {pass : Pass} {si : Bool} {line : List Char}
    (h : ∀ t ∈ tokenize ' ' line, ¬ Undefined d c pass t) : ∃ a, buildArgs d c pass si line = some a := by
  unfold buildArgs
  cases hl : loop (process d c pass) false (tokenize ' ' line) with
  | some cs => exact ⟨_, rfl⟩
  | none =>
    obtain ⟨t, ht, hu⟩ := (loop_spec d c pass (tokenize ' ' line) false).2 hl
    exact absurd hu (h t ht)

/-- A token without placeholders which no driver treats specially. -/
def Ordinary (d : Driver) (c : Ctx) (t : Tok) : Prop :=
  Free (commonRules d c.colored) t ∧ '%' ∉ t ∧ ¬ Slashed d t

theorem noHole_of {n : Char} {t : Tok} (h : '%' ∉ t) : NoHole n t := by
  rintro u v rfl
  simp at h

theorem ordinary_becomes {d : Driver} {c : Ctx} {t : Tok} (h : Ordinary d c t) : Becomes d c t [t] :=
  .filled h.1 (.kept h.2.2 (fun _ => ⟨noHole_of h.2.1, noHole_of h.2.1⟩) (noHole_of h.2.1) (noHole_of h.2.1))

theorem each_ordinary {d : Driver} {c : Ctx} {ts : List Tok} {wss : List (List Tok)} (h : Each (Becomes d c) ts wss)
    (ho : ∀ t ∈ ts, Ordinary d c t) : wss.flatten = ts := by
  induction h with
  | nil => rfl
  | @cons t ws ts wss hb _ ih =>
    rw [List.flatten_cons, ih fun x hx => ho x (List.mem_cons_of_mem _ hx),
      becomes_unique hb (ordinary_becomes (ho t (by simp)))]
    rfl

/-- Ordinary tokens reach the compiler unchanged. -/
theorem C77_ordinary {d : Driver} {c : Ctx} {si : Bool} {line : List Char} (hq : Closed line)
    (ho : ∀ t ∈ tokenize ' ' line, Ordinary d c t) (he : ∀ w ∈ extras d c .compile si, Word w) :
    ∃ a, buildArgs d c .compile si line = some a ∧ tokenize ' ' a.text = tokenize ' ' line ++ extras d c .compile si := by
  obtain ⟨a, ha⟩ := C77_defined (d := d) (c := c) (pass := .compile) (si := si) (line := line) (by
    rintro t ht ⟨_, ⟨_, h⟩ | ⟨_, h, _⟩⟩
    · exact h (noHole_of (ho t ht).2.1)
    · cases h)
  obtain ⟨wss, h1, h2⟩ := C77_compile ha
  rw [each_ordinary h1 ho] at h2
  refine ⟨a, ha, tokenize_laid h2 ?_⟩
  intro w hw
  rcases List.mem_append.1 hw with hw | hw
  · exact words_tokenize hq w hw
  · exact he w hw

/-- Only one placeholder of a token is filled in. -/
theorem C77_second_kept (d : Driver) (c : Ctx) : Becomes d c "%1%2".toList [c.input ++ "%2".toList] := by
  have h3 : ∀ n : Char, n ≠ '1' → n ≠ '2' → NoHole n "%1%2".toList := by
    intro n h1 h2 u v e
    match u, e with
    | [], e => simp at e; exact h1 e.1.symm
    | [_], e => simp at e
    | [_, _], e => simp at e; exact h2 e.2.2.1.symm
    | [_, _, _], e => simp at e
    | _ :: _ :: _ :: _ :: u, e => have := congrArg List.length e; simp at this
  have hs : ¬ Slashed d "%1%2".toList := by
    rintro ⟨_, m, e | e⟩ <;> simp at e
  refine .filled ?_ (.input (u := []) (v := "%2".toList) hs (fun _ => ⟨h3 _ (by decide) (by decide), h3 _ (by decide) (by decide)⟩) ⟨rfl, by simp⟩)
  rw [← byRules_no (good_common _ _)]
  cases d <;> first | rfl | (cases c.colored <;> rfl)

/-! ### C78 -/

/-- The token takes the next one with it. -/
def Opens (d : Driver) (c : Ctx) (pass : Pass) (t : Tok) : Prop :=
  Picks (passRules d c.isLocal pass) t true ∨ ∃ next vs, Replaced c d pass t next vs true

/-- What becomes of a token no rule of the pass applies to. -/
def Gives (d : Driver) (c : Ctx) (pass : Pass) (t next : Tok) (vs : List Tok) : Prop :=
  (∃ b, Replaced c d pass t next vs b) ∨ Free (passRules d c.isLocal pass) t ∧ Becomes d c t vs

theorem replaced_next {c : Ctx} {d : Driver} {pass : Pass} {t next next' : Tok} {vs : List Tok}
    (h : Replaced c d pass t next vs false) : Replaced c d pass t next' vs false := by
  cases h with
  | winrt ht => exact .winrt ht
  | «include» h1 h2 h3 h4 => exact .include h1 h2 h3 h4

theorem not_replaced_nil {c : Ctx} {d : Driver} {pass : Pass} {t next : Tok} (h : ∀ vs b, ¬ Replaced c d pass t next vs b) :
    ∀ vs b, ¬ Replaced c d pass t [] vs b := by
  intro vs b hr
  cases hr with
  | winrt ht => exact h _ _ (.winrt ht)
  | language _ _ hn _ => exact hn rfl
  | «include» h1 h2 h3 h4 => exact h _ _ (.include h1 h2 h3 h4)

/-- The tokens before and behind a place are forwarded separately, unless the token before the place takes the next
one with it. -/
theorem forwarded_split {d : Driver} {c : Ctx} {pass : Pass} (v : List Tok) : ∀ (n : Nat) (u ws : List Tok), u.length ≤ n →
    Forwarded d c pass (u ++ v) ws → (∀ x, u.getLast? = some x → ¬ Opens d c pass x) →
    ∃ ws' ws'', ws = ws' ++ ws'' ∧ Forwarded d c pass u ws' ∧ Forwarded d c pass v ws'' := by
  intro n
  induction n with
  | zero =>
    intro u ws hl h _
    have : u = [] := List.length_eq_zero_iff.1 (by omega)
    subst this
    exact ⟨[], ws, rfl, .nil, h⟩
  | succ n ih =>
    intro u ws hl h ho
    cases u with
    | nil => exact ⟨[], ws, rfl, .nil, h⟩
    | cons x u =>
      have hl' : u.length ≤ n := by simpa using hl
      have ho' : ∀ y, u.getLast? = some y → ¬ Opens d c pass y := by
        intro y hy
        apply ho
        cases u with
        | nil => simp at hy
        | cons z u => rw [List.getLast?_cons_cons]; exact hy
      have ho1 : ∀ y, (u.drop 1).getLast? = some y → ¬ Opens d c pass y := by
        intro y hy
        apply ho'
        match u, hy with
        | [], hy => simp at hy
        | [_], hy => simp at hy
        | _ :: b :: u, hy => rw [List.getLast?_cons_cons]; exact hy
      have hx : Opens d c pass x → u ≠ [] := by
        rintro hx rfl
        exact ho x rfl hx
      have hh : u ≠ [] → (u ++ v).headD [] = u.headD [] := by
        cases u with
        | nil => simp
        | cons => simp
      have hd : u ≠ [] → (u ++ v).drop 1 = u.drop 1 ++ v := by
        cases u with
        | nil => simp
        | cons => simp
      have hlen : (u.drop 1).length ≤ n := by simp; omega
      rw [List.cons_append] at h
      cases h with
      | removed hp h =>
        obtain ⟨w1, w2, rfl, h1, h2⟩ := ih u _ hl' h ho'
        exact ⟨w1, w2, rfl, .removed hp h1, h2⟩
      | removedValue hp h =>
        have hne := hx (Or.inl hp)
        rw [hd hne] at h
        obtain ⟨w1, w2, rfl, h1, h2⟩ := ih (u.drop 1) _ hlen h ho1
        exact ⟨w1, w2, rfl, .removedValue hp h1, h2⟩
      | replaced hr h =>
        obtain ⟨w1, w2, rfl, h1, h2⟩ := ih u _ hl' h ho'
        exact ⟨_ ++ w1, w2, by simp, .replaced (replaced_next hr) h1, h2⟩
      | replacedValue hr h =>
        have hne := hx (Or.inr ⟨_, _, hr⟩)
        rw [hd hne] at h
        rw [hh hne] at hr
        obtain ⟨w1, w2, rfl, h1, h2⟩ := ih (u.drop 1) _ hlen h ho1
        exact ⟨_ ++ w1, w2, by simp, .replacedValue hr h1, h2⟩
      | plain hf hn hb h =>
        obtain ⟨w1, w2, rfl, h1, h2⟩ := ih u _ hl' h ho'
        refine ⟨_ ++ w1, w2, by simp, .plain hf ?_ hb h1, h2⟩
        by_cases hne : u = []
        · subst hne; exact not_replaced_nil hn
        · rw [hh hne] at hn; exact hn

/-- A token forwarded by a pass. -/
theorem forwarded_gives {d : Driver} {c : Ctx} {pass : Pass} {u v ws : List Tok} {t : Tok}
    (h : Forwarded d c pass (u ++ t :: v) ws) (ho : ∀ x, u.getLast? = some x → ¬ Opens d c pass x) :
    (∃ b, Picks (passRules d c.isLocal pass) t b) ∨
      ∃ x vs y, ws = x ++ vs ++ y ∧ Forwarded d c pass u x ∧ Gives d c pass t (v.headD []) vs := by
  obtain ⟨x, y, rfl, h1, h2⟩ := forwarded_split (t :: v) u.length u ws (Nat.le_refl _) h ho
  cases h2 with
  | removed hp => exact Or.inl ⟨_, hp⟩
  | removedValue hp => exact Or.inl ⟨_, hp⟩
  | replaced hr => exact Or.inr ⟨x, _, _, by rw [List.append_assoc], h1, Or.inl ⟨_, hr⟩⟩
  | replacedValue hr => exact Or.inr ⟨x, _, _, by rw [List.append_assoc], h1, Or.inl ⟨_, hr⟩⟩
  | plain hf _ hb => exact Or.inr ⟨x, _, _, by rw [List.append_assoc], h1, Or.inr ⟨hf, hb⟩⟩

/-! Which rules apply to the same token. -/

/-- The beginnings of the tokens a rule applies to. -/
def Rule.names : Rule → List (List Char)
  | .whole o => [o.toList]
  | .start o => [o.toList]
  | .value o => [o.toList]
  | .msWhole o => ['/' :: o.toList, '-' :: o.toList]
  | .msStart o => ['/' :: o.toList, '-' :: o.toList]
  | .msValue o => ['/' :: o.toList, '-' :: o.toList]

theorem taken_names {r : Rule} {t : Tok} {b : Bool} (h : Taken r t b) : ∃ n, ∃ a ∈ r.names, ∃ s, t = quoted n (a ++ s) := by
  have q0 : ∀ u, quoted 0 u = u := by intro u; simp [quoted]
  cases r with
  | whole o => exact ⟨0, o.toList, by simp [Rule.names], [], by rw [q0, h.1]; simp⟩
  | start o => obtain ⟨⟨s, e⟩, _⟩ := h; exact ⟨0, o.toList, by simp [Rule.names], s, by rw [q0, e]⟩
  | value o => obtain ⟨n, s, e, _⟩ := h; exact ⟨n, o.toList, by simp [Rule.names], s, e⟩
  | msWhole o =>
    rcases h.1 with e | e
    · exact ⟨0, '/' :: o.toList, by simp [Rule.names], [], by rw [q0, e]; simp⟩
    · exact ⟨0, '-' :: o.toList, by simp [Rule.names], [], by rw [q0, e]; simp⟩
  | msStart o =>
    obtain ⟨⟨s, e | e⟩, _⟩ := h
    · exact ⟨0, '/' :: o.toList, by simp [Rule.names], s, by rw [q0, e]; rfl⟩
    · exact ⟨0, '-' :: o.toList, by simp [Rule.names], s, by rw [q0, e]; rfl⟩
  | msValue o =>
    obtain ⟨s, e | e, _⟩ := h
    · exact ⟨0, '/' :: o.toList, by simp [Rule.names], s, by rw [q0, e]; rfl⟩
    · exact ⟨0, '-' :: o.toList, by simp [Rule.names], s, by rw [q0, e]; rfl⟩

theorem quoted_inj : ∀ (n m : Nat) (a b : Tok), a.head? ≠ some '"' → b.head? ≠ some '"' → a ≠ [] → b ≠ [] →
    quoted n a = quoted m b → a = b := by
  intro n
  induction n with
  | zero =>
    intro m a b ha hb hna hnb e
    cases m with
    | zero => simpa [quoted] using e
    | succ m =>
      rw [quoted_succ] at e
      simp [quoted] at e
      rw [e] at ha; simp at ha
  | succ n ih =>
    intro m a b ha hb hna hnb e
    cases m with
    | zero =>
      rw [quoted_succ] at e
      simp [quoted] at e
      rw [← e] at hb; simp at hb
    | succ m =>
      rw [quoted_succ, quoted_succ] at e
      simp only [List.cons.injEq, true_and] at e
      exact ih m a b ha hb hna hnb (List.append_inj' e rfl).1

/-- One is the beginning of the other. -/
def Clash (a b : List Char) : Bool := a.isPrefixOf b || b.isPrefixOf a

theorem clash_of {a b s s' : List Char} (h : a ++ s = b ++ s') : Clash a b = true := by
  unfold Clash
  rw [Bool.or_eq_true, List.isPrefixOf_iff_prefix, List.isPrefixOf_iff_prefix]
  rcases Nat.le_total a.length b.length with hl | hl
  · exact Or.inl (List.prefix_of_prefix_length_le ⟨s, rfl⟩ ⟨s', h.symm⟩ hl)
  · exact Or.inr (List.prefix_of_prefix_length_le ⟨s', rfl⟩ ⟨s, h⟩ hl)

/-- A name does not begin with a quote. -/
def Named (a : List Char) : Bool := a.head? == some '-' || a.head? == some '/'

theorem named_append {a : List Char} (h : Named a = true) (s : List Char) : (a ++ s).head? ≠ some '"' ∧ a ++ s ≠ [] := by
  unfold Named at h
  cases a with
  | nil => simp at h
  | cons x a =>
    refine ⟨?_, by simp⟩
    rintro e
    simp at e
    simp [e] at h

theorem clash {r r' : Rule} {t : Tok} {b b' : Bool} (hn : r.names.all Named = true) (hn' : r'.names.all Named = true)
    (h : Taken r t b) (h' : Taken r' t b') : ∃ a ∈ r.names, ∃ a' ∈ r'.names, Clash a a' = true := by
  obtain ⟨n, a, ha, s, rfl⟩ := taken_names h
  obtain ⟨n', a', ha', s', e⟩ := taken_names h'
  have h1 := named_append (List.all_eq_true.1 hn a ha) s
  have h2 := named_append (List.all_eq_true.1 hn' a' ha') s'
  exact ⟨a, ha, a', ha', clash_of (quoted_inj n n' _ _ h1.1 h2.1 h1.2 h2.2 e)⟩

/-- No rule but the one for precompiled headers is in both tables. -/
def apart (d : Driver) (l : Bool) : Bool :=
  (preRules d).all fun r => r == .value "-include-pch" || (r.names.all Named &&
    (compileRules d l).all fun r' => r'.names.all Named && r.names.all fun a => r'.names.all fun a' => !Clash a a')

theorem apart_all (d : Driver) (l : Bool) : apart d l = true := by
  cases d <;> cases l <;> first | decide +kernel | (rename_i cl; cases cl <;> decide +kernel)

/-- A token left out for preprocessing and for compiling what is preprocessed is an option for a precompiled header. -/
theorem both {d : Driver} {l : Bool} {t : Tok} {b b' : Bool} (h : Picks (preRules d) t b) (h' : Picks (compileRules d l) t b') :
    Taken (.value "-include-pch") t b := by
  obtain ⟨r, hr, ht⟩ := picks_mem h
  obtain ⟨r', hr', ht'⟩ := picks_mem h'
  have := List.all_eq_true.1 (apart_all d l) r hr
  rw [Bool.or_eq_true] at this
  rcases this with e | e
  · rw [beq_iff_eq] at e; rw [← e]; exact ht
  · rw [Bool.and_eq_true] at e
    have e2 := List.all_eq_true.1 e.2 r' hr'
    rw [Bool.and_eq_true] at e2
    obtain ⟨a, ha, a', ha', hc⟩ := clash e.1 e2.1 ht ht'
    have := List.all_eq_true.1 (List.all_eq_true.1 e2.2 a ha) a' ha'
    rw [hc] at this
    cases this

/-- Preprocessing, and compiling what was preprocessed: every token reaches the compiler in at least one of the two
passes, at its place, unless it is an option for a precompiled header which can be used in neither, or an option every
pass leaves out. `cp` and `cc` are the circumstances of the two passes. -/
theorem C78_reaches {d : Driver} {cp cc : Ctx} {line : List Char} {a₁ a₂ : Args} {u v : List Tok} {t : Tok}
    (h₁ : buildArgs d cp .preprocess false line = some a₁) (h₂ : buildArgs d cc .compilePreprocessed false line = some a₂)
    (ht : tokenize ' ' line = u ++ t :: v) (hp : ∀ b, ¬ Taken (.value "-include-pch") t b)
    (ho₁ : ∀ x, u.getLast? = some x → ¬ Opens d cp .preprocess x)
    (ho₂ : ∀ x, u.getLast? = some x → ¬ Opens d cc .compilePreprocessed x) :
    (∃ x vs y, Laid (x ++ vs ++ y) a₁.text ∧ Forwarded d cp .preprocess u x ∧ Gives d cp .preprocess t (v.headD []) vs) ∨
    (∃ x vs y, Laid (x ++ vs ++ y) a₂.text ∧ Forwarded d cc .compilePreprocessed u x ∧
      Gives d cc .compilePreprocessed t (v.headD []) vs) := by
  obtain ⟨w₁, f₁, l₁⟩ := buildArgs_laid h₁
  obtain ⟨w₂, f₂, l₂⟩ := buildArgs_laid h₂
  rw [ht] at f₁ f₂
  rcases forwarded_gives f₁ ho₁ with ⟨b, p₁⟩ | ⟨x, vs, y, rfl, hx, hg⟩
  · rcases forwarded_gives f₂ ho₂ with ⟨b', p₂⟩ | ⟨x, vs, y, rfl, hx, hg⟩
    · exact absurd (both p₁ p₂) (hp b)
    · exact Or.inr ⟨x, vs, y ++ extras d cc .compilePreprocessed false, by simpa using l₂, hx, hg⟩
  · exact Or.inl ⟨x, vs, y ++ extras d cp .preprocess false, by simpa using l₁, hx, hg⟩

/-- What is done by preprocessing is not done again: every word of the second pass comes from a token no rule for this
pass applies to, or replaces one. -/
theorem C78_once {d : Driver} {c : Ctx} {si : Bool} {line : List Char} {a : Args}
    (h : buildArgs d c .compilePreprocessed si line = some a) :
    ∃ ws, Laid (ws ++ extras d c .compilePreprocessed si) a.text ∧
      ∀ w ∈ ws, ∃ t ∈ tokenize ' ' line, ∃ next vs, w ∈ vs ∧ Gives d c .compilePreprocessed t next vs := by
  obtain ⟨ws, f, l⟩ := buildArgs_laid h
  refine ⟨ws, l, ?_⟩
  clear l h
  generalize tokenize ' ' line = ts at f
  induction f with
  | nil => simp
  | removed _ _ ih =>
    intro w hw
    obtain ⟨t, ht, h⟩ := ih w hw
    exact ⟨t, List.mem_cons_of_mem _ ht, h⟩
  | removedValue _ _ ih =>
    intro w hw
    obtain ⟨t, ht, h⟩ := ih w hw
    exact ⟨t, List.mem_cons_of_mem _ (List.mem_of_mem_drop ht), h⟩
  | replaced hr _ ih =>
    intro w hw
    rcases List.mem_append.1 hw with hw | hw
    · exact ⟨_, by simp, _, _, hw, Or.inl ⟨_, hr⟩⟩
    · obtain ⟨t, ht, h⟩ := ih w hw
      exact ⟨t, List.mem_cons_of_mem _ ht, h⟩
  | replacedValue hr _ ih =>
    intro w hw
    rcases List.mem_append.1 hw with hw | hw
    · exact ⟨_, by simp, _, _, hw, Or.inl ⟨_, hr⟩⟩
    · obtain ⟨t, ht, h⟩ := ih w hw
      exact ⟨t, List.mem_cons_of_mem _ (List.mem_of_mem_drop ht), h⟩
  | plain hf _ hb _ ih =>
    intro w hw
    rcases List.mem_append.1 hw with hw | hw
    · exact ⟨_, by simp, [], _, hw, Or.inr ⟨hf, hb⟩⟩
    · obtain ⟨t, ht, h⟩ := ih w hw
      exact ⟨t, List.mem_cons_of_mem _ ht, h⟩

end Verif.Args
