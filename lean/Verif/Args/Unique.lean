import Verif.Args.Loop
/-
The description of the passes leaves no choice.
-/
namespace Verif.Args
open Verif.Str
open Verif.Cache (Tok isArg isStart isArg_iff isStart_iff)

theorem hole_unique {n : Char} {t u v u' v' : Tok} (h : Hole n t u v) (h' : Hole n t u' v') : u = u' ∧ v = v' := by
  have hl : u.length = u'.length := Nat.le_antisymm (h.2 _ _ h'.1) (h'.2 _ _ h.1)
  have := List.append_inj (h.1.symm.trans h'.1) hl
  refine ⟨this.1, ?_⟩
  have := this.2
  simp at this
  exact this

theorem hole_no {n : Char} {t u v : Tok} (h : Hole n t u v) (h' : NoHole n t) : False := h' u v h.1

theorem filled_unique {d : Driver} {c : Ctx} {t : Tok} {ws ws' : List Tok} (h : Filled d c t ws) (h' : Filled d c t ws') :
    ws = ws' := by
  cases h with
  | slashed hc hm hs =>
    cases h' with
    | slashed _ hm' _ =>
      rw [hm] at hm'
      have := (List.append_inj' hm' rfl).1
      rw [this]
    | pch hn => exact absurd hs hn
    | usings hn => exact absurd hs hn
    | input hn => exact absurd hs hn
    | output hn => exact absurd hs hn
    | kept hn => exact absurd hs hn
  | pch hn hc hh hp =>
    cases h' with
    | slashed _ _ hs => exact absurd hs hn
    | pch _ _ hh' _ => obtain ⟨rfl, rfl⟩ := hole_unique hh hh'; rfl
    | usings _ _ h3 _ => exact (hole_no hh h3).elim
    | input _ h34 => exact (hole_no hh (h34 hc).1).elim
    | output _ h34 => exact (hole_no hh (h34 hc).1).elim
    | kept _ h34 => exact (hole_no hh (h34 hc).1).elim
  | usings hn hc h3 hh =>
    cases h' with
    | slashed _ _ hs => exact absurd hs hn
    | pch _ _ hh' _ => exact (hole_no hh' h3).elim
    | usings _ _ _ hh' => obtain ⟨rfl, rfl⟩ := hole_unique hh hh'; rfl
    | input _ h34 => exact (hole_no hh (h34 hc).2).elim
    | output _ h34 => exact (hole_no hh (h34 hc).2).elim
    | kept _ h34 => exact (hole_no hh (h34 hc).2).elim
  | input hn h34 hh =>
    cases h' with
    | slashed _ _ hs => exact absurd hs hn
    | pch _ hc hh' _ => exact (hole_no hh' (h34 hc).1).elim
    | usings _ hc _ hh' => exact (hole_no hh' (h34 hc).2).elim
    | input _ _ hh' => obtain ⟨rfl, rfl⟩ := hole_unique hh hh'; rfl
    | output _ _ h1 => exact (hole_no hh h1).elim
    | kept _ _ h1 => exact (hole_no hh h1).elim
  | output hn h34 h1 hh =>
    cases h' with
    | slashed _ _ hs => exact absurd hs hn
    | pch _ hc hh' _ => exact (hole_no hh' (h34 hc).1).elim
    | usings _ hc _ hh' => exact (hole_no hh' (h34 hc).2).elim
    | input _ _ hh' => exact (hole_no hh' h1).elim
    | output _ _ _ hh' => obtain ⟨rfl, rfl⟩ := hole_unique hh hh'; rfl
    | kept _ _ _ h2 => exact (hole_no hh h2).elim
  | kept hn h34 h1 h2 =>
    cases h' with
    | slashed _ _ hs => exact absurd hs hn
    | pch _ hc hh' _ => exact (hole_no hh' (h34 hc).1).elim
    | usings _ hc _ hh' => exact (hole_no hh' (h34 hc).2).elim
    | input _ _ hh' => exact (hole_no hh' h1).elim
    | output _ _ _ hh' => exact (hole_no hh' h2).elim
    | kept => rfl

theorem becomes_unique {d : Driver} {c : Ctx} {t : Tok} {ws ws' : List Tok} (h : Becomes d c t ws) (h' : Becomes d c t ws') :
    ws = ws' := by
  cases h with
  | ignored hr ht =>
    cases h' with
    | ignored => rfl
    | filled hf _ => exact absurd ht (hf _ hr _)
  | filled hf hw =>
    cases h' with
    | ignored hr ht => exact absurd ht (hf _ hr _)
    | filled _ hw' => exact filled_unique hw hw'

theorem language_unique {l a b : Tok} (h : Language l a) (h' : Language l b) : a = b := by
  rcases h with ⟨p, hp, e, rfl⟩ | ⟨hn, rfl⟩
  · rcases h' with ⟨q, hq, e', rfl⟩ | ⟨hn', rfl⟩
    · have key : ∀ p ∈ languages, ∀ q ∈ languages, p.1.toList = q.1.toList → p.2.toList = q.2.toList := by decide
      exact key p hp q hq (e.symm.trans e')
    · exact absurd e (hn' p hp)
  · rcases h' with ⟨q, hq, e', rfl⟩ | ⟨_, rfl⟩
    · exact absurd e' (hn q hq)
    · rfl

theorem includeArg_unique {t a b e a' b' e' : Tok} (h : IncludeArg t a b e) (h' : IncludeArg t a' b' e') :
    a = a' ∧ b = b' ∧ e = e' := by
  obtain ⟨x, rest, hx, ht⟩ := startI_cases (includeArg_start h)
  obtain ⟨P, Q, hP, hQ, _, rfl, rfl, rfl⟩ := (includeArg_iff x rest hx ht).1 h
  obtain ⟨P', Q', hP', hQ', _, rfl, rfl, rfl⟩ := (includeArg_iff x rest hx ht).1 h'
  rw [← hP] at hP'; rw [← hQ] at hQ'
  subst hP'; subst hQ'
  exact ⟨rfl, rfl, rfl⟩

theorem replaced_unique {c : Ctx} {d : Driver} {pass : Pass} {t next : Tok} {vs vs' : List Tok} {b b' : Bool}
    (h : Replaced c d pass t next vs b) (h' : Replaced c d pass t next vs' b') : vs = vs' ∧ b = b' := by
  cases h with
  | winrt => cases h'; exact ⟨rfl, rfl⟩
  | language _ _ _ hl =>
    cases h' with
    | language _ _ _ hl' => rw [language_unique hl hl']; exact ⟨rfl, rfl⟩
  | «include» _ hi _ hb =>
    cases h' with
    | «include» _ hi' _ hb' =>
      obtain ⟨rfl, rfl, rfl⟩ := includeArg_unique hi hi'
      refine ⟨rfl, ?_⟩
      rw [Bool.eq_iff_iff, hb, hb']

/-- No rule applies to a token that is replaced. -/
theorem replaced_free {c : Ctx} {d : Driver} {pass : Pass} {t next : Tok} {vs : List Tok} {b : Bool}
    (h : Replaced c d pass t next vs b) : Free (passRules d c.isLocal pass) t := by
  rw [← byRules_no (good_passRules _ _ _)]
  cases h with
  | @winrt cl t next ht =>
    rcases ht.1 with rfl | rfl <;> cases cl <;> rfl
  | @language cl next l hl =>
    rw [hl]
    cases cl <;> rfl
  | @«include» cl t next pre path post skip hl hi _ _ =>
    obtain ⟨x, rest, hx, rfl⟩ := startI_cases (includeArg_start hi)
    rw [hl]
    rcases hx with rfl | rfl <;> rfl

/-- There is one way to forward a command line. -/
theorem forwarded_unique {d : Driver} {c : Ctx} {pass : Pass} {ts ws : List Tok} (h : Forwarded d c pass ts ws) :
    ∀ {ws'}, Forwarded d c pass ts ws' → ws = ws' := by
  have hg := good_passRules d c.isLocal pass
  induction h with
  | nil => intro ws' h'; cases h'; rfl
  | removed hp _ ih =>
    intro ws' h'
    cases h' with
    | removed _ h' => exact ih h'
    | removedValue hp' h' => cases picks_unique hg hp hp'
    | replaced hr _ => exact (picks_not_free hp (replaced_free hr)).elim
    | replacedValue hr _ => exact (picks_not_free hp (replaced_free hr)).elim
    | plain hf => exact (picks_not_free hp hf).elim
  | removedValue hp _ ih =>
    intro ws' h'
    cases h' with
    | removed hp' h' => cases picks_unique hg hp hp'
    | removedValue _ h' => exact ih h'
    | replaced hr _ => exact (picks_not_free hp (replaced_free hr)).elim
    | replacedValue hr _ => exact (picks_not_free hp (replaced_free hr)).elim
    | plain hf => exact (picks_not_free hp hf).elim
  | replaced hr _ ih =>
    intro ws' h'
    cases h' with
    | removed hp _ => exact (picks_not_free hp (replaced_free hr)).elim
    | removedValue hp _ => exact (picks_not_free hp (replaced_free hr)).elim
    | replaced hr' h' => rw [(replaced_unique hr hr').1, ih h']
    | replacedValue hr' _ => cases (replaced_unique hr hr').2
    | plain _ hn => exact (hn _ _ hr).elim
  | replacedValue hr _ ih =>
    intro ws' h'
    cases h' with
    | removed hp _ => exact (picks_not_free hp (replaced_free hr)).elim
    | removedValue hp _ => exact (picks_not_free hp (replaced_free hr)).elim
    | replaced hr' h' => cases (replaced_unique hr hr').2
    | replacedValue hr' h' => rw [(replaced_unique hr hr').1, ih h']
    | plain _ hn => exact (hn _ _ hr).elim
  | plain hf hn hb _ ih =>
    intro ws' h'
    cases h' with
    | removed hp _ => exact (picks_not_free hp hf).elim
    | removedValue hp _ => exact (picks_not_free hp hf).elim
    | replaced hr _ => exact (hn _ _ hr).elim
    | replacedValue hr _ => exact (hn _ _ hr).elim
    | plain _ _ hb' h' => rw [becomes_unique hb hb', ih h']

/-! ### Options added -/

/-- A text that begins with a blank, or is empty. -/
def Led (ws : List Tok) (s : List Char) : Prop := (ws = [] ∧ s = []) ∨ ∃ s', s = ' ' :: s' ∧ Laid ws s'

theorem Laid.led {vs ws : List Tok} {s t : List Char} (h : Laid vs s) (h' : Led ws t) : Laid (vs ++ ws) (s ++ t) := by
  rcases h' with ⟨rfl, rfl⟩ | ⟨t', rfl, h'⟩
  · simpa using h
  · exact h.append h'

theorem Led.laid {ws : List Tok} {s : List Char} (h : Led ws s) : Laid ws s := by
  have := Laid.nil.led h
  simpa using this

theorem Led.append {vs ws : List Tok} {s t : List Char} (h : Led vs s) (h' : Led ws t) : Led (vs ++ ws) (s ++ t) := by
  rcases h with ⟨rfl, rfl⟩ | ⟨s', rfl, h⟩
  · simpa using h'
  · exact Or.inr ⟨s' ++ t, rfl, h.led h'⟩

theorem led_one (w : Tok) : Led [w] (' ' :: w) := Or.inr ⟨w, rfl, .last w⟩

theorem led_none : Led [] [] := Or.inl ⟨rfl, rfl⟩

theorem led_if {P : Prop} [Decidable P] {ws : List Tok} {s : List Char} (h : Led ws s) :
    Led (if P then ws else []) (if P then s else []) := by
  split
  · exact h
  · exact led_none

theorem extraPre_laid (d : Driver) (c : Ctx) : Laid (preExtras d c) (extraPre d c) := by
  cases d with
  | cl cl => exact (Laid.last "/E".toList).led (led_if (led_one "/d1PP".toList))
  | gcc cl =>
    exact ((Laid.last "-E".toList).led (led_if (led_one "-dD".toList))).led (led_if (led_one "-frewrite-includes".toList))
  | qtRcc => exact .blank (.last _)
  | generic => exact .nil
  | vbcc => exact .last _
  | orbis => exact .last _
  | snc => exact .last _
  | cuda => exact .last _
  | codeWarrior => exact .last _
  | greenHills => exact .last _

theorem prefixMap_eq (c : Ctx) : prefixMap c = mapWord c := by
  unfold prefixMap mapWord
  generalize "\"-fdebug-prefix-map=".toList = p
  simp

theorem extraCommon_led (d : Driver) (c : Ctx) : Led (commonExtras d c) (extraCommon d c) := by
  cases d with
  | cl cl =>
    refine (led_if ?_).append (led_if ?_)
    · have e : " /Fd\"".toList = ' ' :: "/Fd\"".toList := rfl
      rw [e, List.cons_append, List.cons_append]
      exact led_one _
    · rw [prefixMap_eq]
      have e : " -Xclang  ".toList = ' ' :: ("-Xclang".toList ++ [' ', ' ']) := rfl
      refine Or.inr ⟨"-Xclang".toList ++ ' ' :: ' ' :: mapWord c, ?_, .word _ (.blank (.last _))⟩
      rw [e, List.cons_append, List.append_assoc]
      rfl
  | gcc cl =>
    refine (led_if ?_).append (led_if ?_)
    · have e : " -fdiagnostics-color=always".toList = ' ' :: "-fdiagnostics-color=always".toList := rfl
      rw [e]
      exact led_one _
    · rw [prefixMap_eq]; exact led_one _
  | vbcc => exact led_none
  | qtRcc => exact led_none
  | orbis => exact led_none
  | snc => exact led_none
  | cuda => exact led_none
  | codeWarrior => exact led_none
  | greenHills => exact led_none
  | generic => exact led_none

theorem extras_laid (d : Driver) (c : Ctx) (pass : Pass) (si : Bool) :
    Laid (extras d c pass si) ((if pass = .preprocess then extraPre d c else []) ++ extraCommon d c ++
      if si then " /showIncludes".toList else []) := by
  refine Laid.led (Laid.led ?_ (extraCommon_led d c)) (led_if (led_one "/showIncludes".toList))
  split
  · exact extraPre_laid d c
  · exact .nil

/-- `buildArgs` lays out the words forwarded and the options added. -/
theorem buildArgs_laid {d : Driver} {c : Ctx} {pass : Pass} {si : Bool} {line : List Char} {a : Args}
    (h : buildArgs d c pass si line = some a) :
    ∃ ws, Forwarded d c pass (tokenize ' ' line) ws ∧ Laid (ws ++ extras d c pass si) a.text := by
  unfold buildArgs at h
  simp only [Option.map_eq_some_iff] at h
  obtain ⟨cs, hcs, rfl⟩ := h
  obtain ⟨ws, h1, h2⟩ := (loop_spec d c pass (tokenize ' ' line) false).1 cs hcs
  refine ⟨ws, by simpa using h1, ?_⟩
  rw [ofCalls_text]
  have := h2.laid (extras_laid d c pass si)
  have e : textOf (cs ++ (if pass = .preprocess then [.add (extraPre d c)] else []) ++ [.add (extraCommon d c)] ++
      if si then [.add " /showIncludes".toList] else []) =
      textOf cs ++ ((if pass = .preprocess then extraPre d c else []) ++ extraCommon d c ++ if si then " /showIncludes".toList else []) := by
    simp only [textOf_append, List.append_assoc]
    congr 1
    by_cases hp : pass = .preprocess <;> cases si <;> simp [hp, textOf]
  rw [e]; exact this

end Verif.Args
