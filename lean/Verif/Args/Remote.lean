import Verif.Args.Props
/-
C79: a worker compiles with the options a local compilation would use.
-/
namespace Verif.Args
open Verif.Str
open Verif.Cache (Tok isArg isStart isArg_iff isStart_iff)

/-! ### Specification -/

/-- The driver knows `-x`. -/
def Driver.isGCC : Driver → Bool
  | .gcc _ => true
  | _ => false

/-- `-x` and its value are replaced. -/
def Renames (d : Driver) (c : Ctx) (t next : Tok) : Prop :=
  d.isGCC = true ∧ c.updateX = true ∧ t = "-x".toList ∧ next ≠ []

/-- The words of the command line sent to a worker. -/
inductive Sent (d : Driver) (c : Ctx) : List Tok → List Tok → Prop
  | nil : Sent d c [] []
  | removed {t : Tok} {ts us : List Tok} : Picks (remoteRules d) t false → Sent d c ts us → Sent d c (t :: ts) us
  | removedValue {t : Tok} {ts us : List Tok} : Picks (remoteRules d) t true → Sent d c (ts.drop 1) us → Sent d c (t :: ts) us
  | language {t l : Tok} {ts us : List Tok} : Renames d c t (ts.headD []) → Language (ts.headD []) l →
      Sent d c (ts.drop 1) us → Sent d c (t :: ts) (t :: l :: us)
  | kept {t : Tok} {ts us : List Tok} : Free (remoteRules d) t → ¬ Renames d c t (ts.headD []) →
      Sent d c ts us → Sent d c (t :: ts) (t :: us)

/-- The option for the file with debug information. -/
def Pdb (d : Driver) (t : Tok) (next : Bool) : Prop := d.isCL = true ∧ Taken (.msValue "Fd") t next

/-- The words of a local compilation and those of a worker: made of the same tokens, except that a worker has no
option for the file with debug information, and that relative include paths are relative to its own directory. -/
inductive Same (d : Driver) (c r : Ctx) : List Tok → List Tok → Prop
  | nil : Same d c r [] []
  | token {t : Tok} {vs vs' ws ws' : List Tok} : Becomes d c t vs → Becomes d r t vs' →
      Same d c r ws ws' → Same d c r (vs ++ ws) (vs' ++ ws')
  | pdb {t : Tok} {vs ws ws' : List Tok} : Pdb d t false → Becomes d c t vs →
      Same d c r ws ws' → Same d c r (vs ++ ws) ws'
  | pdbValue {t v : Tok} {vs vs' ws ws' : List Tok} : Pdb d t true → Becomes d c t vs → Becomes d c v vs' →
      Same d c r ws ws' → Same d c r (vs ++ vs' ++ ws) ws'
  | «include» {t next : Tok} {vs vs' ws ws' : List Tok} : Becomes d c t vs →
      Replaced r d .compilePreprocessed t next vs' false → Same d c r ws ws' → Same d c r (vs ++ ws) (vs' ++ ws')

/-- Options with a separate value, for the passes considered. -/
def Paired (d : Driver) (t : Tok) : Prop := Picks (compileRules d true) t true ∨ Pdb d t true

/-- Not an option the passes know. -/
def Quiet (d : Driver) (t : Tok) : Prop :=
  Free (compileRules d true) t ∧ (∀ b, ¬ Pdb d t b) ∧ (d.isGCC = true → t ≠ "-x".toList)

/-- Options that need a value have one, and it does not look like an option. The value of an include path of Microsoft's
compiler is not separated from it. -/
inductive Tidy (d : Driver) (c r : Ctx) : List Tok → Prop
  | nil : Tidy d c r []
  | one {t : Tok} {ts : List Tok} : ¬ Paired d t → (d.isGCC = true → t ≠ "-x".toList) →
      (d.isCL = true → t ≠ "/I".toList ∧ t ≠ "-I".toList) → Tidy d c r ts → Tidy d c r (t :: ts)
  | two {t v : Tok} {ts : List Tok} : Paired d t → Quiet d v → Tidy d c r ts → Tidy d c r (t :: v :: ts)
  | language {l : Tok} {ts : List Tok} : d.isGCC = true → l ≠ [] → Quiet d l → Ordinary d c l → Ordinary d r l →
      Tidy d c r ts → Tidy d c r ("-x".toList :: l :: ts)

/-! ### The command line sent -/

theorem remote_sd (t : Tok) :
    firstOf [(if isArg t "sourceDependencies" then some true else none), alone (isStart t "sourceDependencies")] =
      byRules [.msValue "sourceDependencies"] t := sd_eq t []

theorem byRules_did {rs : List Rule} (hg : ∀ r ∈ rs, r.Good) (t : Tok) :
    (byRules rs t = .no ∧ Free rs t) ∨ ∃ b, byRules rs t = .yes b [] ∧ Picks rs t b := by
  cases h : byRules rs t with
  | no => exact Or.inl ⟨rfl, (byRules_no hg).1 h⟩
  | yes b cs =>
    obtain ⟨rfl, h'⟩ := byRules_yes hg h
    exact Or.inr ⟨b, rfl, h'⟩
  | bad => exact absurd h firstOf_bad

theorem processRemote_spec (d : Driver) (c : Ctx) (t next : Tok) :
    (processRemote d c t next = .no ∧ Free (remoteRules d) t ∧ ¬ Renames d c t next) ∨
    (∃ b, processRemote d c t next = .yes b [] ∧ Picks (remoteRules d) t b) ∨
    (∃ l, processRemote d c t next = .yes true [.add t, .delim, .add l, .delim] ∧ Renames d c t next ∧ Language next l) := by
  have hd := byRules_did (good_remote d) t
  have other : d.isGCC = false → processRemote d c t next = byRules (remoteRules d) t →
      (processRemote d c t next = .no ∧ Free (remoteRules d) t ∧ ¬ Renames d c t next) ∨
      (∃ b, processRemote d c t next = .yes b [] ∧ Picks (remoteRules d) t b) ∨
      (∃ l, processRemote d c t next = .yes true [.add t, .delim, .add l, .delim] ∧ Renames d c t next ∧ Language next l) := by
    intro h e
    rw [e]
    rcases hd with ⟨h1, h2⟩ | h1
    · exact Or.inl ⟨h1, h2, fun hr => by rw [hr.1] at h; cases h⟩
    · exact Or.inr (Or.inl h1)
  cases d with
  | cl cl => exact other rfl (remote_sd t)
  | gcc cl =>
    have e0 : processRemote (.gcc cl) c t next = match xLanguage c t next with | .no => byRules (remoteRules (.gcc cl)) t | r => r := rfl
    rcases xLanguage_spec c t next with ⟨h1, h2⟩ | ⟨h1, h2, h3, h4⟩
    · rw [h1] at e0
      rw [e0]
      rcases hd with ⟨h3, h4⟩ | h3
      · exact Or.inl ⟨h3, h4, fun hr => h2 hr.2⟩
      · exact Or.inr (Or.inl h3)
    · rw [h1] at e0
      exact Or.inr (Or.inr ⟨cppOutput next, e0, ⟨rfl, h2, h3, h4⟩, language_cppOutput next⟩)
  | vbcc => exact other rfl rfl
  | qtRcc => exact other rfl rfl
  | orbis => exact other rfl rfl
  | snc => exact other rfl rfl
  | cuda => exact other rfl rfl
  | codeWarrior => exact other rfl rfl
  | greenHills => exact other rfl rfl
  | generic => exact other rfl rfl

theorem remote_loop (d : Driver) (c : Ctx) : ∀ (ts : List Tok) (skip : Bool),
    ∃ cs us, loop (processRemote d c) skip ts = some cs ∧ Sent d c (if skip then ts.drop 1 else ts) us ∧ Trailed us (textOf cs) := by
  intro ts
  induction ts with
  | nil => intro skip; cases skip <;> exact ⟨[], [], rfl, .nil, .nil⟩
  | cons t ts ih =>
    intro skip
    cases skip with
    | true => obtain ⟨cs, us, h1, h2, h3⟩ := ih false; exact ⟨cs, us, h1, by simpa using h2, h3⟩
    | false =>
      rw [loop]
      simp only [Bool.false_eq_true, if_false]
      rcases processRemote_spec d c t (ts.headD []) with ⟨h, hf, hn⟩ | ⟨b, h, hp⟩ | ⟨l, h, hr, hl⟩
      · rw [h]
        obtain ⟨cs, us, h1, h2, h3⟩ := ih false
        refine ⟨[.add t, .delim] ++ cs, t :: us, by simp [h1], .kept hf hn (by simpa using h2), ?_⟩
        rw [textOf_append]
        have := (trailed_one t).append h3
        simpa [textOf] using this
      · rw [h]
        obtain ⟨cs, us, h1, h2, h3⟩ := ih b
        refine ⟨[] ++ cs, us, by simp [h1], ?_, h3⟩
        cases b with
        | false => exact .removed hp (by simpa using h2)
        | true => exact .removedValue hp (by simpa using h2)
      · rw [h]
        obtain ⟨cs, us, h1, h2, h3⟩ := ih true
        refine ⟨[.add t, .delim, .add l, .delim] ++ cs, t :: l :: us, by simp [h1], .language hr hl (by simpa using h2), ?_⟩
        rw [textOf_append]
        exact (trailed_two t l).append h3

theorem saveRemote_spec (d : Driver) (c : Ctx) (line : List Char) :
    ∃ s us, saveRemote d c line = some s ∧ Sent d c (tokenize ' ' line) us ∧ Trailed us s := by
  obtain ⟨cs, us, h1, h2, h3⟩ := remote_loop d c (tokenize ' ' line) false
  refine ⟨textOf cs, us, ?_, by simpa using h2, h3⟩
  unfold saveRemote
  rw [h1]
  simp [ofCalls_text]

theorem Trailed.toLaid {ws : List Tok} {s : List Char} (h : Trailed ws s) : Laid ws s := by
  have := h.laid .nil
  simpa using this

theorem word_language {l l' : Tok} (h : Language l l') (hw : Word l) : Word l' := by
  rcases h with ⟨p, hp, _, rfl⟩ | ⟨_, rfl⟩
  · have key : ∀ p ∈ languages, Word p.2.toList := by decide
    exact key p hp
  · exact hw

theorem sent_words {d : Driver} {c : Ctx} {ts us : List Tok} (h : Sent d c ts us) (hw : ∀ t ∈ ts, Word t) : ∀ u ∈ us, Word u := by
  induction h with
  | nil => simp
  | removed _ _ ih => exact ih fun t ht => hw t (List.mem_cons_of_mem _ ht)
  | removedValue _ _ ih => exact ih fun t ht => hw t (List.mem_cons_of_mem _ (List.mem_of_mem_drop ht))
  | @language t l ts us hr hl _ ih =>
    have ih := ih fun t ht => hw t (List.mem_cons_of_mem _ (List.mem_of_mem_drop ht))
    intro u hu
    rcases List.mem_cons.1 hu with rfl | hu
    · exact hw _ (by simp)
    rcases List.mem_cons.1 hu with rfl | hu
    · refine word_language hl (hw _ ?_)
      cases ts with
      | nil => exact absurd rfl hr.2.2.2
      | cons a ts => simp
    · exact ih u hu
  | kept _ _ _ ih =>
    have ih := ih fun t ht => hw t (List.mem_cons_of_mem _ ht)
    intro u hu
    rcases List.mem_cons.1 hu with rfl | hu
    · exact hw _ (by simp)
    · exact ih u hu

/-! ### The tables -/

theorem ruleOf_clash {r r' : Rule} (hg : r.Good) (hg' : r'.Good) (hn : r.names.all Named = true) (hn' : r'.names.all Named = true)
    (hc : (r.names.all fun a => r'.names.all fun a' => !Clash a a') = true) (t : Tok) : ruleOf r t = none ∨ ruleOf r' t = none := by
  cases h : ruleOf r t with
  | none => exact Or.inl rfl
  | some b =>
    cases h' : ruleOf r' t with
    | none => exact Or.inr rfl
    | some b' =>
      obtain ⟨a, ha, a', ha', e⟩ := clash hn hn' ((taken_iff hg).2 h) ((taken_iff hg').2 h')
      have := List.all_eq_true.1 (List.all_eq_true.1 hc a ha) a' ha'
      rw [e] at this
      cases this

/-- Tokens left out locally are left out when the command line is sent, or by the worker. -/
theorem tbl_picks {d : Driver} {t : Tok} {b : Bool} (h : Picks (compileRules d true) t b) :
    Picks (remoteRules d) t b ∨ Free (remoteRules d) t ∧ Picks (compileRules d false) t b := by
  rw [← byRules_iff (good_remote d), ← byRules_no (good_remote d), ← byRules_iff (good_compile d false)]
  rw [← byRules_iff (good_compile d true)] at h
  cases d with
  | cl cl =>
    have e1 := ruleOf_clash (r := .msValue "Yu") (r' := .msValue "sourceDependencies") trivial trivial (by decide) (by decide) (by decide) t
    have e2 := ruleOf_clash (r := .msValue "Fp") (r' := .msValue "sourceDependencies") trivial trivial (by decide) (by decide) (by decide) t
    have e3 := ruleOf_clash (r := .msValue "FI") (r' := .msValue "sourceDependencies") trivial trivial (by decide) (by decide) (by decide) t
    have e4 := ruleOf_clash (r := .msValue "FI") (r' := .msValue "Fd") trivial trivial (by decide) (by decide) (by decide) t
    simp only [byRules, compileRules, remoteRules, if_true, Bool.false_eq_true, if_false, List.append_nil, List.cons_append,
      List.nil_append, List.map_cons, List.map_nil] at h ⊢
    generalize ruleOf (.msValue "Yu") t = x1 at *
    generalize ruleOf (.msValue "Fp") t = x2 at *
    generalize ruleOf (.msValue "Fd") t = x3 at *
    generalize ruleOf (.msValue "FI") t = x4 at *
    generalize ruleOf (.msValue "sourceDependencies") t = x5 at *
    cases x1 <;> cases x2 <;> cases x3 <;> cases x4 <;> cases x5 <;> simp_all [firstOf]
  | gcc cl =>
    have e1 := ruleOf_clash (r := .value "-I") (r' := .whole "-MD") rfl trivial (by decide) (by decide) (by decide) t
    have e2 := ruleOf_clash (r := .value "-I") (r' := .value "-MF") rfl rfl (by decide) (by decide) (by decide) t
    have e3 := ruleOf_clash (r := .value "-isysroot") (r' := .whole "-MD") rfl trivial (by decide) (by decide) (by decide) t
    have e4 := ruleOf_clash (r := .value "-isysroot") (r' := .value "-MF") rfl rfl (by decide) (by decide) (by decide) t
    cases cl <;>
    · simp only [byRules, compileRules, remoteRules, if_true, Bool.false_eq_true, if_false, List.append_nil, List.cons_append,
        List.nil_append, List.map_cons, List.map_nil] at h ⊢
      generalize ruleOf (.value "-I") t = x1 at *
      generalize ruleOf (.value "-isysroot") t = x2 at *
      generalize ruleOf (.whole "-MD") t = x3 at *
      generalize ruleOf (.value "-MF") t = x4 at *
      generalize ruleOf (.value "-include-pch") t = x5 at *
      generalize ruleOf (.value "-include") t = x6 at *
      cases x1 <;> cases x2 <;> cases x3 <;> cases x4 <;> simp_all [firstOf]
  | vbcc => exact Or.inr ⟨rfl, h⟩
  | qtRcc => exact Or.inr ⟨rfl, h⟩
  | orbis => exact Or.inr ⟨rfl, h⟩
  | snc => exact Or.inr ⟨rfl, h⟩
  | cuda => exact Or.inr ⟨rfl, h⟩
  | codeWarrior => exact Or.inr ⟨rfl, h⟩
  | greenHills => exact Or.inr ⟨rfl, h⟩
  | generic => exact Or.inr ⟨rfl, h⟩

/-- Tokens used locally are sent, and the worker uses them, except for the file with debug information. -/
theorem tbl_free {d : Driver} {t : Tok} (h : Free (compileRules d true) t) :
    Free (remoteRules d) t ∧ (Free (compileRules d false) t ∨ ∃ b, Pdb d t b ∧ Picks (compileRules d false) t b) := by
  cases d with
  | cl cl =>
    refine ⟨fun r hr => h r (by simp [remoteRules] at hr; simp [compileRules, hr]), ?_⟩
    rcases picks_or_free (good_compile (.cl cl) false) t with ⟨b, hp⟩ | hf
    · refine Or.inr ⟨b, ?_, hp⟩
      obtain ⟨r, hr, ht⟩ := picks_mem hp
      by_cases hfd : r = .msValue "Fd"
      · subst hfd; exact ⟨rfl, ht⟩
      · refine absurd ht (h r ?_ b)
        simp [compileRules] at hr ⊢
        rcases hr with hr | hr | hr | hr | hr
        · exact Or.inl hr
        · exact Or.inr (Or.inl hr)
        · exact absurd hr hfd
        · exact Or.inr (Or.inr (Or.inl hr))
        · exact Or.inr (Or.inr (Or.inr hr))
    · exact Or.inl hf
  | gcc cl =>
    refine ⟨fun r hr => h r ?_, Or.inl fun r hr => h r ?_⟩
    · simp [remoteRules] at hr
      rcases hr with rfl | rfl <;> simp [compileRules]
    · simp [compileRules] at hr ⊢
      rcases hr with hr | hr | hr | hr
      · exact Or.inl hr
      · exact Or.inr (Or.inl hr)
      · exact Or.inr (Or.inr (Or.inr (Or.inr (Or.inl hr))))
      · exact Or.inr (Or.inr (Or.inr (Or.inr (Or.inr hr))))
  | vbcc => exact ⟨by simp [remoteRules, Free], Or.inl h⟩
  | qtRcc => exact ⟨by simp [remoteRules, Free], Or.inl h⟩
  | orbis => exact ⟨by simp [remoteRules, Free], Or.inl h⟩
  | snc => exact ⟨by simp [remoteRules, Free], Or.inl h⟩
  | cuda => exact ⟨by simp [remoteRules, Free], Or.inl h⟩
  | codeWarrior => exact ⟨by simp [remoteRules, Free], Or.inl h⟩
  | greenHills => exact ⟨by simp [remoteRules, Free], Or.inl h⟩
  | generic => exact ⟨by simp [remoteRules, Free], Or.inl h⟩

theorem pdb_picks {d : Driver} {t : Tok} {b : Bool} (h : Free (compileRules d true) t) (hp : Pdb d t b) :
    Picks (compileRules d false) t b := by
  obtain ⟨hd, ht⟩ := hp
  obtain ⟨cl, rfl⟩ : ∃ cl, d = .cl cl := by cases d <;> simp [Driver.isCL] at hd; exact ⟨_, rfl⟩
  refine ⟨[.msValue "Yu", .msValue "Fp"], .msValue "Fd", [.msValue "FI", .msValue "sourceDependencies"], rfl, ?_, ht⟩
  intro r hr
  apply h
  simp at hr
  rcases hr with rfl | rfl <;> simp [compileRules]

/-! ### Reading the descriptions backwards -/

variable {d : Driver} {c r : Ctx} {pass : Pass} {t v : Tok} {ts ws us : List Tok}

theorem fwd_removed (hp : Picks (passRules d c.isLocal pass) t false) (h : Forwarded d c pass (t :: ts) ws) : Forwarded d c pass ts ws := by
  cases h with
  | removed _ h => exact h
  | removedValue hp' _ => cases picks_unique (good_passRules _ _ _) hp hp'
  | replaced hr _ => exact (picks_not_free hp (replaced_free hr)).elim
  | replacedValue hr _ => exact (picks_not_free hp (replaced_free hr)).elim
  | plain hf => exact (picks_not_free hp hf).elim

theorem fwd_removedValue (hp : Picks (passRules d c.isLocal pass) t true) (h : Forwarded d c pass (t :: v :: ts) ws) :
    Forwarded d c pass ts ws := by
  cases h with
  | removed hp' _ => cases picks_unique (good_passRules _ _ _) hp hp'
  | removedValue _ h => exact h
  | replaced hr _ => exact (picks_not_free hp (replaced_free hr)).elim
  | replacedValue hr _ => exact (picks_not_free hp (replaced_free hr)).elim
  | plain hf => exact (picks_not_free hp hf).elim

theorem fwd_plain (hf : Free (passRules d c.isLocal pass) t) (hn : ∀ vs b, ¬ Replaced c d pass t (ts.headD []) vs b)
    (h : Forwarded d c pass (t :: ts) ws) : ∃ vs ws', ws = vs ++ ws' ∧ Becomes d c t vs ∧ Forwarded d c pass ts ws' := by
  cases h with
  | removed hp _ => exact (picks_not_free hp hf).elim
  | removedValue hp _ => exact (picks_not_free hp hf).elim
  | replaced hr _ => exact (hn _ _ hr).elim
  | replacedValue hr _ => exact (hn _ _ hr).elim
  | plain _ _ hb h => exact ⟨_, _, rfl, hb, h⟩

theorem fwd_replaced {vs : List Tok} (hr : Replaced c d pass t (ts.headD []) vs false)
    (h : Forwarded d c pass (t :: ts) ws) : ∃ ws', ws = vs ++ ws' ∧ Forwarded d c pass ts ws' := by
  cases h with
  | removed hp _ => exact (picks_not_free hp (replaced_free hr)).elim
  | removedValue hp _ => exact (picks_not_free hp (replaced_free hr)).elim
  | replaced hr' h => rw [(replaced_unique hr hr').1]; exact ⟨_, rfl, h⟩
  | replacedValue hr' _ => cases (replaced_unique hr hr').2
  | plain _ hn => exact (hn _ _ hr).elim

theorem fwd_replacedValue {vs : List Tok} (hr : Replaced c d pass t v vs true)
    (h : Forwarded d c pass (t :: v :: ts) ws) : ∃ ws', ws = vs ++ ws' ∧ Forwarded d c pass ts ws' := by
  cases h with
  | removed hp _ => exact (picks_not_free hp (replaced_free hr)).elim
  | removedValue hp _ => exact (picks_not_free hp (replaced_free hr)).elim
  | replaced hr' h => cases (replaced_unique hr hr').2
  | replacedValue hr' h => rw [(replaced_unique hr hr').1]; exact ⟨_, rfl, h⟩
  | plain _ hn => exact (hn _ _ hr).elim

theorem renames_free {next : Tok} (h : Renames d c t next) : Free (remoteRules d) t := by
  obtain ⟨hd, _, rfl, _⟩ := h
  rw [← byRules_no (good_remote d)]
  cases d <;> first | rfl | (simp [Driver.isGCC] at hd)

theorem sent_removed (hp : Picks (remoteRules d) t false) (h : Sent d c (t :: ts) us) : Sent d c ts us := by
  cases h with
  | removed _ h => exact h
  | removedValue hp' _ => cases picks_unique (good_remote _) hp hp'
  | language hr => exact (picks_not_free hp (renames_free hr)).elim
  | kept hf => exact (picks_not_free hp hf).elim

theorem sent_removedValue (hp : Picks (remoteRules d) t true) (h : Sent d c (t :: v :: ts) us) : Sent d c ts us := by
  cases h with
  | removed hp' _ => cases picks_unique (good_remote _) hp hp'
  | removedValue _ h => exact h
  | language hr => exact (picks_not_free hp (renames_free hr)).elim
  | kept hf => exact (picks_not_free hp hf).elim

theorem sent_kept (hf : Free (remoteRules d) t) (hn : ¬ Renames d c t (ts.headD [])) (h : Sent d c (t :: ts) us) :
    ∃ us', us = t :: us' ∧ Sent d c ts us' := by
  cases h with
  | removed hp _ => exact (picks_not_free hp hf).elim
  | removedValue hp _ => exact (picks_not_free hp hf).elim
  | language hr => exact absurd hr hn
  | kept _ _ h => exact ⟨_, rfl, h⟩

theorem sent_language (hr : Renames d c t v) (h : Sent d c (t :: v :: ts) us) :
    ∃ l us', us = t :: l :: us' ∧ Language v l ∧ Sent d c ts us' := by
  cases h with
  | removed hp _ => exact (picks_not_free hp (renames_free hr)).elim
  | removedValue hp _ => exact (picks_not_free hp (renames_free hr)).elim
  | language _ hl h => exact ⟨_, _, rfl, hl, h⟩
  | kept _ hn => exact absurd hr hn

/-! ### C79 -/

theorem not_renames (h : d.isGCC = true → t ≠ "-x".toList) (next : Tok) : ¬ Renames d c t next :=
  fun hr => h hr.1 hr.2.2.1

theorem local_plain (hl : c.isLocal = true) (h : d.isGCC = true → t ≠ "-x".toList) (next : Tok) :
    ∀ vs b, ¬ Replaced c d .compilePreprocessed t next vs b := by
  intro vs b hr
  cases hr with
  | language => exact h rfl rfl
  | «include» hl' => rw [hl] at hl'; cases hl'

theorem language_ordinary {l l' : Tok} (h : Language l l') (hd : d.isGCC = true) (ho : Ordinary d c l) : Ordinary d c l' := by
  rcases h with ⟨p, hp, _, rfl⟩ | ⟨_, rfl⟩
  · obtain ⟨cl, rfl⟩ : ∃ cl, d = .gcc cl := by cases d <;> simp [Driver.isGCC] at hd; exact ⟨_, rfl⟩
    have key : ∀ p ∈ languages, '%' ∉ p.2.toList := by decide
    have key2 : ∀ p ∈ languages, byRules (commonRules (.gcc cl) true) p.2.toList = .no := by cases cl <;> decide
    refine ⟨?_, key p hp, fun hs => by cases hs.1⟩
    cases hc : c.colored with
    | false => simp [commonRules, Free]
    | true => exact (byRules_no (good_common _ _)).1 (key2 p hp)
  · exact ho

theorem x_ordinary (d : Driver) (hd : d.isGCC = true) (c : Ctx) : Ordinary d c "-x".toList := by
  obtain ⟨cl, rfl⟩ : ∃ cl, d = .gcc cl := by cases d <;> simp [Driver.isGCC] at hd; exact ⟨_, rfl⟩
  refine ⟨?_, by decide, fun hs => by cases hs.1⟩
  rw [← byRules_no (good_common _ _)]
  cases c.colored <;> rfl

theorem x_free (hd : d.isGCC = true) (l : Bool) : Free (compileRules d l) "-x".toList := by
  obtain ⟨cl, rfl⟩ : ∃ cl, d = .gcc cl := by cases d <;> simp [Driver.isGCC] at hd; exact ⟨_, rfl⟩
  rw [← byRules_no (good_compile _ _)]
  cases cl <;> cases l <;> rfl

theorem language_free {l l' : Tok} (h : Language l l') (hd : d.isGCC = true) (hf : Free (compileRules d false) l) :
    Free (compileRules d false) l' := by
  rcases h with ⟨p, hp, _, rfl⟩ | ⟨_, rfl⟩
  · obtain ⟨cl, rfl⟩ : ∃ cl, d = .gcc cl := by cases d <;> simp [Driver.isGCC] at hd; exact ⟨_, rfl⟩
    have key : ∀ p ∈ languages, byRules (compileRules (.gcc cl) false) p.2.toList = .no := by cases cl <;> decide
    exact (byRules_no (good_compile _ _)).1 (key p hp)
  · exact hf

theorem gcc_not_replaced (hd : d.isGCC = true) (hr : r.isLocal = false) (next : Tok) :
    ∀ vs b, ¬ Replaced r d .compilePreprocessed t next vs b := by
  intro vs b h
  cases h with
  | language h => rw [hr] at h; cases h
  | «include» => cases hd

theorem same_words (hc : c.isLocal = true) (hr : r.isLocal = false) {ts : List Tok} (ht : Tidy d c r ts) :
    ∀ {ws us ws'}, Forwarded d c .compilePreprocessed ts ws → Sent d c ts us → Forwarded d r .compilePreprocessed us ws' →
      Same d c r ws ws' := by
  have pc : passRules d c.isLocal .compilePreprocessed = compileRules d true := by rw [hc]; rfl
  have pr : passRules d r.isLocal .compilePreprocessed = compileRules d false := by rw [hr]; rfl
  induction ht with
  | nil =>
    intro ws us ws' h1 h2 h3
    cases h1; cases h2; cases h3
    exact .nil
  | @one t ts hp hx hI _ ih =>
    intro ws us ws' h1 h2 h3
    rcases picks_or_free (good_compile d true) t with ⟨b, hpk⟩ | hf
    · have hb : b = false := by
        cases b with
        | false => rfl
        | true => exact absurd (Or.inl hpk) hp
      subst hb
      have h1 := fwd_removed (by rw [pc]; exact hpk) h1
      rcases tbl_picks hpk with hR | ⟨hfR, hC⟩
      · exact ih h1 (sent_removed hR h2) h3
      · obtain ⟨us', rfl, k1⟩ := sent_kept hfR (not_renames hx _) h2
        exact ih h1 k1 (fwd_removed (by rw [pr]; exact hC) h3)
    · obtain ⟨vs, ws, rfl, hb, k2⟩ := fwd_plain (by rw [pc]; exact hf) (local_plain hc hx _) h1
      obtain ⟨hfR, hC⟩ := tbl_free hf
      obtain ⟨us', rfl, k3⟩ := sent_kept hfR (not_renames hx _) h2
      rcases hC with hC | ⟨b, hpdb, hC⟩
      · by_cases hrep : ∃ vs b, Replaced r d .compilePreprocessed t (us'.headD []) vs b
        · obtain ⟨vs', b, hrep⟩ := hrep
          have hb' : b = false := by
            cases b with
            | false => rfl
            | true =>
              cases hrep with
              | language hl => rw [hr] at hl; cases hl
              | «include» _ _ _ hs =>
                rcases hs.1 rfl with e | e
                · exact absurd e (hI rfl).1
                · exact absurd e (hI rfl).2
          subst hb'
          obtain ⟨ws'', rfl, k4⟩ := fwd_replaced hrep h3
          exact .include hb hrep (ih k2 k3 k4)
        · obtain ⟨vs', ws'', rfl, hb', k5⟩ := fwd_plain (by rw [pr]; exact hC) (fun vs b h => hrep ⟨vs, b, h⟩) h3
          exact .token hb hb' (ih k2 k3 k5)
      · have hbf : b = false := by
          cases b with
          | false => rfl
          | true => exact absurd (Or.inr hpdb) hp
        subst hbf
        exact .pdb hpdb hb (ih k2 k3 (fwd_removed (by rw [pr]; exact hC) h3))
  | @two t v ts hp hv _ ih =>
    intro ws us ws' h1 h2 h3
    -- the value is sent as it is
    have hvR := (tbl_free hv.1).1
    have tx : d.isGCC = true → t ≠ "-x".toList := by
      intro hd e
      rcases hp with hp | hp
      · rw [e] at hp; exact picks_not_free hp (x_free hd true)
      · have := hp.1
        cases d <;> simp_all [Driver.isGCC, Driver.isCL]
    rcases picks_or_free (good_compile d true) t with ⟨b, hpk⟩ | hf
    · have hb : b = true := by
        cases b with
        | true => rfl
        | false =>
          rcases hp with hp | hp
          · exact picks_unique (good_compile d true) hpk hp
          · obtain ⟨r', hr', ht'⟩ := picks_mem hpk
            obtain ⟨hd, htF⟩ := hp
            obtain ⟨cl, rfl⟩ : ∃ cl, d = .cl cl := by cases d <;> simp [Driver.isCL] at hd; exact ⟨_, rfl⟩
            have key : (compileRules (.cl cl) true).all (fun r => r.names.all Named &&
                r.names.all fun a => (Rule.msValue "Fd").names.all fun a' => !Clash a a') = true := by cases cl <;> decide
            have key := List.all_eq_true.1 key r' hr'
            rw [Bool.and_eq_true] at key
            obtain ⟨a, ha, a', ha', e⟩ := clash key.1 (by decide) ht' htF
            have := List.all_eq_true.1 (List.all_eq_true.1 key.2 a ha) a' ha'
            rw [e] at this
            cases this
      subst hb
      have h1 := fwd_removedValue (by rw [pc]; exact hpk) h1
      rcases tbl_picks hpk with hR | ⟨hfR, hC⟩
      · exact ih h1 (sent_removedValue hR h2) h3
      · obtain ⟨us', rfl, k6⟩ := sent_kept hfR (not_renames tx _) h2
        obtain ⟨us'', rfl, k7⟩ := sent_kept hvR (not_renames hv.2.2 _) k6
        exact ih h1 k7 (fwd_removedValue (by rw [pr]; exact hC) h3)
    · have hpdb : Pdb d t true := by
        rcases hp with hp | hp
        · exact (picks_not_free hp hf).elim
        · exact hp
      obtain ⟨vs, ws, rfl, hb, k8⟩ := fwd_plain (by rw [pc]; exact hf) (local_plain hc tx _) h1
      obtain ⟨vs', ws, rfl, hb', k9⟩ := fwd_plain (by rw [pc]; exact hv.1) (local_plain hc hv.2.2 _) k8
      obtain ⟨us', rfl, k10⟩ := sent_kept (tbl_free hf).1 (not_renames tx _) h2
      obtain ⟨us'', rfl, k11⟩ := sent_kept hvR (not_renames hv.2.2 _) k10
      have h3 := fwd_removedValue (by rw [pr]; exact pdb_picks hf hpdb) h3
      rw [← List.append_assoc]
      exact .pdbValue hpdb hb hb' (ih k9 k11 h3)
  | @language l ts hd hne hq hoc hor _ ih =>
    intro ws us ws' h1 h2 h3
    have fx := x_free hd
    have noPdb : ∀ {t b}, ¬ Pdb d t b := by
      intro t b h
      have := h.1
      cases d <;> simp_all [Driver.isGCC, Driver.isCL]
    have flr : Free (compileRules d false) l := by
      rcases (tbl_free hq.1).2 with h | ⟨b, h, _⟩
      · exact h
      · exact absurd h noPdb
    have finish : ∀ {l' us' ws₁}, Becomes d c l' [l'] → Ordinary d r l' → Free (compileRules d false) l' →
        Forwarded d r .compilePreprocessed ("-x".toList :: l' :: us') ws' →
        Forwarded d c .compilePreprocessed ts ws₁ → Sent d c ts us' → Same d c r ("-x".toList :: l' :: ws₁) ws' := by
      intro l' us' ws₁ hb1 ho hf h3 h1 h2
      obtain ⟨vs, w1, rfl, hb, k12⟩ := fwd_plain (by rw [pr]; exact fx false) (gcc_not_replaced hd hr _) h3
      obtain ⟨vs', w2, rfl, hb', k13⟩ := fwd_plain (by rw [pr]; exact hf) (gcc_not_replaced hd hr _) k12
      rw [becomes_unique hb (ordinary_becomes (x_ordinary d hd r)), becomes_unique hb' (ordinary_becomes ho)]
      exact .token (t := "-x".toList) (vs := ["-x".toList]) (ordinary_becomes (x_ordinary d hd c)) (ordinary_becomes (x_ordinary d hd r))
        (.token (t := l') (vs := [l']) hb1 (ordinary_becomes ho) (ih h1 h2 k13))
    by_cases hu : c.updateX = true
    · have hren : Renames d c "-x".toList l := ⟨hd, hu, rfl, hne⟩
      obtain ⟨l', us', rfl, hl, k14⟩ := sent_language hren h2
      have hrep : Replaced c d .compilePreprocessed "-x".toList l ["-x".toList, l'] true := by
        obtain ⟨cl, rfl⟩ : ∃ cl, d = .gcc cl := by cases d <;> simp [Driver.isGCC] at hd; exact ⟨_, rfl⟩
        exact .language hc hu hne hl
      obtain ⟨w1, rfl, k15⟩ := fwd_replacedValue hrep h1
      exact finish (ordinary_becomes (language_ordinary hl hd hoc)) (language_ordinary hl hd hor) (language_free hl hd flr) h3 k15 k14
    · have hnr : ∀ t next, ¬ Renames d c t next := fun t next h => hu h.2.1
      have hnp : ∀ t next vs b, ¬ Replaced c d .compilePreprocessed t next vs b := by
        intro t next vs b h
        cases h with
        | language _ h => exact hu h
        | «include» h => rw [hc] at h; cases h
      obtain ⟨us', rfl, k16⟩ := sent_kept (tbl_free (fx true)).1 (hnr _ _) h2
      obtain ⟨us'', rfl, k17⟩ := sent_kept (tbl_free hq.1).1 (hnr _ _) k16
      obtain ⟨vs, ws, rfl, hb, k18⟩ := fwd_plain (by rw [pc]; exact fx true) (hnp _ _) h1
      obtain ⟨vs', ws, rfl, hb', k19⟩ := fwd_plain (by rw [pc]; exact hq.1) (hnp _ _) k18
      rw [becomes_unique hb (ordinary_becomes (x_ordinary d hd c)), becomes_unique hb' (ordinary_becomes hoc)]
      exact finish (ordinary_becomes hoc) hor flr h3 k19 k17

/-- The words of the command line sent to a worker, of which there always is one. -/
theorem C79_sent (d : Driver) (c : Ctx) {line : List Char} (hq : Closed line) :
    ∃ s us, saveRemote d c line = some s ∧ Sent d c (tokenize ' ' line) us ∧ tokenize ' ' s = us := by
  obtain ⟨s, us, h1, h2, h3⟩ := saveRemote_spec d c line
  exact ⟨s, us, h1, h2, tokenize_laid h3.toLaid (sent_words h2 (words_tokenize hq))⟩

/-- A worker compiles what was preprocessed with the same options, and in the same order, as the local machine would. -/
theorem C79_same_partial {d : Driver} {c r : Ctx} {line s : List Char} {a b : Args} (hc : c.isLocal = true) (hr : r.isLocal = false)
    (hq : Closed line) (ht : Tidy d c r (tokenize ' ' line))
    (ha : buildArgs d c .compilePreprocessed false line = some a) (hs : saveRemote d c line = some s)
    (hb : buildArgs d r .compilePreprocessed false s = some b) :
    ∃ ws ws', Laid (ws ++ commonExtras d c) a.text ∧ Laid (ws' ++ commonExtras d r) b.text ∧ Same d c r ws ws' := by
  obtain ⟨s', us, h1, h2, h3⟩ := C79_sent d c hq
  rw [hs] at h1; cases h1
  obtain ⟨ws, f, l⟩ := buildArgs_laid ha
  obtain ⟨ws', f', l'⟩ := buildArgs_laid hb
  rw [h3] at f'
  refine ⟨ws, ws', by simpa [extras] using l, by simpa [extras] using l', same_words hc hr ht f h2 f'⟩

end Verif.Args
