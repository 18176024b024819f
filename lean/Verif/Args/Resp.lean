import Verif.Args.Remote
/-
C80: long command lines. C81: the options are part of the key of the cache.
-/
namespace Verif.Args
open Verif.Str
open Verif.Cache (Tok Family)

/-! ### C80 -/

/-- The delimiters are blanks, in order. -/
def Args.Good (a : Args) : Prop :=
  a.delims.Nodup ∧ ∀ i ∈ a.delims, a.text[i]? = some ' '

theorem good_call {a : Args} (h : a.Good) (x : Call) : (a.call x).Good := by
  have old : ∀ (s : List Char), ∀ i ∈ a.delims, (a.text ++ s)[i]? = some ' ' := by
    intro s i hi
    have := h.2 i hi
    rw [List.getElem?_append_left (List.getElem?_eq_some_iff.1 this).1]
    exact this
  cases x with
  | add s => exact ⟨h.1, old s⟩
  | delim =>
    refine ⟨?_, ?_⟩
    · simp only [Args.call]
      rw [List.nodup_append]
      refine ⟨h.1, by simp, ?_⟩
      intro i hi j hj e
      simp at hj
      have := (List.getElem?_eq_some_iff.1 (h.2 i hi)).1
      omega
    · intro i hi
      simp only [Args.call, List.mem_append, List.mem_singleton] at hi ⊢
      rcases hi with hi | rfl
      · exact old [' '] i hi
      · simp

theorem good_ofCalls (cs : List Call) : (Args.ofCalls cs).Good := by
  have : ∀ (cs : List Call) (a : Args), a.Good → (cs.foldl Args.call a).Good := by
    intro cs
    induction cs with
    | nil => intro a h; exact h
    | cons x cs ih => intro a h; exact ih _ (good_call h x)
  exact this cs {} ⟨by simp, by simp⟩

theorem breakLines_spec : ∀ (is : List Nat) (s : List Char), is.Nodup → (∀ i ∈ is, s[i]? = some ' ') →
    ∃ s', breakLines is s = some s' ∧ s'.length = s.length ∧ ∀ i, s'[i]? = if i ∈ is then some '\n' else s[i]? := by
  intro is
  induction is with
  | nil => intro s _ _; exact ⟨s, rfl, rfl, by simp⟩
  | cons i is ih =>
    intro s hn hb
    have hi := hb i (by simp)
    have hlt := (List.getElem?_eq_some_iff.1 hi).1
    simp only [List.nodup_cons] at hn
    obtain ⟨s', h1, h2, h3⟩ := ih (s.set i '\n') hn.2 (by
      intro j hj
      rw [List.getElem?_set_ne (by rintro rfl; exact hn.1 hj)]
      exact hb j (by simp [hj]))
    refine ⟨s', by rw [breakLines, if_pos hi]; exact h1, by simpa using h2, ?_⟩
    intro j
    rw [h3 j]
    by_cases hj : j ∈ is
    · simp [hj]
    · by_cases hji : j = i
      · subst hji; simp [hj, hlt]
      · rw [if_neg hj, if_neg (by simp [hj, hji]), List.getElem?_set_ne (fun h => hji h.symm)]

/-- The command line of a program with its arguments. -/
def fullLine (exe args : List Char) : List Char := '"' :: exe ++ '"' :: ' ' :: args

/-- The arguments are given directly exactly if this is allowed and the command line is shorter than the limit. -/
theorem C80_direct (p : Platform) (limit : Nat) (mode : Mode) (escape : Bool) (exe : List Char) (a : Args) (s : List Char) :
    a.finalize p limit mode escape exe = .direct s ↔ s = a.text ∧ mode ≠ .always ∧ (fullLine exe a.text).length < limit := by
  have hlen : (fullLine exe a.text).length = a.text.length + exe.length + 3 := by simp [fullLine]; omega
  rw [hlen]
  unfold Args.finalize
  dsimp only
  by_cases h : a.text.length + exe.length + 3 ≥ limit
  · have hnot : ¬ a.text.length + exe.length + 3 < limit := by omega
    simp only [h, decide_true, true_and, Bool.true_eq_false, false_and, if_false, hnot, and_false, iff_false]
    split
    · simp
    · split <;> simp
  · have hlt : a.text.length + exe.length + 3 < limit := by omega
    simp only [h, decide_false, Bool.false_eq_true, false_and, if_false, true_and, hlt, and_true]
    by_cases hm : mode = .always
    · simp only [hm, ne_eq, not_true_eq_false, if_false, and_false, iff_false]
      split <;> simp
    · simp [hm, eq_comm]

/-- There is an error exactly if the command line reaches the limit and no response file may be used. -/
theorem C80_error (p : Platform) (limit : Nat) (mode : Mode) (escape : Bool) (exe : List Char) (a : Args) :
    a.finalize p limit mode escape exe = .tooLong ↔ mode = .never ∧ limit ≤ (fullLine exe a.text).length := by
  have hlen : (fullLine exe a.text).length = a.text.length + exe.length + 3 := by simp [fullLine]; omega
  rw [hlen]
  unfold Args.finalize
  dsimp only
  by_cases h : a.text.length + exe.length + 3 ≥ limit
  · simp only [h, decide_true, true_and, Bool.true_eq_false, false_and, if_false]
    by_cases hm : mode = .never
    · simp only [hm, if_true, true_and]
    · simp only [hm, if_false, false_and, iff_false]
      split <;> simp
  · have h' : ¬ limit ≤ a.text.length + exe.length + 3 := by omega
    simp only [h, decide_false, Bool.false_eq_true, false_and, if_false, true_and, h', and_false, iff_false]
    split
    · simp
    · split <;> simp

/-- The assertion holds for every sequence of calls. -/
theorem C80_no_assertion (p : Platform) (limit : Nat) (mode : Mode) (escape : Bool) (exe : List Char) (cs : List Call) :
    (Args.ofCalls cs).finalize p limit mode escape exe ≠ .assertion := by
  obtain ⟨s', h, _⟩ := breakLines_spec _ _ (good_ofCalls cs).1 (good_ofCalls cs).2
  unfold Args.finalize
  dsimp only
  rw [h]
  split
  · simp
  · split
    · simp
    · by_cases hw : p = .windows ∧ (Args.ofCalls cs).text.length ≥ 131071 <;> simp [hw]

/-- A response file contains the arguments, character by character; but in long files for Windows every delimiter is
a line break. -/
theorem C80_file {p : Platform} {limit : Nat} {mode : Mode} {exe : List Char} {cs : List Call} {s : List Char}
    (h : (Args.ofCalls cs).finalize p limit mode false exe = .file s) :
    mode ≠ .never ∧ s.length = (Args.ofCalls cs).text.length ∧
    ∀ i, s[i]? = if p = .windows ∧ 131071 ≤ s.length ∧ i ∈ (Args.ofCalls cs).delims then some '\n' else (Args.ofCalls cs).text[i]? := by
  obtain ⟨s', hb, hl, hs⟩ := breakLines_spec _ _ (good_ofCalls cs).1 (good_ofCalls cs).2
  generalize hA : Args.ofCalls cs = a at *
  unfold Args.finalize at h
  dsimp only at h
  rw [hb] at h
  split at h
  · cases h
  split at h
  · cases h
  rename_i h1 h2
  refine ⟨?_, ?_⟩
  · rintro rfl
    by_cases hn : a.text.length + exe.length + 3 ≥ limit
    · exact h1 ⟨by simpa using hn, rfl⟩
    · exact h2 ⟨by simpa using hn, by simp⟩
  · by_cases hw : p = .windows ∧ a.text.length ≥ 131071
    · rw [if_pos hw] at h
      simp only [Bool.false_eq_true, if_false, Final.file.injEq] at h
      subst h
      refine ⟨hl, fun i => ?_⟩
      rw [hs i]
      have hw2 := hw.2
      simp [hw.1, hl, hw2]
    · rw [if_neg hw] at h
      simp only [Bool.false_eq_true, if_false, Final.file.injEq] at h
      subst h
      refine ⟨rfl, fun i => ?_⟩
      rw [if_neg]
      rintro ⟨e1, e2, _⟩
      exact hw ⟨e1, e2⟩

/-- Reading the line breaks as blanks gives the arguments back, if they have no line breaks. -/
theorem C80_blanks {p : Platform} {limit : Nat} {mode : Mode} {exe : List Char} {cs : List Call} {s : List Char}
    (h : (Args.ofCalls cs).finalize p limit mode false exe = .file s) (hn : '\n' ∉ (Args.ofCalls cs).text) :
    (s.map fun x => if x = '\n' then ' ' else x) = (Args.ofCalls cs).text := by
  obtain ⟨_, hl, hs⟩ := C80_file h
  apply List.ext_getElem?
  intro i
  rw [List.getElem?_map, hs i]
  split
  · rename_i hd
    rw [(good_ofCalls cs).2 i hd.2.2]
    simp
  · cases ht : (Args.ofCalls cs).text[i]? with
    | none => rfl
    | some x =>
      have : x ≠ '\n' := by rintro rfl; exact hn (List.mem_of_getElem? ht)
      simp [this]

/-- What a compiler reads that takes two backslashes for one. -/
def unescape : List Char → List Char
  | [] => []
  | [c] => [c]
  | c :: b :: s => if c = '\\' ∧ b = '\\' then '\\' :: unescape s else c :: unescape (b :: s)

/-- With slashes escaped, the compiler reads the arguments with backslashes for slashes, and the text fits into the
memory reserved for it. -/
theorem C80_escape (s : List Char) :
    unescape (escapeSlashes s) = s.map (fun x => if x = '/' then '\\' else x) ∧ (escapeSlashes s).length ≤ 2 * s.length := by
  induction s with
  | nil => exact ⟨rfl, by simp [escapeSlashes]⟩
  | cons x s ih =>
    by_cases h : x = '\\' ∨ x = '/'
    · rw [escapeSlashes, if_pos h]
      refine ⟨?_, by simp; omega⟩
      rw [unescape, if_pos ⟨rfl, rfl⟩, ih.1]
      rcases h with rfl | rfl <;> simp
    · rw [escapeSlashes, if_neg h]
      have hx : x ≠ '\\' := fun e => h (Or.inl e)
      have hx' : x ≠ '/' := fun e => h (Or.inr e)
      refine ⟨?_, by simp; omega⟩
      cases he : escapeSlashes s with
      | nil =>
        rw [he] at ih
        rw [List.map_cons, ← ih.1]
        simp [unescape, hx']
      | cons y r =>
        rw [unescape, if_neg (by simp [hx]), ← he, ih.1]
        simp [hx']

/-- When a compiler may use response files: if the settings of the compiler say so, or on Windows for the compilers known
to understand them. -/
theorem C80_mode (p : Platform) (force allow : Bool) (f : Family) :
    responseFileMode p (some (force, allow)) f =
      if force then .always
      else if allow = true ∨ p = .windows ∧ f ∈ [.msvc, .gcc, .snc, .clang, .clangCl, .codeWarrior, .greenHills] then .ifNeeded
      else .never := by
  cases force <;> cases allow <;> simp [responseFileMode]

/-- The settings of the compiler do not reach a worker: a command line for which the local machine uses a response file
is an error on a worker that does not run Windows. -/
theorem C80_worker {p : Platform} (hp : p ≠ .windows) (f : Family) (limit : Nat) (escape : Bool) (exe : List Char) (a : Args)
    (h : limit ≤ (fullLine exe a.text).length) :
    a.finalize p limit (responseFileMode p none f) escape exe = .tooLong ∧
    ∃ s, a.finalize p limit (responseFileMode p (some (false, true)) f) escape exe = .file s := by
  have hm : responseFileMode p none f = .never := by simp [responseFileMode, hp]
  have hm' : responseFileMode p (some (false, true)) f = .ifNeeded := by simp [responseFileMode]
  refine ⟨(C80_error _ _ _ _ _ _).2 ⟨hm, h⟩, ?_⟩
  rw [hm']
  have hlen : (fullLine exe a.text).length = a.text.length + exe.length + 3 := by simp [fullLine]; omega
  have hn : a.text.length + exe.length + 3 ≥ limit := by omega
  unfold Args.finalize
  dsimp only
  rw [if_neg (by simp), if_neg (by simp [hn]), if_neg (by simp [hp])]
  exact ⟨_, rfl⟩

/-! ### C81 -/

/-- `ObjectNode::ShouldUseDeoptimization`, ObjectNode.cpp:2662-2707: for unity files, the settings
`DeoptimizeWritableFilesWithToken` and `DeoptimizeWritableFiles`, whether the source file is read only, and whether it has
the token. -/
def shouldDeoptimize (unity withToken always readOnly hasToken : Bool) : Bool :=
  if unity then false
  else if withToken = false ∧ always = false then false
  else if readOnly then false
  else if always then true
  else hasToken

/-- A compilation on the local machine that uses the cache. -/
structure Build where
  d : Driver
  c : Ctx
  lines : Lines
  unity : Bool := false
  withToken : Bool := false
  always : Bool := false
  readOnly : Bool
  hasToken : Bool := false
  /-- the other parts of the key: preprocessed source, compiler, precompiled header -/
  other : Nat

def Build.deoptimizes (b : Build) : Bool := shouldDeoptimize b.unity b.withToken b.always b.readOnly b.hasToken

/-- The arguments the preprocessed source is compiled with, ObjectNode.cpp:188 and 233. -/
def Build.args (b : Build) : Option Args :=
  buildArgs b.d b.c .compilePreprocessed false (commandLine b.lines false b.deoptimizes b.c.creatingPCH)

/-- The key, with the text in place of its hash. -/
def Build.key (b : Build) : Option (List Char) × Nat := (keyText b.d b.c b.lines, b.other)

/-- The cache: for a key the build that made the object. -/
abbrev CacheState := List ((Option (List Char) × Nat) × Build)

/-- The build whose object is used: from the cache, or its own, which is stored (`RetrieveFromCache`, `WriteToCache`). -/
def useCache (st : CacheState) (b : Build) : Build × CacheState :=
  match st.find? (fun e => e.1 == b.key) with
  | some e => (e.2, st)
  | none => (b, (b.key, b) :: st)

/-- Builds one after the other: each with the build whose object it gets. -/
def history : CacheState → List Build → List (Build × Build)
  | _, [] => []
  | st, b :: bs => (b, (useCache st b).1) :: history (useCache st b).2 bs

/-- Every object a build gets was made by a build with the same key. -/
theorem history_key (bs : List Build) : ∀ (st : CacheState), (∀ e ∈ st, e.1 = e.2.key) →
    ∀ p ∈ history st bs, p.1.key = p.2.key ∧ p.1 ∈ bs ∧ (p.2 ∈ bs ∨ ∃ e ∈ st, e.2 = p.2) := by
  induction bs with
  | nil => intro st _ p hp; simp [history] at hp
  | cons b bs ih =>
    intro st hst p hp
    rw [history] at hp
    have step : (∀ e ∈ (useCache st b).2, e.1 = e.2.key) ∧ b.key = (useCache st b).1.key ∧
        ((useCache st b).1 = b ∨ ∃ e ∈ st, e.2 = (useCache st b).1) ∧
        (∀ e ∈ (useCache st b).2, e ∈ st ∨ e.2 = b) := by
      unfold useCache
      cases hf : st.find? (fun e => e.1 == b.key) with
      | some e =>
        have he := List.mem_of_find?_eq_some hf
        have hk := List.find?_some hf
        rw [beq_iff_eq] at hk
        exact ⟨hst, by rw [← hk, hst e he], Or.inr ⟨e, he, rfl⟩, fun e he => Or.inl he⟩
      | none =>
        refine ⟨?_, rfl, Or.inl rfl, ?_⟩
        · intro e he
          rcases List.mem_cons.1 he with rfl | he
          · rfl
          · exact hst e he
        · intro e he
          rcases List.mem_cons.1 he with rfl | he
          · exact Or.inr rfl
          · exact Or.inl he
    obtain ⟨s1, s2, s3, s4⟩ := step
    rcases List.mem_cons.1 hp with rfl | hp
    · refine ⟨s2, by simp, ?_⟩
      rcases s3 with h | h
      · exact Or.inl (by simp [h])
      · exact Or.inr h
    · obtain ⟨h1, h2, h3⟩ := ih _ s1 p hp
      refine ⟨h1, List.mem_cons_of_mem _ h2, ?_⟩
      rcases h3 with h3 | ⟨e, he, h3⟩
      · exact Or.inl (List.mem_cons_of_mem _ h3)
      · rcases s4 e he with h4 | h4
        · exact Or.inr ⟨e, h4, h3⟩
        · exact Or.inl (by rw [← h3, h4]; simp)

/-- The words of the key. -/
theorem keyText_words {d : Driver} {c : Ctx} {l : Lines} {k : List Char} (h : keyText d c l = some k) :
    ∃ ws, Forwarded d { c with mapping := [] } .compilePreprocessed (tokenize ' ' (commandLine l false false c.creatingPCH)) ws ∧
      (∃ p, k = p ++ ' ' :: c.mapping) ∧
      Laid (ws ++ commonExtras d { c with mapping := [] } ++ if c.mapping = [] then [] else [c.mapping]) k := by
  unfold keyText at h
  simp only [Option.map_eq_some_iff] at h
  obtain ⟨a, ha, rfl⟩ := h
  obtain ⟨ws, f, l'⟩ := buildArgs_laid ha
  refine ⟨ws, f, ⟨a.text, by simp [Args.call]⟩, ?_⟩
  have l' : Laid (ws ++ commonExtras d { c with mapping := [] }) a.text := by simpa [extras] using l'
  simp only [Args.call, List.append_assoc]
  rw [← List.append_assoc ws]
  refine l'.append ?_
  split
  · rename_i h; rw [h]; exact .nil
  · exact .last _

/-- The words forwarded do not depend on the mapping. -/
theorem forwarded_mapping {d : Driver} {c : Ctx} {m : List Char} {pass : Pass} {ts ws : List Tok} :
    Forwarded d { c with mapping := m } pass ts ws → Forwarded d c pass ts ws := by
  intro h
  have hb : ∀ {t vs}, Becomes d { c with mapping := m } t vs → Becomes d c t vs := by
    intro t vs h
    cases h with
    | ignored h1 h2 => exact .ignored h1 h2
    | filled h1 h2 =>
      refine .filled h1 ?_
      cases h2 with
      | slashed a b e => exact .slashed a b e
      | pch a b e f => exact .pch a b e f
      | usings a b e f => exact .usings a b e f
      | input a b e => exact .input a b e
      | output a b e f => exact .output a b e f
      | kept a b e f => exact .kept a b e f
  have hr : ∀ {t next vs b}, Replaced { c with mapping := m } d pass t next vs b → Replaced c d pass t next vs b := by
    intro t next vs b h
    cases h with
    | winrt a => exact .winrt a
    | language a b e f => exact .language a b e f
    | «include» a b e f => exact .include a b e f
  have hr' : ∀ {t next vs b}, Replaced c d pass t next vs b → Replaced { c with mapping := m } d pass t next vs b := by
    intro t next vs b h
    cases h with
    | winrt a => exact .winrt a
    | language a b e f => exact .language a b e f
    | «include» a b e f => exact .include a b e f
  induction h with
  | nil => exact .nil
  | removed a _ ih => exact .removed a ih
  | removedValue a _ ih => exact .removedValue a ih
  | replaced a _ ih => exact .replaced (hr a) ih
  | replacedValue a _ ih => exact .replacedValue (hr a) ih
  | plain a n b _ ih => exact .plain a (fun vs b h => n vs b (hr' h)) (hb b) ih

/-- The words an object is compiled with, without the option for mapping source files, which contains a local path. -/
def Build.Uses (b : Build) (ws : List Tok) : Prop :=
  ∃ us, Forwarded b.d b.c .compilePreprocessed
      (tokenize ' ' (commandLine b.lines false b.deoptimizes b.c.creatingPCH)) us ∧
    ws = us ++ commonExtras b.d { b.c with mapping := [] }

/-- Each word is one, and the mapping is, if there is one. -/
def Build.Wordy (b : Build) : Prop :=
  (∀ ws, b.Uses ws → ∀ w ∈ ws, Word w) ∧ (b.c.mapping = [] ∨ Word b.c.mapping ∧ b.c.mapping.getLast? ≠ some ' ')

theorem key_words {b₁ b₂ : Build} (h₁ : b₁.deoptimizes = false) (h₂ : b₂.deoptimizes = false) (w₁ : b₁.Wordy) (w₂ : b₂.Wordy)
    {k : List Char} (k₁ : keyText b₁.d b₁.c b₁.lines = some k) (k₂ : keyText b₂.d b₂.c b₂.lines = some k) :
    b₁.c.mapping = b₂.c.mapping ∧ ∃ ws, b₁.Uses ws ∧ b₂.Uses ws := by
  obtain ⟨u₁, f₁, ⟨p₁, e₁⟩, l₁⟩ := keyText_words k₁
  obtain ⟨u₂, f₂, ⟨p₂, e₂⟩, l₂⟩ := keyText_words k₂
  have use₁ : b₁.Uses (u₁ ++ commonExtras b₁.d { b₁.c with mapping := [] }) := ⟨u₁, by rw [h₁]; exact forwarded_mapping f₁, rfl⟩
  have use₂ : b₂.Uses (u₂ ++ commonExtras b₂.d { b₂.c with mapping := [] }) := ⟨u₂, by rw [h₂]; exact forwarded_mapping f₂, rfl⟩
  have words : ∀ (b : Build) (ws : List Tok), b.Wordy → b.Uses ws →
      ∀ w ∈ ws ++ (if b.c.mapping = [] then [] else [b.c.mapping]), Word w := by
    intro b ws hw hu w hm
    rcases List.mem_append.1 hm with hm | hm
    · exact hw.1 ws hu w hm
    · split at hm
      · cases hm
      · rename_i hne
        simp at hm
        subst hm
        rcases hw.2 with h | h
        · exact absurd h hne
        · exact h.1
  have t₁ := tokenize_laid l₁ (words b₁ _ w₁ use₁)
  have t₂ := tokenize_laid l₂ (words b₂ _ w₂ use₂)
  rw [t₁] at t₂
  -- a mapping does not end with a blank, but a key without mapping does
  have ends : ∀ (b b' : Build) (p p' : List Char), b'.Wordy → p ++ ' ' :: b.c.mapping = p' ++ ' ' :: b'.c.mapping →
      b.c.mapping = [] → b'.c.mapping = [] := by
    intro b b' p p' hw e he
    by_cases hne : b'.c.mapping = []
    · exact hne
    · rcases hw.2 with h | h
      · exact h
      · exfalso
        rw [he] at e
        have := congrArg List.getLast? e
        rw [List.getLast?_append, List.getLast?_append] at this
        cases hm : b'.c.mapping with
        | nil => exact hne hm
        | cons x m =>
          rw [hm] at this h
          rw [List.getLast?_cons_cons] at this
          cases hl : (x :: m).getLast? with
          | none => simp at hl
          | some y =>
            rw [hl] at this h
            simp at this
            exact h.2 (by rw [← this])
  rw [e₁] at e₂
  by_cases hm : b₁.c.mapping = []
  · have hm' := ends b₁ b₂ p₁ p₂ w₂ e₂ hm
    rw [hm, hm'] at t₂
    simp only [if_true, List.append_nil] at t₂
    exact ⟨by rw [hm, hm'], _, use₁, by rw [t₂]; exact use₂⟩
  · have hm' : b₂.c.mapping ≠ [] := fun h => hm (ends b₂ b₁ p₂ p₁ w₁ e₂.symm h)
    rw [if_neg hm, if_neg hm'] at t₂
    have := List.append_inj' t₂ rfl
    simp at this
    exact ⟨this.2, _, use₁, by rw [this.1]; exact use₂⟩

/-- An object from the cache was compiled with the same words and the same mapping of source files. This is the property for
builds that do not compile writable files with other options; see `C81_deoptimized`. -/
theorem C81_options_partial {bs : List Build} (hd : ∀ b ∈ bs, b.deoptimizes = false) (hw : ∀ b ∈ bs, b.Wordy)
    (hk : ∀ b ∈ bs, (keyText b.d b.c b.lines).isSome = true) :
    ∀ p ∈ history [] bs, p.1.other = p.2.other ∧ p.1.c.mapping = p.2.c.mapping ∧ ∃ ws, p.1.Uses ws ∧ p.2.Uses ws := by
  intro p hp
  obtain ⟨h1, h2, h3⟩ := history_key bs [] (by simp) p hp
  have h3 : p.2 ∈ bs := by
    rcases h3 with h | ⟨e, he, _⟩
    · exact h
    · cases he
  have hko := congrArg Prod.snd h1
  have hkt := congrArg Prod.fst h1
  simp only [Build.key] at hko hkt
  refine ⟨hko, ?_⟩
  obtain ⟨k, hk1⟩ := Option.isSome_iff_exists.1 (hk _ h2)
  exact key_words (hd _ h2) (hd _ h3) (hw _ h2) (hw _ h3) hk1 (by rw [← hkt]; exact hk1)

/-- Files are compiled with other options only if the feature is enabled. -/
theorem C81_off {b : Build} (h : b.unity = true ∨ b.readOnly = true ∨ b.withToken = false ∧ b.always = false) :
    b.deoptimizes = false := by
  unfold Build.deoptimizes shouldDeoptimize
  rcases h with h | h | ⟨h, h'⟩ <;> simp [*]

end Verif.Args
