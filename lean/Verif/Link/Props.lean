import Verif.Link.Inputs
import Verif.Link.OtherProof
import Verif.Args.Remote
/-
Theorems about linking, libraries and running programs (C87 to C91).
-/
namespace Verif.Link
open Verif.Str
open Verif.Args (Laid Word tokenize_laid)
open Verif.Cache (Tok)

/-! ### C87: what is linked -/

/-- A library has in it exactly what belongs to it, all the way down, whether the librarian merges libraries or is given their objects. -/
theorem C87_library {F : Forest} (hc : Consistent F) {n : Name} {ms : Bool} {sub : Forest} (h : HasLib F n ms sub) (u : Name) :
    InFile F n u ↔ Inside sub u := by
  rw [inFile_lib hc h, mem_inputs, seqHas_objects hc u sub _ (within_lib h)]

theorem range_eq (l : Linker) (a b : Nat) : l.range a b = (((l.deps.take b).drop a).flatMap (linkSeq l.linkObjects)).foldl addName [] :=
  foldl_linkInputs _ _ _

/-- the dependencies behind `%1[0]`, `%1[1]` and `%1` -/
theorem init_ranges (name : Name) (options : List Char) (msvc lo : Bool) (exe : Forest) (as bs rs os ss : List Forest) :
    let l := initLinker name options msvc lo exe as bs rs os ss
    (l.deps.take l.libs2Start).drop 1 = as ∧ (l.deps.take l.assemblyStart).drop l.libs2Start = bs ∧
      (l.deps.take l.assemblyStart).drop 1 = as ++ bs ∧ (l.deps.drop l.assemblyStart).take l.assemblyNum = rs := by
  have e1 : ([exe] ++ as ++ bs ++ rs ++ os ++ ss) = ([exe] ++ as) ++ (bs ++ rs ++ os ++ ss) := by simp
  have e2 : ([exe] ++ as ++ bs ++ rs ++ os ++ ss) = ([exe] ++ as ++ bs) ++ (rs ++ os ++ ss) := by simp
  dsimp only [initLinker]
  refine ⟨?_, ?_, ?_, ?_⟩
  · rw [e1, List.take_left]; rfl
  · rw [e2, List.take_left, List.drop_left]
  · rw [e2, List.take_left]; rfl
  · rw [e2, List.drop_left, List.append_assoc, List.take_left]

theorem mem_range_hit {F : Forest} (hc : Consistent F) {l : Linker} {a b : Nat} {ds : List Forest} (hd : (l.deps.take b).drop a = ds)
    (hw : ∀ d ∈ ds, Within F d) (u : Name) : (∃ i ∈ l.range a b, InFile F i u) ↔ ∃ d ∈ ds, Linked d u := by
  rw [range_eq, hd]
  simp only [mem_fold, List.not_mem_nil, false_or]
  constructor
  · rintro ⟨i, ⟨x, hx, rfl⟩, hi⟩
    obtain ⟨d, hd', hx'⟩ := List.mem_flatMap.1 hx
    exact ⟨d, hd', (seqHas_links hc _ u d (hw d hd')).1 ⟨x, hx', hi⟩⟩
  · rintro ⟨d, hd', hu⟩
    obtain ⟨x, hx, hi⟩ := (seqHas_links hc l.linkObjects u d (hw d hd')).2 hu
    exact ⟨x.1, ⟨x, List.mem_flatMap.2 ⟨d, hd', hx⟩, rfl⟩, hi⟩

/-- What is in the files that stand for `%1` on the command line of a linker is what is to be linked for the targets of `Libraries` and
`Libraries2`; for `%1[0]` and `%1[1]`, of one of them. -/
theorem C87_linked {F A B : Forest} (hc : Consistent F) (hA : Within F A) (hB : Within F B) {as bs : List Forest} (ha : dependOn A = some as)
    (hb : dependOn B = some bs) (name : Name) (options : List Char) (msvc lo : Bool) (exe : Forest) (rs os ss : List Forest) (u : Name) :
    let l := initLinker name options msvc lo exe as bs rs os ss
    ((∃ i ∈ l.range 1 l.assemblyStart, InFile F i u) ↔ ∃ d, (Target A d ∨ Target B d) ∧ Linked d u) ∧
    ((∃ i ∈ l.range 1 l.libs2Start, InFile F i u) ↔ ∃ d, Target A d ∧ Linked d u) ∧
    ((∃ i ∈ l.range l.libs2Start l.assemblyStart, InFile F i u) ↔ ∃ d, Target B d ∧ Linked d u) := by
  obtain ⟨r1, r2, r3, _⟩ := init_ranges name options msvc lo exe as bs rs os ss
  have wa : ∀ d ∈ as, Within F d := fun d hd => within_target hA ((mem_dependOn A as ha d).1 hd)
  have wb : ∀ d ∈ bs, Within F d := fun d hd => within_target hB ((mem_dependOn B bs hb d).1 hd)
  refine ⟨?_, ?_, ?_⟩
  · rw [mem_range_hit hc r3 (fun d hd => (List.mem_append.1 hd).elim (wa d) (wb d))]
    simp only [List.mem_append, mem_dependOn A as ha, mem_dependOn B bs hb]
  · rw [mem_range_hit hc r1 wa]; simp only [mem_dependOn A as ha]
  · rw [mem_range_hit hc r2 wb]; simp only [mem_dependOn B bs hb]

/-- If objects are to be linked, the files on the command line are exactly those to be linked, and no library of ours is among them. -/
theorem C87_objects {A B : Forest} {as bs : List Forest} (ha : dependOn A = some as) (hb : dependOn B = some bs) (name : Name)
    (options : List Char) (msvc : Bool) (exe : Forest) (rs os ss : List Forest) (i : Name) :
    let l := initLinker name options msvc true exe as bs rs os ss
    i ∈ l.range 1 l.assemblyStart ↔ ∃ d, (Target A d ∨ Target B d) ∧ Linked d i := by
  obtain ⟨_, _, r3, _⟩ := init_ranges name options msvc true exe as bs rs os ss
  intro l
  rw [range_eq, r3, mem_fold]
  simp only [List.not_mem_nil, false_or]
  constructor
  · rintro ⟨x, hx, rfl⟩
    obtain ⟨d, hd, hx'⟩ := List.mem_flatMap.1 hx
    refine ⟨d, ?_, (mem_linkSeq_true d x.1).1 ⟨x, hx', rfl⟩⟩
    exact (List.mem_append.1 hd).imp (mem_dependOn A as ha d).1 (mem_dependOn B bs hb d).1
  · rintro ⟨d, hd, hl⟩
    obtain ⟨x, hx, e⟩ := (mem_linkSeq_true d i).2 hl
    exact ⟨x, List.mem_flatMap.2 ⟨d, List.mem_append.2 (hd.imp (mem_dependOn A as ha d).2 (mem_dependOn B bs hb d).2), hx⟩, e⟩

/-- The targets are refused if and only if there is one among them that cannot be linked. -/
theorem C87_refused (F : Forest) : dependOn F = none ↔ ∃ d, Target F d ∧ Refused d := dependOn_none F

/-- The files of `Libraries` come first; those of `Libraries2` follow in their order, without objects of precompiled headers that are
there already. -/
theorem C87_order (name : Name) (options : List Char) (msvc lo : Bool) (exe : Forest) (as bs rs os ss : List Forest) :
    let l := initLinker name options msvc lo exe as bs rs os ss
    ∃ X, l.range 1 l.assemblyStart = l.range 1 l.libs2Start ++ X ∧ X.Sublist (l.range l.libs2Start l.assemblyStart) ∧
      ∀ i ∈ l.range l.libs2Start l.assemblyStart, i ∈ X ∨ i ∈ l.range 1 l.libs2Start := by
  obtain ⟨r1, r2, r3, _⟩ := init_ranges name options msvc lo exe as bs rs os ss
  intro l
  have e1 := range_eq l 1 l.libs2Start
  have e2 := range_eq l l.libs2Start l.assemblyStart
  have e3 := range_eq l 1 l.assemblyStart
  rw [r1] at e1; rw [r2] at e2; rw [r3, List.flatMap_append, List.foldl_append, ← e1] at e3
  obtain ⟨X, Y, h1, h2, h3⟩ := fold_less (bs.flatMap (linkSeq l.linkObjects)) [] (l.range 1 l.libs2Start) (by simp)
  rw [List.nil_append] at h1
  refine ⟨Y, e3.trans h2, by rw [e2, h1]; exact h3, fun i hi => ?_⟩
  rw [e2, mem_fold] at hi
  have : i ∈ l.range 1 l.libs2Start ++ Y := by
    rw [← h2, mem_fold]
    exact Or.inr (hi.resolve_left (by simp))
  exact (List.mem_append.1 this).symm

/-- a name that is given by something else than the object of a precompiled header -/
def Otherwise : Forest → Name → Prop
  | .nil, _ => False
  | .file n rest, u | .object n rest, u | .unsupported n rest, u | .pch n _ _ rest, u => u = n ∨ Otherwise rest u
  | .dll n f imp rest, u => u = n ∨ u = importLib n f imp ∨ Otherwise rest u
  | .copy n sub rest, u | .alias n sub rest, u | .library n _ sub rest, u => u = n ∨ Otherwise sub u ∨ Otherwise rest u
  | .list _ sub rest, u => Otherwise sub u ∨ Otherwise rest u

theorem objectSeq_mark {o : Name} {b : Bool} (F : Forest) (h : ¬ Otherwise F o) : ∀ x ∈ objectSeq b F, x.1 = o → x.2 = true := by
  induction F with
  | nil => intro x hx; simp [objectSeq] at hx
  | pch n obj ms rest ih =>
    intro x hx e
    simp only [objectSeq, List.mem_append] at hx
    rcases hx with hx | hx
    · cases ms with
      | true => simp at hx; rw [hx]
      | false => simp at hx
    · exact ih (fun h' => h (Or.inr h')) x hx e
  | list n sub rest ih1 ih2 =>
    intro x hx e
    simp only [objectSeq, List.mem_append] at hx
    exact hx.elim (fun hx => ih1 (fun h' => h (Or.inl h')) x hx e) (fun hx => ih2 (fun h' => h (Or.inr h')) x hx e)
  | library n ms sub rest ih1 ih2 =>
    intro x hx e
    simp only [objectSeq, List.mem_append] at hx
    rcases hx with hx | hx
    · cases b with
      | true => exact ih1 (fun h' => h (Or.inr (Or.inl h'))) x hx e
      | false => simp at hx; rw [hx] at e; exact absurd (Or.inl e.symm) h
    · exact ih2 (fun h' => h (Or.inr (Or.inr h'))) x hx e
  | file n rest ih | object n rest ih | unsupported n rest ih =>
    intro x hx e
    rcases List.mem_cons.1 hx with rfl | hx
    · exact absurd (Or.inl e.symm) h
    · exact ih (fun h' => h (Or.inr h')) x hx e
  | dll n f imp rest ih =>
    intro x hx e
    rcases List.mem_cons.1 hx with rfl | hx
    · exact absurd (Or.inl e.symm) h
    · exact ih (fun h' => h (Or.inr (Or.inr h'))) x hx e
  | copy n s rest _ ih | alias n s rest _ ih =>
    intro x hx e
    rcases List.mem_cons.1 hx with rfl | hx
    · exact absurd (Or.inl e.symm) h
    · exact ih (fun h' => h (Or.inr (Or.inr h'))) x hx e

theorem linkSeq_mark {o : Name} {b : Bool} (F : Forest) (h : ¬ Otherwise F o) : ∀ x ∈ linkSeq b F, x.1 = o → x.2 = true := by
  induction F with
  | nil => intro x hx; simp [linkSeq] at hx
  | list n sub rest ih1 ih2 =>
    intro x hx e
    simp only [linkSeq, List.mem_append] at hx
    exact hx.elim (fun hx => objectSeq_mark sub (fun h' => h (Or.inl h')) x hx e) (fun hx => ih2 (fun h' => h (Or.inr h')) x hx e)
  | library n ms sub rest ih1 ih2 =>
    intro x hx e
    simp only [linkSeq, List.mem_append] at hx
    rcases hx with hx | hx
    · cases b with
      | true => exact objectSeq_mark sub (fun h' => h (Or.inr (Or.inl h'))) x hx e
      | false => simp at hx; rw [hx] at e; exact absurd (Or.inl e.symm) h
    · exact ih2 (fun h' => h (Or.inr (Or.inr h'))) x hx e
  | copy n s rest ih1 ih2 =>
    intro x hx e
    simp only [linkSeq, List.mem_append] at hx
    exact hx.elim (fun hx => ih1 (fun h' => h (Or.inr (Or.inl h'))) x hx e) (fun hx => ih2 (fun h' => h (Or.inr (Or.inr h'))) x hx e)
  | file n rest ih | object n rest ih | unsupported n rest ih =>
    intro x hx e
    rcases List.mem_cons.1 hx with rfl | hx
    · exact absurd (Or.inl e.symm) h
    · exact ih (fun h' => h (Or.inr h')) x hx e
  | pch n o ms rest ih =>
    intro x hx e
    rcases List.mem_cons.1 hx with rfl | hx
    · exact absurd (Or.inl e.symm) h
    · exact ih (fun h' => h (Or.inr h')) x hx e
  | dll n f imp rest ih =>
    intro x hx e
    rcases List.mem_cons.1 hx with rfl | hx
    · exact absurd (Or.inr (Or.inl e.symm)) h
    · exact ih (fun h' => h (Or.inr (Or.inr h'))) x hx e
  | alias n s rest _ ih =>
    intro x hx e
    rcases List.mem_cons.1 hx with rfl | hx
    · exact absurd (Or.inl e.symm) h
    · exact ih (fun h' => h (Or.inr (Or.inr h'))) x hx e

/-- The object of a precompiled header that many lists share is given to the linker at most once for a placeholder. -/
theorem C87_once (l : Linker) (a b : Nat) {o : Name} (h : ∀ d ∈ l.deps, ¬ Otherwise d o) : (l.range a b).count o ≤ 1 := by
  rw [range_eq]
  refine fold_count _ _ (fun x hx e => ?_) (by simp)
  obtain ⟨d, hd, hx'⟩ := List.mem_flatMap.1 hx
  exact linkSeq_mark d (h d (List.mem_of_mem_take (List.mem_of_mem_drop hd))) x hx' e

/-- The same for a librarian. -/
theorem C87_once_library (b : Bool) (F : Forest) {o : Name} (h : ¬ Otherwise F o) : (objectInputs b F []).count o ≤ 1 := by
  rw [objectInputs_eq]
  exact fold_count _ _ (fun x hx e => objectSeq_mark F h x hx e) (by simp)

/-! ### C88: command lines -/

/-- A linker is given exactly the words made of the tokens of its options, in their order. -/
theorem C88_linker (clean : Name → Name) (l : Linker) :
    ∃ a ws, l.buildArgs clean = some a ∧ EachToken (l.Turns clean) (tokenize ' ' l.options) ws ∧
      (∀ ws', EachToken (l.Turns clean) (tokenize ' ' l.options) ws' → ws' = ws) ∧
      Laid ws a.text ∧ ((∀ w ∈ ws, Word w) → tokenize ' ' a.text = ws) := by
  obtain ⟨cs, ws, h1, h2, h3⟩ := tokenCalls_turns clean l (tokenize ' ' l.options)
  have hl : Laid ws (Args.Args.ofCalls cs).text := by rw [Args.ofCalls_text]; exact h3.toLaid
  refine ⟨_, ws, by rw [Linker.buildArgs, h1]; rfl, h2, fun ws' h' => ?_, hl, tokenize_laid hl⟩
  exact eachToken_unique (R := l.Turns clean) (fun t a b h k => turned_unique h k) h2 h'

theorem ended_line {name : Name} {inputs : List Name} {refs : Option (List Name)} {f : Tok → List Args.Call}
    (hf : ∀ t, ∃ ws, Ended name inputs refs t ws ∧ Args.Trailed ws (Args.textOf (f t))) (options : List Char) :
    ∃ ws, EachToken (Ended name inputs refs) (tokenize ' ' options) ws ∧
      (∀ ws', EachToken (Ended name inputs refs) (tokenize ' ' options) ws' → ws' = ws) ∧
      Laid ws (Args.Args.ofCalls ((tokenize ' ' options).flatMap f)).text ∧
      ((∀ w ∈ ws, Word w) → tokenize ' ' (Args.Args.ofCalls ((tokenize ' ' options).flatMap f)).text = ws) := by
  obtain ⟨ws, h1, h2⟩ := flatMap_each hf (tokenize ' ' options)
  have hl : Laid ws (Args.Args.ofCalls ((tokenize ' ' options).flatMap f)).text := by rw [Args.ofCalls_text]; exact h2.toLaid
  exact ⟨ws, h1, fun ws' h' => eachToken_unique (R := Ended name inputs refs) (fun t a b h k => ended_unique h k) h1 h', hl, tokenize_laid hl⟩

/-- The same for a librarian: placeholders at the end of tokens are filled, everything else is kept. -/
theorem C88_library (name : Name) (ms : Bool) (deps : Forest) (options : List Char) :
    ∃ ws, EachToken (Ended name (objectInputs (! ms) deps []) none) (tokenize ' ' options) ws ∧
      (∀ ws', EachToken (Ended name (objectInputs (! ms) deps []) none) (tokenize ' ' options) ws' → ws' = ws) ∧
      Laid ws (libraryArgs name ms deps options).text ∧
      ((∀ w ∈ ws, Word w) → tokenize ' ' (libraryArgs name ms deps options).text = ws) :=
  ended_line (libraryToken_ended name _) options

/-- The same for a program that is run; its inputs are the files and the files found in directories. -/
theorem C88_exec (name : Name) (deps : List (Name ⊕ List Name)) (options : List Char) :
    ∃ ws, EachToken (Ended name (execInputs deps) none) (tokenize ' ' options) ws ∧
      (∀ ws', EachToken (Ended name (execInputs deps) none) (tokenize ' ' options) ws' → ws' = ws) ∧
      Laid ws (execArgs name deps options).text ∧
      ((∀ w ∈ ws, Word w) → tokenize ' ' (execArgs name deps options).text = ws) :=
  ended_line (execToken_ended name _) options

/-- The same for a compiler of C#; `%3` stands for the references, with commas between them. -/
theorem C88_cs (name : Name) (files found refs : List Name) (options : List Char) :
    ∃ ws, EachToken (Ended name (files ++ found) (some refs)) (tokenize ' ' options) ws ∧
      (∀ ws', EachToken (Ended name (files ++ found) (some refs)) (tokenize ' ' options) ws' → ws' = ws) ∧
      Laid ws (csArgs name files found refs options).text ∧
      ((∀ w ∈ ws, Word w) → tokenize ' ' (csArgs name files found refs options).text = ws) :=
  ended_line (csToken_ended name _ refs) options

/-! ### C89: other libraries -/

/-- Options can be read, and in one way only, unless they end where a value is needed; then the code reads behind the end of an array. -/
theorem C89_defined (clean : Name → Name) (slash : Char) (look : Name → Found) (msvc : Bool) (env : List Name) (options : List Char) :
    (otherLibraries clean slash look msvc env options = .outOfBounds ↔ EndsOpen msvc (tokenize ' ' options)) ∧
    (EndsOpen msvc (tokenize ' ' options) ∨ ∃ is, Reads msvc (tokenize ' ' options) is ∧ ∀ js, Reads msvc (tokenize ' ' options) js → js = is) := by
  constructor
  · unfold otherLibraries
    rw [← readTokens_open (clean := clean) (slash := slash) (msvc := msvc) {}]
    cases h : readTokens clean slash msvc none (tokenize ' ' options) {} with
    | none => simp
    | some p =>
      dsimp only
      cases allOf look (wanted clean slash msvc env p) <;> simp
  · rcases readTokens_spec clean slash msvc _ (tokenize ' ' options) (Nat.le_refl _) {} with ⟨is, hr, _⟩ | ⟨_, he⟩
    · exact Or.inr ⟨is, hr, fun js h => reads_unique hr h⟩
    · exact Or.inl he

/-- Every library that the options name and that is found is a dependency of the linker, and nothing else is. There is an error if and
only if something is found for a name which is not a file. What is missing: a default library named twice, of which `/NODEFAULTLIB:` takes
away only one. -/
theorem C89_dependencies_partial {clean : Name → Name} {slash : Char} {look : Name → Found} {msvc : Bool} {env : List Name} {options : List Char}
    {is : List Item} (hr : Reads msvc (tokenize ' ' options) is) (hd : DistinctI (values .default is)) :
    (otherLibraries clean slash look msvc env options = .error ∧ ∃ n, Hit clean slash look msvc (pathsOf clean slash is ++ env) is .notFile n) ∨
    (∃ ds, otherLibraries clean slash look msvc env options = .ok ds ∧
      (∀ n, ¬ Hit clean slash look msvc (pathsOf clean slash is ++ env) is .notFile n) ∧
      ∀ n, n ∈ ds ↔ Hit clean slash look msvc (pathsOf clean slash is ++ env) is .file n) := by
  unfold otherLibraries
  rw [readTokens_ok hr]
  dsimp only
  have hp := collected clean slash is
  cases h : allOf look (wanted clean slash msvc env (is.foldl (applyItem clean slash) {})) with
  | none =>
    obtain ⟨c, hc, n, hn⟩ := allOf_none.1 h
    exact Or.inl ⟨rfl, n, (wanted_hit hp hd).1 ⟨c, hc, hn⟩⟩
  | some ds =>
    refine Or.inr ⟨ds, rfl, fun n hn => ?_, fun n => ?_⟩
    · obtain ⟨c, hc, hn'⟩ := (wanted_hit hp hd).2 hn
      have := allOf_none.2 ⟨c, hc, n, hn'⟩
      rw [h] at this; cases this
    · rw [allOf_some h, wanted_hit hp hd]

/-- Also when a default library is named more than once: one that is not ignored stays. -/
theorem C89_defaults_kept {clean : Name → Name} {slash : Char} {is : List Item} {lib : Name} (h : lib ∈ values .default is)
    (ha : .ignoreAll ∉ is) (hi : ∀ i ∈ values .ignore is, i.map lower ≠ lib.map lower) :
    lib ∈ keptDefaults (is.foldl (applyItem clean slash) {}) := by
  have hp := collected clean slash is
  unfold keptDefaults
  rw [if_neg (fun h' => ha (hp.all.1 h'))]
  refine foldl_eraseI_keeps _ _ (by rw [hp.defaults]; exact h) (fun n hn => ?_)
  rw [hp.ignore] at hn
  exact Bool.eq_false_iff.2 fun h' => hi n hn (sameI_iff.1 h')

/-! ### C90: results -/

/-- Linking: the linker is run at most twice, the second time only for Microsoft's linker and one of the errors for which that helps; the
result is good if and only if old files could be deleted, there were arguments, the last run of the linker ended with 0, and so did the
program that stamps the file, which is run only then. -/
theorem C90_link (msvc cleanup args : Bool) (runs : Nat → Ran) (stamp : Option Ran) {r : Result} {n m : Nat}
    (h : linkBuild msvc cleanup args runs stamp = (r, n, m)) :
    n ≤ 2 ∧ (n = 2 → msvc = true ∧ ∃ code ∈ ([1000, 1136, 1140, 1158, 1201, 1318] : List Int), runs 1 = .exited code) ∧
    (r = .ok ↔ n ≠ 0 ∧ cleanup = true ∧ args = true ∧ runs n = .exited 0 ∧ (stamp = none ∨ stamp = some (.exited 0))) ∧
    (m ≠ 0 ↔ n ≠ 0 ∧ runs n = .exited 0 ∧ stamp ≠ none) ∧
    (n = 0 ↔ cleanup = false ∨ args = false) ∧
    (n = 1 → msvc = true → ∀ code ∈ ([1000, 1136, 1140, 1158, 1201, 1318] : List Int), runs 1 ≠ .exited code) := by
  have hz : ((0 : Int) ∈ retryCodes) ↔ False := by decide
  unfold linkBuild at h
  cases cleanup with
  | false => cases h; simp
  | true =>
    cases args with
    | false => cases h; simp
    | true =>
      simp only [Bool.not_true, Bool.false_eq_true, if_false] at h
      unfold linkLoop at h
      change _ ∧ (_ → _ ∧ ∃ code ∈ retryCodes, _) ∧ _ ∧ _ ∧ _ ∧ (_ → _ → ∀ code ∈ retryCodes, _)
      generalize retryCodes = codes at h hz ⊢
      cases h1 : runs 1 with
      | notStarted => rw [h1] at h; cases h; simp [h1]
      | aborted => rw [h1] at h; cases h; simp [h1]
      | exited code =>
        rw [h1] at h
        dsimp only at h
        by_cases hc : code = 0
        · subst hc
          simp only [ne_eq, not_true_eq_false, if_false] at h
          cases stamp with
          | none => cases h; simp [h1]; intro _ c hc he; subst he; exact hz.1 hc
          | some s =>
            cases s with
            | notStarted => cases h; simp [h1]; intro _ c hc he; subst he; exact hz.1 hc
            | aborted => cases h; simp [h1]; intro _ c hc he; subst he; exact hz.1 hc
            | exited c' =>
              cases h
              by_cases hc' : c' = 0 <;> simp [h1, hc'] <;> (intro _ c hc he; subst he; exact hz.1 hc)
        · rw [if_pos hc] at h
          by_cases hr : (msvc && codes.contains code) = true
          · rw [if_pos hr] at h
            have hr' : msvc = true ∧ code ∈ codes := by simpa using hr
            cases h2 : runs 2 with
            | notStarted => rw [h2] at h; cases h; simp [h2, hr'.1, hr'.2]
            | aborted => rw [h2] at h; cases h; simp [h2, hr'.1, hr'.2]
            | exited code2 =>
              rw [h2] at h
              dsimp only at h
              by_cases hc2 : code2 = 0
              · subst hc2
                simp only [ne_eq, not_true_eq_false, if_false] at h
                cases stamp with
                | none => cases h; simp [h2, hr'.1, hr'.2]
                | some s =>
                  cases s with
                  | notStarted => cases h; simp [h2, hr'.1, hr'.2]
                  | aborted => cases h; simp [h2, hr'.1, hr'.2]
                  | exited c' => cases h; by_cases hc' : c' = 0 <;> simp [h2, hr'.1, hr'.2, hc']
              · rw [if_pos hc2] at h; cases h; simp [h2, hc2, hr'.1, hr'.2]
          · rw [if_neg hr] at h
            cases h
            simp only [h1]
            refine ⟨by omega, by omega, by simp [hc], by simp [hc], by simp, fun _ hm c hmem he => hr ?_⟩
            cases he
            simp [hm, hmem]

/-- A library and an assembly of C# are built if and only if everything was ready and the program ended with 0. -/
theorem C90_tool (ready : Bool) (ran : Ran) : toolBuild ready ran = .ok ↔ ready = true ∧ ran = .exited 0 := by
  unfold toolBuild
  cases ready <;> cases ran <;> simp

/-- A program that is run is right if and only if it ended with the code that is expected. -/
theorem C90_exec (code : Int) (useStdOut : Bool) (ran : Ran) (out : List Char) (w : Writing) :
    (execBuild code useStdOut ran out w).1 = .ok ↔ ran = .exited code := by
  unfold execBuild
  cases ran with
  | notStarted => simp
  | aborted => simp
  | exited c =>
    by_cases h : c = code
    · cases useStdOut
      · simp [h]
      · cases w <;> simp [h]
    · simp [h]

/-- If nothing goes wrong while writing, its output is what the program printed. What is missing: the result is also good if the file
could not be opened or written. -/
theorem C90_stdout_partial {code : Int} {ran : Ran} {out : List Char} {n : Nat} (hn : out.length ≤ n) (h : ran = .exited code) :
    execBuild code true ran out (.wrote n) = (.ok, some out) := by
  subst h
  simp [execBuild, List.take_of_length_le hn]

/-- A test passes if and only if it ended in time and with 0, and its output could be written; then the output is what it printed. -/
theorem C90_test (ran : Ran) (timedOut : Bool) (out err : List Char) (w : Writing) :
    ((testBuild ran timedOut out err w).1 = .ok ↔
      ran = .exited 0 ∧ timedOut = false ∧ ∃ n, w = .wrote n ∧ (out ++ err).length ≤ n) ∧
    (∀ text, (testBuild ran timedOut out err w).2 = some text → ∃ n, w = .wrote n ∧ text = (out ++ err).take n) ∧
    (∀ code n, ran = .exited code → w = .wrote n → (testBuild ran timedOut out err w).2 = some ((out ++ err).take n)) := by
  generalize ht : out ++ err = text
  cases ran with
  | notStarted => simp [testBuild]
  | aborted => simp [testBuild]
  | exited c =>
    cases w with
    | notOpened => simp [testBuild]
    | wrote n =>
      simp only [testBuild, ht]
      by_cases hn : n < text.length
      · rw [if_pos hn]; simp; omega
      · rw [if_neg hn]
        have e : text.take n = text := List.take_of_length_le (by omega)
        cases timedOut with
        | true => simp [e]
        | false =>
          by_cases hc : c = 0
          · simp [hc, e]; omega
          · simp [hc, e]

/-! ### C91: flags and old files -/

/-- an option without value is among the tokens -/
def Has (options : List Char) (o : String) : Prop := ∃ t ∈ tokenize ' ' options, ∃ c, MsOption o t c []

/-- an option that begins like this is among the tokens; `w`: with this word and not with `NO` before it, in any case -/
def HasOpt (options : List Char) (w : String) : Prop :=
  ∃ t ∈ tokenize ' ' options, (∃ c v, MsOption "OPT" t c v) ∧ (∃ u v, t.map lower = u ++ w.toList.map lower ++ v) ∧
    ∀ u v, t.map lower ≠ u ++ ("NO" ++ w).toList.map lower ++ v

theorem hasI_iff {p : String} {t : Tok} (hp : p.toList ≠ []) : hasI p t = true ↔ ∃ u v, t.map lower = u ++ p.toList.map lower ++ v := by
  unfold hasI
  cases h : findSub (p.toList.map lower) (t.map lower) with
  | some r => simp only [Option.isSome_some, true_iff]; exact ⟨r.1, r.2, (findSub_some h).1⟩
  | none =>
    simp only [Option.isSome_none, Bool.false_eq_true, false_iff]
    rintro ⟨u, v, e⟩
    exact findSub_none (by simpa using hp) h u v e

/-- two options of which one is not the beginning of the other are told apart by `isArg` and `isStart` -/
theorem isArg_ne {t : Tok} {a b : String} (h : isArg t a = true) (hab : a.toList.map lower ≠ b.toList.map lower) : isArg t b = false := by
  apply Bool.eq_false_iff.2
  intro h'
  obtain ⟨_, _, m, rfl, hm⟩ := isArg_iff.1 h
  obtain ⟨_, _, n, e, hn⟩ := isArg_iff.1 h'
  simp only [List.append_nil, List.cons.injEq] at e
  rw [e.2] at hm
  exact hab (hm.symm.trans hn)

theorem isArg_not_start {t : Tok} {a b : String} (h : isArg t a = true) (hab : ¬ (b.toList.map lower).isPrefixOf (a.toList.map lower)) :
    isStart t b = false := by
  apply Bool.eq_false_iff.2
  intro h'
  obtain ⟨_, _, m, rfl, hm⟩ := isArg_iff.1 h
  obtain ⟨_, _, n, e, hn⟩ := isStart_iff.1 h'
  simp only [List.append_nil, List.cons_append, List.cons.injEq] at e
  refine hab (List.isPrefixOf_iff_prefix.2 ⟨((List.drop (b.length + 1) (‹Char› :: m ++ [])).map lower), ?_⟩)
  rw [← hm, ← hn, ← List.map_append]
  exact congrArg (List.map lower) (by simpa using e.2.symm)

theorem start_not_start {t : Tok} {a b : String} (h : isStart t a = true)
    (hd : ¬ (a.toList.map lower).isPrefixOf (b.toList.map lower) ∧ ¬ (b.toList.map lower).isPrefixOf (a.toList.map lower)) :
    isStart t b = false := by
  apply Bool.eq_false_iff.2
  intro h'
  obtain ⟨_, h1⟩ := isStart_iff.1 h
  obtain ⟨_, h2⟩ := isStart_iff.1 h'
  exact msOption_disjoint h1 h2 hd

/-- a flag is set by one kind of token, and stays -/
theorem foldl_flag (get : MsFlags → Bool) (P : Tok → Bool) (hP : ∀ f t, get (msToken f t) = (get f || P t)) (ts : List Tok) :
    ∀ f, get (ts.foldl msToken f) = true ↔ get f = true ∨ ∃ t ∈ ts, P t = true := by
  induction ts with
  | nil => intro f; simp
  | cons t ts ih => intro f; rw [List.foldl_cons, ih, hP]; simp [or_assoc]

theorem msToken_flags (f : MsFlags) (t : Tok) :
    (msToken f t).debug = (f.debug || isArg t "DEBUG") ∧ (msToken f t).incremental = (f.incremental || isArg t "INCREMENTAL") ∧
    (msToken f t).incrementalNo = (f.incrementalNo || isArg t "INCREMENTAL:NO") ∧ (msToken f t).dll = (f.dll || isArg t "DLL") ∧
    (msToken f t).ref = (f.ref || (isStart t "OPT" && (hasI "REF" t && ! hasI "NOREF" t))) ∧
    (msToken f t).icf = (f.icf || (isStart t "OPT" && (hasI "ICF" t && ! hasI "NOICF" t))) ∧
    (msToken f t).lbr = (f.lbr || (isStart t "OPT" && (hasI "LBR" t && ! hasI "NOLBR" t))) ∧
    (msToken f t).order = (f.order || isStart t "ORDER") ∧ (msToken f t).wx = (f.wx || isArg t "WX") := by
  unfold msToken
  by_cases h1 : isArg t "DLL" = true
  · rw [if_pos h1]
    simp [h1, isArg_ne h1 (b := "DEBUG") (by decide), isArg_ne h1 (b := "INCREMENTAL") (by decide),
      isArg_ne h1 (b := "INCREMENTAL:NO") (by decide), isArg_ne h1 (b := "WX") (by decide),
      isArg_not_start h1 (b := "OPT") (by decide), isArg_not_start h1 (b := "ORDER") (by decide)]
  rw [if_neg h1]
  by_cases h2 : isArg t "DEBUG" = true
  · rw [if_pos h2]
    simp [h2, h1, isArg_ne h2 (b := "INCREMENTAL") (by decide),
      isArg_ne h2 (b := "INCREMENTAL:NO") (by decide), isArg_ne h2 (b := "WX") (by decide),
      isArg_not_start h2 (b := "OPT") (by decide), isArg_not_start h2 (b := "ORDER") (by decide)]
  rw [if_neg h2]
  by_cases h3 : isArg t "INCREMENTAL" = true
  · rw [if_pos h3]
    simp [h3, h2, h1, isArg_ne h3 (b := "INCREMENTAL:NO") (by decide), isArg_ne h3 (b := "WX") (by decide),
      isArg_not_start h3 (b := "OPT") (by decide), isArg_not_start h3 (b := "ORDER") (by decide)]
  rw [if_neg h3]
  by_cases h4 : isArg t "INCREMENTAL:NO" = true
  · rw [if_pos h4]
    simp [h4, h3, h2, h1, isArg_ne h4 (b := "WX") (by decide),
      isArg_not_start h4 (b := "OPT") (by decide), isArg_not_start h4 (b := "ORDER") (by decide)]
  rw [if_neg h4]
  by_cases h5 : isArg t "WX" = true
  · rw [if_pos h5]
    simp [h5, h4, h3, h2, h1, isArg_not_start h5 (b := "OPT") (by decide), isArg_not_start h5 (b := "ORDER") (by decide)]
  rw [if_neg h5]
  by_cases h6 : isStart t "OPT" = true
  · rw [if_pos h6]
    simp [h6, h5, h4, h3, h2, h1, start_not_start h6 (b := "ORDER") (by decide)]
  rw [if_neg h6]
  by_cases h7 : isStart t "ORDER" = true
  · rw [if_pos h7]; simp [h7, h6, h5, h4, h3, h2, h1]
  · rw [if_neg h7]; simp [h7, h6, h5, h4, h3, h2, h1]

theorem optFlag_iff {t : Tok} (w : String) (hw : w.toList ≠ []) :
    (isStart t "OPT" && (hasI w t && ! hasI ("NO" ++ w) t)) = true ↔
      (∃ c v, MsOption "OPT" t c v) ∧ (∃ u v, t.map lower = u ++ w.toList.map lower ++ v) ∧
        ∀ u v, t.map lower ≠ u ++ ("NO" ++ w).toList.map lower ++ v := by
  have hno : ("NO" ++ w).toList ≠ [] := by simp
  rw [Bool.and_eq_true, Bool.and_eq_true, Bool.not_eq_true', hasI_iff hw]
  have e : hasI ("NO" ++ w) t = false ↔ ∀ u v, t.map lower ≠ u ++ ("NO" ++ w).toList.map lower ++ v := by
    rw [← Bool.not_eq_true, hasI_iff hno]
    constructor
    · intro h u v e; exact h ⟨u, v, e⟩
    · rintro h ⟨u, v, e⟩; exact h u v e
  rw [e]
  constructor
  · rintro ⟨h1, h2, h3⟩
    obtain ⟨c, hc⟩ := isStart_iff.1 h1
    exact ⟨⟨c, _, hc⟩, h2, h3⟩
  · rintro ⟨⟨c, v, hc⟩, h2, h3⟩
    exact ⟨(msOption_iff.1 hc).1, h2, h3⟩

/-- Microsoft's linker is taken to link incrementally if and only if the options have `/DEBUG` or `/INCREMENTAL` and none of
`/INCREMENTAL:NO`, `/OPT:REF`, `/OPT:ICF`, `/OPT:LBR`, `/ORDER`, with a slash or a dash and in any case. -/
theorem C91_incremental (options : List Char) :
    incrementalLinking (msFlags options) = true ↔
      (Has options "DEBUG" ∨ Has options "INCREMENTAL") ∧ ¬ Has options "INCREMENTAL:NO" ∧ ¬ HasOpt options "REF" ∧ ¬ HasOpt options "ICF" ∧
        ¬ HasOpt options "LBR" ∧ ¬ ∃ t ∈ tokenize ' ' options, ∃ c v, MsOption "ORDER" t c v := by
  have arg : ∀ o : String, (∃ t ∈ tokenize ' ' options, isArg t o = true) ↔ Has options o := by
    intro o; simp only [isArg_iff, Has]
  have h1 := foldl_flag (·.debug) (isArg · "DEBUG") (fun f t => (msToken_flags f t).1) (tokenize ' ' options) {}
  have h2 := foldl_flag (·.incremental) (isArg · "INCREMENTAL") (fun f t => (msToken_flags f t).2.1) (tokenize ' ' options) {}
  have h3 := foldl_flag (·.incrementalNo) (isArg · "INCREMENTAL:NO") (fun f t => (msToken_flags f t).2.2.1) (tokenize ' ' options) {}
  have h4 := foldl_flag (·.ref) (fun t => isStart t "OPT" && (hasI "REF" t && ! hasI "NOREF" t)) (fun f t => (msToken_flags f t).2.2.2.2.1)
    (tokenize ' ' options) {}
  have h5 := foldl_flag (·.icf) (fun t => isStart t "OPT" && (hasI "ICF" t && ! hasI "NOICF" t)) (fun f t => (msToken_flags f t).2.2.2.2.2.1)
    (tokenize ' ' options) {}
  have h6 := foldl_flag (·.lbr) (fun t => isStart t "OPT" && (hasI "LBR" t && ! hasI "NOLBR" t)) (fun f t => (msToken_flags f t).2.2.2.2.2.2.1)
    (tokenize ' ' options) {}
  have h7 := foldl_flag (·.order) (isStart · "ORDER") (fun f t => (msToken_flags f t).2.2.2.2.2.2.2.1) (tokenize ' ' options) {}
  simp only [Bool.false_eq_true, false_or] at h1 h2 h3 h4 h5 h6 h7
  rw [arg] at h1 h2 h3
  have opt : ∀ (w n : String), n = "NO" ++ w → w.toList ≠ [] →
      ((∃ t ∈ tokenize ' ' options, (isStart t "OPT" && (hasI w t && ! hasI n t)) = true) ↔ HasOpt options w) := by
    rintro w n rfl hw
    unfold HasOpt
    constructor
    · rintro ⟨t, ht, h⟩; exact ⟨t, ht, (optFlag_iff w hw).1 h⟩
    · rintro ⟨t, ht, h⟩; exact ⟨t, ht, (optFlag_iff w hw).2 h⟩
  rw [opt "REF" "NOREF" (by decide) (by decide)] at h4
  rw [opt "ICF" "NOICF" (by decide) (by decide)] at h5
  rw [opt "LBR" "NOLBR" (by decide) (by decide)] at h6
  have ord : (∃ t ∈ tokenize ' ' options, isStart t "ORDER" = true) ↔ ∃ t ∈ tokenize ' ' options, ∃ c v, MsOption "ORDER" t c v := by
    constructor
    · rintro ⟨t, ht, h⟩; obtain ⟨c, hc⟩ := isStart_iff.1 h; exact ⟨t, ht, c, _, hc⟩
    · rintro ⟨t, ht, c, v, h⟩; exact ⟨t, ht, (msOption_iff.1 h).1⟩
  rw [ord] at h7
  unfold incrementalLinking msFlags
  simp only [Bool.and_eq_true, Bool.or_eq_true, Bool.not_eq_true', ← Bool.not_eq_true, h1, h2, h3, h4, h5, h6, h7, not_or, and_assoc]

/-- `p` is `s` up to the last dot, or all of `s` if there is none -/
def UpToDot (s p : Name) : Prop := (∃ e, s = p ++ '.' :: e ∧ '.' ∉ e) ∨ ('.' ∉ s ∧ p = s)

theorem stripExtension_spec (s : Name) : UpToDot s (stripExtension s) := by
  unfold stripExtension
  have h1 : s.reverse = s.reverse.takeWhile (· ≠ '.') ++ s.reverse.dropWhile (· ≠ '.') := by simp
  have h2 := List.all_takeWhile (p := fun c => decide (c ≠ '.')) (l := s.reverse)
  rw [List.all_eq_true] at h2
  generalize hx : s.reverse.takeWhile (fun c => decide (c ≠ '.')) = x at h1 h2
  generalize hy : s.reverse.dropWhile (fun c => decide (c ≠ '.')) = y at h1
  have hs : s = y.reverse ++ x.reverse := by rw [← List.reverse_append, ← h1, List.reverse_reverse]
  have hx' : '.' ∉ x := fun h => by have := h2 _ h; simp at this
  cases y with
  | nil =>
    rw [if_neg (by rw [hs]; simp)]
    exact Or.inr ⟨by rw [hs]; simpa using hx', rfl⟩
  | cons a y =>
    have ha : a = '.' := by
      have := List.head?_dropWhile_not (p := fun c => decide (c ≠ '.')) s.reverse
      rw [hy] at this
      simpa using this
    subst ha
    rw [if_pos (by rw [hs]; simp; omega)]
    refine Or.inl ⟨x.reverse, ?_, by simpa using hx'⟩
    have : s.take (s.length - x.length - 1) = y.reverse := by
      rw [hs]
      have : (y.reverse ++ ['.'] ++ x.reverse).length - x.length - 1 = y.reverse.length := by simp; omega
      simp only [List.reverse_cons, this]
      rw [List.append_assoc, List.take_left]
    rw [this, hs]; simp

theorem upToDot_unique {s p q : Name} (h : UpToDot s p) (h' : UpToDot s q) : q = p := by
  rcases h with ⟨e, rfl, he⟩ | ⟨h1, rfl⟩
  · rcases h' with ⟨f, e2, hf⟩ | ⟨h2, rfl⟩
    · rcases List.append_eq_append_iff.1 e2 with ⟨a, rfl, e3⟩ | ⟨a, rfl, e3⟩
      · cases a with
        | nil => simp
        | cons b a => simp only [List.cons_append, List.cons.injEq] at e3; rw [e3.2] at he; simp at he
      · cases a with
        | nil => simp
        | cons b a => simp only [List.cons_append, List.cons.injEq] at e3; rw [e3.2] at hf; simp at hf
    · simp at h2
  · rcases h' with ⟨f, e2, hf⟩ | ⟨h2, rfl⟩
    · rw [e2] at h1; simp at h1
    · rfl

/-- Before linking with Microsoft's linker, the output and the files beside it are deleted if and only if it does not link incrementally,
or everything is to be built again, or the target has never been built; nothing is deleted for other linkers. -/
theorem C91_cleanup (msvc incremental force first : Bool) (name f : Name) :
    f ∈ cleanupFiles msvc incremental force first name ↔
      msvc = true ∧ (incremental = false ∨ force = true ∨ first = true) ∧
        (f = name ∨ ∃ p, UpToDot name p ∧ (f = p ++ ".ilk".toList ∨ f = p ++ ".pdb".toList)) := by
  have key : (f = name ∨ f = stripExtension name ++ ".ilk".toList ∨ f = stripExtension name ++ ".pdb".toList) ↔
      (f = name ∨ ∃ p, UpToDot name p ∧ (f = p ++ ".ilk".toList ∨ f = p ++ ".pdb".toList)) := by
    constructor
    · rintro (h | h)
      · exact Or.inl h
      · exact Or.inr ⟨_, stripExtension_spec name, h⟩
    · rintro (h | ⟨p, hp, h⟩)
      · exact Or.inl h
      · rw [upToDot_unique (stripExtension_spec name) hp] at h; exact Or.inr h
  unfold cleanupFiles
  cases msvc with
  | false => simp
  | true =>
    rw [← key]
    cases incremental <;> cases force <;> cases first <;> simp

end Verif.Link
