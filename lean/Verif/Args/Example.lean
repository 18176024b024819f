import Verif.Args.Resp
/-
Concrete command lines for C77 to C81, and where the code departs from them.
-/
namespace Verif.Args
open Verif.Str
open Verif.Cache (Tok)

/-- A file compiled by Clang on Linux. -/
def exCtx : Ctx :=
  { plat := .linux, os := .linux, isLocal := true, obj := "/t/a b.o".toList, src := "/s/a b.cpp".toList }

def exLine : List Char := "-c \"%1\" -o \"%2\" -O2 -Iinc -include all.h -DX=\"a b\"".toList

/-- The text built, as a string. -/
def shown (o : Option Args) : Option String := o.map fun a => String.ofList a.text

/-! ### C77 -/

example : shown (buildArgs (.gcc true) exCtx .compile false exLine) =
    some "-c \"/s/a b.cpp\" -o \"/t/a b.o\" -O2 -Iinc -include all.h -DX=\"a b\" " := by decide +kernel

example : shown (buildArgs (.gcc true) exCtx .preprocess false exLine) =
    some "\"/s/a b.cpp\" -O2 -Iinc -include all.h -DX=\"a b\" -E" := by decide +kernel

example : shown (buildArgs (.gcc true) exCtx .compilePreprocessed false exLine) =
    some "-c \"/s/a b.cpp\" -o \"/t/a b.o\" -O2 -DX=\"a b\" " := by decide +kernel

/-- The words of the first case are words, so that the compiler is given these. -/
example : (buildArgs (.gcc true) exCtx .compile false exLine).map (fun a => tokenize ' ' a.text) =
    some (["-c", "\"/s/a b.cpp\"", "-o", "\"/t/a b.o\"", "-O2", "-Iinc", "-include", "all.h", "-DX=\"a b\""].map
      String.toList) := by decide +kernel

/-- The drivers for GCC and Clang can deal with everything. -/
theorem gcc_defined (cl : Bool) (c : Ctx) (pass : Pass) (si : Bool) (line : List Char) :
    ∃ a, buildArgs (.gcc cl) c pass si line = some a :=
  C77_defined fun t _ h => by cases h.1

theorem free_common (d : Driver) (b : Bool) (t : Tok) (h : byRules (commonRules d b) t = .no) : Free (commonRules d b) t :=
  (byRules_no (good_common d b)).1 h

/-- Ordinary tokens. -/
example : ∃ a, buildArgs (.gcc false) exCtx .compile false "-O2  -DX=\"a b\" -g".toList = some a ∧
    tokenize ' ' a.text = tokenize ' ' "-O2  -DX=\"a b\" -g".toList ++ extras (.gcc false) exCtx .compile false := by
  refine C77_ordinary (by decide +kernel) ?_ (by decide +kernel)
  have key : ∀ t ∈ tokenize ' ' "-O2  -DX=\"a b\" -g".toList, byRules (commonRules (.gcc false) false) t = .no ∧ '%' ∉ t := by
    decide +kernel
  intro t ht
  exact ⟨free_common _ _ _ (key t ht).1, (key t ht).2, fun h => by cases h.1⟩

/-- `/MP` is left out, and the backslash at the end of an include path. -/
example : shown (buildArgs (.cl false) { exCtx with plat := .windows } .compile false "/MP8 /c %1 /Fo%2 /I\"c:\\x\\\"".toList) =
    some "/c /s/a b.cpp /Fo/t/a b.o /I\"c:\\x\" " := by decide +kernel

/-- The code which corrects a closing `\"` (CompilerDriver_CL.cpp:173-190) is reached only at the end of the line:
elsewhere `Tokenize` has taken `\"` for an escaped quote, so that the rest of the line is part of the include path
and the output file is not filled in. -/
theorem C77_unclosed :
    shown (buildArgs (.cl false) exCtx .compile false "/I\"c:\\x\\\" /c %1 /Fo%2".toList) =
      some "/I\"c:\\x\\\" /c /s/a b.cpp /Fo%2 " := by decide +kernel

/-- Without a precompiled header, `%3` is a mistake. -/
example : buildArgs (.cl false) exCtx .compile false "/Fp%3".toList = none := by decide +kernel

/-! ### C78 -/

/-- `-O2` reaches the second pass. -/
example : ∃ a₁ a₂, buildArgs (.gcc true) exCtx .preprocess false exLine = some a₁ ∧
    buildArgs (.gcc true) exCtx .compilePreprocessed false exLine = some a₂ ∧
    ((∃ x vs y, Laid (x ++ vs ++ y) a₁.text ∧ Forwarded (.gcc true) exCtx .preprocess (["-c", "\"%1\"", "-o", "\"%2\""].map String.toList) x ∧
      Gives (.gcc true) exCtx .preprocess "-O2".toList "-Iinc".toList vs) ∨
    (∃ x vs y, Laid (x ++ vs ++ y) a₂.text ∧
      Forwarded (.gcc true) exCtx .compilePreprocessed (["-c", "\"%1\"", "-o", "\"%2\""].map String.toList) x ∧
      Gives (.gcc true) exCtx .compilePreprocessed "-O2".toList "-Iinc".toList vs)) := by
  obtain ⟨a₁, h₁⟩ := gcc_defined true exCtx .preprocess false exLine
  obtain ⟨a₂, h₂⟩ := gcc_defined true exCtx .compilePreprocessed false exLine
  refine ⟨a₁, a₂, h₁, h₂, C78_reaches (v := ["-Iinc", "-include", "all.h", "-DX=\"a b\""].map String.toList)
    h₁ h₂ (by decide +kernel) ?_ ?_ ?_⟩
  · intro b h
    have := (taken_iff (r := .value "-include-pch") rfl).1 h
    have hn : ruleOf (.value "-include-pch") "-O2".toList = none := by decide +kernel
    rw [hn] at this
    cases this
  · rintro x hx (h | ⟨_, _, h⟩)
    · have e : x = "\"%2\"".toList := by simpa using hx.symm
      subst e
      have := (byRules_iff (good_passRules _ _ _)).2 h
      exact absurd this (by decide +kernel)
    · cases h
  · rintro x hx (h | ⟨_, _, h⟩)
    · have e : x = "\"%2\"".toList := by simpa using hx.symm
      subst e
      have := (byRules_iff (good_passRules _ _ _)).2 h
      exact absurd this (by decide +kernel)
    · have e : x = "\"%2\"".toList := by simpa using hx.symm
      subst e
      cases h

/-- Clang's options for its own frontend are torn apart: `-Xclang -include -Xclang all.h` becomes `-Xclang all.h`, and the
header is taken for another file to compile. -/
theorem C78_torn : shown (buildArgs (.gcc true) exCtx .compilePreprocessed false "-Xclang -include -Xclang all.h -c %1".toList) =
    some "-Xclang all.h -c /s/a b.cpp " := by decide +kernel

/-- The value of `/Yu` is optional for the compiler, but here the next option is taken for it and lost. -/
theorem C78_swallowed : shown (buildArgs (.cl false) exCtx .compilePreprocessed false "/Yu /O2 /c %1".toList) =
    some "/c /s/a b.cpp " := by decide +kernel

/-- A forced include in quotes is not recognised for Microsoft's compiler, and is included twice. -/
theorem C78_twice : shown (buildArgs (.cl false) exCtx .compilePreprocessed false "\"/FIall x.h\" /c %1".toList) =
    some "\"/FIall x.h\" /c /s/a b.cpp " := by decide +kernel

/-! ### C79 -/

def exRemote : Ctx := { exCtx with isLocal := false, obj := "/w/a.o".toList, src := "/w/a.cpp".toList }

def exUpdate : Ctx := { exCtx with updateX := true }

def exDist : List Char := "-x c++ -MD -MF d.d -Iinc -I x -c %1 -o %2".toList

theorem free_compile (d : Driver) (b : Bool) (t : Tok) (h : byRules (compileRules d b) t = .no) : Free (compileRules d b) t :=
  (byRules_no (good_compile d b)).1 h

theorem quiet_gcc (cl : Bool) (t : Tok) (h : byRules (compileRules (.gcc cl) true) t = .no) (hx : t ≠ "-x".toList) : Quiet (.gcc cl) t :=
  ⟨free_compile _ _ _ h, fun _ hp => by (have := hp.1; cases this), fun _ => hx⟩

theorem paired_gcc (cl : Bool) (t : Tok) (h : byRules (compileRules (.gcc cl) true) t = .yes true []) : Paired (.gcc cl) t :=
  Or.inl ((byRules_iff (good_compile _ _)).1 h)

theorem single_gcc (cl : Bool) (t : Tok) (h : byRules (compileRules (.gcc cl) true) t ≠ .yes true []) : ¬ Paired (.gcc cl) t := by
  rintro (hp | hp)
  · exact h ((byRules_iff (good_compile _ _)).2 hp)
  · cases hp.1

theorem exTidy : Tidy (.gcc true) exUpdate exRemote (tokenize ' ' exDist) := by
  have e : tokenize ' ' exDist = ["-x", "c++", "-MD", "-MF", "d.d", "-Iinc", "-I", "x", "-c", "%1", "-o", "%2"].map String.toList := by
    decide +kernel
  rw [e]
  have ord : ∀ c : Ctx, c.colored = false → Ordinary (.gcc true) c "c++".toList := by
    intro c hc
    exact ⟨by rw [hc]; exact free_common _ _ _ (by decide +kernel), by decide +kernel, fun h => by cases h.1⟩
  have noI : ∀ t : Tok, (Driver.gcc true).isCL = true → t ≠ "/I".toList ∧ t ≠ "-I".toList := fun t h => by cases h
  refine .language rfl (by decide) (quiet_gcc _ _ (by decide +kernel) (by decide +kernel)) (ord _ rfl) (ord _ rfl) ?_
  refine .one (single_gcc _ _ (by decide +kernel)) (fun _ => by decide +kernel) (noI _) ?_
  refine .two (paired_gcc _ _ (by decide +kernel)) (quiet_gcc _ _ (by decide +kernel) (by decide +kernel)) ?_
  refine .one (single_gcc _ _ (by decide +kernel)) (fun _ => by decide +kernel) (noI _) ?_
  refine .two (paired_gcc _ _ (by decide +kernel)) (quiet_gcc _ _ (by decide +kernel) (by decide +kernel)) ?_
  refine .one (single_gcc _ _ (by decide +kernel)) (fun _ => by decide +kernel) (noI _) ?_
  refine .one (single_gcc _ _ (by decide +kernel)) (fun _ => by decide +kernel) (noI _) ?_
  refine .one (single_gcc _ _ (by decide +kernel)) (fun _ => by decide +kernel) (noI _) ?_
  refine .one (single_gcc _ _ (by decide +kernel)) (fun _ => by decide +kernel) (noI _) ?_
  exact .nil

/-- Locally, sent, and on the worker. -/
example : shown (buildArgs (.gcc true) exUpdate .compilePreprocessed false exDist) =
      some "-x c++-cpp-output -c /s/a b.cpp -o /t/a b.o " ∧
    (saveRemote (.gcc true) exUpdate exDist).map String.ofList = some "-x c++-cpp-output -Iinc -I x -c %1 -o %2 " ∧
    shown (buildArgs (.gcc true) exRemote .compilePreprocessed false "-x c++-cpp-output -Iinc -I x -c %1 -o %2 ".toList) =
      some "-x c++-cpp-output -c /w/a.cpp -o /w/a.o " := by decide +kernel

example : ∃ a s b ws ws', buildArgs (.gcc true) exUpdate .compilePreprocessed false exDist = some a ∧
    saveRemote (.gcc true) exUpdate exDist = some s ∧ buildArgs (.gcc true) exRemote .compilePreprocessed false s = some b ∧
    Laid (ws ++ commonExtras (.gcc true) exUpdate) a.text ∧ Laid (ws' ++ commonExtras (.gcc true) exRemote) b.text ∧
    Same (.gcc true) exUpdate exRemote ws ws' := by
  obtain ⟨a, ha⟩ := gcc_defined true exUpdate .compilePreprocessed false exDist
  obtain ⟨s, us, hs, _, _⟩ := C79_sent (.gcc true) exUpdate (line := exDist) (by decide +kernel)
  obtain ⟨b, hb⟩ := gcc_defined true exRemote .compilePreprocessed false s
  obtain ⟨ws, ws', h⟩ := C79_same_partial rfl rfl (by decide +kernel) exTidy ha hs hb
  exact ⟨a, s, b, ws, ws', ha, hs, hb, h⟩

/-- For Microsoft's compiler an include path behind a blank is lost on a worker. -/
theorem C79_lost : shown (buildArgs (.cl false) { exRemote with plat := .windows, remoteRoot := "c:\\w".toList } .compilePreprocessed
    false "/I inc /c %1".toList) = some "/Ic:\\w\\ /c /w/a.cpp " := by decide +kernel

/-- Relative include paths, and the file with debug information. -/
example : shown (buildArgs (.cl false) { exRemote with plat := .windows, remoteRoot := "c:\\w".toList, usingPDB := true }
    .compilePreprocessed false "/Iinc /I\"x y\" /Fdx.pdb /c %1".toList) =
    some "/Ic:\\w\\inc /I\"c:\\w\\x y\" /c /w/a.cpp  /Fd\"/w/a.o.pdb\"" := by decide +kernel

/-! ### C80 -/

def exArgs : List Call := [.add "-O2".toList, .delim, .add "/Ix\\y".toList, .delim]

example : (Args.ofCalls exArgs).finalize .linux 100 .ifNeeded false "cc".toList = .direct "-O2 /Ix\\y ".toList := by decide +kernel
example : (Args.ofCalls exArgs).finalize .linux 10 .never false "cc".toList = .tooLong := by decide +kernel
example : (Args.ofCalls exArgs).finalize .linux 10 .ifNeeded false "cc".toList = .file "-O2 /Ix\\y ".toList := by decide +kernel
example : (Args.ofCalls exArgs).finalize .linux 10 .ifNeeded true "cc".toList = .file "-O2 \\\\Ix\\\\y ".toList := by decide +kernel
example : breakLines (Args.ofCalls exArgs).delims (Args.ofCalls exArgs).text = some "-O2\n/Ix\\y\n".toList := by decide +kernel

/-! ### C81 -/

/-- A file compiled with other options while it is writable. -/
def exBuild (readOnly : Bool) : Build :=
  { d := .gcc true, c := exCtx, readOnly := readOnly, always := true, other := 1,
    lines := { compiler := "-O2 -c %1 -o %2".toList, deoptimized := "-O0 -c %1 -o %2".toList, pch := [], preprocessor := [] } }

/-- A file changed by the user is compiled without optimisation, and stored. When it is read only again, as it was
submitted, the build gets this object, although it asks for optimisation. -/
theorem C81_deoptimized :
    ((history [] [exBuild false, exBuild true]).map fun p => (shown p.1.args, shown p.2.args)) =
      [(some "-O0 -c /s/a b.cpp -o /t/a b.o ", some "-O0 -c /s/a b.cpp -o /t/a b.o "),
        (some "-O2 -c /s/a b.cpp -o /t/a b.o ", some "-O0 -c /s/a b.cpp -o /t/a b.o ")] := by decide +kernel

/-- Builds that are never compiled with other options, one of them with other options for everyone. -/
def exBuild' (opt : String) : Build :=
  { exBuild true with lines := { compiler := opt.toList, deoptimized := [], pch := [], preprocessor := [] } }

example : ((history [] [exBuild' "-O2 -c", exBuild' "-O0 -c", exBuild' "-O2  -c"]).map fun p => (shown p.1.args, shown p.2.args)) =
    [(some "-O2 -c ", some "-O2 -c "), (some "-O0 -c ", some "-O0 -c "), (some "-O2 -c ", some "-O2 -c ")] := by decide +kernel

example : ∀ p ∈ history [] [exBuild' "-O2 -c", exBuild' "-O0 -c", exBuild' "-O2  -c"],
    p.1.other = p.2.other ∧ p.1.c.mapping = p.2.c.mapping ∧ ∃ ws, p.1.Uses ws ∧ p.2.Uses ws := by
  have use : ∀ (o : String) (a : Args) (ws : List Tok), buildArgs (.gcc true) exCtx .compilePreprocessed false o.toList = some a →
      Laid ws a.text → (∀ w ∈ ws, Word w) → (∀ us, (exBuild' o).Uses us → ∀ w ∈ us, Word w) → (exBuild' o).Wordy :=
    fun o a ws _ _ _ h => ⟨h, Or.inl rfl⟩
  have plain : ∀ ts : List Tok, (∀ t ∈ ts, byRules (compileRules (.gcc true) true) t = .no ∧ '%' ∉ t ∧ Word t ∧ t ≠ "-x".toList) →
      ∀ ws, Forwarded (.gcc true) exCtx .compilePreprocessed ts ws → ws = ts := by
    intro ts
    induction ts with
    | nil => intro _ ws h; cases h; rfl
    | cons t ts ih =>
      intro hk ws h
      obtain ⟨k1, k2, k3, k4⟩ := hk t (by simp)
      obtain ⟨vs, ws', rfl, hb, h⟩ := fwd_plain (d := .gcc true) (c := exCtx) (pass := .compilePreprocessed)
        (free_compile (.gcc true) true t k1) (local_plain rfl (fun _ => k4) _) h
      rw [ih (fun x hx => hk x (by simp [hx])) ws' h,
        becomes_unique hb (ordinary_becomes ⟨by simp [commonRules, exCtx, Free], k2, fun h => by cases h.1⟩)]
      rfl
  have wordy : ∀ o : String, (∀ t ∈ tokenize ' ' o.toList, byRules (compileRules (.gcc true) true) t = .no ∧ '%' ∉ t ∧ Word t ∧ t ≠ "-x".toList) →
      (exBuild' o).Wordy := by
    intro o hk
    refine ⟨?_, Or.inl rfl⟩
    rintro ws ⟨us, f, rfl⟩ w hw
    have := plain _ hk us f
    subst this
    rcases List.mem_append.1 hw with hw | hw
    · exact (hk w hw).2.2.1
    · simp [commonExtras, exBuild', exBuild, exCtx] at hw
  refine C81_options_partial ?_ ?_ ?_
  · intro b hb
    simp only [List.mem_cons, List.not_mem_nil, or_false] at hb
    rcases hb with rfl | rfl | rfl <;> rfl
  · intro b hb
    simp only [List.mem_cons, List.not_mem_nil, or_false] at hb
    rcases hb with rfl | rfl | rfl <;> exact wordy _ (by decide +kernel)
  · intro b hb
    simp only [List.mem_cons, List.not_mem_nil, or_false] at hb
    rcases hb with rfl | rfl | rfl <;> decide +kernel

end Verif.Args
