import Verif.Cmd.Wrapper
/-
C98: what is done, findings and examples.
-/
namespace Verif.Cmd

/-- the options that ask for something else than a build -/
def elsewhere : List String := ["-showtargets", "-showalltargets", "-showdeps", "-dot", "-dotfull", "-compdb", "-cacheinfo"]

theorem elsewhere_iff {env : Env} {is : List Item} {o : Opts} (ho : Meaning env is o) {f : Fld} {on : List String} (hs : switches env.windows f = (on, []))
    (h1 : f ≠ .useCacheRead) (h2 : f ≠ .useCacheWrite) (hd : default env f = false) : o.flags f = true ↔ ∃ s ∈ on, Item.flag s.toList ∈ is := by
  have e : flagValue env is f = lastOf (switch on []) false is := by
    unfold flagValue
    rw [hs, hd]
    cases f <;> first | contradiction | simp
  rw [ho.flags f, e, on_iff]
  constructor
  · rintro ⟨i, hi, hn⟩
    unfold switch at hn
    split at hn
    · next a =>
      split at hn
      · next ha =>
        obtain ⟨s, hs, rfl⟩ := List.mem_map.1 ha
        exact ⟨s, hs, hi⟩
      · simp at hn
    · exact absurd rfl hn
  · rintro ⟨s, hs, hi⟩
    refine ⟨_, hi, ?_⟩
    have e : switch on [] (.flag s.toList) = some true := by
      show (if s.toList ∈ on.map (·.toList) then some true else _) = _
      rw [if_pos (List.mem_map.2 ⟨s, hs, rfl⟩)]
    rw [e]
    simp

/-- There is a build iff no option asks for something else, and no trimming of the cache to a size that is not zero. -/
theorem C98_build {env : Env} {is : List Item} {o : Opts} (ho : Meaning env is o) :
    action o = .build ↔ (∀ s ∈ elsewhere, Item.flag s.toList ∉ is) ∧ lastOf trimOf 0 is = 0 := by
  have a1 := elsewhere_iff ho (f := .displayTargetList) rfl (by decide) (by decide) rfl
  have a2 := elsewhere_iff ho (f := .displayDependencyDB) rfl (by decide) (by decide) rfl
  have a3 := elsewhere_iff ho (f := .generateDotGraph) rfl (by decide) (by decide) rfl
  have a4 := elsewhere_iff ho (f := .generateCompilationDatabase) rfl (by decide) (by decide) rfl
  have a5 := elsewhere_iff ho (f := .cacheInfo) rfl (by decide) (by decide) rfl
  rw [← ho.trim]
  unfold action
  have key : (∀ s ∈ elsewhere, Item.flag s.toList ∉ is) ↔ o.flags .displayTargetList = false ∧ o.flags .displayDependencyDB = false ∧
      o.flags .generateDotGraph = false ∧ o.flags .generateCompilationDatabase = false ∧ o.flags .cacheInfo = false := by
    simp only [← Bool.not_eq_true, a1, a2, a3, a4, a5]
    unfold elsewhere
    simp only [List.forall_mem_cons, not_exists, not_and, List.not_mem_nil, false_implies, implies_true, and_true, and_assoc]
  rw [key]
  cases o.flags .displayTargetList <;> cases o.flags .displayDependencyDB <;> cases o.flags .generateDotGraph <;>
    cases o.flags .generateCompilationDatabase <;> cases o.flags .cacheInfo <;> by_cases h : o.cacheTrim = 0 <;> simp [h]

/-! ### findings -/

/-- a number in front -/
def exScan (s : Arg) : Option Nat :=
  let d := s.takeWhile (·.isDigit)
  if d = [] then none else some (d.foldl (fun n c => 10 * n + (c.toNat - 48)) 0)

def exEnv : Env := { windows := true, scanU := exScan, scanI := fun s => (exScan s).map Int.ofNat, redirected := false, cacheMode := none, cores := 8 }

/-- for the examples -/
def Out.test (p : Opts → Bool) : Out → Bool
  | .ok o => p o
  | _ => false

theorem test_ok {x : Out} {p : Opts → Bool} (h : x.test p = true) : ∃ o, x = .ok o ∧ p o = true := by
  cases x with
  | ok o => exact ⟨o, rfl, h⟩
  | error => cases h
  | quit => cases h

def exList (l : List String) : List Arg := l.map (·.toList)

/-- The file of `-sourcefile` is not put in quotes for the process that does the work: with a blank in its name it becomes another file
and a target. -/
theorem C98_source_blank : ∃ o o1, process exEnv (exList ["-wrapper", "-sourcefile", "my file.cpp"]) = .ok o ∧
    process exEnv (forIntermediate o) = .ok o1 ∧ o.sources = exList ["my file.cpp"] ∧ o.targets = exList ["all"] ∧
    o1.sources = exList ["my"] ∧ o1.targets = exList ["file.cpp"] := by
  obtain ⟨o, h, h'⟩ := test_ok (x := process exEnv (exList ["-wrapper", "-sourcefile", "my file.cpp"])) (p := fun o => decide (o.sources = exList ["my file.cpp"] ∧ o.targets = exList ["all"]) &&
    (process exEnv (forIntermediate o)).test fun o1 => decide (o1.sources = exList ["my"] ∧ o1.targets = exList ["file.cpp"])) (by decide +kernel)
  obtain ⟨h1, h2⟩ := (Bool.and_eq_true _ _).mp h'
  obtain ⟨o1, h3, h4⟩ := test_ok h2
  exact ⟨o, o1, h, h3, (of_decide_eq_true h1).1, (of_decide_eq_true h1).2, of_decide_eq_true h4⟩

/-- A target with a backslash at its end takes the options behind it. -/
theorem C98_target_backslash : ∃ o o1, process exEnv (exList ["-wrapper", "out\\", "-clean"]) = .ok o ∧
    process exEnv (forIntermediate o) = .ok o1 ∧ o.flags .forceCleanBuild = true ∧ o1.flags .forceCleanBuild = false ∧
    o1.mode = .main := by
  obtain ⟨o, h, h'⟩ := test_ok (x := process exEnv (exList ["-wrapper", "out\\", "-clean"])) (p := fun o => decide (o.flags .forceCleanBuild = true) &&
    (process exEnv (forIntermediate o)).test fun o1 => decide (o1.flags .forceCleanBuild = false ∧ o1.mode = .main)) (by decide +kernel)
  obtain ⟨h1, h2⟩ := (Bool.and_eq_true _ _).mp h'
  obtain ⟨o1, h3, h4⟩ := test_ok h2
  exact ⟨o, o1, h, h3, of_decide_eq_true h1, of_decide_eq_true h4⟩

/-- Arguments with blanks are other arguments for the program in the subsystem. -/
theorem C98_wsl_blank : ∃ o, process exEnv (exList ["-wsl", "fbuild", "-config", "my file.bff"]) = .ok o ∧
    argv false false 0 [] o.args = exList ["-config", "my", "file.bff"] := by
  obtain ⟨o, h, h'⟩ := test_ok (x := process exEnv (exList ["-wsl", "fbuild", "-config", "my file.bff"])) (p := fun o => decide (argv false false 0 [] o.args = exList ["-config", "my", "file.bff"])) (by decide +kernel)
  exact ⟨o, h, of_decide_eq_true h'⟩

/-- The cache cannot be trimmed to nothing: there is a build. -/
theorem C98_trim_zero : ∃ o, process exEnv (exList ["-cachetrim", "0"]) = .ok o ∧ action o = .build ∧ o.targets = exList ["all"] := by
  obtain ⟨o, h, h'⟩ := test_ok (x := process exEnv (exList ["-cachetrim", "0"])) (p := fun o => decide (action o = .build ∧ o.targets = exList ["all"])) (by decide +kernel)
  exact ⟨o, h, of_decide_eq_true h'⟩

/-- Text behind a number is not seen. -/
theorem C98_number_text : ∃ o, process exEnv (exList ["-j4x"]) = .ok o ∧ o.threads = 4 := by
  obtain ⟨o, h, h'⟩ := test_ok (x := process exEnv (exList ["-j4x"])) (p := fun o => decide (o.threads = 4)) (by decide +kernel)
  exact ⟨o, h, of_decide_eq_true h'⟩

/-- A report of a type that is not known is a report as html. -/
theorem C98_report_name : ∃ o, process exEnv (exList ["-reports"]) = .ok o ∧ o.report = "html".toList := by
  obtain ⟨o, h, h'⟩ := test_ok (x := process exEnv (exList ["-reports"])) (p := fun o => decide (o.report = "html".toList)) (by decide +kernel)
  exact ⟨o, h, of_decide_eq_true h'⟩

/-! ### examples -/

def exLine : List Arg := exList ["-clean", "-config", "my file.bff", "-j4", "-vs", "game", "tools\\all", "-report=json", "-sourcefile", "a.cpp;b.cpp", "-cachetrim", "100"]

def exItems : List Item := [.flag "-clean".toList, .config "my file.bff".toList, .jobs "4".toList 4, .flag "-vs".toList, .target "game".toList,
  .target "tools\\all".toList, .report "=json".toList "json".toList, .source (some "a.cpp;b.cpp".toList), .trim "100".toList 100]

theorem exItems_ok : Items exEnv false exLine exItems :=
  .flag ⟨"-clean", .inl (by decide +kernel), rfl⟩ (.config (.jobs (by decide +kernel) (by decide) (.flag ⟨"-vs", .inl (by decide +kernel), rfl⟩
    (.target (by decide +kernel) (.target (by decide +kernel) (.report (.inl ⟨"-report".toList, "json".toList, [], by decide +kernel, by decide +kernel, by decide +kernel⟩)
      (.source (by decide +kernel) (.trim (by decide +kernel) .nil))))))))

/-- `C98_meaning` is about this -/
example : exEnv.windows = true → exLine.head? ≠ some "-wsl".toList := by decide +kernel

example : ModeOK exEnv exItems := .inr (by intro m h; cases h)

/-- The values in between, for `C98_meaning`. -/
example : ∃ o, process exEnv exLine = .ok o ∧ o.targets = exList ["game", "tools\\all"] ∧ o.config = "my file.bff".toList ∧ o.threads = 4 ∧
    o.report = "json".toList ∧ o.sources = exList ["a.cpp", "b.cpp"] ∧ o.flags .forceCleanBuild = true ∧ o.flags .showProgress = false ∧
    o.args = "-clean -config \"my file.bff\" -j4 -vs \"game\" \"tools\\all\" -report=json -sourcefile a.cpp;b.cpp -cachetrim 100".toList := by
  obtain ⟨o, h, h'⟩ := test_ok (x := process exEnv exLine) (p := fun o => decide (o.targets = exList ["game", "tools\\all"] ∧ o.config = "my file.bff".toList ∧ o.threads = 4 ∧
    o.report = "json".toList ∧ o.sources = exList ["a.cpp", "b.cpp"] ∧ o.flags .forceCleanBuild = true ∧ o.flags .showProgress = false ∧
    o.args = "-clean -config \"my file.bff\" -j4 -vs \"game\" \"tools\\all\" -report=json -sourcefile a.cpp;b.cpp -cachetrim 100".toList)) (by decide +kernel)
  exact ⟨o, h, of_decide_eq_true h'⟩

theorem exItems_safe : ∀ i ∈ exItems, i.Safe := by
  have bare : ∀ s ∈ ["4", "100", "=json", "a.cpp;b.cpp"], s.toList ≠ [] ∧ ∀ c ∈ s.toList, c ≠ ' ' ∧ c ≠ '\t' ∧ c ≠ '"' := by decide +kernel
  have quo : ∀ s ∈ ["my file.bff", "game", "tools\\all"], (∀ c ∈ s.toList, c ≠ '"') ∧ s.toList.getLast? ≠ some '\\' := by decide +kernel
  intro i hi
  simp only [exItems, List.mem_cons, List.not_mem_nil, or_false] at hi
  rcases hi with rfl | rfl | rfl | rfl | rfl | rfl | rfl | rfl | rfl
  · trivial
  · exact quo _ (by decide +kernel)
  · exact (bare "4" (by decide +kernel)).2
  · trivial
  · exact quo _ (by decide +kernel)
  · exact quo _ (by decide +kernel)
  · exact (bare "=json" (by decide +kernel)).2
  · exact bare _ (by decide +kernel)
  · exact bare _ (by decide +kernel)

/-- `C98_wrapper_partial` for it -/
example : ∃ o o1 o2, process exEnv exLine = .ok o ∧ process exEnv (forIntermediate o) = .ok o1 ∧ process exEnv (forFinal o1) = .ok o2 ∧
    o1.mode = .intermediate ∧ o2.mode = .final ∧ Same o o1 ∧ Same o o2 :=
  C98_wrapper_partial rfl exItems_ok (.inr (by intro m h; cases h)) exItems_safe

/-- `C98_wsl` -/
example : ∃ o, process exEnv ("-wsl".toList :: "fbuild".toList :: exList ["all", "-clean"]) = .ok o ∧ o.mode = .wsl ∧ o.wslPath = "fbuild".toList ∧
    o.args = joined (exList ["all", "-clean"]) :=
  C98_wsl rfl (by decide +kernel) (by intro m h; cases h)

end Verif.Cmd
