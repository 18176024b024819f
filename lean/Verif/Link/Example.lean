import Verif.Link.Props
/-
Concrete cases for C87 to C91, and where the code departs from what is expected.
-/
namespace Verif.Link
open Verif.Str
open Verif.Cache (Tok)

/-! ### C87 -/

/-- the libraries in a tree -/
def libsOf : Forest → List (Name × Bool × Forest)
  | .nil => []
  | .file _ rest | .object _ rest | .pch _ _ _ rest | .dll _ _ _ rest | .unsupported _ rest => libsOf rest
  | .copy _ sub rest | .alias _ sub rest | .list _ sub rest => libsOf sub ++ libsOf rest
  | .library n ms sub rest => (n, ms, sub) :: (libsOf sub ++ libsOf rest)

theorem hasLib_iff (F : Forest) (n : Name) (ms : Bool) (sub : Forest) : HasLib F n ms sub ↔ (n, ms, sub) ∈ libsOf F := by
  induction F with
  | nil => simp [HasLib, libsOf]
  | file _ _ ih | object _ _ ih | pch _ _ _ _ ih | dll _ _ _ _ ih | unsupported _ _ ih => exact ih
  | copy _ _ _ i1 i2 | alias _ _ _ i1 i2 | list _ _ _ i1 i2 => simp only [HasLib, libsOf, List.mem_append, i1, i2]
  | library m b s r i1 i2 => simp only [HasLib, libsOf, List.mem_cons, List.mem_append, i1, i2, Prod.mk.injEq]

/-- the other names in a tree -/
def plainsOf : Forest → List Name
  | .nil => []
  | .file n rest | .object n rest | .unsupported n rest => n :: plainsOf rest
  | .pch n obj ms rest => n :: ((if ms then [obj] else []) ++ plainsOf rest)
  | .dll n f imp rest => n :: importLib n f imp :: plainsOf rest
  | .copy n sub rest | .alias n sub rest => n :: (plainsOf sub ++ plainsOf rest)
  | .list _ sub rest | .library _ _ sub rest => plainsOf sub ++ plainsOf rest

theorem plain_iff (F : Forest) (u : Name) : Plain F u ↔ u ∈ plainsOf F := by
  induction F with
  | nil => simp [Plain, plainsOf]
  | file _ _ ih | object _ _ ih | unsupported _ _ ih => simp only [Plain, plainsOf, List.mem_cons, ih]
  | pch _ _ ms _ ih => cases ms <;> simp [Plain, plainsOf, ih]
  | dll _ _ _ _ ih => simp only [Plain, plainsOf, List.mem_cons, ih]
  | copy _ _ _ i1 i2 | alias _ _ _ i1 i2 => simp only [Plain, plainsOf, List.mem_cons, List.mem_append, i1, i2]
  | list _ _ _ i1 i2 => simp only [Plain, plainsOf, List.mem_append, i1, i2]
  | library _ _ _ _ i1 i2 => simp only [Plain, plainsOf, List.mem_append, i1, i2]

/-- the other names that precompiled headers do not give -/
def otherwiseOf : Forest → List Name
  | .nil => []
  | .file n rest | .object n rest | .unsupported n rest | .pch n _ _ rest => n :: otherwiseOf rest
  | .dll n f imp rest => n :: importLib n f imp :: otherwiseOf rest
  | .copy n sub rest | .alias n sub rest | .library n _ sub rest => n :: (otherwiseOf sub ++ otherwiseOf rest)
  | .list _ sub rest => otherwiseOf sub ++ otherwiseOf rest

theorem otherwise_iff (F : Forest) (u : Name) : Otherwise F u ↔ u ∈ otherwiseOf F := by
  induction F with
  | nil => simp [Otherwise, otherwiseOf]
  | file _ _ ih | object _ _ ih | unsupported _ _ ih | pch _ _ _ _ ih => simp only [Otherwise, otherwiseOf, List.mem_cons, ih]
  | dll _ _ _ _ ih => simp only [Otherwise, otherwiseOf, List.mem_cons, ih]
  | copy _ _ _ i1 i2 | alias _ _ _ i1 i2 => simp only [Otherwise, otherwiseOf, List.mem_cons, List.mem_append, i1, i2]
  | library _ _ _ _ i1 i2 => simp only [Otherwise, otherwiseOf, List.mem_cons, List.mem_append, i1, i2]
  | list _ _ _ i1 i2 => simp only [Otherwise, otherwiseOf, List.mem_append, i1, i2]

theorem consistent_of {F : Forest}
    (h : (∀ x ∈ libsOf F, ∀ y ∈ libsOf F, x.1 = y.1 → y = x) ∧ ∀ x ∈ libsOf F, x.1 ∉ plainsOf F) : Consistent F := by
  constructor
  · intro n ms sub ms' sub' h1 h2
    have := h.1 _ ((hasLib_iff ..).1 h1) _ ((hasLib_iff ..).1 h2) rfl
    simpa using this
  · intro n ms sub h1 h2
    exact h.2 _ ((hasLib_iff ..).1 h1) ((plain_iff ..).1 h2)

/-- objects and the object of a precompiled header -/
def coreList : Forest := .list "core".toList (.pch "c.pch".toList "c.pch.obj".toList true (.object "a.obj".toList .nil)) .nil

/-- the first list of libraries: an object list, and a library made of the same list, an object and another library -/
def libsA : Forest :=
  .list "core".toList (.pch "c.pch".toList "c.pch.obj".toList true (.object "a.obj".toList .nil))
    (.library "x.lib".toList true
      (.pch "c.pch".toList "c.pch.obj".toList true (.object "b.obj".toList (.library "y.lib".toList true (.object "e.obj".toList .nil) .nil))) .nil)

/-- the second one: a DLL and a copy of a library, behind an alias -/
def libsB : Forest :=
  .alias "all".toList (.dll "d.dll".toList .msvc [] (.copy "z.lib".toList (.library "y.lib".toList true (.object "e.obj".toList .nil) .nil) .nil))
    coreList

/-- everything, under an alias -/
def world : Forest := .alias "w".toList libsA libsB

theorem world_consistent : Consistent world := consistent_of (by constructor <;> decide +kernel)

theorem world_within : Within world libsA ∧ Within world libsB :=
  ⟨⟨fun _ _ _ h => Or.inl h, fun _ h => Or.inr (Or.inl h)⟩, ⟨fun _ _ _ h => Or.inr h, fun _ h => Or.inr (Or.inr h)⟩⟩

def asA : List Forest := (dependOn libsA).getD []
def asB : List Forest := (dependOn libsB).getD []

/-- the hypotheses of C87 hold here -/
example : dependOn libsA = some asA ∧ dependOn libsB = some asB ∧ asA.length = 2 ∧ asB.length = 3 := by
  refine ⟨?_, ?_, ?_, ?_⟩ <;> decide +kernel

def exLinker (lo : Bool) (options : String) : Linker :=
  initLinker "app.exe".toList options.toList true lo (.file "link.exe".toList .nil) asA asB
    [.file "r.res".toList .nil, .list "rs".toList (.object "s.res".toList .nil) .nil] [] []

/-- the files, without and with objects instead of libraries -/
example : (exLinker false "").range 1 (exLinker false "").assemblyStart =
      ["c.pch.obj", "a.obj", "x.lib", "d.lib", "y.lib", "a.obj"].map String.toList ∧
    (exLinker true "").range 1 (exLinker true "").assemblyStart =
      ["c.pch.obj", "a.obj", "b.obj", "e.obj", "d.lib", "e.obj", "a.obj"].map String.toList := by
  constructor <;> decide +kernel

/-- what is linked, however: for example `e.obj`, which is in `y.lib`, which is merged into `x.lib` -/
example : ∃ i ∈ (exLinker false "").range 1 (exLinker false "").libs2Start, InFile world i "e.obj".toList :=
  (C87_linked world_consistent world_within.1 world_within.2 (as := asA) (bs := asB) (by decide +kernel) (by decide +kernel) _ _ _ _ _ _ _ _
    "e.obj".toList).2.1.2
    ⟨.library "x.lib".toList true
      (.pch "c.pch".toList "c.pch.obj".toList true (.object "b.obj".toList (.library "y.lib".toList true (.object "e.obj".toList .nil) .nil))) .nil,
      Or.inr (Or.inl rfl), Or.inl (Or.inr (Or.inr (Or.inl (Or.inl rfl))))⟩

/-- a library has its objects and those of the library it is made of -/
example : InFile world "x.lib".toList "e.obj".toList ∧ ¬ InFile world "x.lib".toList "a.obj".toList := by
  have h : HasLib world "x.lib".toList true
      (.pch "c.pch".toList "c.pch.obj".toList true (.object "b.obj".toList (.library "y.lib".toList true (.object "e.obj".toList .nil) .nil))) :=
    (hasLib_iff ..).2 (by decide +kernel)
  rw [C87_library world_consistent h, C87_library world_consistent h]
  refine ⟨Or.inr (Or.inr (Or.inl (Or.inl rfl))), ?_⟩
  rintro (⟨_, h⟩ | h | (h | h) | h)
  · revert h; decide
  · revert h; decide
  · revert h; decide
  · cases h
  · cases h

/-- the object of the precompiled header is there once in each -/
example : (exLinker false "").range 1 (exLinker false "").assemblyStart ≠ [] ∧
    ((exLinker true "").range 1 (exLinker true "").assemblyStart).count "c.pch.obj".toList ≤ 1 := by
  refine ⟨by decide +kernel, C87_once _ _ _ fun d hd => ?_⟩
  rw [otherwise_iff]
  revert d
  decide +kernel

example : (objectInputs false (.pch "c.pch".toList "c.obj".toList true coreList) []).count "c.pch.obj".toList ≤ 1 :=
  C87_once_library _ _ (by rw [otherwise_iff]; decide +kernel)

/-- something that cannot be linked -/
example : dependOn (.alias "t".toList (.unsupported "test".toList .nil) coreList) = none :=
  (C87_refused _).2 ⟨.unsupported "test".toList .nil, Or.inl (Or.inl rfl), by simp [Refused]⟩

/-- C87, finding: with both `%1[0]` and `%1[1]` in the options the object of a shared precompiled header is given to the linker twice -/
theorem C87_twice : ((exLinker false "").range 1 (exLinker false "").libs2Start ++
    (exLinker false "").range (exLinker false "").libs2Start (exLinker false "").assemblyStart).count "c.pch.obj".toList = 2 := by decide +kernel

/-! ### C88 -/

/-- cleaning a path, for the examples: slashes turned -/
def exClean (n : Name) : Name := n.map fun c => if c = '/' then '\\' else c

def shownLine (o : Option Args.Args) : Option String := o.map fun a => String.ofList a.text

example : shownLine ((exLinker false "/NOLOGO %1[0] /OUT:\"%2\" /X \"%1[1]\" /ASSEMBLYRESOURCE:%3 /libpath:\"c:/lib/\"").buildArgs exClean) =
    some ("/NOLOGO c.pch.obj a.obj x.lib  /OUT:\"app.exe\" /X \"d.lib\" \"y.lib\" \"c.pch.obj\" \"a.obj\"  " ++
      "/ASSEMBLYRESOURCE:r.res /ASSEMBLYRESOURCE:s.res /LIBPATH:\"c:\\lib\" ") := by decide +kernel

example : shownLine (some (libraryArgs "o.lib".toList true (.object "a b.obj".toList (.library "y.lib".toList true (.object "e.obj".toList .nil) .nil))
      "/NOLOGO \"%1\" /OUT:\"%2\"".toList)) = some "/NOLOGO \"a b.obj\" \"y.lib\"  /OUT:\"o.lib\" " ∧
    shownLine (some (execArgs "o".toList [.inl "a".toList, .inr ["d/x".toList, "d/y".toList]] "-i=%1 -o \"%2\" -v".toList)) =
      some "-i=a -i=d/x -i=d/y -o \"o\" -v " ∧
    shownLine (some (csArgs "o.dll".toList ["a.cs".toList] ["b.cs".toList] ["r.dll".toList, "s.dll".toList]
      "/out:%2 /r:\"%3\" \"%1\"".toList)) = some "/out:o.dll /r:\"r.dll\",\"s.dll\" \"a.cs\" \"b.cs\" " := by
  refine ⟨?_, ?_, ?_⟩ <;> decide +kernel

/-- these are the words the programs are given -/
example : tokenize ' ' (execArgs "o".toList [.inl "a".toList, .inr ["d/x".toList]] "-i=%1 -o \"%2\" -v".toList).text =
    ["-i=a", "-i=d/x", "-o", "\"o\"", "-v"].map String.toList := by decide +kernel

/-- C88, finding: a token with `%1` and `%2` keeps the `%2` -/
theorem C88_one_kind : shownLine ((exLinker false "/X:%1[0]=%2").buildArgs exClean) =
    some "/X:c.pch.obj=%2 /X:a.obj=%2 /X:x.lib=%2  " := by decide +kernel

/-- C88, finding: the librarian, programs and C# fill placeholders only at the end of a token; `Initialize` accepts them anywhere -/
theorem C88_inside : shownLine (some (libraryArgs "o.lib".toList true (.object "a.obj".toList .nil) "%1 -o=%2,x".toList)) =
    some "a.obj  -o=%2,x " := by decide +kernel

/-- C88, finding: the path behind `/LIBPATH: ` as a token of its own is not the path any more -/
theorem C88_libpath : shownLine ((exLinker false "/LIBPATH: \"c:/lib\"").buildArgs exClean) = some "/LIBPATH:\"\" \"c:/lib\" " := by
  decide +kernel

/-! ### C89 -/

def disk (ns : List String) (n : Name) : Found := if ns.any (·.toList = n) then .file else if n = "/p/test".toList then .notFile else .nothing

def exOptions : List Char := "-o %2 %1 -L/p -L /q -lm -Wl,-Bstatic -l z -l:full.a x.a -shared".toList

/-- the libraries found: the shared one first, then the static one -/
example : otherLibraries id '/' (disk ["/q/libm.so", "/p/libz.so", "/q/libz.a", "/q/full.a", "/p/x.a", "/q/x.a", "/p/libm.a"]) false [] exOptions =
    .ok (["/p/x.a", "/p/libm.a", "/q/libz.a", "/q/full.a"].map String.toList) := by decide +kernel

example : otherLibraries id '\\' (disk ["c:\\l\\user32.lib", "c:\\l\\a.lib", "d:\\b.lib"]) true ["c:\\l\\".toList]
      "/OUT:%2 \"%1\" a.lib \"d:\\b.lib\" /DEFAULTLIB:kernel32.lib /defaultlib:user32.lib /NODEFAULTLIB:KERNEL32.LIB".toList =
    .ok (["c:\\l\\a.lib", "d:\\b.lib", "c:\\l\\user32.lib"].map String.toList) := by decide +kernel

/-- the hypotheses of C89: the options can be read, and here is what they say -/
def exItems : List Item :=
  [.input "out".toList, .value .path "/p".toList, .value .path "/q".toList, .value .lib "m".toList, .mode true, .value .lib "z".toList,
    .value .lib ":full.a".toList, .input "x.a".toList]

def exShort : List Char := "out -L/p -L /q -lm -Wl,-Bstatic -l z -l:full.a x.a -shared".toList

theorem exReads : Reads false (tokenize ' ' exShort) exItems := by
  have e : tokenize ' ' exShort = ["out", "-L/p", "-L", "/q", "-lm", "-Wl,-Bstatic", "-l", "z", "-l:full.a", "x.a", "-shared"].map String.toList := by
    decide +kernel
  rw [e]
  refine .input ?_ ?_ <| .here (s := .path) ⟨rfl, rfl⟩ (by simp) <| .next (s := .path) ⟨rfl, rfl⟩ <| .here (s := .lib) ⟨rfl, rfl⟩ (by simp) <|
    .static rfl ⟨"-Wl,-Bstatic", by decide, rfl⟩ <| .next (s := .lib) ⟨rfl, rfl⟩ <| .here (s := .lib) ⟨rfl, rfl⟩ (by simp) <| .input ?_ ?_ <|
    .other (Or.inl rfl) ?_ (fun h => by cases h) (fun _ => by decide) .nil
  · simp [Dashed]
  · rintro ⟨v, h | h | h⟩ <;> simp at h
  · simp [Dashed]
  · rintro ⟨v, h | h | h⟩ <;> simp at h
  · intro s v h
    cases s <;> simp [OptionOf] at h

example : DistinctI (values .default exItems) ∧ pathsOf id '/' exItems = ["/p".toList, "/q".toList] ∧ DashL exItems false "m".toList ∧
    DashL exItems true "z".toList := by
  refine ⟨by simp [DistinctI, values, exItems], by decide +kernel, ⟨exItems.take 3, _, exItems.drop 4, rfl, by decide, by decide⟩,
    ⟨exItems.take 5, _, exItems.drop 6, rfl, by decide, by decide⟩⟩

/-- a target that is no file is an error -/
example : otherLibraries id '/' (disk []) false ["/p".toList] "test".toList = .error := by decide +kernel

/-- C89, finding: options that end in an option with its value missing make the code read behind the end of the tokens. (The comment says
that the missing value is ignored.) -/
theorem C89_out_of_bounds : otherLibraries id '/' (disk []) false [] "-o %2 %1 -L".toList = .outOfBounds ∧
    otherLibraries id '/' (disk []) true [] "/OUT:%2 %1 /LIBPATH:".toList = .outOfBounds ∧
    EndsOpen false (tokenize ' ' "-o %2 %1 -L".toList) := by
  refine ⟨?_, ?_, ?_⟩
  · decide +kernel
  · decide +kernel
  · rw [← readTokens_open (clean := id) (slash := '/') {}]; decide +kernel

/-- C89, finding: a full path that has no drive letter is looked for below the paths only, so a library named by it is no dependency -/
theorem C89_full_path : otherLibraries id '/' (disk ["/p/x.a"]) false [] "/p/x.a".toList = .ok [] ∧
    otherLibraries id '/' (disk ["/p/x.a"]) false ["/q".toList] "/p/x.a".toList = .ok [] := by
  constructor <;> decide +kernel

/-- C89, finding: a default library named twice is ignored once -/
theorem C89_ignored_once : otherLibraries id '/' (disk ["/p/d.lib"]) true ["/p".toList] "-DEFAULTLIB:d.lib -DEFAULTLIB:d.lib -NODEFAULTLIB:d.lib".toList =
    .ok ["/p/d.lib".toList] := by decide +kernel

/-! ### C90 -/

/-- the linker is run a second time, and the stamp after it -/
example : linkBuild true true true (fun n => .exited (if n = 1 then 1318 else 0)) (some (.exited 0)) = (.ok, 2, 1) ∧
    linkBuild false true true (fun n => .exited (if n = 1 then 1318 else 0)) (some (.exited 0)) = (.failed, 1, 0) ∧
    linkBuild true true true (fun _ => .exited 1000) none = (.failed, 2, 0) ∧
    linkBuild true true true (fun _ => .exited 0) (some (.exited 3)) = (.failed, 1, 1) := by
  refine ⟨?_, ?_, ?_, ?_⟩ <;> decide

example : execBuild 7 true (.exited 7) "abc".toList (.wrote 3) = (.ok, some "abc".toList) ∧
    (execBuild 7 true (.exited 0) "abc".toList (.wrote 3)).1 = .failed ∧
    testBuild (.exited 0) false "abc".toList "x".toList (.wrote 4) = (.ok, some "abcx".toList) ∧
    testBuild (.exited 0) true "abc".toList "x".toList (.wrote 4) = (.failed, some "abcx".toList) := by
  refine ⟨?_, ?_, ?_, ?_⟩ <;> decide

/-- C90, finding: the output of a program that is to be written to a file may be lost or cut off, and the build is good all the same -/
theorem C90_stdout_lost : execBuild 0 true (.exited 0) "abc".toList .notOpened = (.ok, none) ∧
    execBuild 0 true (.exited 0) "abc".toList (.wrote 1) = (.ok, some "a".toList) := by
  constructor <;> decide

/-! ### C91 -/

example : incrementalLinking (msFlags "/DEBUG %1 -opt:noref /OUT:%2".toList) = true ∧
    incrementalLinking (msFlags "/debug %1 -opt:ref /OUT:%2".toList) = false ∧
    incrementalLinking (msFlags "/INCREMENTAL %1 /ORDER:@x".toList) = false ∧
    incrementalLinking (msFlags "%1".toList) = false := by
  refine ⟨?_, ?_, ?_, ?_⟩ <;> decide +kernel

example : cleanupFiles true false false false "out/a.exe".toList = ["out/a.exe", "out/a.ilk", "out/a.pdb"].map String.toList ∧
    cleanupFiles true true false false "out/a.exe".toList = [] := by
  constructor <;> decide +kernel

/-- C91, finding: for an output without extension in a directory with one, files beside the directory are deleted -/
theorem C91_beside : cleanupFiles true false false false "out.d/prog".toList = ["out.d/prog", "out.ilk", "out.pdb"].map String.toList := by
  decide +kernel

/-- C91, finding: the same dot makes the import library of a DLL -/
theorem C91_import : importLib "out.d/prog".toList .msvc [] = "out.lib".toList := by decide +kernel

theorem lower_ne_W (b : Char) : lower b ≠ 'W' := by
  intro h
  unfold lower at h
  split at h
  · rename_i hc
    have h1 : 65 ≤ b.toNat := hc.1
    have h2 : b.toNat ≤ 90 := hc.2
    have ev : ∀ n, 65 ≤ n → n ≤ 90 → Char.ofNat (97 + (n - 65)) ≠ 'W' := by
      intro n a c
      have : ∀ m : Fin 26, Char.ofNat (97 + m.val) ≠ 'W' := by decide
      exact this ⟨n - 65, by omega⟩
    exact ev _ h1 h2 h
  · rename_i hc
    subst h
    exact hc (by decide)

/-- C91, finding: `-Wl,--oformat=prx` does not make a shared library: the token is put into lower case before `-Wl` is looked for -/
theorem C91_prx : ∀ options : List Char, otherDll options = true ↔
    ∃ t ∈ tokenize ' ' options, ∃ o ∈ ["-shared", "-dynamiclib", "--oformat=prx", "/dll"], t.map lower = o.toList := by
  intro options
  unfold otherDll
  rw [List.any_eq_true]
  constructor
  · rintro ⟨t, ht, h⟩
    refine ⟨t, ht, ?_⟩
    have hW : ("-Wl".toList.isPrefixOf (t.map lower)) = false := by
      apply Bool.eq_false_iff.2
      intro h'
      obtain ⟨r, hr⟩ := List.isPrefixOf_iff_prefix.1 h'
      have : 'W' ∈ t.map lower := by rw [← hr]; simp
      obtain ⟨b, _, hb⟩ := List.mem_map.1 this
      exact lower_ne_W b hb
    simp only [hW, Bool.false_and, Bool.or_false, Bool.or_eq_true, decide_eq_true_eq] at h
    rcases h with ((h | h) | h) | h
    · exact ⟨_, by simp, h⟩
    · exact ⟨"-dynamiclib", by simp, h⟩
    · exact ⟨"--oformat=prx", by simp, h⟩
    · exact ⟨"/dll", by simp, h⟩
  · rintro ⟨t, ht, o, ho, h⟩
    refine ⟨t, ht, ?_⟩
    simp only [List.mem_cons, List.not_mem_nil, or_false] at ho
    rcases ho with rfl | rfl | rfl | rfl <;> simp [h]

end Verif.Link
