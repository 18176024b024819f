import Verif.Vcx.Props
/-
Projects that meet the hypotheses of the theorems, and projects for which the claims do not hold.
-/
namespace Verif.Vcx.Example
open Verif.Vcx

def debug : Config :=
  { platform := "x64".toList, config := "Debug".toList, options := some "/DA /DB=<1> /Iinc /FIpre.h /W4".toList,
    f := fun m => if m = "ProjectBuildCommand" then "fbuild A && B".toList else [] }
def release : Config := { debug with config := "Release".toList, debugTarget := some "a.exe".toList, f := fun m => if m = "Keyword" then "Linux".toList else [] }

/-- two names of a file, and two files -/
def project : Project :=
  { configs := [debug, release], files := ["/s/A/B/y.cpp".toList, "/s/x.h".toList, "/s/a/b/Y.cpp".toList], basePaths := ["/s/".toList],
    fileTypes := [("*.h".toList, "CppHeader".toList)], guid := "{1}".toList, references := ["System".toList], projectReferences := ["p|{2}".toList] }

def hash (t : Text) : BitVec 32 := t.foldl (fun a c => a * 257 + BitVec.ofNat 32 c.toNat) 0

theorem plains : Plains false id project where
  file := by decide +kernel
  type := by decide +kernel
  config := by decide +kernel
  reference := by
    intro r h
    have : ∀ r ∈ project.references ++ project.projectReferences, Safe r := by decide +kernel
    exact this r (List.mem_append.2 h)
  imported := by decide +kernel

/-- the hypotheses of the theorems can be met: a project with two configurations, and a file that is given twice -/
example : Plains false id project ∧ (projectText false id project).isSome = true ∧ (project.configs.map fun c => c.config ++ '|' :: c.platform).Nodup ∧
    debug ∈ project.configs ∧ debug.f "PreprocessorDefinitions" = [] ∧ (filtersText false id hash project).isSome = true ∧
    (∀ f ∈ project.files, Safe (backslash f) ∧ '\\' ∈ backslash f) :=
  ⟨plains, by decide +kernel, by decide +kernel, .head _, by decide +kernel, by decide +kernel, by decide +kernel⟩

/-- and the numbers of all that is before a backslash can differ: the numbers of the texts of at most four characters of `one` -/
def one : Project := { configs := [debug], files := ["/s/A/y.cpp".toList], basePaths := ["/s/".toList], guid := "{1}".toList }

/-- all that is before a backslash -/
def before (t : Text) : List Text :=
  (List.range (t.length + 1)).flatMap fun i => if (t.drop i).head? = some '\\' then (List.range (t.length + 1)).map fun j => (t.take i).drop j else []

theorem mem_before {t pre d rest : Text} (h : t = pre ++ d ++ '\\' :: rest) : d ∈ before t := by
  unfold before
  rw [List.mem_flatMap]
  refine ⟨(pre ++ d).length, ?_, ?_⟩
  · rw [List.mem_range, h, List.length_append (as := pre ++ d)]
    exact Nat.lt_succ_of_le (Nat.le_add_right _ _)
  · rw [h, List.drop_left, List.head?_cons, if_pos rfl, List.take_left]
    refine List.mem_map.2 ⟨pre.length, ?_, List.drop_left⟩
    rw [List.mem_range, List.append_assoc, List.length_append]
    exact Nat.lt_succ_of_le (Nat.le_add_right _ _)

theorem one_hash : ∀ a b, Within one.files a → Within one.files b → hash a = hash b → a = b := by
  have key : ∀ a ∈ before (backslash "/s/A/y.cpp".toList), ∀ b ∈ before (backslash "/s/A/y.cpp".toList), hash a = hash b → a = b := by decide +kernel
  rintro a b ⟨f, hf, pre, rest, e⟩ ⟨g, hg, pre', rest', e'⟩
  obtain rfl := List.mem_singleton.1 hf
  obtain rfl := List.mem_singleton.1 hg
  exact key a (mem_before e) b (mem_before e')

example : (∀ a b, Within one.files a → Within one.files b → hash a = hash b → a = b) ∧ (filtersText false id hash one).isSome = true ∧ (projectText false id one).isSome = true ∧
    folder false one ("\\s\\A\\y.cpp".toList, []) = "A".toList :=
  ⟨one_hash, by decide +kernel, by decide +kernel, by decide +kernel⟩

/-! ### Claims that do not hold -/

/-- a file with an ampersand in its name -/
def ampersand : Project := { one with files := ["/s/a&b.cpp".toList] }

/-- C103: "the files that are written can be read" does not hold for all names: they are not escaped. -/
theorem C103_read_false : ∃ p text filters, projectText false id p = some text ∧ filtersText false id hash p = some filters ∧ read text = none ∧ read filters = none :=
  have h1 : (projectText false id ampersand).isSome = true ∧ (projectText false id ampersand).bind read = none := by decide +kernel
  have h2 : (filtersText false id hash ampersand).isSome = true ∧ (filtersText false id hash ampersand).bind read = none := by decide +kernel
  by
    obtain ⟨t, ht⟩ := Option.isSome_iff_exists.1 h1.1
    obtain ⟨f, hf⟩ := Option.isSome_iff_exists.1 h2.1
    refine ⟨ampersand, t, f, ht, hf, ?_, ?_⟩
    · have := h1.2
      rwa [ht] at this
    · have := h2.2
      rwa [hf] at this

/-- the kinds of items that files are, with their names -/
def kinds (root : Node) : List (Text × Option Text) :=
  (root.sub "ItemGroup").flatMap fun g => (g.kids.filter fun e => e.is "ClCompile" || e.is "CustomBuild").flatMap fun e => match e with | .elem n _ _ => [(n, e.attr "Include")] | .txt _ => []

def compiled : Project := { one with configs := [{ debug with f := fun m => if m = "CompileFileCommand" then "c".toList else [] }] }

/-- C103: "the file of filters has the items of the project" does not hold: with a command for compiling a file, items are of another kind in the project. -/
theorem C103_kinds_false : ∃ p r s, (projectText false id p).bind read = some r ∧ (filtersText false id hash p).bind read = some s ∧
    kinds r = [("ClCompile".toList, some "\\s\\A\\y.cpp".toList)] ∧ kinds s = [("CustomBuild".toList, some "\\s\\A\\y.cpp".toList)] :=
  have h1 : ((projectText false id compiled).bind read).map kinds = some [("ClCompile".toList, some "\\s\\A\\y.cpp".toList)] := by decide +kernel
  have h2 : ((filtersText false id hash compiled).bind read).map kinds = some [("CustomBuild".toList, some "\\s\\A\\y.cpp".toList)] := by decide +kernel
  by
    obtain ⟨r, hr, e1⟩ := Option.map_eq_some_iff.1 h1
    obtain ⟨s, hs, e2⟩ := Option.map_eq_some_iff.1 h2
    exact ⟨compiled, r, s, hr, hs, e1, e2⟩

def both : Config := { debug with f := fun m => if m = "PreprocessorDefinitions" then "X".toList else if m = "IncludeSearchPath" then "i".toList else [] }

/-- C103: "forced includes that are not given are those of the target" does not hold if definitions and include paths are given. -/
theorem C103_forced_false : ∃ p r, (projectText false id p).bind read = some r ∧ both ∈ p.configs ∧ both.f "ForcedIncludes" = [] ∧
    (both.options.bind (Ide.forced false)) = some ["pre.h".toList] ∧ ∀ v, ("NMakeForcedIncludes".toList, v) ∉ propertiesIn r both.config both.platform :=
  have h1 : ((projectText false id { one with configs := [both] }).bind read).map (fun r => (propertiesIn r both.config both.platform).map (·.1)) =
      some ["ConfigurationType".toList, "UseDebugLibraries".toList, "NMakePreprocessorDefinitions".toList, "NMakeIncludeSearchPath".toList] := by decide +kernel
  by
    obtain ⟨r, hr, e⟩ := Option.map_eq_some_iff.1 h1
    refine ⟨_, r, hr, .head _, by decide +kernel, by decide +kernel, ?_⟩
    intro v hv
    have : "NMakeForcedIncludes".toList ∈ (propertiesIn r both.config both.platform).map (·.1) := List.mem_map.2 ⟨_, hv, rfl⟩
    rw [e] at this
    exact absurd this (by decide +kernel)

/-- two folders with the same number -/
def collide : Project := { one with files := ["/s/A/y.cpp".toList, "/s/B/z.cpp".toList] }

/-- C103: "each folder that a file is in is listed" does not hold if two have the same number. -/
theorem C103_folders_false : ∃ (hash : Text → BitVec 32) (p : Project) (r : Node), (filtersText false id hash p).bind read = some r ∧
    placesIn r = [(some "\\s\\A\\y.cpp".toList, ["A".toList]), (some "\\s\\B\\z.cpp".toList, ["B".toList])] ∧ (filtersIn r).map (·.1) = [some "A".toList] :=
  have h1 : ((filtersText false id (fun _ => 0) collide).bind read).map (fun r => (placesIn r, (filtersIn r).map (·.1))) =
      some ([(some "\\s\\A\\y.cpp".toList, ["A".toList]), (some "\\s\\B\\z.cpp".toList, ["B".toList])], [some "A".toList]) := by decide +kernel
  by
    obtain ⟨r, hr, e⟩ := Option.map_eq_some_iff.1 h1
    exact ⟨_, collide, r, hr, (Prod.mk.inj e).1, (Prod.mk.inj e).2⟩

/-- C103: "the identifier of a project is the same on all systems" does not hold: slashes are turned before, and only back on systems other than Windows. -/
theorem C103_guid_false : ∃ name : Text, projectGuid true "C:\\w".toList ("C:\\w\\".toList ++ name) ≠ projectGuid false "/w".toList ("/w/".toList ++ name) :=
  ⟨"a/b.vcxproj".toList, by decide +kernel⟩

/-- but it is if the project is in the working directory itself -/
theorem C103_guid_partial {d d' name : Text} (h : '/' ∉ name) (h' : '\\' ∉ name) :
    projectGuid true d (d ++ '\\' :: name) = projectGuid false d' (d' ++ '/' :: name) := by
  have key (d : Text) (c : Char) : (if d.isPrefixOf (d ++ c :: name) then (d ++ c :: name).drop (d.length + 1) else d ++ c :: name) = name := by
    rw [if_pos (by rw [List.isPrefixOf_iff_prefix]; exact List.prefix_append _ _), ← List.drop_drop, List.drop_left]
    rfl
  have e1 : name.map (fun c => if c = '\\' then '/' else c) = name := by
    rw [List.map_congr_left (g := id), List.map_id]
    intro c hc
    exact if_neg fun e : c = '\\' => h' (e ▸ hc)
  have e2 : name.map (fun c => if c = '/' then '\\' else c) = name := by
    rw [List.map_congr_left (g := id), List.map_id]
    intro c hc
    exact if_neg fun e : c = '/' => h (e ▸ hc)
  unfold projectGuid
  rw [key, key, e1]
  unfold Sln.formatGuid
  rw [if_pos rfl, if_neg (by decide), e2]

end Verif.Vcx.Example
