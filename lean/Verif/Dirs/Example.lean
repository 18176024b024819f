import Verif.Dirs.Names
import Verif.Dirs.Remove
/-! Where C82 to C86 do not hold as one would expect, and cases that meet the hypotheses of the theorems. -/
namespace Verif.Dirs
open Unity (Name)

/-- everything below a path, on Linux -/
def everything : Config :=
  { linux := true, sl := '/', patterns := [], excludePaths := [], filesToExclude := [], excludePatterns := [],
    recursive := true, includeReadOnly := false, includeDirs := false }

/-- a small tree, with the entries the system adds; `a.c` and `b.h` here, `c.c` in `sub` -/
def tree : Entries :=
  .dir ".".toList .nil (.dir "..".toList .nil (.file "b.h".toList true (.dir "sub".toList
    (.dir ".".toList .nil (.file "c.c".toList false .nil)) (.file "a.c".toList false .nil))))

/-- the same returned in another order -/
def tree' : Entries :=
  .file "a.c".toList false (.dir "sub".toList (.file "c.c".toList false .nil) (.file "b.h".toList true (.dir ".".toList .nil .nil)))

/-! the descriptions of directories can be computed -/

instance (n : Name) : Decidable (Dot n) := by unfold Dot; infer_instance

def filesOf : Entries → List (List Name × Name × Bool)
  | .nil => []
  | .file n ro rest => ([], n, ro) :: filesOf rest
  | .dir d sub rest => (if Dot d then [] else (filesOf sub).map fun x => (d :: x.1, x.2)) ++ filesOf rest

def dirsOf : Entries → List (List Name × Name)
  | .nil => []
  | .file _ _ rest => dirsOf rest
  | .dir d sub rest => (if Dot d then [] else ([], d) :: (dirsOf sub).map fun x => (d :: x.1, x.2)) ++ dirsOf rest

theorem fileAt_iff : ∀ (e : Entries) (ds : List Name) (n : Name) (ro : Bool), FileAt e ds n ro ↔ (ds, n, ro) ∈ filesOf e
  | .nil, ds, n, ro => by
    constructor
    · intro h; cases h
    · intro h; simp [filesOf] at h
  | .file m r rest, ds, n, ro => by
    simp only [filesOf, List.mem_cons, ← fileAt_iff rest, Prod.mk.injEq]
    constructor
    · intro h
      cases h with
      | here => simp
      | skipFile h => exact .inr h
    · rintro (⟨rfl, rfl, rfl⟩ | h)
      · exact .here
      · exact .skipFile h
  | .dir d sub rest, ds, n, ro => by
    simp only [filesOf, List.mem_append, ← fileAt_iff rest]
    constructor
    · intro h
      cases h with
      | skipDir h => exact .inr h
      | inside hd h =>
        rw [if_neg hd]
        exact .inl (List.mem_map.mpr ⟨_, (fileAt_iff sub _ _ _).mp h, rfl⟩)
    · rintro (h | h)
      · by_cases hd : Dot d
        · simp [hd] at h
        · rw [if_neg hd] at h
          obtain ⟨⟨ds', n', ro'⟩, h1, h2⟩ := List.mem_map.mp h
          simp only [Prod.mk.injEq] at h2
          obtain ⟨rfl, rfl, rfl⟩ := h2
          exact .inside hd ((fileAt_iff sub _ _ _).mpr h1)
      · exact .skipDir h

theorem dirAt_iff : ∀ (e : Entries) (ds : List Name) (n : Name), DirAt e ds n ↔ (ds, n) ∈ dirsOf e
  | .nil, ds, n => by
    constructor
    · intro h; cases h
    · intro h; simp [dirsOf] at h
  | .file m r rest, ds, n => by
    simp only [dirsOf, ← dirAt_iff rest]
    constructor
    · intro h
      cases h with
      | skipFile h => exact h
    · exact .skipFile
  | .dir d sub rest, ds, n => by
    simp only [dirsOf, List.mem_append, ← dirAt_iff rest]
    constructor
    · intro h
      cases h with
      | here hd => rw [if_neg hd]; exact .inl (by simp)
      | skipDir h => exact .inr h
      | inside hd h =>
        rw [if_neg hd]
        exact .inl (List.mem_cons.mpr (.inr (List.mem_map.mpr ⟨_, (dirAt_iff sub _ _).mp h, rfl⟩)))
    · rintro (h | h)
      · by_cases hd : Dot d
        · simp [hd] at h
        · rw [if_neg hd] at h
          rcases List.mem_cons.mp h with h | h
          · simp only [Prod.mk.injEq] at h
            obtain ⟨rfl, rfl⟩ := h
            exact .here hd
          · obtain ⟨⟨ds', n'⟩, h1, h2⟩ := List.mem_map.mp h
            simp only [Prod.mk.injEq] at h2
            obtain ⟨rfl, rfl⟩ := h2
            exact .inside hd ((dirAt_iff sub _ _).mpr h1)
      · exact .skipDir h

def validDec (sl : Char) : ∀ e : Entries, Decidable (Valid sl e)
  | .nil => .isTrue trivial
  | .file n ro rest => by
    have := validDec sl rest
    unfold Valid; infer_instance
  | .dir d sub rest => by
    have := validDec sl rest
    have := validDec sl sub
    unfold Valid; infer_instance

instance (sl : Char) (e : Entries) : Decidable (Valid sl e) := validDec sl e

/-- does the name begin with two dots? -/
def dots (n : Name) : Bool :=
  match n with
  | '.' :: '.' :: _ => true
  | _ => false

def plain : Entries → Bool
  | .nil => true
  | .file _ _ rest => plain rest
  | .dir d sub rest => (decide (Dot d) || ! dots d) && plain sub && plain rest

theorem plain_noDotDot : ∀ e : Entries, plain e = true → NoDotDot e
  | .nil, _ => trivial
  | .file _ _ rest, h => plain_noDotDot rest h
  | .dir d sub rest, h => by
    simp only [plain, Bool.and_eq_true, Bool.or_eq_true, decide_eq_true_eq, Bool.not_eq_true'] at h
    refine ⟨?_, plain_noDotDot sub h.1.2, plain_noDotDot rest h.2⟩
    intro hd t ht
    rcases h.1.1 with h | h
    · exact hd h
    · rw [ht] at h; simp [dots] at h

/-! ### C82 -/

/-- C82, finding: a directory whose name begins with two dots is passed over with all its files, FileIO.cpp:1108-1112 -/
theorem C82_dotdot : ∃ e : Entries, Valid '/' e ∧ FileAt e ["..old".toList] "x.c".toList false ∧
    Entered everything "/p/".toList ["..old".toList] ∧ Wanted everything "x.c".toList "/p/..old/x.c".toList ∧
    dirList everything "/p/".toList e = some ([], []) := by
  refine ⟨.dir "..old".toList (.file "x.c".toList false .nil) .nil, by decide, .inside (by decide) .here, ?_, ?_, by decide +kernel⟩
  · intro _; exact ⟨rfl, by simp [everything]⟩
  · exact ⟨.inl rfl, by simp [everything], by simp [everything]⟩

/-- C82, finding: excluding the path of the list itself excludes the directories below it only -/
theorem C82_root_excluded :
    dirList { everything with excludePaths := ["/p/".toList] } "/p/".toList tree =
      some ([("/p/a.c".toList, false), ("/p/b.h".toList, true)], []) := by decide +kernel

theorem tree_valid : Valid '/' tree ∧ NoDotDot tree ∧ Valid '/' tree' ∧ NoDotDot tree' :=
  ⟨by decide, plain_noDotDot _ (by decide), by decide, plain_noDotDot _ (by decide)⟩

/-- the example of C82: `*.c` below `/p/`, in either order -/
example : dirList { everything with patterns := ["*.c".toList] } "/p/".toList tree =
      some ([("/p/a.c".toList, false), ("/p/sub/c.c".toList, false)], []) ∧
    dirList { everything with patterns := ["*.c".toList] } "/p/".toList tree' =
      some ([("/p/a.c".toList, false), ("/p/sub/c.c".toList, false)], []) := by
  constructor <;> decide +kernel

/-- an excluded path (whose name is listed nevertheless) and an excluded file -/
example : dirList { everything with includeDirs := true, excludePaths := ["/p/sub/".toList], filesToExclude := ["b.h".toList] } "/p/".toList tree =
      some ([("/p/a.c".toList, false)], ["/p/sub/".toList]) := by decide +kernel

/-- an excluded pattern -/
example : dirList { everything with excludePatterns := ["*sub*".toList] } "/p/".toList tree =
      some ([("/p/a.c".toList, false), ("/p/b.h".toList, true)], []) := by decide +kernel

/-- not recursive, and not on Linux -/
example : dirList { everything with recursive := false, linux := false, patterns := ["*.C".toList] } "/p/".toList tree =
      some ([("/p/a.c".toList, false)], []) := by decide +kernel

/-- the example of `C82_order`: the two trees hold the same -/
example : (∀ ds n ro, FileAt tree ds n ro ↔ FileAt tree' ds n ro) ∧ ∀ ds n, DirAt tree ds n ↔ DirAt tree' ds n := by
  have hf : (filesOf tree).Perm (filesOf tree') := by decide
  have hd : (dirsOf tree).Perm (dirsOf tree') := by decide
  exact ⟨fun ds n ro => by rw [fileAt_iff, fileAt_iff, hf.mem_iff], fun ds n => by rw [dirAt_iff, dirAt_iff, hd.mem_iff]⟩

/-! ### C83 -/

/-- C83, finding: on Linux and macOS different recursive lists of a path can have the same stamp, because the names are hashed without
anything between them. Here `/a/` with the files `x` and `y`, and `/a/` with the file `x/a/y`. -/
theorem C83_collision (hash : Name → Nat) : ∃ e e' l l', Valid '/' e ∧ Valid '/' e' ∧ dirList everything "/a/".toList e = some l ∧
    dirList everything "/a/".toList e' = some l' ∧ l.1.map Prod.fst = ["/a/x".toList, "/a/y".toList] ∧
    l'.1.map Prod.fst = ["/a/x/a/y".toList] ∧ stamp hash everything l = stamp hash everything l' := by
  refine ⟨.file "x".toList false (.file "y".toList false .nil), .dir "x".toList (.dir "a".toList (.file "y".toList false .nil) .nil) .nil,
    ([("/a/x".toList, false), ("/a/y".toList, false)], []), ([("/a/x/a/y".toList, false)], []), by decide, by decide, by decide +kernel,
    by decide +kernel, by decide, by decide, ?_⟩
  have : stampText everything ([("/a/x".toList, false), ("/a/y".toList, false)], []) = stampText everything ([("/a/x/a/y".toList, false)], []) := by
    decide
  exact congrArg hash this

/-- C83, finding: the same with as many files: `x` and `y/a/z`, and `x/a/y` and `z` -/
theorem C83_collision2 (hash : Name → Nat) : ∃ e e' l l', Valid '/' e ∧ Valid '/' e' ∧ dirList everything "/a/".toList e = some l ∧
    dirList everything "/a/".toList e' = some l' ∧ l.1.map Prod.fst = ["/a/x".toList, "/a/y/a/z".toList] ∧
    l'.1.map Prod.fst = ["/a/x/a/y".toList, "/a/z".toList] ∧ stamp hash everything l = stamp hash everything l' := by
  refine ⟨.file "x".toList false (.dir "y".toList (.dir "a".toList (.file "z".toList false .nil) .nil) .nil),
    .dir "x".toList (.dir "a".toList (.file "y".toList false .nil) .nil) (.file "z".toList false .nil),
    ([("/a/x".toList, false), ("/a/y/a/z".toList, false)], []), ([("/a/x/a/y".toList, false), ("/a/z".toList, false)], []),
    by decide, by decide, by decide +kernel, by decide +kernel, by decide, by decide, ?_⟩
  have : stampText everything ([("/a/x".toList, false), ("/a/y/a/z".toList, false)], []) =
      stampText everything ([("/a/x/a/y".toList, false), ("/a/z".toList, false)], []) := by decide
  exact congrArg hash this

/-- the options of the examples of C83 on Windows -/
def windows : Config := { everything with linux := false, sl := '\\', includeReadOnly := true, includeDirs := true }

/-- the example of `C83_windows` and `C83_stamp`: a list on a drive, with its text -/
example : Valid '\\' tree ∧ Drive "c:\\p\\".toList tree ∧
    (dirList windows "c:\\p\\".toList tree).map (stampText windows) = some "c:\\p\\a.c\x00c:\\p\\b.h\x01c:\\p\\sub\\c.c\x00c:\\p\\sub\\".toList := by
  refine ⟨by decide, ⟨⟨'c', "\\p\\".toList, rfl, by decide, by decide⟩, ?_, ?_⟩, by decide +kernel⟩
  · intro ds n ro h
    rw [fileAt_iff] at h
    have : ∀ x ∈ filesOf tree, ':' ∉ x.2.1 ∧ ∀ d ∈ x.1, ':' ∉ d := by decide
    exact this _ h
  · intro ds n h
    rw [dirAt_iff] at h
    have : ∀ x ∈ dirsOf tree, ':' ∉ x.2 ∧ ∀ d ∈ x.1, ':' ∉ d := by decide
    exact this _ h

/-- the example of `C83_flat_partial` -/
example : (dirList { everything with recursive := false } ('/' :: "p/".toList) tree).map (stampText { everything with recursive := false }) =
    some "/p/a.c/p/b.h".toList := by decide +kernel

/-! ### C84 -/

/-- the result of setting up nodes, for comparing -/
def shown (r : Except Err (Graph × List Name)) : Option Err × Graph × List Name :=
  match r with
  | .ok (g, ds) => (none, g, ds)
  | .error e => (some e, [], [])

/-- C84, finding: of two files in one directory whose names differ only in case, as Linux allows, one is copied, and the other is silently
not copied: nodes are found regardless of case on all platforms -/
theorem C84_case : shown (copyDir "/out/".toList [] [("/p/".toList, ["/p/A.txt".toList, "/p/a.txt".toList])]) =
    (none, [("/p/A.txt".toList, .file), ("/out/A.txt".toList, .copy "/p/A.txt".toList)], ["/out/A.txt".toList, "/out/A.txt".toList]) := by
  decide +kernel

/-- C84, finding: a file moved from one source path to the other. With the graph of the build before, this is reported as a conflict:
the copy in the graph still has the old source, though nothing refers to it any more. With an empty graph it works. -/
theorem C84_moved : ∃ g, shown (copyDir "/out/".toList [] [("/p/".toList, ["/p/x".toList]), ("/q/".toList, [])]) = (none, g, ["/out/x".toList]) ∧
    shown (copyDir "/out/".toList g [("/p/".toList, []), ("/q/".toList, ["/q/x".toList])]) = (some .conflict, [], []) ∧
    (shown (copyDir "/out/".toList [] [("/p/".toList, []), ("/q/".toList, ["/q/x".toList])])).1 = none :=
  ⟨[("/p/x".toList, .file), ("/out/x".toList, .copy "/p/x".toList)], by decide +kernel, by decide +kernel, by decide +kernel⟩

/-- the example of C84: two source paths -/
example : shown (copyDir "/out/".toList [("all".toList, .other false)] [("/p/".toList, ["/p/a".toList, "/p/s/b".toList]), ("/q/".toList, ["/q/c".toList])]) =
    (none, [("all".toList, .other false), ("/p/a".toList, .file), ("/out/a".toList, .copy "/p/a".toList), ("/p/s/b".toList, .file),
      ("/out/s/b".toList, .copy "/p/s/b".toList), ("/q/c".toList, .file), ("/out/c".toList, .copy "/q/c".toList)],
      ["/out/a".toList, "/out/s/b".toList, "/out/c".toList]) := by decide +kernel

/-- the hypotheses of `C84_succeeds` for it -/
example : let lists := [("/p/".toList, ["/p/a".toList, "/p/s/b".toList]), ("/q/".toList, ["/q/c".toList])]
    let g : Graph := [("all".toList, .other false), ("/p/a".toList, .file)]
    (∀ x ∈ g, ∀ p ∈ listed lists, key x.1 = key p.2 → x.2.isAFile = true) ∧
    (∀ x ∈ g, ∀ p ∈ listed lists, key x.1 ≠ key (target "/out/".toList p)) ∧
    (∀ p ∈ listed lists, ∀ q ∈ listed lists, key p.2 ≠ key (target "/out/".toList q)) ∧
    (∀ p ∈ listed lists, ∀ q ∈ listed lists, key (target "/out/".toList p) = key (target "/out/".toList q) → key p.2 = key q.2) := by
  refine ⟨?_, ?_, ?_, ?_⟩ <;> decide +kernel

/-- two files for one place is an error -/
example : (shown (copyDir "/out/".toList [] [("/p/".toList, ["/p/a".toList]), ("/q/".toList, ["/q/a".toList])])).1 = some .conflict := by
  decide +kernel

/-! ### C85 -/

/-- the object list of the examples -/
def objs : ObjConfig :=
  { linux := true, sl := '/', outputPath := "/out/".toList, outputPrefix := [], keepBaseExtension := false, filesRoot := [],
    extension := ".o".toList, id := 7 }

/-- C85, finding: of two source files in one directory whose names differ only in case, as Linux allows, one is compiled, and the other
silently is not -/
theorem C85_case : shown (objects objs [] [("/p/".toList, ["/p/A.c".toList, "/p/a.c".toList])]) =
    (none, [("/p/A.c".toList, .file), ("/out/A.o".toList, .object "/p/A.c".toList 7)], ["/out/A.o".toList, "/out/A.o".toList]) := by
  decide +kernel

/-- C85, finding: a source file renamed from `a.c` to `a.cpp`. With the graph of the build before, this is reported as a conflict of
objects. With an empty graph it works. -/
theorem C85_renamed : ∃ g, shown (objects objs [] [("/p/".toList, ["/p/a.c".toList])]) = (none, g, ["/out/a.o".toList]) ∧
    shown (objects objs g [("/p/".toList, ["/p/a.cpp".toList])]) = (some .conflict, [], []) ∧
    (shown (objects objs [] [("/p/".toList, ["/p/a.cpp".toList])])).1 = none :=
  ⟨[("/p/a.c".toList, .file), ("/out/a.o".toList, .object "/p/a.c".toList 7)], by decide +kernel, by decide +kernel, by decide +kernel⟩

/-- the example of C85: files in two directories -/
example : shown (objects objs [] [("/p/".toList, ["/p/a.c".toList, "/p/s/a.c".toList])]) =
    (none, [("/p/a.c".toList, .file), ("/out/a.o".toList, .object "/p/a.c".toList 7), ("/p/s/a.c".toList, .file),
      ("/out/s/a.o".toList, .object "/p/s/a.c".toList 7)], ["/out/a.o".toList, "/out/s/a.o".toList]) := by decide +kernel

/-- two files with one object is an error, unless extensions are kept -/
example : (shown (objects objs [] [("/p/".toList, ["/p/a.c".toList, "/p/a.cpp".toList])])).1 = some .conflict ∧
    (shown (objects { objs with keepBaseExtension := true } [] [("/p/".toList, ["/p/a.c".toList, "/p/a.cpp".toList])])).2.2 =
      ["/out/a.c.o".toList, "/out/a.cpp.o".toList] := by
  constructor <;> decide +kernel

/-- the examples of the names: a file below its list, one below the root of input files, and one elsewhere; a name with only an extension
keeps it -/
example : objectName { objs with outputPrefix := "x-".toList } "/p/s/a.b.c".toList "/p/".toList = some "/out/s/x-a.b.o".toList ∧
    objectName { objs with filesRoot := "/src/".toList } "/src/t/a.c".toList [] = some "/out/t/a.o".toList ∧
    objectName { objs with filesRoot := "/src/".toList } "/lib/a.c".toList [] = some "/out/a.o".toList ∧
    objectName objs "/p/.c".toList "/p/".toList = some "/out/.c.o".toList := by
  refine ⟨?_, ?_, ?_, ?_⟩ <;> decide +kernel

/-! ### C86 -/

/-- a file system with the tree below `/p/`, and a file elsewhere -/
def disk : Fs := { files := ["/p/a.c".toList, "/p/b.h".toList, "/p/sub/c.c".toList, "/q/x".toList], dirs := ["/p/".toList, "/p/sub/".toList, "/q/".toList] }

/-- C86, finding: when patterns or exclusions leave something in a directory, removing it fails, and with it the build: the files asked
for are gone, and the directories that are empty now may still be there -/
theorem C86_leftover : (dirList { everything with includeDirs := true, patterns := ["*.h".toList] } "/p/".toList tree).map
      (fun l => removeDir (fun _ => false) true true disk [("/p/".toList, l.1.map Prod.fst, l.2)]) =
    some ({ disk with files := ["/p/a.c".toList, "/p/sub/c.c".toList, "/q/x".toList] }, false) := by decide +kernel

/-- C86, finding: when one of the paths to remove is below another one, the build fails: what was listed twice cannot be deleted twice -/
theorem C86_overlap :
    (removeDir (fun _ => false) true true disk [("/p/".toList, ["/p/a.c".toList, "/p/b.h".toList, "/p/sub/c.c".toList], ["/p/sub/".toList]),
      ("/p/sub/".toList, ["/p/sub/c.c".toList], [])]).2 = false := by decide +kernel

/-- the example of C86: everything below `/p/` is removed, and `/p/` itself -/
example : Holds disk '/' "/p/".toList tree ∧
    (dirList { everything with includeDirs := true } "/p/".toList tree).map
      (fun l => removeDir (fun _ => false) true true disk [("/p/".toList, l.1.map Prod.fst, l.2)]) =
    some ({ files := ["/q/x".toList], dirs := ["/q/".toList] }, true) := by
  refine ⟨⟨?_, ?_⟩, by decide +kernel⟩
  · intro f
    constructor
    · rintro ⟨h1, t, ht, rfl⟩
      have h : ∀ f ∈ disk.files, "/p/".toList.isPrefixOf f = true → ∃ x ∈ filesOf tree, f = dirPath '/' "/p/".toList x.1 ++ x.2.1 := by decide
      obtain ⟨⟨ds, n, ro⟩, h2, h3⟩ := h _ h1 (by simp)
      exact ⟨ds, n, ro, (fileAt_iff ..).mpr h2, h3⟩
    · rintro ⟨ds, n, ro, h1, rfl⟩
      have h : ∀ x ∈ filesOf tree, dirPath '/' "/p/".toList x.1 ++ x.2.1 ∈ disk.files ∧ (x.1.flatMap fun d => d ++ ['/']) ++ x.2.1 ≠ [] := by decide
      obtain ⟨h2, h3⟩ := h _ ((fileAt_iff ..).mp h1)
      exact ⟨h2, _, h3, by simp [dirPath]⟩
  · intro f
    constructor
    · rintro ⟨h1, t, ht, rfl⟩
      have h : ∀ f ∈ disk.dirs, "/p/".toList.isPrefixOf f = true → f ≠ "/p/".toList → ∃ x ∈ dirsOf tree, f = dirPath '/' "/p/".toList (x.1 ++ [x.2]) := by decide
      obtain ⟨⟨ds, n⟩, h2, h3⟩ := h _ h1 (by simp) (fun e => ht (by simpa using e))
      exact ⟨ds, n, (dirAt_iff ..).mpr h2, h3⟩
    · rintro ⟨ds, n, h1, rfl⟩
      have h : ∀ x ∈ dirsOf tree, dirPath '/' "/p/".toList (x.1 ++ [x.2]) ∈ disk.dirs ∧ ((x.1 ++ [x.2]).flatMap fun d => d ++ ['/']) ≠ [] := by decide
      obtain ⟨h2, h3⟩ := h _ ((dirAt_iff ..).mp h1)
      exact ⟨h2, _, h3, rfl⟩

end Verif.Dirs
