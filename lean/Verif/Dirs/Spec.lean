import Verif.Dirs.Model
/-
What the properties C82 to C86 talk about: which files and directories there are, which of them a directory list asks for,
and what it means for one text to begin or end with another. Nothing here uses the code under `Model`, except for the
description of a directory (`Entries`) and the options.
-/
namespace Verif.Dirs
open Unity (Name)

/-- the entries `.` and `..` of a directory -/
def Dot (n : Name) : Prop := n = ['.'] ∨ n = ['.', '.']

/-- there is a file `n` in the directory reached by going through `ds` -/
inductive FileAt : Entries → List Name → Name → Bool → Prop
  | here {n ro rest} : FileAt (.file n ro rest) [] n ro
  | skipFile {m r rest ds n ro} : FileAt rest ds n ro → FileAt (.file m r rest) ds n ro
  | skipDir {d sub rest ds n ro} : FileAt rest ds n ro → FileAt (.dir d sub rest) ds n ro
  | inside {d sub rest ds n ro} : ¬ Dot d → FileAt sub ds n ro → FileAt (.dir d sub rest) (d :: ds) n ro

/-- there is a directory `n` in the directory reached by going through `ds` -/
inductive DirAt : Entries → List Name → Name → Prop
  | here {d sub rest} : ¬ Dot d → DirAt (.dir d sub rest) [] d
  | skipFile {m r rest ds n} : DirAt rest ds n → DirAt (.file m r rest) ds n
  | skipDir {d sub rest ds n} : DirAt rest ds n → DirAt (.dir d sub rest) ds n
  | inside {d sub rest ds n} : ¬ Dot d → DirAt sub ds n → DirAt (.dir d sub rest) (d :: ds) n

/-- the path of the directory reached from `root` by going through `ds` -/
def dirPath (sl : Char) (root : Name) (ds : List Name) : Name := root ++ ds.flatMap fun d => d ++ [sl]

/-- no directory has a name that begins with two dots, apart from `..` itself -/
def NoDotDot : Entries → Prop
  | .nil => True
  | .file _ _ rest => NoDotDot rest
  | .dir d sub rest => (¬ Dot d → ∀ t, d ≠ '.' :: '.' :: t) ∧ NoDotDot sub ∧ NoDotDot rest

/-- the names in a directory -/
def names : Entries → List Name
  | .nil => []
  | .file n _ rest => n :: names rest
  | .dir d _ rest => d :: names rest

/-- as a file system is: in every directory the names are distinct, none is empty or contains a slash (or NUL) -/
def Valid (sl : Char) : Entries → Prop
  | .nil => True
  | .file n _ rest => n ≠ [] ∧ sl ∉ n ∧ '\x00' ∉ n ∧ n ∉ names rest ∧ Valid sl rest
  | .dir d sub rest => d ≠ [] ∧ sl ∉ d ∧ '\x00' ∉ d ∧ d ∉ names rest ∧ (¬ Dot d → Valid sl sub) ∧ Valid sl rest

/-- characters as the platform compares them in paths: ASCII letters in either case are the same, except on Linux -/
def fold (linux : Bool) (c : Char) : Char :=
  if linux then c else if 'A' ≤ c ∧ c ≤ 'Z' then Char.ofNat (c.toNat + 32) else c

/-- the same text for the platform -/
def Same (linux : Bool) (a b : Name) : Prop := a.map (fold linux) = b.map (fold linux)

/-- `a` begins with `b` -/
def Begins (linux : Bool) (a b : Name) : Prop := ∃ x y, a = x ++ y ∧ Same linux x b

/-- `b` is the path `a`, or what comes behind one of its slashes -/
def EndsWithFile (linux : Bool) (sl : Char) (a b : Name) : Prop :=
  Same linux a b ∨ ∃ x y, a = x ++ sl :: y ∧ Same linux y b

/-- the pattern describes the text -/
def Describes (linux : Bool) (pattern text : Name) : Prop :=
  Str.Matches (fun a b => fold linux a == fold linux b) pattern text

/-- is the directory reached through `ds` looked into? The list itself: always. Below: when recursive, unless its path begins with
an excluded path -/
def Entered (c : Config) (root : Name) (ds : List Name) : Prop :=
  ds ≠ [] → c.recursive = true ∧ ∀ x ∈ c.excludePaths, ¬ Begins c.linux (dirPath c.sl root ds) x

/-- does the list ask for the file `n` with path `full`? -/
def Wanted (c : Config) (n full : Name) : Prop :=
  (c.patterns = [] ∨ ∃ p ∈ c.patterns, Describes c.linux p n) ∧
  (∀ x ∈ c.filesToExclude, ¬ EndsWithFile c.linux c.sl full x) ∧
  (∀ p ∈ c.excludePatterns, ¬ Describes c.linux p full)

end Verif.Dirs
