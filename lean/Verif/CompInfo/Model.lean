import Verif.Str.TextModel
/-
The include paths a compiler searches by itself: `CompilerInfoNode`, Code/Tools/FBuild/FBuildCore/Graph/CompilerInfoNode.cpp.
The process is a parameter: what becomes of it and what it writes to its error output. `Find` is the first place (C110),
`Tokenize` is that of C29. Logging is left out.
-/
namespace Verif.CompInfo
open Verif.Str

abbrev Text := List Char

/-- `includesStartStringA`, `includesStartStringB` and `includesEndString`, lines 150-152 -/
def startA : Text := "#include \"...\" search starts here:".toList
def startB : Text := "#include <...> search starts here:".toList
def endOf : Text := "End of search list.".toList

/-- `Find( const char * )` (C110): the text from the first place on -/
def find (what : Text) : Text → Option Text
  | [] => if what = [] then some [] else none
  | c :: s => if what.isPrefixOf (c :: s) then some (c :: s) else find what s

/-- lines 155-181: what is left from the lower of the two places on -/
def section_ (err : Text) : Option Text :=
  match find startA err, find startB err with
  | some a, some b => some (if a.length < b.length then b else a)
  | some a, none => some a
  | none, r => r

/-- `TrimStart( ' ' )` and `TrimEnd( ' ' )` -/
def trim (l : Text) : Text := ((l.dropWhile (· == ' ')).reverse.dropWhile (· == ' ')).reverse

/-- the loop over the lines, 186-213: `m_BuiltinIncludePaths` and whether there was no unexpected line -/
def scan : List Text → List Text → List Text × Bool
  | [], paths => (paths, true)
  | l :: ls, paths =>
    if l.head? = some ' ' then scan ls (paths ++ [trim l])
    else if endOf.isPrefixOf l then (paths, true)
    else if startA.isPrefixOf l || startB.isPrefixOf l then scan ls paths
    else (paths, false)

/-- what becomes of the process, lines 108-144 -/
inductive Run where
  /-- can't be started or read; or stopped, before or after -/
  | notStarted (aborted : Bool)
  | stopped
  | exited (code : Int) (err : Text)

inductive Result where | ok | failed | aborted | assert
deriving DecidableEq

structure Node where
  noStdInc : Bool
  noStdIncPP : Bool
  paths : List Text
  stamp : Nat

/-- `DoBuild`, lines 58-225; `hash` is the hash of the paths -/
def doBuild (hash : List Text → Nat) (n : Node) (run : Run) : Node × Result :=
  if n.noStdInc && n.noStdIncPP then ({ n with paths := [], stamp := 1 }, .ok)
  else
    match run with
    | .notStarted a => (n, if a then .aborted else .failed)
    | .stopped => (n, .aborted)
    | .exited code err =>
      if code ≠ 0 then (n, .failed)
      else if err = [] then (n, .assert)
      else
        match section_ err with
        | none => (n, .failed)
        | some text =>
          match scan (tokenize '\n' text) n.paths with
          | (paths, false) => ({ n with paths := paths }, .failed)
          | (paths, true) =>
            if hash paths = 0 then ({ n with paths := paths, stamp := 0 }, .assert)
            else ({ n with paths := paths, stamp := hash paths }, .ok)

/-- the arguments, lines 72-103; `cl` for clang in the mode of the Microsoft compiler -/
def arguments (n : Node) (cl windows : Bool) : Text :=
  " -v -fsyntax-only -Werror -Wfatal-errors".toList ++ (if n.noStdInc then " -nostdinc".toList else []) ++
    (if n.noStdIncPP then " -nostdinc++".toList else []) ++ (if cl then " /Tp".toList else " -x c++".toList) ++
    (if windows then " NUL".toList else " /dev/null".toList)

/-- `Migrate`, lines 254-262, and loading (the paths are a property): a node made anew from the same declaration takes over
the old one's paths and stamp (the latter in `Node::Migrate`) -/
def migrate (new old : Node) : Node := { new with paths := old.paths, stamp := old.stamp }

end Verif.CompInfo
