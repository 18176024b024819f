import Verif.Unity.Model
/-! What a compiler sees in a generated unity file, and what it ought to see. -/
namespace Verif.Unity

/-- the end of a line: a carriage return is dropped (`acc` is reversed) -/
def finish (acc : Name) : Name := (if acc.head? = some '\r' then acc.tail else acc).reverse

/-- the lines of a text -/
def linesGo : Name → Name → List Name
  | acc, [] => [finish acc]
  | acc, x :: s => if x = '\n' then finish acc :: linesGo [] s else linesGo (x :: acc) s

def lines (text : Name) : List Name := linesGo [] text

/-- the file a line includes, if it starts with `#include "` and ends with a quote -/
def included (line : Name) : Option Name :=
  if line.take 10 = "#include \"".toList ∧ (line.drop 10).getLast? = some '"' then some (line.drop 10).dropLast else none

/-- the files included by a text, in order -/
def includes (text : Name) : List Name := (lines text).filterMap included

/-- the names a unity is asked to have compiled -/
def inputs (c : Config) : List Dep → List Name
  | [] => []
  | .dirList _ files :: ds =>
    ((files.map (·.1)).filter fun n => ! (pchCpp c.pch ≠ [] && endsWithFile c.linux c.sl n (pchCpp c.pch))) ++ inputs c ds
  | .objectList files :: ds => files ++ inputs c ds
  | .file n _ :: ds => if n = c.isolateListFile then inputs c ds else n :: inputs c ds

/-- the files pulled in by the unity file `n` on disk, without the precompiled header -/
def compiledBy (c : Config) (d : Disk) (n : Name) : List Name :=
  match d n with
  | none => []
  | some t => if c.pch = [] then includes t else (includes t).tail

/-- every file that is compiled when the listed unity files and the isolated files are compiled -/
def compiled (c : Config) (r : Result) : List Name :=
  r.names.flatMap (compiledBy c r.disk) ++ r.isolated.map fun e => c.shown e.1

end Verif.Unity
