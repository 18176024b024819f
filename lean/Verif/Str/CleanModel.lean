import Verif.Str.TextSpec
/-
Model of `NodeGraph::CleanPath`, Code/Tools/FBuild/FBuildCore/Graph/NodeGraph.cpp:1252-1404, for Windows and
Linux. The characters written to `cleanPath` so far (up to `dst`) are kept in a list in reverse order.
-/
namespace Verif.Str

/-- `PathUtils::IsFullPath`, Code/Core/FileIO/PathUtils.cpp:29-40 -/
def isFullPath : Platform → List Char → Bool
  | .windows, path => path[1]? == some ':' || ['\\', '\\'].isPrefixOf path
  | .linux, path => path.head? == some '/'

/-- `while ( ( *src == NATIVE_SLASH ) || ( *src == OTHER_SLASH ) ) ++src;` -/
def skipSlashes : List Char → List Char
  | [] => []
  | c :: s => if isSlash c then skipSlashes s else c :: s

/-- `( nextChar == NATIVE_SLASH ) || ( nextChar == OTHER_SLASH ) || ( nextChar == '\0' )` -/
def atSep : List Char → Bool
  | [] => true
  | c :: _ => isSlash c

/-- The loop that removes the last component, NodeGraph.cpp:1362-1370 -/
def popBack (sl : Char) (low : Nat) : List Char → List Char
  | [] => []
  | c :: r => if r.length + 1 > low then (if c = sl then c :: r else popBack sl low r) else c :: r

/-- The main loop, NodeGraph.cpp:1311-1392: `ls` is `lastChar == NATIVE_SLASH`, `low` the offset of
`lowestRemovableChar`, `rout` the output in reverse. One unit of fuel per iteration. -/
def cleanGo (sl : Char) (full : Bool) : Nat → Bool → Nat → List Char → List Char → Option (List Char)
  | 0, _, _, _, _ => none
  | _ + 1, _, _, rout, [] => some rout
  | fuel + 1, ls, low, rout, c :: src =>
    if isSlash c then cleanGo sl full fuel true low (sl :: rout) (skipSlashes src)
    else if c = '.' ∧ ls = true ∧ atSep src = true then cleanGo sl full fuel ls low rout (skipSlashes src)
    else if c = '.' ∧ ls = true ∧ src.head? = some '.' ∧ atSep src.tail = true then
      let src := skipSlashes src.tail
      if rout.length > low then cleanGo sl full fuel ls low (popBack sl low rout.tail) src
      else if full = false then
        let rout := sl :: '.' :: '.' :: rout
        cleanGo sl full fuel ls rout.length rout src
      else cleanGo sl full fuel ls low rout src
    else cleanGo sl full fuel false low (c :: rout) src

/-- `NodeGraph::CleanPath`; the final length is cast to 16 bits (line 1395). -/
def cleanPath (p : Platform) (workingDir name : List Char) (makeFullPath : Bool) : Option (List Char) :=
  let isFull := isFullPath p name
  let (out, full) :=
    if isFull = false ∧ makeFullPath = true then
      (if workingDir = [] then [] else workingDir ++ [native p], true)
    else ([], isFull)
  let src := if p = .windows then skipSlashes name else name
  let low := if full then (if p = .windows then 3 else 1) else 0
  match cleanGo (native p) full (src.length + 1) true low out.reverse src with
  | none => none
  | some rout => some (rout.reverse.take (rout.length % 65536))

end Verif.Str
