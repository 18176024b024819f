import Verif.Str.LevModel
/-
Model of `NodeGraph::FindNearestNodesInternal`, Code/Tools/FBuild/FBuildCore/Graph/NodeGraph.cpp:1436-1519.
Nodes are given by their names, in the order of the node map. `none` is a failed assertion.
-/
namespace Verif.Str

/-- `NodeWithDistance` -/
abbrev NodeDist := List Char × Nat

/-- the loop `for ( ; pos > 0; pos-- )`, lines 1500-1511: final `pos` and array -/
def nearShift (d : Nat) : Nat → List NodeDist → Nat × List NodeDist
  | 0, nodes => (0, nodes)
  | pos + 1, nodes =>
    let prev := nodes.getD pos ([], 0)
    if prev.2 ≤ d then (pos + 1, nodes)
    else nearShift d pos (if pos + 1 < nodes.length then nodes.set (pos + 1) prev else nodes)

/-- Filters of lines 1455-1474. -/
def nearSkip (maxDistance d : Nat) (fullPath name : List Char) : Bool :=
  if d > maxDistance then true
  else if fullPath.length < name.length then d > name.length - fullPath.length
  else d > fullPath.length - name.length

/-- Lines 1476-1516 for a node that is not skipped; the state is `nodes` and `worstMinDistance`. -/
def nearAdd (cap : Nat) (node : List Char) (d : Nat) (s : List NodeDist × Nat) : Option (List NodeDist × Nat) :=
  match s.1.getLast? with
  | none => some (s.1 ++ [(node, d)], d)
  | some top =>
    if d ≥ s.2 then
      if top.2 = s.2 then
        if s.1.length = cap then some s else some (s.1 ++ [(node, d)], d)
      else none
    else if top.2 > d then
      let count := s.1.length
      let nodes := if s.1.length = cap then s.1 else s.1 ++ [([], 0)]
      let (pos, nodes) := nearShift d count nodes
      if pos < count then
        let nodes := nodes.set pos (node, d)
        match nodes.getLast? with
        | none => none
        | some top => some (nodes, top.2)
      else none
    else none

/-- The loop over the nodes. -/
def nearLoop (cap maxDistance : Nat) (fullPath : List Char) (s : List NodeDist × Nat) :
    List (List Char) → Option (List NodeDist × Nat)
  | [] => some s
  | name :: names =>
    let d := (levDistanceI fullPath name).1
    if nearSkip maxDistance d fullPath name then nearLoop cap maxDistance fullPath s names
    else
      match nearAdd cap name d s with
      | none => none
      | some s => nearLoop cap maxDistance fullPath s names

/-- `FindNearestNodesInternal`; `cap` is the capacity of the array. -/
def findNearest (cap maxDistance : Nat) (fullPath : List Char) (names : List (List Char)) : Option (List NodeDist) :=
  if cap = 0 then none
  else if fullPath.length = 0 then some []
  else (nearLoop cap maxDistance fullPath ([], fullPath.length + 1) names).map (·.1)

end Verif.Str
