/-!
The statistics of libraries for the report of a build: `Report::GetLibraryStats`, Helpers/Report/Report.cpp. Nodes are numbers; counters and times are
natural numbers (their 32 bits are left out). A pointer to a `LibraryStats` is the number of its library, which has one entry.
-/
namespace Verif.Report

/-- the types that matter, Node.h -/
inductive Kind
  | object | dll | library | objectList
  /-- `CS_NODE`: does its name end with `.dll` -/
  | cs (isDll : Bool)
  | other
deriving DecidableEq

/-- what is read of a node -/
structure Node where
  kind : Kind
  built : Bool := false
  failed : Bool := false
  hit : Bool := false
  miss : Bool := false
  store : Bool := false
  time : Nat := 0
  caching : Nat := 0
  preBuild : List Nat := []
  static_ : List Nat := []
  dynamic_ : List Nat := []

/-- `LibraryStats`, Report.h -/
structure LibStats where
  node : Nat
  time : Nat := 0
  objects : Nat := 0
  outOfDate : Nat := 0
  cacheable : Nat := 0
  hits : Nat := 0
  stores : Nat := 0
  cacheTime : Nat := 0
deriving DecidableEq

/-- the nodes seen, the libraries, and whether the assertion of line 146 failed -/
structure St where
  seen : List Nat := []
  libs : List LibStats := []
  bad : Bool := false
deriving DecidableEq

/-- an object counts for its library, Report.cpp:150-173 -/
def countObject (nd : Node) (l : LibStats) : LibStats :=
  let l := { l with objects := l.objects + 1 }
  let l :=
    if nd.hit || nd.miss then
      let l := { l with cacheable := l.cacheable + 1 }
      let l := if nd.hit then { l with hits := l.hits + 1 } else l
      if nd.store then { l with stores := l.stores + 1, cacheTime := l.cacheTime + nd.caching } else l
    else l
  if nd.hit || nd.miss || nd.built then { l with outOfDate := l.outOfDate + 1, time := l.time + nd.time } else l

/-- `isLibrary`, Report.cpp:178-190 -/
def isLibrary (nd : Node) : Bool :=
  match nd.kind with
  | .dll => true
  | .library => true
  | .objectList => true
  | .cs d => d
  | _ => false

/-- a new `LibraryStats`, Report.cpp:194-208 -/
def newLib (n : Nat) (nd : Node) : LibStats := { node := n, time := if nd.built || nd.failed then nd.time else 0 }

/-- an object, Report.cpp:142-176 -/
def onObject (nd : Node) (cur : Option Nat) (s : St) : St :=
  match cur with
  | none => { s with bad := true }
  | some k => { s with libs := s.libs.map fun l => if l.node = k then countObject nd l else l }

/-- `GetLibraryStatsRecurse` of dependencies, Report.cpp:223-229; `none` when the stack is used up -/
def all (f : Nat → St → Option St) : List Nat → St → Option St
  | [], s => some s
  | n :: l, s => match f n s with
    | some s => all f l s
    | none => none

/-- `Report::GetLibraryStatsRecurse`, Report.cpp:130-219 -/
def gather (g : Nat → Node) : Nat → Option Nat → Nat → St → Option St
  | 0, _, _, _ => none
  | fuel + 1, cur, n, s =>
    if n ∈ s.seen then some s
    else
      let s := { s with seen := n :: s.seen }
      let nd := g n
      if nd.kind = .object then some (onObject nd cur s)
      else
        let s := if isLibrary nd then { s with libs := s.libs ++ [newLib n nd] } else s
        let cur := if isLibrary nd then some n else cur
        match all (gather g fuel cur) nd.preBuild s with
        | none => none
        | some s => match all (gather g fuel cur) nd.static_ s with
          | none => none
          | some s => all (gather g fuel cur) nd.dynamic_ s

/-- `Report::GetLibraryStats`, Report.cpp:118-126: the libraries, and whether the assertion failed -/
def libraryStats (g : Nat → Node) (sort : List LibStats → List LibStats) (fuel root : Nat) : Option (List LibStats × Bool) :=
  (gather g fuel none root {}).map fun s => (sort s.libs, s.bad)

end Verif.Report
