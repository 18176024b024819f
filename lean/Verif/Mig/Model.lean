import Verif.Sched.Model
/-
Model of the migration of the node graph: what is kept of an old database when the build files have
changed and were parsed again.

Sources (relative to /repo/Code/Tools/FBuild/FBuildCore/Graph):
  NodeGraph.cpp  Migrate (1829), MigrateNode (1849), MigrateProperties (1996), MigrateProperty (2014),
                 AreNodesTheSame (2122, 2146), DoDependenciesMatch (2313), CreateNode (861),
                 FindNodeInternal (1411), Initialize (114)
  Node.cpp       Migrate (656), Load (355), LoadExtended (376)
  ObjectNode.cpp Migrate (276), UnityNode.cpp Migrate (619), CompilerInfoNode.cpp Migrate (254),
  CompilerNode.cpp Migrate (382)
-/
namespace Verif.Mig
open Verif.Sched

/-- Name of a node. `FindNodeInternal` (NodeGraph.cpp:1411-1432) compares names without regard to case
(`EqualsI`), the migration compares them exactly: `key` stands for the name up to case, `spell` for
the spelling. -/
structure Name where
  key : Nat
  spell : Nat
  deriving DecidableEq, Repr

mutual
/-- Value of a reflected property (`PropertyType`, the cases of `AreNodesTheSame`,
NodeGraph.cpp:2153-2305). The numeric types are merged. A reference to a node (`PT_CUSTOM_1`) is the name
of that node, or none for a null pointer. -/
inductive Val where
  | str (s : String)
  | strs (l : List String)
  | num (i : Int)
  | bool (b : Bool)
  | struct (f : Fields)
  | structs (l : Elems)
  | ref (o : Option Name)
  | refs (l : List Name)
/-- The properties of an object, those of the super classes included (`ri->GetSuperClass()`,
NodeGraph.cpp:2138). The flag tells whether the property carries `Meta_IgnoreForComparison`. -/
inductive Fields where
  | nil
  | cons (ignored : Bool) (v : Val) (rest : Fields)
/-- Elements of an array of structs. -/
inductive Elems where
  | nil
  | cons (f : Fields) (rest : Elems)
end

/-- `propertyStruct.GetArraySize`. -/
def Elems.size : Elems → Nat
  | .nil => 0
  | .cons _ r => r.size + 1

mutual
/-- `NodeGraph::AreNodesTheSame` for one property, NodeGraph.cpp:2146-2309. Both values belong to the same
`ReflectedProperty`, so the mixed cases do not arise. -/
def sameVal : Val → Val → Bool
  | .str a, .str b => a == b
  | .strs a, .strs b => a == b
  | .num a, .num b => a == b
  | .bool a, .bool b => a == b
  | .struct a, .struct b => sameFields a b
  | .structs a, .structs b => a.size == b.size && sameElems a b
  | .ref (some a), .ref (some b) => a == b
  | .ref none, .ref none => true
  | .refs a, .refs b => a == b
  | _, _ => false
/-- `NodeGraph::AreNodesTheSame` for an object, NodeGraph.cpp:2122-2142, with the test for
`Meta_IgnoreForComparison` of 2148-2151. -/
def sameFields : Fields → Fields → Bool
  | .nil, .nil => true
  | .cons i a r, .cons _ b s => (i || sameVal a b) && sameFields r s
  | _, _ => false
/-- The loop over the elements of an array of structs, NodeGraph.cpp:2255-2261. -/
def sameElems : Elems → Elems → Bool
  | .cons a r, .cons b s => sameFields a b && sameElems r s
  | _, _ => true
end

/-- The part of `class Node` that matters for migration. Types are numbers; `fileType` is
`Node::FILE_NODE`. The reflection information compared in NodeGraph.cpp:1897-1899 is one object per class
and is identified with the type. -/
structure MNode where
  name : Name
  type : Nat
  props : Fields := .nil
  pre : List Dep := []
  static : List Dep := []
  dyn : List Dep := []
  stamp : Nat := 0
  /-- `m_LastBuildTimeMs` -/
  time : Nat := 0
  /-- `m_BuildPassTag == s_BuildPassTag`; the tag is advanced in NodeGraph.cpp:1833 -/
  tag : Bool := false

/-- `Node::FILE_NODE` -/
def fileType : Nat := 0

/-- The node graph: the node map (by name up to case) and `m_AllNodes`. -/
structure NG where
  node : Nat → Option MNode
  all : List Nat

/-- Replace a node in place. -/
def NG.set (g : NG) (k : Nat) (nd : MNode) : NG :=
  { g with node := fun x => if x = k then some nd else g.node x }

/-- `NodeGraph::AddNode`, NodeGraph.cpp:950-966 (called by `CreateNode`). -/
def NG.add (g : NG) (nd : MNode) : NG :=
  { node := fun x => if x = nd.name.key then some nd else g.node x, all := g.all ++ [nd.name.key] }

/-- Outcomes: a result, not enough fuel (excluded by `C61_terminates`), or a failed assertion /
null pointer. -/
inductive Res (α : Type) where
  | ok (a : α)
  | fuel
  | crash

/-- Sequencing. -/
def Res.bind {α β : Type} (r : Res α) (f : α → Res β) : Res β :=
  match r with
  | .ok a => f a
  | .fuel => .fuel
  | .crash => .crash

/-- One pair of dependencies in `NodeGraph::DoDependenciesMatch`, NodeGraph.cpp:2322-2336. -/
def depMatch (O g : NG) (a b : Dep) : Bool :=
  match O.node a.node, g.node b.node with
  | some x, some y => x.type == y.type && x.stamp == y.stamp && x.name == y.name
  | _, _ => false

/-- The loop of `NodeGraph::DoDependenciesMatch`, NodeGraph.cpp:2321-2337. -/
def depsLoop (O g : NG) : List Dep → List Dep → Bool
  | a :: as, b :: bs => depMatch O g a b && depsLoop O g as bs
  | _, _ => true

/-- `NodeGraph::DoDependenciesMatch`, NodeGraph.cpp:2313-2340. -/
def depsMatch (O g : NG) (a b : List Dep) : Bool :=
  a.length == b.length && depsLoop O g a b

mutual
/-- `NodeGraph::MigrateProperty`, NodeGraph.cpp:2014-2118: values are copied; references are looked up in
the new graph. A null reference is dereferenced (line 2107), a missing node in an array is an assertion
(line 2100), a missing node elsewhere becomes a null reference. -/
def migrateVal (g : NG) : Val → Res Val
  | .struct f => (migrateFields g f).bind fun f' => .ok (.struct f')
  | .structs l => (migrateElems g l).bind fun l' => .ok (.structs l')
  | .ref none => .crash
  | .ref (some nm) => .ok (.ref ((g.node nm.key).map (·.name)))
  | .refs l => if l.all (fun nm => (g.node nm.key).isSome) then
      .ok (.refs (l.filterMap fun nm => (g.node nm.key).map (·.name))) else .crash
  | v => .ok v
/-- `NodeGraph::MigrateProperties`, NodeGraph.cpp:1996-2010. -/
def migrateFields (g : NG) : Fields → Res Fields
  | .nil => .ok .nil
  | .cons i v r => (migrateVal g v).bind fun v' => (migrateFields g r).bind fun r' => .ok (.cons i v' r')
/-- The loop over the elements of an array of structs, NodeGraph.cpp:2080-2085. -/
def migrateElems (g : NG) : Elems → Res Elems
  | .nil => .ok .nil
  | .cons f r => (migrateFields g f).bind fun f' => (migrateElems g r).bind fun r' => .ok (.cons f' r')
end

/-- `Node::Initialize` of the class of the node, as far as dependencies are concerned: the names and weak
flags of the pre-build and of the static dependencies. It consults the graph and the properties of the
node. A failure (NodeGraph.cpp:1976 ignores it in release builds) is a shorter list. -/
abbrev Init := NG → MNode → List (Name × Bool) × List (Name × Bool)

/-- Files named by `Initialize` that are not in the graph become file nodes
(`Function::GetFileNode`, `GetNodeList`). -/
def addFiles (g : NG) : List (Name × Bool) → NG
  | [] => g
  | (nm, _) :: r =>
    if (g.node nm.key).isSome then addFiles g r
    else addFiles (g.add { name := nm, type := fileType }) r

/-- Dependencies as added by `Initialize`: nothing recorded yet. -/
def freshDeps (l : List (Name × Bool)) : List Dep :=
  l.map fun p => { node := p.1.key, stamp := 0, weak := p.2 }

/-- Creation of a dependency that only the old graph has, NodeGraph.cpp:1958-1976. -/
def createDep (init : Init) (g : NG) (o : MNode) : Res NG :=
  if o.type = fileType then .ok (g.add { name := o.name, type := o.type })
  else
    (migrateFields (g.add { name := o.name, type := o.type }) o.props).bind fun p =>
      let nd : MNode := { name := o.name, type := o.type, props := p }
      let g1 := g.add nd
      let deps := init g1 nd
      let g2 := addFiles (addFiles g1 deps.1) deps.2
      .ok (g2.set o.name.key { nd with pre := freshDeps deps.1, static := freshDeps deps.2 })

/-- The loop over the dynamic dependencies of the old node, NodeGraph.cpp:1940-1981; `none` is the early
return of line 1950. The old node passed as a hint to the recursive call (line 1979) is the one that a
lookup finds (assertion in line 1879). -/
def dynLoop (rec : NG → Nat → Res NG) (init : Init) (O : NG) :
    NG → List Dep → List Dep → Res (NG × Option (List Dep))
  | g, [], acc => .ok (g, some acc)
  | g, d :: ds, acc =>
    match O.node d.node with
    | none => .crash
    | some o =>
      match g.node o.name.key with
      | some nd => if nd.type ≠ o.type then .ok (g, none) else dynLoop rec init O g ds (acc ++ [d])
      | none =>
        (createDep init g o).bind fun g1 =>
          if o.type = fileType then dynLoop rec init O g1 ds (acc ++ [d])
          else (rec g1 o.name.key).bind fun g2 => dynLoop rec init O g2 ds (acc ++ [d])

/-- Static dependencies take over the recorded stamps, NodeGraph.cpp:1927-1932. -/
def restamp : List Dep → List Dep → List Dep
  | o :: os, d :: ds => { d with stamp := o.stamp } :: restamp os ds
  | _, ds => ds

/-- The `Migrate` overrides copy exactly the properties marked `Meta_IgnoreForComparison`:
ObjectNode.cpp:285, UnityNode.cpp:626-627, CompilerInfoNode.cpp:260, CompilerNode.cpp:388. For the tool
manifest of a compiler the copy is not complete; that is modelled in Net/Manifest (C46). -/
def copyIgnored : Fields → Fields → Fields
  | .cons _ v r, .cons i w s => .cons i (if i then v else w) (copyIgnored r s)
  | _, f => f

/-- `Node::Migrate` (Node.cpp:656-663) and its overrides, after the dynamic dependencies were added
(NodeGraph.cpp:1982-1991). -/
def takeState (o nd : MNode) (ds : List Dep) : MNode :=
  { nd with dyn := nd.dyn ++ ds, stamp := o.stamp, time := o.time, props := copyIgnored o.props nd.props }

/-- The tests of NodeGraph.cpp:1895-1923. -/
def unchanged (O g : NG) (o nd : MNode) : Bool :=
  o.type == nd.type && sameFields o.props nd.props && depsMatch O g o.pre nd.pre &&
    depsMatch O g o.static nd.static

/-- End of the transfer: NodeGraph.cpp:1982-1991. -/
def finishNode (o : MNode) (n : Nat) (r : NG × Option (List Dep)) : Res NG :=
  match r.2 with
  | none => .ok r.1
  | some ds =>
    match r.1.node n with
    | none => .crash
    | some nd => .ok (r.1.set n (takeState o nd ds))

/-- `NodeGraph::MigrateNode` after the children were visited, NodeGraph.cpp:1874-1991. -/
def transfer (rec : NG → Nat → Res NG) (init : Init) (O g : NG) (n : Nat) : Res NG :=
  match O.node n with
  | none => .ok g
  | some o =>
    match g.node n with
    | none => .crash
    | some nd =>
      if unchanged O g o nd then
        (dynLoop rec init O (g.set n { nd with static := restamp o.static nd.static }) o.dyn []).bind
          (finishNode o n)
      else .ok g

/-- The loops over the children, NodeGraph.cpp:1865-1872. -/
def visitAll (rec : NG → Nat → Res NG) : NG → List Dep → Res NG
  | g, [] => .ok g
  | g, d :: ds => (rec g d.node).bind fun g1 => visitAll rec g1 ds

/-- `NodeGraph::MigrateNode`, NodeGraph.cpp:1849-1992. -/
def migrateNode (init : Init) (O : NG) : Nat → NG → Nat → Res NG
  | 0, _, _ => .fuel
  | f + 1, g, n =>
    match g.node n with
    | none => .crash
    | some nd =>
      if nd.tag then .ok g
      else if nd.type = fileType then .ok (g.set n { nd with tag := true })
      else
        (visitAll (migrateNode init O f) (g.set n { nd with tag := true }) nd.pre).bind fun g1 =>
          (visitAll (migrateNode init O f) g1 nd.static).bind fun g2 =>
            transfer (migrateNode init O f) init O g2 n

/-- The loop of `NodeGraph::Migrate`, NodeGraph.cpp:1840-1844. -/
def migrateList (init : Init) (O : NG) (f : Nat) : NG → List Nat → Res NG
  | g, [] => .ok g
  | g, n :: ns => (migrateNode init O f g n).bind fun g1 => migrateList init O f g1 ns

/-- `NodeGraph::Migrate`, NodeGraph.cpp:1829-1845: only the nodes present at the start are iterated over. -/
def migrate (init : Init) (O : NG) (f : Nat) (g : NG) : Res NG := migrateList init O f g g.all

end Verif.Mig
