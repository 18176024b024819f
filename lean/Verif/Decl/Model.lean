import Verif.Bff.InterpModel
import Verif.Str.MatchModel
import Verif.Str.CleanModel
/-
How a target is made of the variables of a build file: finding nodes by name, lists of nodes, properties, and definition.
Code/Tools/FBuild/FBuildCore/BFF/Functions/Function.cpp ("F" below), Graph/NodeGraph.cpp, Graph/AliasNode.cpp. A node is its position in
`m_AllNodes`. Nodes have the parts that are used here: name, type, what they depend on. Error messages are reduced to their kind.
`ReflectionInfo` is a list of properties, those of the class before those of its base classes, which is the order of the loops at
F:1110-1139 and F:1665-1703. `Node::Initialize` is a parameter.
-/
namespace Verif.Decl
open Verif.Bff (Val)
open Verif.Bff.Interp (member)

abbrev Name := List Char

/-- `Node::Type`, Node.h:77-106 -/
inductive NType
  | proxy | copyFile | dirList | exec | file | library | object | alias | exe | unity | cs | test | compiler | dll | vcxproj | objectList
  | copyDir | sln | removeDir | xcode | settings | vsExternal | textFile | listDeps | compilerInfo
  deriving DecidableEq

/-- `IsAFile` of the classes: FileNode.h:20 and those that do not override it, AliasNode.h:29, CompilerInfoNode.cpp:49, CompilerNode.cpp:144,
CopyDirNode.cpp:76, DirectoryListNode.h:28, LibraryNode.cpp:118, NodeProxy.cpp:30, ObjectListNode.cpp:384, RemoveDirNode.cpp:77,
SettingsNode.cpp:95, UnityNode.h:62 -/
def NType.isFile : NType → Bool
  | .alias | .compilerInfo | .compiler | .copyDir | .dirList | .proxy | .objectList | .removeDir | .settings | .unity => false
  | _ => true

structure Nd where
  name : Name
  type : NType
  /-- `m_StaticDependencies` -/
  deps : List Nat
  /-- `m_PreBuildDependencies` -/
  pre : List Nat
  deriving DecidableEq

abbrev Graph := List Nd

inductive Err
  /-- Error_1101 -/
  | missing
  /-- Error_1004 -/
  | empty
  /-- Error_1050 -/
  | type
  /-- Error_1103 -/
  | notFile
  /-- Error_1005 -/
  | node
  /-- Error_1105 -/
  | folder
  /-- Error_1054 -/
  | range
  /-- Error_1100 -/
  | defined
  /-- Error_1043 -/
  | cyclic
  /-- an error of `Initialize` -/
  | init
  /-- a failed `ASSERT` -/
  | assert
  /-- recursion without end -/
  | loop
  deriving DecidableEq

abbrev Res := Except Err

/-- the functions for paths, and the variables in scope -/
structure Ctx where
  /-- `NodeGraph::CleanPath` -/
  clean : Name → Name
  /-- `PathUtils::EnsureTrailingSlash` -/
  slash : Name → Name
  /-- `PathUtils::FixupFolderPath` -/
  fixFolder : Name → Name
  /-- `PathUtils::FixupFilePath` -/
  fixFile : Name → Name
  /-- `PathUtils::IsFolderPath` -/
  isFolder : Name → Bool
  /-- `BFFStackFrame::GetVar` -/
  var : Name → Option Val

/-! ### finding nodes -/

/-- what names are compared by: `EqualsI` and `CalcNameHash` (of the name in lower case) -/
def key (s : Name) : Name := s.map Verif.Str.lower

/-- `FindNodeInternal`, NodeGraph.cpp:1411-1432. The chains of the map are not modelled. -/
def exact (g : Graph) (s : Name) : Option Nat := g.findIdx? fun n => decide (key n.name = key s)

/-- `FindNode`, NodeGraph.cpp:776-789 -/
def find (K : Ctx) (g : Graph) (s : Name) : Option Nat :=
  match exact g s with
  | some n => some n
  | none => exact g (K.clean s)

/-- `CreateNode<FileNode>`, NodeGraph.cpp:918-966 -/
def newFile (K : Ctx) (g : Graph) (s : Name) : Graph := g ++ [⟨K.clean s, .file, [], []⟩]

/-! ### lists of nodes -/

/-- `GetNodeListOptions`, Function.h:28-36 -/
structure Opts where
  copyDir : Bool
  unity : Bool
  removeDir : Bool
  compiler : Bool
  dedup : Bool

/-- the nodes that are used as they are, F:889-944 -/
def Opts.takes (o : Opts) (t : NType) : Bool :=
  t.isFile || decide (t = .objectList) || (o.copyDir && decide (t = .copyDir)) || (o.removeDir && decide (t = .removeDir)) ||
    (o.unity && decide (t = .unity)) || (o.compiler && decide (t = .compiler))

/-- nodes with the tag of this sweep, and the nodes found -/
structure Sweep where
  tags : List Nat
  out : List Nat

/-- the loop over what an alias stands for, F:950-961 -/
def each (f : Nat → Sweep → Res Sweep) : List Nat → Sweep → Res Sweep
  | [], w => .ok w
  | n :: l, w => match f n w with
    | .ok w => each f l w
    | .error e => .error e

/-- `GetNodeListInternal` of a node, F:867-968 -/
def listNode (o : Opts) (g : Graph) : Nat → Nat → Sweep → Res Sweep
  | 0, _, _ => .error .loop
  | fuel + 1, n, w =>
    if o.dedup ∧ n ∈ w.tags then .ok w
    else
      let w : Sweep := if o.dedup then { w with tags := n :: w.tags } else w
      match g[n]? with
      | none => .error .assert
      | some d =>
        if o.takes d.type then .ok { w with out := w.out ++ [n] }
        else if d.type = .alias then each (listNode o g fuel) d.deps w
        else .error .node

/-- `GetNodeListInternal` of a name, F:843-865 -/
def listName (K : Ctx) (o : Opts) (g : Graph) (s : Name) (w : Sweep) : Res (Graph × Sweep) :=
  match find K g s with
  | none => .ok (newFile K g s, ⟨g.length :: w.tags, w.out ++ [g.length]⟩)
  | some n => match listNode o g (g.length + 1) n w with
    | .ok w => .ok (g, w)
    | .error e => .error e

/-- the array version of `GetNodeList`, one sweep for all names, F:781-805 -/
def listSweep (K : Ctx) (o : Opts) : List Name → Graph → Sweep → Res (Graph × Sweep)
  | [], g, w => .ok (g, w)
  | s :: l, g, w =>
    if s = [] then .error .assert
    else match listName K o g s w with
      | .ok (g, w) => listSweep K o l g w
      | .error e => .error e

def listAll (K : Ctx) (o : Opts) (l : List Name) (g : Graph) : Res (Graph × List Nat) :=
  match listSweep K o l g ⟨[], []⟩ with
  | .ok (g, w) => .ok (g, w.out)
  | .error e => .error e

/-- the loop over the names of a property, a new sweep for each name, F:485-502 and F:830-841 -/
def listEach (K : Ctx) (o : Opts) : List Name → Graph → List Nat → Res (Graph × List Nat)
  | [], g, out => .ok (g, out)
  | s :: l, g, out =>
    if s = [] then .error .empty
    else match listName K o g s ⟨[], out⟩ with
      | .ok (g, w) => listEach K o l g w.out
      | .error e => .error e

/-- the member `GetNodeList` of the name of a property, F:466-528 -/
def listProp (K : Ctx) (o : Opts) (prop : Name) (required : Bool) (g : Graph) : Res (Graph × List Nat) :=
  match K.var prop with
  | none => if required then .error .missing else .ok (g, [])
  | some (.strs l) => listEach K o l g []
  | some (.str s) => listEach K o [s] g []
  | some _ => .error .type

/-! ### strings -/

/-- what reflection says about a property: its name and `Meta_Hidden`, `Meta_Required`, `Meta_Path` and `Meta_File` (whether relative),
`Meta_AllowNonFile` (the type it is limited to), `Meta_Range`, `Meta_InheritFromOwner` -/
structure Meta where
  name : Name
  hidden : Bool := false
  required : Bool := false
  path : Option Bool := none
  file : Option Bool := none
  nonFile : Option (Option NType) := none
  range : Option (Int × Int) := none
  inherit : Bool := false

/-- `PopulatePathAndFileHelper`, F:1313-1361 -/
def fixPath (K : Ctx) (path file : Option Bool) (s : Name) : Res Name :=
  if s = [] then .error .assert
  else if path.isSome ∧ file.isSome then .error .assert
  else
    let s := match path with
      | some true => K.fixFolder s
      | some false => K.slash (K.clean s)
      | none => s
    match file with
    | none => .ok s
    | some rel =>
      let s := if rel then K.fixFile s else K.clean s
      if K.isFolder s then .error .folder else .ok s

/-- the loop over what an alias stands for, F:1278-1284 -/
def eachName (f : Name → List Name → Res (List Name)) (g : Graph) : List Nat → List Name → Res (List Name)
  | [], out => .ok out
  | n :: l, out => match g[n]? with
    | none => .error .assert
    | some d => match f d.name out with
      | .ok out => eachName f g l out
      | .error e => .error e

/-- `PopulateStringHelper` of a string, F:1248-1311 -/
def strOne (K : Ctx) (g : Graph) (path file : Option Bool) (nonFile : Option (Option NType)) : Nat → Name → List Name → Res (List Name)
  | 0, _, _ => .error .loop
  | fuel + 1, s, out =>
    if s = [] then .ok (out ++ [s])
    else
      let plain : Res (List Name) := match fixPath K path file s with
        | .ok r => .ok (out ++ [r])
        | .error e => .error e
      if file = some false then
        match (find K g s).bind (g[·]?) with
        | none => plain
        | some d =>
          if d.type = .alias then eachName (strOne K g path file nonFile fuel) g d.deps out
          else if d.type.isFile then plain
          else match nonFile with
            | none => .error .notFile
            | some none => .ok (out ++ [s])
            | some (some t) => if t = d.type then .ok (out ++ [s]) else .error .node
      else plain

/-- the loop over an array of strings, F:1224-1232 -/
def strAll (f : Name → List Name → Res (List Name)) : List Name → List Name → Res (List Name)
  | [], out => .ok out
  | s :: l, out => match f s out with
    | .ok out => strAll f l out
    | .error e => .error e

/-- `PopulateStringHelper` of a variable, F:1220-1246 -/
def strings (K : Ctx) (g : Graph) (path file : Option Bool) (nonFile : Option (Option NType)) : Val → Res (List Name)
  | .strs l => strAll (strOne K g path file nonFile (g.length + 1)) l []
  | .str s => strAll (strOne K g path file nonFile (g.length + 1)) [s] []
  | _ => .error .type

/-! ### properties -/

mutual
/-- the types of properties. `structs`: an array of structs; `embed`: a struct with `Meta_EmbedMembers`; `node`, `nodes`: `PT_CUSTOM_1`;
`other`: all others -/
inductive Ty
  | str | strs | bool | int | uint
  | structs (c : Cls)
  | embed (c : Cls)
  | node | nodes | other
/-- the properties of a class and of its base classes -/
inductive Cls
  | nil
  | cons (m : Meta) (t : Ty) (c : Cls)
end

/-- what is stored in properties -/
inductive PV
  | str (s : Name)
  | strs (l : List Name)
  | bool (b : Bool)
  | int (i : Int)
  | uint (n : Nat)
  | node (n : Option Nat)
  | nodes (l : List Nat)
  | obj (l : List (Name × PV))
  | objs (l : List (List (Name × PV)))

/-- the members that were set, in order -/
abbrev Obj := List (Name × PV)

/-- `PopulateArrayOfStrings`, F:1363-1397 -/
def popStrs (K : Ctx) (g : Graph) (m : Meta) (v : Val) : Res PV :=
  match strings K g m.path m.file m.nonFile v with
  | .error e => .error e
  | .ok l =>
    if l = [] ∧ m.required then .error .empty
    else if [] ∈ l then .error .empty
    else .ok (.strs l)

/-- `PopulateString`, F:1399-1447 -/
def popStr (K : Ctx) (g : Graph) (m : Meta) (v : Val) : Res PV :=
  match strings K g m.path m.file m.nonFile v with
  | .error e => .error e
  | .ok l => match v with
    | .str _ =>
      if l.head?.getD [] = [] then if m.required then .error .empty else .ok (.str [])
      else match l with
        | [s] => .ok (.str s)
        | _ => .error .type
    | _ => .error .type

/-- `PopulateInt32` and `PopulateUInt32`: the check, F:1463-1523 -/
def inRange (m : Meta) (i : Int) : Bool :=
  match m.range with
  | some (a, b) => decide (a ≤ i ∧ i ≤ b)
  | none => true

/-- `(uint32_t)value` -/
def toUInt (i : Int) : Nat := (i % 4294967296).toNat

/-- `PopulateCustom`, F:1577-1637: the value is looked up again by the name of the property -/
def customOpts : Opts := ⟨true, true, true, true, true⟩

def popNodes (K : Ctx) (g : Graph) (m : Meta) (array : Bool) : Res (Graph × PV) :=
  match listProp K customOpts ('.' :: m.name) m.required g with
  | .error e => .error e
  | .ok (g, l) =>
    if array then .ok (g, .nodes l)
    else match l with
      | [] => .ok (g, .node none)
      | [n] => .ok (g, .node (some n))
      | _ => .error .type

/-- the loop over the elements of an array of structs, F:1545-1558 -/
def elems (f : List (Name × Val) → Graph → Res (Graph × Obj)) : List (List (Name × Val)) → Graph → Res (Graph × List Obj)
  | [], g => .ok (g, [])
  | s :: l, g => match f s g with
    | .error e => .error e
    | .ok (g, o) => match elems f l g with
      | .error e => .error e
      | .ok (g, os) => .ok (g, o :: os)

/-- where `PopulateArrayOfStructsElement` looks for the value of a property, F:1677-1693 -/
def look (K : Ctx) (ms : List (Name × Val)) (m : Meta) : Option Val :=
  match member ('.' :: m.name) ms with
  | some v => some v
  | none => if m.inherit then K.var ('.' :: m.name) else none

mutual
/-- `PopulateProperties`, F:1108-1142 (`lk`: the variables in scope), and `PopulateArrayOfStructsElement`, F:1639-1703 -/
def populate (K : Ctx) : Cls → (Meta → Option Val) → Graph → Res (Graph × Obj)
  | .nil, _, g => .ok (g, [])
  | .cons m t c, lk, g =>
    if m.hidden then populate K c lk g
    else match property K t m (lk m) g with
      | .error e => .error e
      | .ok (g, p) => match populate K c lk g with
        | .error e => .error e
        | .ok (g, o) => .ok (g, match p with
          | some x => (m.name, x) :: o
          | none => o)
/-- `PopulateProperty`, F:1144-1218: `none` if nothing is set -/
def property (K : Ctx) : Ty → Meta → Option Val → Graph → Res (Graph × Option PV)
  | .embed c, _, _, g => match populate K c (fun m => K.var ('.' :: m.name)) g with
    | .error e => .error e
    | .ok (g, o) => .ok (g, some (.obj o))
  | _, m, none, g => if m.required then .error .missing else .ok (g, none)
  | .strs, m, some v, g => match popStrs K g m v with
    | .error e => .error e
    | .ok x => .ok (g, some x)
  | .str, m, some v, g => match popStr K g m v with
    | .error e => .error e
    | .ok x => .ok (g, some x)
  | .bool, _, some v, g => match v with
    | .bool b => .ok (g, some (.bool b))
    | _ => .error .type
  | .int, m, some v, g => match v with
    | .int i => if inRange m i then .ok (g, some (.int i)) else .error .range
    | _ => .error .type
  | .uint, m, some v, g => match v with
    | .int i => if inRange m i then .ok (g, some (.uint (toUInt i))) else .error .range
    | _ => .error .type
  | .structs c, _, some v, g => match v with
    | .structs l => match elems (fun ms g => populate K c (look K ms) g) l g with
      | .error e => .error e
      | .ok (g, os) => .ok (g, some (.objs os))
    | .struct ms => match populate K c (look K ms) g with
      | .error e => .error e
      | .ok (g, o) => .ok (g, some (.objs [o]))
    | _ => .error .type
  | .node, m, some _, g => match popNodes K g m false with
    | .error e => .error e
    | .ok (g, x) => .ok (g, some x)
  | .nodes, m, some _, g => match popNodes K g m true with
    | .error e => .error e
    | .ok (g, x) => .ok (g, some x)
  | .other, _, some _, _ => .error .assert
end

/-! ### definition -/

/-- a function that makes a node: the type and class of what `CreateNode` makes, `Meta_Name` and `Meta_File` of the class, the header,
and `Initialize` -/
structure Fn where
  type : NType
  cls : Cls
  nameOf : Option (Name × Option Bool)
  /-- `m_AliasForFunction`; empty if there is none -/
  header : Name
  /-- `Initialize` of the node at a position with these properties -/
  init : Graph → Nat → Obj → Res Graph

/-- `GetNameForNode`, F:1047-1098 -/
def nameFor (K : Ctx) (g : Graph) : Option (Name × Option Bool) → Res Name
  | none => .ok []
  | some (n, file) => match K.var ('.' :: n) with
    | none => .error .missing
    | some v => match v with
      | .str s => match strings K g none file none (.str s) with
        | .error e => .error e
        | .ok l =>
          if l.head?.getD [] = [] then .error .empty
          else match l with
            | [s] => if (find K g s).isSome then .error .defined else .ok s
            | _ => .error .type
      | _ => .error .type

/-- `ProcessAlias`, F:1016-1045 -/
def processAlias (K : Ctx) (g : Graph) (header : Name) (nodes : List Nat) : Res Graph :=
  if header = [] then .ok g
  else if (find K g header).isSome then .error .defined
  else .ok (g ++ [⟨header, .alias, nodes, []⟩])

/-- `Commit`, F:308-368 -/
def commit (K : Ctx) (f : Fn) (g : Graph) : Res Graph :=
  match nameFor K g f.nameOf with
  | .error e => .error e
  | .ok n =>
    let name := if n = [] then f.header else n
    if name = [] then .error .assert
    else if (find K g name).isSome then .error .defined
    else match populate K f.cls (fun m => K.var ('.' :: m.name)) (g ++ [⟨name, f.type, [], []⟩]) with
      | .error e => .error e
      | .ok (g', o) => match f.init g' g.length o with
        | .error e => .error e
        | .ok g' => if n = [] then .ok g' else processAlias K g' f.header [g.length]

/-- the check for cycles of one step, F:280-306 -/
def selfDep (g : Graph) (before : Nat) : Bool :=
  (List.range g.length).any fun i => decide (before ≤ i) && match g[i]? with
    | some d => decide (i ∈ d.pre ++ d.deps)
    | none => false

/-- the end of `ParseFunction`, F:264-306 -/
def define (K : Ctx) (f : Fn) (g : Graph) : Res Graph :=
  match commit K f g with
  | .error e => .error e
  | .ok g' => if selfDep g' g.length then .error .cyclic else .ok g'

/-- what a node depends on is set -/
def setDeps (g : Graph) (i : Nat) (deps : List Nat) : Graph := g.modify i fun d => { d with deps := deps }

/-- the class of `AliasNode`, AliasNode.cpp:15-18 and Node.cpp:148 (hidden members left out) -/
def aliasCls : Cls :=
  .cons { name := "Targets".toList, file := some false, nonFile := some none, required := true } .nodes
    (.cons { name := "Hidden".toList } .bool .nil)

/-- `AliasNode::Initialize`, AliasNode.cpp:31-36 -/
def aliasInit (g : Graph) (i : Nat) (o : Obj) : Res Graph :=
  match o with
  | (_, .nodes l) :: _ => .ok (setDeps g i l)
  | _ => .error .assert

/-- `Alias( header )` -/
def aliasFn (header : Name) : Fn := ⟨.alias, aliasCls, none, header, aliasInit⟩

end Verif.Decl
