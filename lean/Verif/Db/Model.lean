import Verif.IO.StreamModel
/-
The dependency database: Code/Tools/FBuild/FBuildCore/Graph/Dependencies.cpp (Save, Load), Graph/Node.cpp
(Save, Load, SaveExtended, LoadExtended, Serialize, Deserialize), Graph/NodeGraph.cpp (Initialize, Load, Save,
ReadHeaderAndUsedFiles), BFF/BFFFileExists.cpp and FBuild.cpp (SaveDependencyGraph).

Nodes are identified by pointers (natural numbers) when saving. A loaded graph is a list of nodes whose
references are indices into that list (`m_AllNodes`, to which `CreateNode` appends). Reads are the typed reads of
`Verif.IO`; `none` is a failing `VERIFY` or assertion, or a read outside the buffer. Packed structures are read
and written field by field. Hash functions, path comparison and reflection tables are parameters.
-/
namespace Verif.Db
open Verif.IO

/-! ## Dependencies -/

/-- `Dependency`, Dependencies.h:19-45; `ι` is the type of node references -/
structure Dep (ι : Type) where
  node : ι
  stamp : BitVec 64
  weak : Bool
deriving DecidableEq

/-- one `SerializedDependency`, Dependencies.cpp:19-27 and 47-52; `tag` is `GetBuildPassTag` -/
def wrDep {ι : Type} (tag : ι → BitVec 32) (d : Dep ι) : List Byte :=
  wrU32 (tag d.node) ++ wrU64 d.stamp ++ wrBool d.weak

/-- `Dependencies::Save`, Dependencies.cpp:32-56 -/
def saveDeps {ι : Type} (tag : ι → BitVec 32) (ds : List (Dep ι)) : List Byte := ds.flatMap (wrDep tag)

/-- the loop of `Dependencies::Load`, Dependencies.cpp:76-85, from the pointer `data` on. There is no check that
the structures are inside the buffer. -/
def loadDepsLoop (numNodes : Nat) : Nat → List Byte → Except Err (List (Dep Nat))
  | 0, _ => .ok []
  | n + 1, data =>
    if data.length < 13 then .error .bounds
    else
      let index := ofLE (data.take 4)
      if numNodes ≤ index then .error .assert
      else
        match loadDepsLoop numNodes n (data.drop 13) with
        | .error e => .error e
        | .ok ds => .ok (⟨index, BitVec.ofNat 64 (ofLE ((data.drop 4).take 8)), (data.getD 12 0) != 0⟩ :: ds)

/-- `Dependencies::Load`, Dependencies.cpp:60-86. The result of `Seek` is ignored. -/
def loadDeps (numNodes : Nat) (num : Nat) (r : Reader) : Except Err (List (Dep Nat) × Reader) :=
  if num = 0 then .ok ([], r)
  else
    match loadDepsLoop numNodes num (r.data.drop r.pos) with
    | .error e => .error e
    | .ok ds => .ok (ds, (r.seek (r.pos + 13 * num)).2)

/-- `loadDeps` as part of a larger read -/
def rdDeps (numNodes : Nat) (num : BitVec 32) : Parser (List (Dep Nat)) := fun r =>
  match loadDeps numNodes num.toNat r with
  | .ok x => some x
  | .error _ => none

/-! ## reflected properties -/

mutual
/-- the property types handled by `Node::Serialize` (Node.cpp:516-633). Signed 32-bit integers are treated as
unsigned. -/
inductive PTy where
  | str | strs | bool | u8 | u32 | u64
  | struct (s : Schema)
  | structs (s : Schema)
  | node | nodes
/-- a `ReflectionInfo`: the properties of the class followed by those of its super classes, in the order in which
`Node::Serialize` (Node.cpp:500-514) visits them -/
inductive Schema where
  | nil
  | cons (p : PTy) (rest : Schema)
end

mutual
/-- values of a property -/
def PTy.Val (ι : Type) : PTy → Type
  | .str => List Byte
  | .strs => List (List Byte)
  | .bool => Bool
  | .u8 => BitVec 8
  | .u32 => BitVec 32
  | .u64 => BitVec 64
  | .struct s => s.Val ι
  | .structs s => List (s.Val ι)
  | .node => Option ι
  | .nodes => List ι
/-- values of all properties of an object -/
def Schema.Val (ι : Type) : Schema → Type
  | .nil => Unit
  | .cons p rest => p.Val ι × rest.Val ι
end

/-- `INVALID_NODE_INDEX`, Node.h:32 -/
def invalidIndex : BitVec 32 := 0xFFFFFFFF#32

/-- Node.cpp:610-622 -/
def wrNodeOrNull {ι : Type} (tag : ι → BitVec 32) : Option ι → List Byte
  | some n => wrU32 (tag n)
  | none => wrU32 invalidIndex

mutual
/-- `Node::Serialize` of one property, Node.cpp:518-633 -/
def PTy.wr {ι : Type} (tag : ι → BitVec 32) : (p : PTy) → p.Val ι → List Byte
  | .str, v => wrStr v
  | .strs, v => wrArr wrStr v
  | .bool, v => wrBool v
  | .u8, v => wrU8 v
  | .u32, v => wrU32 v
  | .u64, v => wrU64 v
  | .struct s, v => s.wr tag v
  | .structs s, v => wrArr (s.wr tag) v
  | .node, v => wrNodeOrNull tag v
  | .nodes, v => wrArr (fun n => wrU32 (tag n)) v
/-- `Node::Serialize` of an object, Node.cpp:500-514 -/
def Schema.wr {ι : Type} (tag : ι → BitVec 32) : (s : Schema) → s.Val ι → List Byte
  | .nil, _ => []
  | .cons p rest, v => p.wr tag v.1 ++ rest.wr tag v.2
end

/-- read an index and convert it with `GetNodeByIndex`, NodeGraph.cpp:801-806 -/
def rdNode (numNodes : Nat) : Parser Nat := do
  let i ← rdU32
  if i.toNat < numNodes then return i.toNat else Parser.fail

/-- Node.cpp:768-775 -/
def rdNodeOrNull (numNodes : Nat) : Parser (Option Nat) := do
  let i ← rdU32
  if i = invalidIndex then return none
  else if i.toNat < numNodes then return some i.toNat
  else Parser.fail

mutual
/-- values of a newly constructed object. Only the arrays of nodes matter, as everything else is replaced when
reading. -/
def PTy.fresh : (p : PTy) → p.Val Nat
  | .str => ([] : List Byte)
  | .strs => ([] : List (List Byte))
  | .bool => false
  | .u8 => (0 : BitVec 8)
  | .u32 => (0 : BitVec 32)
  | .u64 => (0 : BitVec 64)
  | .struct s => s.fresh
  | .structs s => ([] : List (s.Val Nat))
  | .node => (none : Option Nat)
  | .nodes => ([] : List Nat)
def Schema.fresh : (s : Schema) → s.Val Nat
  | .nil => ()
  | .cons p rest => (p.fresh, rest.fresh)
end

mutual
/-- `Node::Deserialize` of one property into an object with the value `init`, Node.cpp:667-785. Arrays of nodes
are appended to (lines 756-763). -/
def PTy.rd (numNodes : Nat) : (p : PTy) → p.Val Nat → Parser (p.Val Nat)
  | .str, _ => rdStr
  | .strs, _ => rdArr rdStr
  | .bool, _ => rdBool
  | .u8, _ => rdU8
  | .u32, _ => rdU32
  | .u64, _ => rdU64
  | .struct s, init => s.rd numNodes init
  | .structs s, _ => rdArr (s.rd numNodes s.fresh)
  | .node, _ => rdNodeOrNull numNodes
  | .nodes, init => do
    let ns ← rdArr (rdNode numNodes)
    return (show List Nat from init) ++ ns
/-- `Node::Deserialize` of an object, Node.cpp:637-653 -/
def Schema.rd (numNodes : Nat) : (s : Schema) → s.Val Nat → Parser (s.Val Nat)
  | .nil, _ => (return () : Parser Unit)
  | .cons p rest, init => do
    let a ← p.rd numNodes init.1
    let b ← rest.rd numNodes init.2
    return (a, b)
end

/-! ## nodes -/

/-- the reflection table of each node type (`GetReflectionInfoV`) -/
abbrev Table := BitVec 8 → Schema

/-- the members of `Node` which are saved -/
structure NodeRec (T : Table) (ι : Type) where
  type : BitVec 8
  name : List Byte
  nameHash : BitVec 32
  stamp : BitVec 64
  time : BitVec 32
  props : (T type).Val ι
  pre : List (Dep ι)
  stat : List (Dep ι)
  dyn : List (Dep ι)

/-- `FILE_NODE`, Node.h:82 -/
def fileType : BitVec 8 := 4#8

/-- `Node::Save`, Node.cpp:414-426 -/
def NodeRec.wrBasic {T : Table} {ι : Type} (n : NodeRec T ι) : List Byte := wrStr n.name ++ (wrU8 n.type ++ wrU32 n.nameHash)

/-- `Node::SaveExtended`, Node.cpp:429-454 -/
def NodeRec.wrExt {T : Table} {ι : Type} (tag : ι → BitVec 32) (n : NodeRec T ι) : List Byte :=
  wrU64 n.stamp ++ (wrU32 n.time ++ (wrU32 (BitVec.ofNat 32 n.pre.length) ++ (wrU32 (BitVec.ofNat 32 n.stat.length) ++
    (wrU32 (BitVec.ofNat 32 n.dyn.length) ++ ((T n.type).wr tag n.props ++
      (saveDeps tag n.pre ++ (saveDeps tag n.stat ++ saveDeps tag n.dyn)))))))

/-- what `CreateNode` depends on: `CalcNameHash`, the name comparison of `FindNodeInternal` and `IsCleanPath` (for
file types) -/
structure Names where
  hash : List Byte → BitVec 32
  same : List Byte → List Byte → Bool
  clean : BitVec 8 → List Byte → Bool

/-- a node as created by `NodeGraph::CreateNode`, NodeGraph.cpp:861-914 -/
def NodeRec.create (T : Table) (type : BitVec 8) (name : List Byte) (hash : BitVec 32) : NodeRec T Nat :=
  ⟨type, name, hash, 0, 0, (T type).fresh, [], [], []⟩

/-- `Node::Load`, Node.cpp:357-376, with the assertions of `CreateNode` and `AddNode` (NodeGraph.cpp:861-966);
`names` are those of the nodes already created -/
def rdBasic (T : Table) (N : Names) (names : List (List Byte)) : Parser (NodeRec T Nat) := do
  let name ← rdStr
  let type ← rdU8
  let hash ← rdU32
  if type.toNat = 0 ∨ 25 ≤ type.toNat ∨ hash ≠ N.hash name ∨ N.clean type name = false ∨ names.any (N.same name) = true then
    Parser.fail
  else return NodeRec.create T type name hash

/-- creating all nodes, NodeGraph.cpp:420-428 -/
def rdNodes (T : Table) (N : Names) : Nat → List (NodeRec T Nat) → Parser (List (NodeRec T Nat))
  | 0, done => return done
  | k + 1, done => do
    let n ← rdBasic T N (done.map (·.name))
    rdNodes T N k (done ++ [n])

/-- `Node::LoadExtended`, Node.cpp:379-405 -/
def rdExt {T : Table} (numNodes : Nat) (n : NodeRec T Nat) : Parser (NodeRec T Nat) := do
  let stamp ← rdU64
  let time ← rdU32
  let numPre ← rdU32
  let numStat ← rdU32
  let numDyn ← rdU32
  let props ← (T n.type).rd numNodes n.props
  let pre ← rdDeps numNodes numPre
  let stat ← rdDeps numNodes numStat
  let dyn ← rdDeps numNodes numDyn
  return { n with stamp := stamp, time := time, props := props, pre := pre, stat := stat, dyn := dyn }

/-- NodeGraph.cpp:429-437 -/
def rdExts {T : Table} (numNodes : Nat) : List (NodeRec T Nat) → Parser (List (NodeRec T Nat))
  | [] => return []
  | n :: ns => do
    let n ← (if n.type = fileType then (return n : Parser (NodeRec T Nat)) else rdExt numNodes n)
    let ns ← rdExts numNodes ns
    return n :: ns

/-! ## the graph -/

/-- `m_AllNodes` and the nodes -/
structure Graph (T : Table) where
  all : List Nat
  heap : Nat → NodeRec T Nat

/-- `SetBuildPassTag` of all nodes, NodeGraph.cpp:529-536, starting from any tags -/
def setTags : List Nat → Nat → (Nat → BitVec 32) → Nat → BitVec 32
  | [], _, tag => tag
  | p :: ps, i, tag => setTags ps (i + 1) (fun q => if q = p then BitVec.ofNat 32 i else tag q)

/-- NodeGraph.cpp:525-545; `tag` are the tags before -/
def saveNodes {T : Table} (g : Graph T) (tag : Nat → BitVec 32) : List Byte :=
  wrU32 (BitVec.ofNat 32 g.all.length) ++ (g.all.flatMap (fun p => (g.heap p).wrBasic) ++
    g.all.flatMap (fun p => if (g.heap p).type = fileType then [] else (g.heap p).wrExt (setTags g.all 0 tag)))

/-- NodeGraph.cpp:419-437 -/
def rdGraph (T : Table) (N : Names) : Parser (List (NodeRec T Nat)) := do
  let numNodes ← rdU32
  let nodes ← rdNodes T N numNodes.toNat []
  rdExts nodes.length nodes

/-! ## everything before the nodes -/

/-- `UsedFile` -/
structure UsedFile where
  name : List Byte
  time : BitVec 64
  hash : BitVec 64
deriving DecidableEq

/-- what is saved besides the nodes -/
structure Settings where
  /-- `m_UsedFiles` -/
  files : List UsedFile
  /-- environment block; empty if not overridden -/
  env : List Byte
  /-- `LIB`, saved only with an environment block -/
  lib : List Byte
  /-- imported environment variables and hashes -/
  imported : List (List Byte × BitVec 32)
  /-- `GetLibEnvVarHash` -/
  libHash : BitVec 32
  /-- `BFFFileExists` -/
  existNames : List (List Byte)
  existFlags : List Bool

def wrUsedFile (f : UsedFile) : List Byte := wrStr f.name ++ (wrU64 f.time ++ wrU64 f.hash)
/-- NodeGraph.cpp:1778-1800 -/
def rdUsedFile : Parser UsedFile := do
  let name ← rdStr
  let time ← rdU64
  let hash ← rdU64
  return ⟨name, time, hash⟩

def wrImported (v : List Byte × BitVec 32) : List Byte := wrStr v.1 ++ wrU32 v.2
/-- NodeGraph.cpp:361-362 -/
def rdImported : Parser (List Byte × BitVec 32) := do
  let name ← rdStr
  let hash ← rdU32
  return (name, hash)

/-- NodeGraph.cpp:492-523, from the environment on -/
def wrRest (s : Settings) : List Byte :=
  wrU32 (BitVec.ofNat 32 s.env.length) ++ ((if s.env = [] then [] else s.env ++ wrStr s.lib) ++
    (wrArr wrImported s.imported ++ (wrU32 s.libHash ++ (wrArr wrStr s.existNames ++ wrArr wrBool s.existFlags))))

/-- the environment, NodeGraph.cpp:338-348 -/
def rdEnv : Parser (List Byte × List Byte) := do
  let size ← rdU32
  if size.toNat = 0 then return ([], [])
  else do
    let env ← rdBytes size.toNat
    let lib ← rdStr
    return (env, lib)

/-- NodeGraph.cpp:338-404 (the reads; all checks are in `changed`) -/
def rdRest (files : List UsedFile) : Parser Settings := do
  let env ← rdEnv
  let imported ← rdArr rdImported
  let libHash ← rdU32
  let names ← rdArr rdStr
  let flags ← rdArr rdBool
  return ⟨files, env.1, env.2, imported, libHash, names, flags⟩

/-! ## the whole file -/

/-- outside world and options -/
structure World where
  /-- `xxHash3::Calc64Big` -/
  hash64 : List Byte → BitVec 64
  /-- `xxHash::Calc32` -/
  hash32 : List Byte → BitVec 32
  /-- `FileIO::GetFileLastWriteTime`; 0 for missing files -/
  fileTime : List Byte → BitVec 64
  /-- content of a file; `none` if it can't be opened, `some none` if it can't be read -/
  content : List Byte → Option (Option (List Byte))
  /-- `FileIO::FileExists` -/
  fileExists : List Byte → Bool
  /-- `Env::GetEnvVariable` -/
  envVar : List Byte → Option (List Byte)
  /-- `FBuild::GetLibEnvVar` -/
  lib : List Byte
  /-- `PathUtils::ArePathsEqual` -/
  samePath : List Byte → List Byte → Bool
  /-- `m_ContinueAfterDBMove` -/
  continueAfterMove : Bool

/-- version, NodeGraph.h:71 -/
def version : BitVec 8 := 194#8

/-- the header with a content hash, NodeGraph.h:56-87: identifier, version, padding, hash -/
def header (hash : BitVec 64) : List Byte := [0x4E#8, 0x47#8, 0x44#8, version] ++ wrU32 0 ++ wrU64 hash

/-- everything after the header, NodeGraph.cpp:478-545; `path` is the cleaned path of the file -/
def saveBody {T : Table} (path : List Byte) (s : Settings) (g : Graph T) (tag : Nat → BitVec 32) : List Byte :=
  wrStr path ++ (wrArr wrUsedFile s.files ++ (wrRest s ++ saveNodes g tag))

/-- `NodeGraph::Save`, NodeGraph.cpp:472-572. The hash is accumulated over the pages of the stream; that this
equals the hash of the concatenation is assumed (streaming interface of xxHash3). -/
def save (w : World) {T : Table} (path : List Byte) (s : Settings) (g : Graph T) (tag : Nat → BitVec 32) : List Byte :=
  header (w.hash64 (saveBody path s g tag)) ++ saveBody path s g tag

/-- `LoadResult`, NodeGraph.h:97-104; `fault` is a failing `VERIFY` or assertion -/
inductive Loaded (T : Table) where
  | missing
  | loadError
  | moved
  | fault
  | reparse (s : Settings) (ns : List (NodeRec T Nat))
  | ok (s : Settings) (ns : List (NodeRec T Nat))

/-- result of the check of one used file, NodeGraph.cpp:293-335 -/
inductive FileCheck where
  | same (f : UsedFile)
  | changed
  | unreadable

def checkFile (w : World) (f : UsedFile) : FileCheck :=
  let time := w.fileTime f.name
  if time = f.time then .same f
  else
    match w.content f.name with
    | none => .changed
    | some none => .unreadable
    | some (some data) => if w.hash64 data = f.hash then .same { f with time := time } else .changed

/-- the loop over the used files; `none` on a read error. The files are kept, with updated times. -/
def checkFiles (w : World) : List UsedFile → Option (List UsedFile × Bool)
  | [] => some ([], false)
  | f :: fs =>
    match checkFile w f with
    | .unreadable => none
    | .same f' =>
      match checkFiles w fs with
      | none => none
      | some (fs, ch) => some (f' :: fs, ch)
    | .changed =>
      match checkFiles w fs with
      | none => none
      | some (fs, _) => some (f :: fs, true)

/-- check of an imported variable, NodeGraph.cpp:364-385 with `ImportEnvironmentVar` (FBuild.cpp:571-614): a saved
hash of 0 means the variable was missing. `imported` are the variables imported so far. -/
def importedChanged (w : World) (v : List Byte × BitVec 32) : Bool :=
  match w.envVar v.1 with
  | none => v.2 != 0
  | some value => w.hash32 value != v.2

/-- `BFFFileExists::CheckForChanges`, BFFFileExists.cpp:67-81 -/
def existsChanged (w : World) : List (List Byte) → List Bool → Bool
  | n :: ns, b :: bs => if w.fileExists n = b then existsChanged w ns bs else true
  | _, _ => false

/-- the conditions which set `bffNeedsReparsing` after the used files, NodeGraph.cpp:350-411 -/
def changed (w : World) (s : Settings) : Bool :=
  s.imported.any (importedChanged w) ||
    (s.libHash != (if s.env = [] then w.hash32 w.lib else w.hash32 s.lib)) || existsChanged w s.existNames s.existFlags

/-- the fields of the header -/
structure Header where
  id : List Byte
  version : BitVec 8
  padding : BitVec 32
  hash : BitVec 64

def rdHeader : Parser Header := do
  let id ← rdBytes 3
  let v ← rdU8
  let p ← rdU32
  let h ← rdU64
  return ⟨id, v, p, h⟩

/-- `NodeGraph::Load( stream )`, NodeGraph.cpp:274-466, with `ReadHeaderAndUsedFiles` (1715-1804); `path` is the
cleaned path of the file -/
def load (w : World) (T : Table) (N : Names) (path : List Byte) (file : List Byte) : Loaded T :=
  match rdHeader ⟨file, 0⟩ with
  | none => .loadError
  | some (h, r) =>
    if h.id ≠ [0x4E#8, 0x47#8, 0x44#8] then .loadError
    else if h.version ≠ version then .missing
    else if w.hash64 (file.drop r.pos) ≠ h.hash then .loadError
    else
      match rdStr r with
      | none => .loadError
      | some (orig, r) =>
        if w.samePath orig path = false then (if w.continueAfterMove then .missing else .moved)
        else
          match rdArr rdUsedFile r with
          | none => .loadError
          | some (files, r) =>
            match checkFiles w files with
            | none => .loadError
            | some (files, ch) =>
              match rdRest files r with
              | none => .fault
              | some (s, r) =>
                match rdGraph T N r with
                | none => .fault
                | some (ns, _) => if ch || changed w s then .reparse s ns else .ok s ns

/-- `NodeGraph::Load( file )`, NodeGraph.cpp:245-270: `none` if there is no file -/
def loadFile (w : World) (T : Table) (N : Names) (path : List Byte) (file : Option (List Byte)) : Loaded T :=
  match file with
  | none => .missing
  | some f => load w T N path f

/-- what a run starts with -/
inductive Start (T : Table) (γ : Type) where
  /-- the configuration was parsed anew, nothing is reused -/
  | clean (g : γ)
  /-- the configuration was parsed anew, and the old database is available for migration -/
  | migrated (g : γ) (s : Settings) (ns : List (NodeRec T Nat))
  | loaded (s : Settings) (ns : List (NodeRec T Nat))
  | failed
  | fault

/-- `NodeGraph::Initialize`, NodeGraph.cpp:115-189, without forced migration; `parsed` is the result of
`ParseFromRoot` -/
def start {T : Table} {γ : Type} (w : World) (N : Names) (path : List Byte) (file : Option (List Byte)) (parsed : Option γ) : Start T γ :=
  let fresh : Start T γ := match parsed with | none => .failed | some g => .clean g
  match loadFile w T N path file with
  | .missing => fresh
  | .loadError => fresh
  | .moved => if w.continueAfterMove then fresh else .failed
  | .fault => .fault
  | .reparse s ns => match parsed with | none => .failed | some g => .migrated g s ns
  | .ok s ns => .loaded s ns

/-! ## writing the file -/

/-- write at a position of a file -/
def writeAt (file : List Byte) (pos : Nat) (data : List Byte) : List Byte :=
  file.take pos ++ data ++ file.drop (pos + data.length)

/-- The contents of the database file at which the process may die while `SaveDependencyGraph` (FBuild.cpp:378-398)
writes the pages to the file opened without truncation, from position `pos` on. A write may be cut at any byte. -/
inductive Crash : List Byte → Nat → List (List Byte) → List Byte → Prop where
  | partly (f : List Byte) (pos k : Nat) (p : List Byte) (ps : List (List Byte)) :
      Crash f pos (p :: ps) (writeAt f pos (p.take k))
  | later (f : List Byte) (pos : Nat) (p : List Byte) (ps : List (List Byte)) (g : List Byte) :
      Crash (writeAt f pos p) (pos + p.length) ps g → Crash f pos (p :: ps) g
  | before (f : List Byte) (pos : Nat) (ps : List (List Byte)) : Crash f pos ps f
  | truncated (f : List Byte) (pos : Nat) : Crash f pos [] (f.take pos)

end Verif.Db
