import Verif.Unity.Model
import Verif.Str.MatchModel
/-
Lists of the files of a directory and what is done with them: Code/Core/FileIO/FileIO.cpp:360-370, 1022-1160,
1795-1816, Code/Tools/FBuild/FBuildCore/Graph/DirectoryListNode.cpp, CopyDirNode.cpp:83-157,
RemoveDirNode.cpp:82-131, ObjectListNode.cpp:395-545 (directories and loose files), 700-817.

Strings are lists of characters without NUL. A directory is what the file system returns for it, entry by entry
(`Entries`); a symbolic link is an entry that is not a directory, as in the code (`d_type`). Times and sizes of
files, messages, flags of object nodes and pre-build dependencies are left out. Hashing is a parameter.
-/
namespace Verif.Dirs
open Unity (Name sameChars endsWithFile nameLt)

/-- what `readdir` / `FindNextFile` return for a directory, in this order; the entries of a directory entry are what
is returned when it is opened -/
inductive Entries where
  | nil
  | file (name : Name) (readOnly : Bool) (rest : Entries)
  | dir (name : Name) (sub rest : Entries)

/-- the properties of a `DirectoryListNode`, DirectoryListNode.h, and the platform -/
structure Config where
  linux : Bool
  sl : Char
  patterns : List Name
  excludePaths : List Name
  filesToExclude : List Name
  excludePatterns : List Name
  recursive : Bool
  includeReadOnly : Bool
  includeDirs : Bool

/-- `PathUtils::PathBeginsWith`, PathUtils.cpp:71-81 -/
def beginsWith (linux : Bool) (path sub : Name) : Bool :=
  decide (sub.length ≤ path.length) && sameChars linux (path.take sub.length) sub

/-- `PathUtils::IsWildcardMatch`, PathUtils.cpp:58-67; the model of C25 always gives an answer -/
def wildcard (linux : Bool) (pattern str : Name) : Bool := Str.isWildcardMatch linux pattern str == some true

/-- `FileIO::IsMatch`, FileIO.cpp:1797-1816 -/
def isMatch (linux : Bool) (patterns : List Name) (name : Name) : Bool :=
  patterns.isEmpty || patterns.any fun p => wildcard linux p name

/-- the test for the magic folders, FileIO.cpp:1105-1112 -/
def isMagic (name : Name) : Bool :=
  match name with
  | ['.'] => true
  | '.' :: '.' :: _ => true
  | _ => false

/-- `OnDirectory`, DirectoryListNode.cpp:54-76: is the directory entered? -/
def onDirectory (c : Config) (path : Name) : Bool :=
  c.recursive && ! c.excludePaths.any fun x => beginsWith c.linux path x

/-- `OnFile`, DirectoryListNode.cpp:79-101: is the file kept? -/
def onFile (c : Config) (full : Name) : Bool :=
  ! (c.filesToExclude.any fun x => endsWithFile c.linux c.sl full x) &&
  ! (c.excludePatterns.any fun p => wildcard c.linux p full)

/-- `FileIO::GetFilesRecurse`, FileIO.cpp:1022-1160, with the helper of DirectoryListNode.cpp:34-113: the files with
their read only flag, and the directories (lines 56-59) -/
def walk (c : Config) (path : Name) : Entries → List (Name × Bool) × List Name
  | .nil => ([], [])
  | .file n ro rest =>
    let r := walk c path rest
    if isMatch c.linux c.patterns n && onFile c (path ++ n) then ((path ++ n, ro) :: r.1, r.2) else r
  | .dir n sub rest =>
    let r := walk c path rest
    if isMagic n then r
    else
      let p := path ++ n ++ [c.sl]
      let s := if onDirectory c p then walk c p sub else ([], [])
      (s.1 ++ r.1, (if c.includeDirs then [p] else []) ++ s.2 ++ r.2)

/-- `DirectoryListNode::DoBuild`, DirectoryListNode.cpp:222-257. `root` ends with a slash (line 143) -/
def dirList (c : Config) (root : Name) (e : Entries) : Option (List (Name × Bool) × List Name) :=
  match Sort.shellSort (fun a b : Name × Bool => nameLt a.1 b.1) (walk c root e).1, Sort.shellSort nameLt (walk c root e).2 with
  | some fs, some ds => some (fs, ds)
  | _, _ => none

/-- the bytes given to the hash, DirectoryListNode.cpp:289-310; a `bool` is the byte 0 or 1 -/
def stampText (c : Config) (l : List (Name × Bool) × List Name) : Name :=
  (l.1.flatMap fun f => f.1 ++ if c.includeReadOnly then [if f.2 then '\x01' else '\x00'] else []) ++ l.2.flatten

/-- the stamp, DirectoryListNode.cpp:284-312 -/
def stamp (hash : Name → Nat) (c : Config) (l : List (Name × Bool) × List Name) : Nat :=
  if l.1.isEmpty && l.2.isEmpty then 1 else hash (stampText c l)

/-! ### nodes -/

/-- what kind of node a name stands for -/
inductive Kind where
  | file
  /-- `CopyFileNode` with the name of its source node -/
  | copy (src : Name)
  /-- `ObjectNode` with the name of its source node and the object list that owns it -/
  | object (src : Name) (owner : Nat)
  /-- any other node; `IsAFile` -/
  | other (isFile : Bool)
deriving DecidableEq

/-- `Node::IsAFile` -/
def Kind.isAFile : Kind → Bool
  | .other b => b
  | _ => true

/-- the nodes of a `NodeGraph`, in the order of their creation -/
abbrev Graph := List (Name × Kind)

/-- the text compared by `AString::EqualsI` and hashed by `Node::CalcNameHash`, Node.cpp:1130-1136 -/
def key (n : Name) : Name := n.map Unity.lower

/-- `NodeGraph::FindNode`, NodeGraph.cpp:776-789, 1411-1433, for clean full paths (cleaning them again changes nothing, C29): the same on all
platforms -/
def find (g : Graph) (n : Name) : Option (Name × Kind) := g.find? fun e => key e.1 == key n

inductive Err where
  | notAFile | notTheType | conflict
deriving DecidableEq

/-- find or create the node of a source file, CopyDirNode.cpp:104-114, ObjectListNode.cpp:416-426; the graph and the name
of the node -/
def sourceNode (g : Graph) (file : Name) : Except Err (Graph × Name) :=
  match find g file with
  | none => .ok (g ++ [(file, .file)], file)
  | some (n, k) => if k.isAFile then .ok (g, n) else .error .notAFile

/-- one file of `CopyDirNode::DoDynamicDependencies`, CopyDirNode.cpp:96-155; the graph and the name of the dependency -/
def copyOne (dest root : Name) (g : Graph) (file : Name) : Except Err (Graph × Name) :=
  match sourceNode g file with
  | .error e => .error e
  | .ok (g, src) =>
    let dst := dest ++ file.drop root.length
    match find g dst with
    | none => .ok (g ++ [(dst, .copy src)], dst)
    | some (n, .copy s) => if s = src then .ok (g, n) else .error .conflict
    | some _ => .error .notTheType

/-- the loops over files, with the dependencies found so far -/
def eachFile {α : Type} (f : Graph → α → Except Err (Graph × Name)) : Graph → List α → Except Err (Graph × List Name)
  | g, [] => .ok (g, [])
  | g, x :: xs =>
    match f g x with
    | .error e => .error e
    | .ok (g, d) =>
      match eachFile f g xs with
      | .error e => .error e
      | .ok (g, ds) => .ok (g, d :: ds)

/-- `CopyDirNode::DoDynamicDependencies`, CopyDirNode.cpp:83-157; `lists`: path and files of the directory lists -/
def copyDir (dest : Name) : Graph → List (Name × List Name) → Except Err (Graph × List Name)
  | g, [] => .ok (g, [])
  | g, (root, files) :: ls =>
    match eachFile (copyOne dest root) g files with
    | .error e => .error e
    | .ok (g, ds) =>
      match copyDir dest g ls with
      | .error e => .error e
      | .ok (g, ds') => .ok (g, ds ++ ds')

/-! ### objects -/

/-- the properties of an `ObjectListNode` that give the names of objects, and its identity -/
structure ObjConfig where
  linux : Bool
  sl : Char
  outputPath : Name
  outputPrefix : Name
  keepBaseExtension : Bool
  filesRoot : Name
  /-- `GetObjExtension`, ObjectListNode.cpp:860-871 -/
  extension : Name
  id : Nat

/-- index of the first character of the file name: one behind the last slash, ObjectListNode.cpp:706-707 -/
def fileStart (sl : Char) (n : Name) : Nat := n.length - (n.reverse.takeWhile (· ≠ sl)).length

/-- the file name without path, and without its extension unless that is kept, ObjectListNode.cpp:708-709. The last dot counts
only when it comes behind the first character of the name -/
def baseName (c : ObjConfig) (n : Name) : Name :=
  let only := n.drop (fileStart c.sl n)
  if c.keepBaseExtension then only
  else
    let ext := only.reverse.takeWhile (· ≠ '.')
    if ext.length + 1 < only.length then only.take (only.length - ext.length - 1) else only

/-- `subPath.Assign( fileName + base.GetLength(), lastSlash )`: `none` when the end comes before the start -/
def subPath (sl : Char) (n base : Name) : Option Name :=
  if base.length ≤ fileStart sl n then some ((n.take (fileStart sl n)).drop base.length) else none

/-- `ObjectListNode::GetObjectFileName`, ObjectListNode.cpp:700-738 -/
def objectName (c : ObjConfig) (file baseDir : Name) : Option Name :=
  let sub :=
    if baseDir ≠ [] then
      if beginsWith c.linux file baseDir then subPath c.sl file baseDir else some []
    else if c.filesRoot ≠ [] ∧ beginsWith c.linux file c.filesRoot = true then subPath c.sl file c.filesRoot
    else some []
  sub.map fun s => c.outputPath ++ s ++ c.outputPrefix ++ baseName c file ++ c.extension

/-- `ObjectListNode::CreateDynamicObjectNode`, ObjectListNode.cpp:765-817, for the source `input`; creating the node looks up
or creates the file node of the source (`ObjectNode::Initialize`), which is a file -/
def createObject (c : ObjConfig) (g : Graph) (input objFile : Name) : Except Err (Graph × Name) :=
  match find g objFile with
  | none =>
    match sourceNode (g ++ [(objFile, .object input c.id)]) input with
    | .error e => .error e
    | .ok (g, _) => .ok (g, objFile)
  | some (n, .object s o) => if input ≠ s ∨ c.id ≠ o then .error .conflict else .ok (g, n)
  | some _ => .error .notTheType

/-- one file of a directory list in `GatherDynamicDependencies`, ObjectListNode.cpp:411-442 (other platforms than Windows; there
the source of the precompiled header is left out) -/
def objectOne (c : ObjConfig) (baseDir : Name) (g : Graph) (file : Name) : Except Err (Graph × Name) :=
  match sourceNode g file with
  | .error e => .error e
  | .ok (g, src) =>
    match objectName c src baseDir with
    | none => .error .notTheType
    | some o => createObject c g src o

/-- the directory lists of `GatherDynamicDependencies` -/
def objects (c : ObjConfig) : Graph → List (Name × List Name) → Except Err (Graph × List Name)
  | g, [] => .ok (g, [])
  | g, (root, files) :: ls =>
    match eachFile (objectOne c root) g files with
    | .error e => .error e
    | .ok (g, ds) =>
      match objects c g ls with
      | .error e => .error e
      | .ok (g, ds') => .ok (g, ds ++ ds')

/-! ### removing directories -/

/-- a file system: the files, and the directories with trailing slash; a directory is empty when nothing longer begins with
its name -/
structure Fs where
  files : List Name
  dirs : List Name
deriving DecidableEq

/-- `FileIO::FileDelete`: `unlink`; `locked`: what the system refuses to delete -/
def fileDelete (locked : Name → Bool) (s : Fs) (f : Name) : Option Fs :=
  if f ∈ s.files ∧ locked f = false then some { s with files := s.files.filter (· ≠ f) } else none

/-- is there anything in directory `d`? -/
def nonEmpty (s : Fs) (d : Name) : Bool :=
  (s.files ++ s.dirs).any fun x => d.isPrefixOf x && decide (x ≠ d)

/-- `FileIO::DirectoryDelete`, FileIO.cpp:109-128: `rmdir` deletes empty directories only -/
def directoryDelete (locked : Name → Bool) (s : Fs) (d : Name) : Option Fs :=
  if d ∈ s.dirs ∧ locked d = false ∧ nonEmpty s d = false then some { s with dirs := s.dirs.filter (· ≠ d) } else none

/-- delete one after the other; stops at the first failure. The flag: all deleted -/
def deleteAll (f : Fs → Name → Option Fs) : Fs → List Name → Fs × Bool
  | s, [] => (s, true)
  | s, x :: xs =>
    match f s x with
    | none => (s, false)
    | some s => deleteAll f s xs

/-- the body of the loop of `RemoveDirNode::DoBuild`, RemoveDirNode.cpp:89-128 -/
def removeOne (locked : Name → Bool) (removeDirs removeRoot : Bool) (s : Fs) (root : Name) (l : List Name × List Name) : Fs × Bool :=
  match deleteAll (fileDelete locked) s l.1 with
  | (s, false) => (s, false)
  | (s, true) =>
    match if removeDirs then deleteAll (directoryDelete locked) s l.2.reverse else (s, true) with
    | (s, false) => (s, false)
    | (s, true) =>
      if removeDirs && removeRoot && s.dirs.contains root then
        match directoryDelete locked s root with
        | none => (s, false)
        | some s => (s, true)
      else (s, true)

/-- `RemoveDirNode::DoBuild`, RemoveDirNode.cpp:82-131: the lists were made before -/
def removeDir (locked : Name → Bool) (removeDirs removeRoot : Bool) : Fs → List (Name × List Name × List Name) → Fs × Bool
  | s, [] => (s, true)
  | s, (root, l) :: ls =>
    match removeOne locked removeDirs removeRoot s root l with
    | (s, false) => (s, false)
    | (s, true) => removeDir locked removeDirs removeRoot s ls

end Verif.Dirs
