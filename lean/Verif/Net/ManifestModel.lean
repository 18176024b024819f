import Verif.IO.StreamModel
/-
Tool manifests, Code/Tools/FBuild/FBuildCore/Helpers/ToolManifest.cpp, and the check for conflicting
files in Graph/CompilerNode.cpp. Strings are lists of bytes. Sizes and pointers are natural numbers.
The hash functions, the local file system and the temporary directory are parameters. File locks, file
times set by the worker and the compressed copy kept in memory are not modelled.
-/
namespace Verif.Net
open Verif.IO

/-- `ToolManifestFile`, ToolManifest.h:21-76 (name, time stamp, hash, uncompressed size) -/
structure MFile where
  name : List Byte
  stamp : BitVec 64
  hash : BitVec 32
  size : BitVec 32
deriving DecidableEq

/-- the members of `ToolManifest` that are sent, ToolManifest.h:128-136 -/
structure Manifest where
  toolId : BitVec 64
  root : List Byte
  files : List MFile
  env : List (List Byte)
deriving DecidableEq

/-! ## paths -/

def lowerByte (b : Byte) : Byte := if 65 ≤ b.toNat ∧ b.toNat ≤ 90 then b + 32 else b

/-- what differs between platforms: `NATIVE_SLASH` (Core/Env/Types or Globals) and whether
`PathUtils::ArePathsEqual` (Core/FileIO/PathUtils.cpp:43-54) ignores case -/
structure Plat where
  slash : Byte
  caseless : Bool

def linux : Plat := ⟨0x2F, false⟩
def windows : Plat := ⟨0x5C, true⟩

/-- `AString::BeginsWithI`, AString.cpp:1351-1359 (compares `root.length` characters ignoring case) -/
def beginsWithI (s root : List Byte) : Bool :=
  decide (root.length ≤ s.length) && (s.take root.length).map lowerByte == root.map lowerByte

/-- `FindLast( slash )` and what follows it; the whole string if there is none -/
def afterLast (slash : Byte) (s : List Byte) : List Byte :=
  (s.reverse.takeWhile (· ≠ slash)).reverse

/-- `GetRelativePath`, ToolManifest.cpp:693-706 -/
def relPath (p : Plat) (root file : List Byte) : List Byte :=
  if beginsWithI file root then file.drop root.length else afterLast p.slash file

/-- `GetRemoteFilePath`, ToolManifest.cpp:728-738; `base` is the result of `GetRemotePath` -/
def remotePath (p : Plat) (base root file : List Byte) : List Byte := base ++ relPath p root file

def pathsEqual (p : Plat) (a b : List Byte) : Bool :=
  if p.caseless then a.map lowerByte == b.map lowerByte else a == b

/-- the inner loop, CompilerNode.cpp:114-124: true if a conflict is found -/
def conflictsLater (p : Plat) (root a : List Byte) : List (List Byte) → Bool
  | [] => false
  | b :: bs => if pathsEqual p a (relPath p root b) then true else conflictsLater p root a bs

/-- the outer loop, CompilerNode.cpp:101-125 -/
def conflicts (p : Plat) (root relExe : List Byte) : List (List Byte) → Bool
  | [] => false
  | f :: fs =>
    let a := relPath p root f
    if pathsEqual p a relExe then true
    else if conflictsLater p root a fs then true
    else conflicts p root relExe fs

/-- `m_ExecutableRootPath` when not given, CompilerNode.cpp:86-94 -/
def rootOf (p : Plat) (given exe : List Byte) : List Byte :=
  if given = [] then (exe.reverse.dropWhile (· ≠ p.slash)).reverse else given

/-- `CompilerNode::Initialize`, CompilerNode.cpp:69-140, for an executable and extra files that name file
nodes: the root path and files of the manifest, or an error -/
def compilerFiles (p : Plat) (given exe : List Byte) (extra : List (List Byte)) : Option (List Byte × List (List Byte)) :=
  let root := rootOf p given exe
  if conflicts p root (relPath p root exe) extra then none else some (root, exe :: extra)

/-! ## building the manifest -/

/-- a file on disk: time of last write and contents -/
structure DiskFile where
  stamp : BitVec 64
  data : List Byte

/-- hash functions: `xxHash::Calc32`, `xxHash3::Calc32`, `xxHash3::Calc64` -/
structure Hashes where
  xx32 : List Byte → BitVec 32
  xx3_32 : List Byte → BitVec 32
  xx3_64 : List Byte → BitVec 64

/-- `ToolManifestFile::DoBuild`, ToolManifest.cpp:112-173 and 756-778; a missing file has time 0 and cannot be opened.
`LoadFile` keeps the low 32 bits of the size and reads that many bytes. -/
def MFile.doBuild (h : Hashes) (disk : List Byte → Option DiskFile) (skip : Bool) (f : MFile) : Option MFile :=
  let time : BitVec 64 := match disk f.name with
    | none => 0
    | some d => d.stamp
  if skip then
    if time = 0 then none else some { f with hash := h.xx3_32 f.name, stamp := time }
  else if f.hash ≠ 0 ∧ f.stamp = time then some f
  else match disk f.name with
    | none => none
    | some d =>
      let n := d.data.length % 2 ^ 32
      some { f with size := BitVec.ofNat 32 n, hash := h.xx32 (d.data.take n), stamp := d.stamp }

/-- `ToolManifestFile::Migrate`, ToolManifest.cpp:177-182 -/
def MFile.migrate (f old : MFile) : MFile := { f with stamp := old.stamp, hash := old.hash }

/-- `ToolManifest::Initialize`, ToolManifest.cpp:186-198 -/
def Manifest.init (root : List Byte) (names : List (List Byte)) (env : List (List Byte)) : Manifest :=
  ⟨0, root, names.map fun n => ⟨n, 0, 0, 0⟩, env⟩

/-- the loop over the files in `ToolManifest::DoBuild`, lines 209-216 -/
def buildFiles (h : Hashes) (disk : List Byte → Option DiskFile) (skip : Bool) : List MFile → Option (List MFile)
  | [] => some []
  | f :: fs =>
    match f.doBuild h disk skip with
    | none => none
    | some f =>
      match buildFiles h disk skip fs with
      | none => none
      | some fs => some (f :: fs)

/-- the array hashed for the tool id, ToolManifest.cpp:218-237 -/
def idBytes (p : Plat) (h : Hashes) (root : List Byte) : List MFile → List Byte
  | [] => []
  | f :: fs => wrU32 f.hash ++ wrU32 (h.xx32 (relPath p root f.name)) ++ idBytes p h root fs

/-- `ToolManifest::DoBuild`, ToolManifest.cpp:202-249, without the time stamp of the whole manifest -/
def Manifest.doBuild (p : Plat) (h : Hashes) (disk : List Byte → Option DiskFile) (skip : Bool) (m : Manifest) :
    Option Manifest :=
  match buildFiles h disk skip m.files with
  | none => none
  | some fs => some { m with files := fs, toolId := h.xx3_64 (idBytes p h m.root fs) }

/-- `ToolManifest::Migrate`, ToolManifest.cpp:253-265 -/
def Manifest.migrate (m old : Manifest) : Manifest :=
  { m with files := List.zipWith MFile.migrate m.files old.files, toolId := old.toolId }

/-! ## sending -/

/-- one file, ToolManifest.cpp:280-284 -/
def wrMFile (f : MFile) : List Byte := wrStr f.name ++ (wrU64 f.stamp ++ (wrU32 f.hash ++ wrU32 f.size))

/-- `SerializeForRemote`, ToolManifest.cpp:269-292 -/
def Manifest.serialize (m : Manifest) : List Byte :=
  wrU64 m.toolId ++ wrStr m.root ++ wrU32 (BitVec.ofNat 32 m.files.length) ++ m.files.flatMap wrMFile ++
    wrU32 (BitVec.ofNat 32 m.env.length) ++ m.env.flatMap wrStr

/-! ## receiving -/

/-- `StrLen( s.Get() ) == s.GetLength()`: the string is followed by a terminator -/
def strLen (s : List Byte) : Nat := (s.takeWhile (· ≠ 0)).length

/-- one file, ToolManifest.cpp:329-343 -/
def rdMFile : Parser MFile := do
  let name ← rdStr
  let stamp ← rdU64
  let hash ← rdU32
  let size ← rdU32
  if strLen name ≠ name.length ∨ stamp = 0 ∨ hash = 0 then Parser.fail
  else return ⟨name, stamp, hash, size⟩

/-- the header, ToolManifest.cpp:310-322; `own` is `m_ToolId`. The number of files is returned. -/
def rdHead (own : BitVec 64) : Parser (List Byte × Nat) := do
  let id ← rdU64
  let root ← rdStr
  let num ← rdU32
  if strLen root ≠ root.length ∨ num = 0 ∨ id ≠ own then Parser.fail
  else return (root, num.toNat)

/-- `ms.Read( numEnvVars )` with the result ignored, ToolManifest.cpp:347-348: bytes not read stay 0 -/
def rdU32Unchecked : Parser (BitVec 32) := fun r =>
  let (b, r) := r.readBuffer 4
  some (BitVec.ofNat 32 (ofLE b), r)

/-- one variable, ToolManifest.cpp:353-359 -/
def rdEnvVar : Parser (List Byte) := do
  let v ← rdStr
  if strLen v ≠ v.length then Parser.fail else return v

/-- the reading part of `DeserializeFromRemote`, ToolManifest.cpp:296-365 -/
def rdManifest (own : BitVec 64) : Parser Manifest := do
  let (root, num) ← rdHead own
  let files ← rdMany rdMFile num
  let numEnv ← rdU32Unchecked
  let env ← rdMany rdEnvVar numEnv.toNat
  return ⟨own, root, files, env⟩

/-- the check for a file left by an earlier run, ToolManifest.cpp:382-406 -/
def present (h : Hashes) (disk : List Byte → Option DiskFile) (path : List Byte) (f : MFile) : Bool :=
  match disk path with
  | none => false
  | some d =>
    if d.data.length ≠ f.size.toNat then false
    else if h.xx32 d.data ≠ f.hash then false
    else true

/-! ## the environment block -/

/-- `AString::Copy( src, dst, len )`, AString.cpp:1510-1514: writes a terminator after the `len` bytes -/
def strCopy (b : Block) (pos : Nat) (src : List Byte) : Except Err Block := copyTo b pos (src ++ [0])

/-- `Find( "%1" )`: what precedes the first occurrence and what follows it -/
def findToken : List Byte → Option (List Byte × List Byte)
  | [] => none
  | [_] => none
  | a :: b :: r =>
    if a = 0x25 ∧ b = 0x31 then some ([], r)
    else match findToken (b :: r) with
      | none => none
      | some (x, y) => some (a :: x, y)

/-- the length of a variable in the block, ToolManifest.cpp:438-446 -/
def varLen (base v : List Byte) : Nat :=
  match findToken v with
  | some _ => v.length - 2 + base.length + 1
  | none => v.length + 1

/-- `"PATH="` -/
def pathEq : List Byte := [0x50, 0x41, 0x54, 0x48, 0x3D]
/-- `"TMP="` -/
def tmpEq : List Byte := [0x54, 0x4D, 0x50, 0x3D]
/-- `"SystemRoot=C:\\Windows"` -/
def sysRoot : List Byte :=
  [0x53, 0x79, 0x73, 0x74, 0x65, 0x6D, 0x52, 0x6F, 0x6F, 0x74, 0x3D, 0x43, 0x3A, 0x5C, 0x57, 0x69, 0x6E, 0x64, 0x6F, 0x77, 0x73]

/-- the variables before the custom ones, ToolManifest.cpp:412-427; `tmp` is the value of `TMP` on Windows and
`none` elsewhere -/
def fixedVars (base : List Byte) (tmp : Option (List Byte)) : List (List Byte) :=
  (pathEq ++ base) :: match tmp with
    | none => []
    | some t => [tmpEq ++ t, sysRoot]

/-- the computed length, ToolManifest.cpp:429-449 -/
def envLen (base : List Byte) (tmp : Option (List Byte)) (env : List (List Byte)) : Nat :=
  ((fixedVars base tmp).map fun v => v.length + 1).sum + (env.map (varLen base)).sum + 1

/-- copies of whole variables including their terminator, ToolManifest.cpp:455-464 -/
def copyFixed (b : Block) (pos : Nat) : List (List Byte) → Except Err (Block × Nat)
  | [] => .ok (b, pos)
  | v :: vs =>
    match strCopy b pos (v ++ [0]) with
    | .error e => .error e
    | .ok b => copyFixed b (pos + (v.length + 1)) vs

/-- the loop over the custom variables, ToolManifest.cpp:466-484 -/
def copyVars (base : List Byte) (b : Block) (pos : Nat) : List (List Byte) → Except Err (Block × Nat)
  | [] => .ok (b, pos)
  | v :: vs =>
    match findToken v with
    | some (x, y) =>
      match strCopy b pos x with
      | .error e => .error e
      | .ok b =>
        let pos := pos + x.length
        match strCopy b pos base with
        | .error e => .error e
        | .ok b =>
          let pos := pos + base.length
          match strCopy b pos (y ++ [0]) with
          | .error e => .error e
          | .ok b => copyVars base b (pos + (v.length - 2 - x.length + 1)) vs
    | none =>
      match strCopy b pos (v ++ [0]) with
      | .error e => .error e
      | .ok b => copyVars base b (pos + (v.length + 1)) vs

/-- the environment block, ToolManifest.cpp:409-487 -/
def envBlock (base : List Byte) (tmp : Option (List Byte)) (env : List (List Byte)) : Except Err Block :=
  let mem : Block := List.replicate (envLen base tmp env) none
  match copyFixed mem 0 (fixedVars base tmp) with
  | .error e => .error e
  | .ok (mem, pos) =>
    match copyVars base mem pos env with
    | .error e => .error e
    | .ok (mem, pos) => copyTo mem pos [0]

/-- `DeserializeFromRemote`: the manifest, which files are `SYNCHRONIZED`, `m_Synchronized` and the environment -/
def receiveManifest (p : Plat) (h : Hashes) (disk : List Byte → Option DiskFile) (base : List Byte) (tmp : Option (List Byte))
    (own : BitVec 64) (data : List Byte) : Option (Manifest × List Bool × Bool × Except Err Block) :=
  match rdManifest own ⟨data, 0⟩ with
  | none => none
  | some (m, _) =>
    let sync := m.files.map fun f => present h disk (remotePath p base m.root f.name) f
    some (m, sync, decide (sync.countP id = m.files.length), envBlock base tmp m.env)

end Verif.Net
