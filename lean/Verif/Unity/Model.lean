import Verif.Sort.Model
/-
Unity files: Code/Tools/FBuild/FBuildCore/Graph/UnityNode.cpp, and the file lists they are made of:
DirectoryListNode.cpp:222-309.

Strings are lists of characters without NUL; a byte above 127 stands for itself. `rank` gives the value of a
`char` (it is signed on some platforms). Single precision arithmetic is a parameter (`Flt`): nothing is assumed
about it. Path helpers (`GetRelativePath`, C31), the list of isolated files read from disk and the hash are
parameters. Messages and `m_FilesInfo` are left out.
-/
namespace Verif.Unity

abbrev Name := List Char

/-- the lower case conversion of `AString::StrNCmpI`, Code/Core/Strings/AString.cpp:1560-1569 -/
def lower (c : Char) : Char := if 'A' ≤ c ∧ c ≤ 'Z' then Char.ofNat (c.toNat + 32) else c

/-- `AString::StrNCmpI`, AString.cpp:1556-1588; the end of the list is the terminating NUL -/
def strNCmpI (rank : Char → Int) : Nat → Name → Name → Int
  | 0, _, _ => 0
  | _ + 1, [], [] => 0
  | n + 1, x :: a, y :: b => if lower x = lower y then strNCmpI rank n a b else rank (lower x) - rank (lower y)
  | _ + 1, [], y :: _ => rank '\x00' - rank (lower y)
  | _ + 1, x :: _, [] => rank (lower x) - rank '\x00'

/-- comparison of unsigned characters; a string that ends comes first -/
def charsLt : Name → Name → Bool
  | [], [] => false
  | x :: a, y :: b => if x = y then charsLt a b else decide (x.toNat < y.toNat)
  | [], _ :: _ => true
  | _ :: _, [] => false

/-- `AString::operator<`, AString.h:111, AString.cpp:174-177: `strcmp`, which stops at NUL -/
def nameLt (a b : Name) : Bool := charsLt (a.takeWhile (· ≠ '\x00')) (b.takeWhile (· ≠ '\x00'))

/-- what a unity knows about a file: `UnityFileAndOrigin`, UnityNode.h:64-84. `origin`: path of the directory
list it comes from, empty when it comes from elsewhere (UnityNode.cpp:65-69) -/
structure File where
  name : Name
  readOnly : Bool
  origin : Name
deriving DecidableEq

/-- `m_LastSlashIndex`, UnityNode.cpp:85-90: 0 when there is no slash -/
def lastSlash (sl : Char) (n : Name) : Nat := n.length - 1 - (n.reverse.takeWhile (· ≠ sl)).length

/-- `UnityFileAndOrigin::operator<`, UnityNode.cpp:95-157 -/
def fileLt (rank : Char → Int) (sl : Char) (f g : File) : Bool :=
  let m := lastSlash sl f.name
  let n := lastSlash sl g.name
  let byName : Bool :=
    let fl := f.name.length - m
    let gl := g.name.length - n
    let order := strNCmpI rank (min fl gl) (f.name.drop m) (g.name.drop n)
    if order ≠ 0 then decide (order < 0)
    else if fl ≠ gl then decide (fl < gl)
    else false
  if m > 0 then
    if n = 0 then false
    else
      let order := strNCmpI rank (min m n + 1) f.name g.name
      if order ≠ 0 then decide (order < 0)
      else if m ≠ n then decide (m < n)
      else byName
  else if n > 0 then true
  else byName

/-- comparison of characters used by `EndsWith` / `EndsWithI` in `PathEndsWithFile` -/
def sameChar (linux : Bool) (x y : Char) : Bool := if linux then x == y else lower x == lower y

/-- do two strings of equal length agree? -/
def sameChars (linux : Bool) : Name → Name → Bool
  | [], [] => true
  | x :: a, y :: b => sameChar linux x y && sameChars linux a b
  | _, _ => false

/-- `PathUtils::PathEndsWithFile`, Code/Core/FileIO/PathUtils.cpp:84-114 -/
def endsWithFile (linux : Bool) (sl : Char) (path file : Name) : Bool :=
  if path.length < file.length then false
  else if ! sameChars linux (path.drop (path.length - file.length)) file then false
  else if path.length = file.length then true
  else path[path.length - file.length - 1]? == some sl

/-- the options of a unity, UnityNode.h:89-108 -/
structure Config where
  linux : Bool
  sl : Char
  rank : Char → Int
  outputPath : Name
  outputPattern : Name
  num : Nat
  maxIsolated : Nat
  isolateWritable : Bool
  isolateListFile : Name
  toIsolate : List Name
  pch : Name
  /-- what is written between the quotes: the name, or the path relative to the output path (lines 355-361, 373-387, 467-472, 495-503) -/
  shown : Name → Name

/-- a static dependency of a unity as seen by `GetFiles` -/
inductive Dep where
  /-- directory list with path and files (name, read only) -/
  | dirList (path : Name) (files : List (Name × Bool))
  | objectList (files : List Name)
  /-- file node; `info`: `GetFileInfo` result (read only?) if the file exists -/
  | file (name : Name) (info : Option Bool)

/-- the file list of `DirectoryListNode::DoBuild`, DirectoryListNode.cpp:230-256: whatever order the file
system returned (`found`), the list is sorted -/
def dirListFiles (found : List (Name × Bool)) : Option (List (Name × Bool)) :=
  Sort.shellSort (fun a b => nameLt a.1 b.1) found

/-- `pchCPP` of `GetFiles`, UnityNode.cpp:636-645 -/
def pchCpp (pch : Name) : Name :=
  let n := pch.length
  if 2 ≤ n ∧ ((pch.drop (n - 2)).map lower = ['.', 'h']) then pch.take (n - 1) ++ "cpp".toList else []

/-- files contributed by one dependency, UnityNode.cpp:651-720; `none`: error reported -/
def depFiles (c : Config) : Dep → Option (List File)
  | .dirList path files =>
    some ((files.filter fun p => pchCpp c.pch = [] || ! endsWithFile c.linux c.sl p.1 (pchCpp c.pch)).map
      fun p => ⟨p.1, p.2, path⟩)
  | .objectList files => some (files.map fun n => ⟨n, true, []⟩)
  | .file name info =>
    if name = c.isolateListFile then some []
    else match info with
      | some ro => some [⟨name, ro, []⟩]
      | none => none

/-- the loop of `GetFiles` -/
def collect (c : Config) : List Dep → Option (List File)
  | [] => some []
  | d :: ds =>
    match depFiles c d, collect c ds with
    | some fs, some gs => some (fs ++ gs)
    | _, _ => none

/-- `GetFiles`, UnityNode.cpp:632-727: collect, then sort -/
def getFiles (c : Config) (deps : List Dep) : Option (List File) :=
  match collect c deps with
  | none => none
  | some fs => Sort.shellSort (fileLt c.rank c.sl) fs

/-- does `.UnityInputIsolatedFiles` name this file? UnityNode.cpp:748-756 -/
def forced (c : Config) (f : File) : Bool := c.toIsolate.any fun n => endsWithFile c.linux c.sl f.name n

/-- `FilterForceIsolated`, UnityNode.cpp:731-775: (kept, isolated) -/
def filterForce (c : Config) (files : List File) : List File × List File :=
  if c.toIsolate = [] then (files, [])
  else if files = [] then (files, [])
  else (files.filter fun f => ! forced c f, files.filter fun f => forced c f)

/-- single precision arithmetic as used by `DoBuild` -/
structure Flt where
  F : Type
  zero : F
  /-- `(float)numFiles / (float)m_NumUnityFilesToCreate` -/
  per : Nat → Nat → F
  add : F → F → F
  /-- `- 1.0f` -/
  dec : F → F
  /-- `> 0.0f` -/
  pos : F → Bool

/-- the `while` loop, UnityNode.cpp:396-438, without the flags: files for this unity, what is left of
`remainingInThisUnity`, and the files after `index` -/
def allot (fl : Flt) (last : Bool) : fl.F → List File → List File × fl.F × List File
  | r, [] => if fl.pos r || last then ([], fl.dec r, []) else ([], r, [])
  | r, f :: fs =>
    if fl.pos r || last then
      let (t, r', rest) := allot fl last (fl.dec r) fs
      (f :: t, r', rest)
    else ([], r, f :: fs)

/-- `isolate`, UnityNode.cpp:408-423 -/
def isolate (c : Config) (fromList : List Name) (f : File) : Bool :=
  (c.isolateWritable && ! f.readOnly) || fromList.contains f.name

/-- is this file of the unity commented out? lines 444-455; `mine`: the files of this unity -/
def isolated (c : Config) (fromList : List Name) (mine : List File) (f : File) : Bool :=
  (c.maxIsolated == 0 || decide ((mine.countP (isolate c fromList)) ≤ c.maxIsolated)) && isolate c fromList f

def eol : Name := ['\r', '\n']

/-- the two directives of a file, UnityNode.cpp:467-504 -/
def fileText (c : Config) (iso : Bool) (f : File) : Name :=
  let comment : Name := if iso then "//".toList else []
  let pragma : Name := if c.linux then "//".toList else comment
  pragma ++ "#pragma message( \"".toList ++ (c.shown f.name).map (fun x => if x = '\\' then '/' else x) ++ "\" )".toList ++ eol ++
  comment ++ "#include \"".toList ++ c.shown f.name ++ "\"".toList ++ eol ++ eol

/-- the whole text of a unity, UnityNode.cpp:369-387, 440-506 -/
def unityText (c : Config) (fromList : List Name) (mine : List File) : Name :=
  "// Auto-generated Unity file - do not modify".toList ++ eol ++ eol ++
  (if c.pch = [] then [] else "#include \"".toList ++ c.shown c.pch ++ "\"".toList ++ eol ++ eol) ++
  mine.flatMap (fun f => fileText c (isolated c fromList mine f) f) ++ eol

/-- decimal digits; `fuel` above `n` suffices -/
def decimalGo : Nat → Nat → Name
  | 0, _ => []
  | fuel + 1, n => if n < 10 then [Char.ofNat (48 + n)] else decimalGo fuel (n / 10) ++ [Char.ofNat (48 + n % 10)]

/-- `%u` -/
def decimal (n : Nat) : Name := decimalGo (n + 1) n

/-- the name of unity `i`, UnityNode.cpp:508-515: every `*` becomes the number -/
def unityName (c : Config) (i : Nat) : Name :=
  (c.outputPath ++ c.outputPattern).flatMap fun x => if x = '*' then decimal (i + 1) else [x]

/-- contents of the files on disk -/
abbrev Disk := Name → Option Name

/-- the part of the state of a unity that matters after `DoBuild` -/
structure Result where
  disk : Disk
  /-- `m_UnityFileNames` -/
  names : List Name
  /-- `m_IsolatedFiles`: name and origin -/
  isolated : List (Name × Name)
  /-- hash input of every unity (`stamps`), in order -/
  texts : List Name

/-- is the file on disk different? UnityNode.cpp:527-569; `clean`: `-clean` -/
def needToWrite (clean : Bool) (old : Option Name) (text : Name) : Bool :=
  if clean then true
  else match old with
    | none => true
    | some t => decide (t.length ≠ text.length) || ! (t == text)

/-- `UnityIsolatedFile( file.GetName(), file.GetDirListOrigin() )` -/
def File.entry (f : File) : Name × Name := (f.name, f.origin)

/-- the loop creating the unity files, UnityNode.cpp:363-588. `k` unities are left, `i` is the number of this one.
`canWrite`: opening and writing that file works. `none`: `eFailed`. -/
def makeFiles (fl : Flt) (c : Config) (fromList : List Name) (noUnity clean : Bool) (canWrite : Name → Bool) (per : fl.F) :
    Nat → Nat → fl.F → List File → Result → Option Result
  | 0, _, _, _, s => some s
  | k + 1, i, r, files, s =>
    let (mine, r', rest) := allot fl (k == 0) (fl.add r per) files
    let iso := isolated c fromList mine
    let name := unityName c i
    let text := unityText c fromList mine
    let s1 : Result :=
      { s with
        isolated := s.isolated ++ (mine.filter fun f => iso f || noUnity).map File.entry
        names := if mine.length ≠ mine.countP iso ∧ noUnity = false then s.names ++ [name] else s.names
        texts := s.texts ++ [text] }
    if needToWrite clean (s.disk name) text then
      if canWrite name then
        makeFiles fl c fromList noUnity clean canWrite per k (i + 1) r' rest
          { s1 with disk := fun n => if n = name then some text else s.disk n }
      else none
    else makeFiles fl c fromList noUnity clean canWrite per k (i + 1) r' rest s1

/-- `DoBuild`, UnityNode.cpp:291-591, up to the hash. `fromList`: the names read from `.UnityInputIsolateListFile`. -/
def doBuild (fl : Flt) (c : Config) (deps : List Dep) (fromList : List Name) (noUnity clean : Bool) (canWrite : Name → Bool)
    (disk : Disk) : Option Result :=
  match getFiles c deps with
  | none => none
  | some files =>
    let (kept, forcedFiles) := filterForce c files
    makeFiles fl c fromList noUnity clean canWrite (fl.per kept.length c.num) c.num 0 fl.zero kept
      { disk := disk, names := [], isolated := forcedFiles.map File.entry, texts := [] }

/-- the stamp, UnityNode.cpp:525, 593-605: a hash of the hashes, with `-nounity` in the lowest bit -/
def stamp (h1 : Name → UInt64) (h2 : List UInt64 → UInt64) (noUnity : Bool) (r : Result) : UInt64 :=
  let s := h2 (r.texts.map h1)
  if noUnity then s ||| 1 else s &&& ~~~1

/-- `DetermineNeedToBuildStatic`, UnityNode.cpp:251-287. `rest`: the answer of `Node::DetermineNeedToBuildStatic` -/
def needToBuild (c : Config) (hasFiles : Bool) (names : List Name) (disk : Disk) (noUnity : Bool) (st : UInt64) (rest : Bool) : Bool :=
  if c.isolateWritable && hasFiles then true
  else if names.any fun n => (disk n).isNone then true
  else if noUnity ≠ (st &&& 1 == 1) then true
  else rest

end Verif.Unity
