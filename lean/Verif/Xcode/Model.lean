/-!
The projects for Xcode: `Helpers/XCodeProjectGenerator.cpp`, with the files and folders of
`Helpers/ProjectGeneratorBase.cpp`.

The file `project.pbxproj` is a list of objects; an object has an identifier, what it is (`isa`), perhaps a name and a path, and
identifiers of other objects. These are modelled here, each field with the identifiers written into it; the text around them, which
does not depend on the project, is not. The texts written for a name, a setting, a list of settings and an argument are modelled in full.
-/
namespace Verif.Xcode

abbrev Text := List Char

/-! ### Text -/

/-- characters that need no quotes, XCodeProjectGenerator.cpp:922-928 -/
def plain (c : Char) : Bool :=
  ('a' ≤ c && c ≤ 'z') || ('A' ≤ c && c ≤ 'Z') || ('0' ≤ c && c ≤ '9') || c == '$' || c == '_' || c == '.' || c == '/'

/-- `ProcessString`, XCodeProjectGenerator.cpp:903-962 -/
def process (s : Text) : Text :=
  if s = [] then ['"', '"']
  else
    let body := s.flatMap fun c => if plain c then [c] else if c = '\\' ∨ c = '"' then ['\\', c] else [c]
    if s.all plain then body else '"' :: body ++ ['"']

/-- `WriteString`, XCodeProjectGenerator.cpp:827-843 -/
def writeString (depth : Nat) (name value : Text) : Text :=
  List.replicate depth '\t' ++ name ++ " = ".toList ++ process value ++ ";\n".toList

/-- `WriteArray`, XCodeProjectGenerator.cpp:847-878 -/
def writeArray (depth : Nat) (name : Text) (values : List Text) : Text :=
  if values.length ≤ 1 then writeString depth name (values.headD [])
  else
    List.replicate depth '\t' ++ name ++ " = (\n".toList ++
      values.flatMap (fun v => List.replicate depth '\t' ++ '\t' :: (process v ++ ",\n".toList)) ++
      List.replicate depth '\t' ++ ");\n".toList

/-- the name of a folder, of a configuration and of the project, XCodeProjectGenerator.cpp:435, 473, 683, 706, 774: as it is -/
def writeName (name : Text) : Text := "\t\t\tname = ".toList ++ name ++ ";\n".toList

/-- the arguments of the build, XCodeProjectGenerator.cpp:461: in quotes, but as they are -/
def writeArguments (args : Text) : Text := "\t\t\tbuildArgumentsString = \"".toList ++ args ++ "\";\n".toList

/-- `EscapeArgument`, XCodeProjectGenerator.cpp:880-901 -/
def escapeArgument (s : Text) : Text :=
  s.flatMap fun c =>
    if c = '>' then "&gt;".toList else if c = '<' then "&lt;".toList else if c = '"' then "&quot;".toList
    else if c = '&' then "&amp;".toList else [c]

/-! ### Files and folders -/

/-- `Folder`, ProjectGeneratorBase.h:88-96; files and folders are numbered in the order they were added -/
structure Folder where
  path : Text
  files : List Nat
  folders : List Nat
deriving DecidableEq

/-- `File`, ProjectGeneratorBase.h:97-105 -/
structure File where
  name : Text
  full : Text
  folder : Nat
deriving DecidableEq

/-- the part of `ProjectGeneratorBase` that holds files and folders, ProjectGeneratorBase.h:107-112 -/
structure Proj where
  folders : List Folder
  files : List File
deriving DecidableEq

/-- the constructor, ProjectGeneratorBase.cpp:99-105: folder 0 is the root -/
def start : Proj := ⟨[⟨[], [], []⟩], []⟩

/-- what is before the last slash, unless that is the first character, ProjectGeneratorBase.cpp:155-163 -/
def cut (path : Text) : Option Text :=
  match path.reverse.dropWhile (· != '/') with
  | [] => none
  | _ :: d => if d = [] then none else some d.reverse

/-- `GetFolderFor`, ProjectGeneratorBase.cpp:152-185; each call is for a shorter path, `fuel` bounds the calls -/
def getFolder : Nat → Proj → Text → Proj × Nat
  | 0, p, _ => (p, 0)
  | fuel + 1, p, path =>
    match cut path with
    | none => (p, 0)
    | some d =>
      match p.folders.findIdx? (fun f => f.path == d) with
      | some i => (p, i)
      | none =>
        let r := getFolder fuel p d
        let n := r.1.folders.length
        ({ r.1 with folders := r.1.folders.modify r.2 (fun f => { f with folders := f.folders ++ [n] }) ++ [⟨d, [], []⟩] }, n)

/-- `GetProjectRelativePath_Deprecated`, ProjectGeneratorBase.cpp:127-148: without the longest base path it begins with
(Linux: `PathBeginsWith` heeds case) -/
def relative (bases : List Text) (file : Text) : Text :=
  let best := bases.foldl (fun best b => if b.length ≤ best.length then best else if b.isPrefixOf file then b else best) []
  file.drop best.length

/-- what follows the last `c` -/
def afterLast (c : Char) (s : Text) : Option Text :=
  if c ∈ s then some (s.reverse.takeWhile (· != c)).reverse else none

/-- the name of a file, ProjectGeneratorBase.cpp:224-227 -/
def nameOf (rel : Text) : Text := (afterLast '/' rel).getD ((afterLast '\\' rel).getD rel)

/-- `AddFile`, ProjectGeneratorBase.cpp:214-238 -/
def addFile (bases : List Text) (p : Proj) (file : Text) : Proj :=
  let rel := relative bases file
  let r := getFolder (rel.length + 1) p rel
  let k := r.1.files.length
  { folders := r.1.folders.modify r.2 fun f => { f with files := f.files ++ [k] }
    files := r.1.files ++ [⟨nameOf rel, file, r.2⟩] }

/-- the files are added one after the other, XCodeProjectNode.cpp:189-232 -/
def build (bases : List Text) (files : List Text) : Proj := files.foldl (addFile bases) start

/-- the order of texts, `AString::operator<`; bytes above 127 are not told apart from others here -/
def le (a b : Text) : Bool := decide (a.map Char.toNat ≤ b.map Char.toNat)

/-- `m_Files.SortDeref()`, ProjectGeneratorBase.cpp:191-196, ProjectGeneratorBase.h:104: by name. Files of the same name keep their order
here; in the code that is left open. -/
def fileOrder (p : Proj) (l : List Nat) : List Nat :=
  l.mergeSort fun a b => le ((p.files[a]?.map File.name).getD []) ((p.files[b]?.map File.name).getD [])

/-- `m_Folders.SortDeref()`, ProjectGeneratorBase.cpp:198-210, ProjectGeneratorBase.h:95: by path -/
def folderOrder (p : Proj) (l : List Nat) : List Nat :=
  l.mergeSort fun a b => le ((p.folders[a]?.map Folder.path).getD []) ((p.folders[b]?.map Folder.path).getD [])

/-- all files in order -/
def files (p : Proj) : List Nat := fileOrder p (List.range p.files.length)

/-- all folders in order -/
def folders (p : Proj) : List Nat := folderOrder p (List.range p.folders.length)

/-! ### Objects -/

/-- what an object is -/
inductive Isa | buildFile | fileReference | group | legacyTarget | nativeTarget | project | sourcesPhase | configuration | configurationList
deriving DecidableEq

/-- the fields that hold identifiers -/
inductive Field | fileRef | children | buildConfigurationList | buildPhases | mainGroup | targets | files | buildConfigurations
deriving DecidableEq

/-- a digit of `%X` and of `%u` -/
def digit (n : Nat) : Char := "0123456789ABCDEF".toList.getD n '0'

/-- digits of a number; `fuel` above `n` suffices -/
def numberGo (base : Nat) : Nat → Nat → Text
  | 0, _ => []
  | fuel + 1, n => if n < base then [digit n] else numberGo base fuel (n / base) ++ [digit (n % base)]

/-- `%08u` and `%08X` -/
def number (base n : Nat) : Text :=
  let t := numberGo base (n + 1) n
  List.replicate (8 - t.length) '0' ++ t

/-- the first sixteen characters of an identifier, XCodeProjectGenerator.cpp:249-305, 332, 361 -/
def lead : Isa → Text
  | .buildFile => "1111111100000000".toList
  | .fileReference => "1111111111111111".toList
  | .group => "2222222222222222".toList
  | .legacyTarget => "3333333333333333".toList
  | .nativeTarget => "3333333300000000".toList
  | .project => "4444444444444444".toList
  | .configurationList => "5555555555555555".toList
  | .configuration => "6666666666666666".toList
  | .sourcesPhase => "7777777777777777".toList

/-- numbers of files are decimal, all others hexadecimal -/
def baseOf : Isa → Nat
  | .buildFile => 10
  | .fileReference => 10
  | _ => 16

/-- the identifier of object `n` of its kind -/
def ident (k : Isa) (n : Nat) : Text := lead k ++ number (baseOf k) n

/-- an object of the file -/
structure Obj where
  isa : Isa
  id : Text
  name : Text := []
  path : Text := []
  refs : List (Field × Text) := []
deriving DecidableEq

/-- the place of a file in the order, `m_SortedIndex` -/
def fileNo (p : Proj) (k : Nat) : Nat := (files p).idxOf k

/-- the place of a folder in the order, `m_SortedIndex` -/
def folderNo (p : Proj) (k : Nat) : Nat := (folders p).idxOf k

/-- a file to compile, XCodeProjectGenerator.cpp:322-339 -/
def buildFileObj (p : Proj) (k : Nat) : Obj :=
  { isa := .buildFile, id := ident .buildFile (fileNo p k), refs := [(.fileRef, ident .fileReference (fileNo p k))] }

/-- a file, XCodeProjectGenerator.cpp:342-377 -/
def fileObj (p : Proj) (k : Nat) : Obj :=
  { isa := .fileReference, id := ident .fileReference (fileNo p k)
    name := (p.files[k]?.map File.name).getD [], path := (p.files[k]?.map File.full).getD [] }

/-- what follows the last slash of the path, XCodeProjectGenerator.cpp:392-397; of the root, nothing -/
def shortName (path : Text) : Text := (afterLast '/' path).getD path

/-- a folder, XCodeProjectGenerator.cpp:381-445 -/
def groupObj (p : Proj) (i : Nat) : Obj :=
  let f := (p.folders[i]?).getD ⟨[], [], []⟩
  { isa := .group, id := ident .group (folderNo p i), name := shortName f.path
    refs := (fileOrder p f.files).map (fun k => (.children, ident .fileReference (fileNo p k))) ++
      (folderOrder p f.folders).map (fun c => (.children, ident .group (folderNo p c))) }

/-- the two targets, XCodeProjectGenerator.cpp:447-509 -/
def targetObjs (name : Text) : List Obj :=
  [{ isa := .legacyTarget, id := ident .legacyTarget 0, name := name
     refs := [(.buildConfigurationList, ident .configurationList 1), (.buildPhases, ident .sourcesPhase 0)] },
   { isa := .nativeTarget, id := ident .nativeTarget 0, name := name ++ "-doc".toList
     refs := [(.buildConfigurationList, ident .configurationList 2), (.buildPhases, ident .sourcesPhase 0)] }]

/-- the project, XCodeProjectGenerator.cpp:511-572 -/
def projectObj : Obj :=
  { isa := .project, id := ident .project 0
    refs := [(.buildConfigurationList, ident .configurationList 0), (.mainGroup, ident .group 0),
      (.targets, ident .legacyTarget 0), (.targets, ident .nativeTarget 0)] }

/-- what is compiled, XCodeProjectGenerator.cpp:574-607 -/
def phaseObj (p : Proj) : Obj :=
  { isa := .sourcesPhase, id := ident .sourcesPhase 0
    refs := (files p).map fun k => (.files, ident .buildFile (fileNo p k)) }

/-- where the numbers of the configurations of a list begin, XCodeProjectGenerator.cpp:620, 680, 710, 787 -/
def startId : Nat → Nat
  | 0 => 0
  | 1 => 100
  | _ => 200

/-- the configurations of a list, XCodeProjectGenerator.cpp:609-778 -/
def configObjs (i : Nat) (configs : List Text) : List Obj :=
  configs.zipIdx.map fun c => { isa := .configuration, id := ident .configuration (startId i + c.2), name := c.1 }

/-- a list of configurations, XCodeProjectGenerator.cpp:780-812 -/
def listObj (i : Nat) (configs : List Text) : Obj :=
  { isa := .configurationList, id := ident .configurationList i
    refs := configs.zipIdx.map fun c => (.buildConfigurations, ident .configuration (startId i + c.2)) }

/-- `GeneratePBXProj`, XCodeProjectGenerator.cpp:28-49: all objects in the order they are written -/
def objects (p : Proj) (name : Text) (configs : List Text) : List Obj :=
  (files p).map (buildFileObj p) ++ (files p).map (fileObj p) ++ (folders p).map (groupObj p) ++ targetObjs name ++ [projectObj] ++
    [phaseObj p] ++ (configObjs 0 configs ++ configObjs 1 configs ++ configObjs 2 configs) ++ [listObj 0 configs, listObj 1 configs, listObj 2 configs]

/-- `WriteFooter`, XCodeProjectGenerator.cpp:814-825 -/
def rootObject : Text := ident .project 0

end Verif.Xcode
