import Verif.Crc.Props
import Verif.Cont.HashModel
import Verif.Sort.Props
/-
Model of solution files for Visual Studio: `SLNNode`, Code/Tools/FBuild/FBuildCore/Graph/SLNNode.cpp ("N" below), and `SLNGenerator`,
Code/Tools/FBuild/FBuildCore/Helpers/SLNGenerator.cpp ("G" below).

Text is a list of characters, one for each byte. What is written is a list of lines; `\r\n` is put behind each of them at the end.
Left open: `ProjectGeneratorBase::GetRelativePath` (`rel`; see C31) and the lookup of projects (`find`; see C18), which fails as well if the
node is not a project.
-/
namespace Verif.Sln

abbrev Text := List Char

/-- `SolutionConfig`, SLNNode.h:33-57 -/
structure Config where
  platform : Text
  config : Text
  solPlatform : Text := []
  solConfig : Text := []
  build : List Text := []
  deploy : List Text := []
  deriving DecidableEq

/-- `SolutionFolder`, SLNNode.h:61-68 -/
structure Folder where
  path : Text
  projects : List Text := []
  items : List Text := []
  deriving DecidableEq

/-- `SolutionDependency`, SLNNode.h:72-78 -/
structure Dep where
  projects : List Text
  deps : List Text
  deriving DecidableEq

/-- `VSProjectBaseNode`: its name is its path; `tuples` are platform and configuration -/
structure Project where
  name : Text
  guid : Text
  typeGuid : Text
  tuples : List (Text × Text)
  deriving DecidableEq

/-- what the build file says -/
structure Input where
  version : Text := []
  minVersion : Text := []
  projects : List Text := []
  configs : List Config := []
  folders : List Folder := []
  deps : List Dep := []
  /-- `m_BaseSolutionConfig` -/
  baseBuild : List Text := []
  baseDeploy : List Text := []

/-- what the node has after `Initialize` -/
structure Sln where
  version : Text
  minVersion : Text
  configs : List Config
  folders : List Folder
  deps : List Dep
  projects : List Project
  deriving DecidableEq

/-! ### SLNNode -/

def win32 : Text := ['W', 'i', 'n', '3', '2']
def x64 : Text := ['x', '6', '4']
def x86 : Text := ['x', '8', '6']
def debug : Text := ['D', 'e', 'b', 'u', 'g']
def release : Text := ['R', 'e', 'l', 'e', 'a', 's', 'e']

/-- N:94-112 -/
def defaultConfigs (inp : Input) : List Config :=
  [(win32, debug), (win32, release), (x64, debug), (x64, release)].map fun (p, c) => { platform := p, config := c, build := inp.baseBuild, deploy := inp.baseDeploy }

/-- N:115-135 -/
def fixConfig (c : Config) : Config :=
  let solConfig := if c.solConfig = [] then c.config else c.solConfig
  let solPlatform := if c.solPlatform = [] then c.platform else c.solPlatform
  { c with solConfig := solConfig, solPlatform := if Cont.equalsI solPlatform win32 then x86 else solPlatform }

/-- `AString::Compare` and `CompareI` of texts, as `<` -/
def textLt : Text → Text → Bool
  | _, [] => false
  | [], _ :: _ => true
  | a :: s, b :: t => if a = b then textLt s t else decide (a < b)

def lowerText (t : Text) : Text := t.map Str.lower

/-- `SolutionConfig::operator<`, SLNNode.h:51-56 -/
def configLt (a b : Config) : Bool :=
  if lowerText a.config = lowerText b.config then textLt a.solPlatform b.solPlatform else textLt (lowerText a.config) (lowerText b.config)

/-- `Array::Sort` -/
def sortBy {α : Type} (lt : α → α → Bool) (l : List α) : List α := (Sort.shellSort lt l).getD l

/-- N:141-148 -/
def fixPath (p : Text) : Text :=
  let p := p.map fun c => if c = '/' then '\\' else c
  if p.getLast? = some '\\' then p.dropLast else p

/-- N:152-182 for one folder -/
def collapseInto (f : Folder) : List Folder → List Folder
  | [] => [f]
  | g :: l => if g.path = f.path then { g with projects := g.projects ++ f.projects, items := g.items ++ f.items } :: l else g :: collapseInto f l

/-- N:151-183 -/
def collapse (l : List Folder) : List Folder := l.foldl (fun acc f => collapseInto f acc) []

/-- `GatherProjects`, N:296-348 -/
def gather (find : Text → Option Project) : List Text → List Project → Option (List Project)
  | [], acc => some acc
  | n :: l, acc => match find n with
    | none => none
    | some p => gather find l (if p ∈ acc then acc else acc ++ [p])

/-- N:188-230: the names in the order of `GatherProjects` -/
def named (projects : List Text) (folders : List Folder) (deps : List Dep) (configs : List Config) : List Text :=
  projects ++ folders.flatMap (·.projects) ++ deps.flatMap (fun d => d.projects ++ d.deps) ++ configs.flatMap (fun c => c.build ++ c.deploy)

/-- N:237-263 -/
def hasConfigs (configs : List Config) (p : Project) : Bool := configs.all fun c => (c.platform, c.config) ∈ p.tuples

/-- `SLNNode::Initialize`, N:88-275; `none`: an error -/
def init (find : Text → Option Project) (inp : Input) : Option Sln :=
  let configs := sortBy configLt ((if inp.configs = [] then defaultConfigs inp else inp.configs).map fixConfig)
  let folders := collapse (inp.folders.map fun f => { f with path := fixPath f.path })
  match gather find (named inp.projects folders inp.deps configs) [] with
  | none => none
  | some ps =>
    let ps := sortBy (fun a b => textLt a.name b.name) ps
    if ps.all (hasConfigs configs) then some ⟨inp.version, inp.minVersion, configs, folders, inp.deps, ps⟩ else none

/-! ### SLNGenerator -/

def hexDigit (n : Nat) : Char := if n < 10 then Char.ofNat (48 + n) else Char.ofNat (87 + n)

/-- `%08x` -/
def hex8 (x : BitVec 32) : Text := (List.range 8).reverse.map fun i => hexDigit (x.toNat / 16 ^ i % 16)

/-- `VSProjectGenerator::FormatDeterministicProjectGUID`, VSProjectGenerator.cpp:82-88 -/
def formatGuid (win : Bool) (name : Text) : Text :=
  let name := if win then name else name.map fun c => if c = '/' then '\\' else c
  '{' :: hex8 (Crc.crcCalc 0 (name.map fun c => BitVec.ofNat 8 c.toNat)) ++ "-6c94-4f93-bc2a-7f5284b7d434}".toList

/-- `AString::ToUpper`, AString.cpp:782-796 -/
def upperChar (c : Char) : Char := if 'a' ≤ c ∧ c ≤ 'z' then Char.ofNat (c.toNat - 32) else c
def upper (t : Text) : Text := t.map upperChar

def slash (win : Bool) : Char := if win then '\\' else '/'

/-- behind the last `c`, if there is one -/
def afterLast (c : Char) (t : Text) : Option Text :=
  if c ∈ t then some (t.reverse.takeWhile (· ≠ c)).reverse else none

/-- before the last `c`, if there is one -/
def beforeLast (c : Char) (t : Text) : Option Text :=
  if c ∈ t then some ((t.reverse.dropWhile (· ≠ c)).drop 1).reverse else none

/-- the text between two positions; `none`: `end < start` -/
def cut (start stop : Nat) (t : Text) : Option Text := if stop < start then none else some ((t.take stop).drop start)

/-- G:127-130 -/
def projectName (win : Bool) (path : Text) : Option Text :=
  let start := match afterLast (slash win) path with | some t => path.length - t.length | none => 0
  let stop := match beforeLast '.' path with | some t => t.length | none => path.length
  cut start stop path

def qsep : Text := "\", \"".toList
def projOpen : Text := "Project(\"".toList
def projEq : Text := "\") = \"".toList
def quote : Text := ['"']
def endProject : Text := "EndProject".toList
def endProjectSection : Text := "\tEndProjectSection".toList
def endGlobalSection : Text := "\tEndGlobalSection".toList
def projectSection : Text := "\tProjectSection(".toList
def globalSection : Text := "\tGlobalSection(".toList
def closing : Text := ")".toList
def postProject : Text := " = postProject".toList
def preProject : Text := " = preProject".toList
def preSolution : Text := " = preSolution".toList
def postSolution : Text := " = postSolution".toList
def tabs : Text := ['\t', '\t']
def eqs : Text := [' ', '=', ' ']
def sDeps : Text := "ProjectDependencies".toList
def sItems : Text := "SolutionItems".toList
def sConfigs : Text := "SolutionConfigurationPlatforms".toList
def sMapping : Text := "ProjectConfigurationPlatforms".toList
def sProps : Text := "SolutionProperties".toList
def sNested : Text := "NestedProjects".toList
def sActive : Text := ".ActiveCfg".toList
def sBuild : Text := ".Build.0".toList
def sDeploy : Text := ".Deploy.0".toList
def sGlobal : Text := "Global".toList
def sEndGlobal : Text := "EndGlobal".toList
def sHide : Text := "HideSolutionNode".toList
def sFalse : Text := "FALSE".toList
def folderType : Text := "{2150E333-8FDC-42A3-9474-1A3956D46DE8}".toList

/-- a line `\t\tkey = value` -/
def pairLine (kv : Text × Text) : Text := tabs ++ kv.1 ++ eqs ++ kv.2

/-- the first line of a project, G:153-157 -/
def projectLine (type name path guid : Text) : Text := projOpen ++ type ++ projEq ++ name ++ qsep ++ path ++ qsep ++ guid ++ quote

/-- `Scan( "%u" )`, G:93; a number that is not there counts as 0 -/
def scanU (t : Text) : Nat := (t.takeWhile Char.isDigit).foldl (fun n c => n * 10 + (c.toNat - 48)) 0

/-- G:68-109 -/
def header (s : Sln) : List Text :=
  let version := if s.version = [] then "14.0.22823.1".toList else s.version
  let minimum := if s.minVersion = [] then "10.0.40219.1".toList else s.minVersion
  let short := version.takeWhile (· ≠ '.')
  ["Microsoft Visual Studio Solution File, Format Version 12.00".toList,
   (if 16 ≤ scanU short then "# Visual Studio Version ".toList else "# Visual Studio ".toList) ++ short,
   "VisualStudioVersion = ".toList ++ version,
   "MinimumVisualStudioVersion = ".toList ++ minimum]

/-- G:160-182 -/
def dependencyGuids (s : Sln) (p : Project) : List Text :=
  s.deps.flatMap fun d => if p.name ∈ d.projects then d.deps.filterMap fun n => (s.projects.find? (·.name = n)).map (·.guid) else []

/-- G:183-191 -/
def dependencyLines (guids : List Text) : List Text :=
  if guids = [] then [] else
    [projectSection ++ sDeps ++ closing ++ postProject] ++ guids.map (fun g => pairLine (g, g)) ++ [endProjectSection]

/-- G:122-193 for one project; `none`: undefined -/
def projectLines (win : Bool) (rel : Text → Text) (s : Sln) (p : Project) : Option (List Text) :=
  (projectName win p.name).map fun n =>
    [projectLine (upper p.typeGuid) n (rel p.name) (upper p.guid)] ++ dependencyLines (dependencyGuids s p) ++ [endProject]

/-- G:196-212 -/
def projectsToFolders (win : Bool) (s : Sln) : List (Text × Text) :=
  s.projects.flatMap fun p => (s.folders.filter fun f => p.name ∈ f.projects).map fun f => (upper p.guid, upper (formatGuid win f.path))

/-- the parts of a path that end before a backslash, G:229-239 -/
def parents : Text → List Text
  | [] => []
  | c :: t => if c = '\\' then [] :: (parents t).map (c :: ·) else (parents t).map (c :: ·)

/-- G:222-240 -/
def addPath (acc : List Text) (p : Text) : List Text := if p ∈ acc then acc else acc ++ [p]

def folderPaths (s : Sln) : List Text :=
  sortBy textLt ((s.folders.flatMap fun f => f.path :: parents f.path).foldl addPath [])

/-- G:263-290 -/
def itemLines (rel : Text → Text) (s : Sln) (path : Text) : List Text :=
  s.folders.flatMap fun f =>
    if Cont.equalsI path f.path ∧ f.items ≠ [] then
      [projectSection ++ sItems ++ closing ++ preProject] ++ (sortBy textLt f.items).map (fun i => pairLine (rel i, rel i)) ++ [endProjectSection]
    else []

/-- G:246-293 for one folder -/
def folderLines (win : Bool) (rel : Text → Text) (s : Sln) (path : Text) : List Text :=
  let name := (afterLast '\\' path).getD path
  [projectLine folderType name name (upper (formatGuid win path))] ++ itemLines rel s path ++ [endProject]

def cfg (a b : Text) : Text := a ++ '|' :: b

/-- a section of `Global` -/
def section_ (name tail : Text) (pairs : List (Text × Text)) : List Text :=
  [globalSection ++ name ++ closing ++ tail] ++ pairs.map pairLine ++ [endGlobalSection]

/-- G:298-314 -/
def configPairs (s : Sln) : List (Text × Text) := s.configs.map fun c => (cfg c.solConfig c.solPlatform, cfg c.solConfig c.solPlatform)

/-- the key of a project and a configuration of the solution -/
def key (p : Project) (c : Config) (what : Text) : Text := upper p.guid ++ '.' :: cfg c.solConfig c.solPlatform ++ what

/-- G:325-379 -/
def mappingPairs (s : Sln) : List (Text × Text) :=
  s.projects.flatMap fun p => s.configs.flatMap fun c =>
    [(key p c sActive, cfg c.config c.platform)] ++
    (if c.build.any (fun n => Cont.equalsI n p.name) then [(key p c sBuild, cfg c.config c.platform)] else []) ++
    (if c.deploy.any (fun n => Cont.equalsI n p.name) then [(key p c sDeploy, cfg c.config c.platform)] else [])

/-- G:407-430 -/
def folderParents (win : Bool) (s : Sln) : List (Text × Text) :=
  (folderPaths s).filterMap fun p => (beforeLast (slash win) p).map fun q => (upper (formatGuid win p), upper (formatGuid win q))

/-- G:391-434 -/
def nestedLines (win : Bool) (s : Sln) : List Text :=
  if projectsToFolders win s = [] ∧ folderPaths s = [] then [] else section_ sNested preSolution (projectsToFolders win s ++ folderParents win s)

/-- `GenerateSLN`, G:32-64 -/
def lines (win : Bool) (rel : Text → Text) (s : Sln) : Option (List Text) :=
  (s.projects.mapM (projectLines win rel s)).map fun ps =>
    header s ++ ps.flatten ++ (folderPaths s).flatMap (folderLines win rel s) ++ [sGlobal] ++ section_ sConfigs preSolution (configPairs s) ++
    section_ sMapping postSolution (mappingPairs s) ++ section_ sProps preSolution [(sHide, sFalse)] ++ nestedLines win s ++ [sEndGlobal]

/-- the file -/
def text (win : Bool) (rel : Text → Text) (s : Sln) : Option Text :=
  (lines win rel s).map fun l => l.flatMap (· ++ ['\r', '\n'])

end Verif.Sln
