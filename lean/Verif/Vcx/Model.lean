import Verif.Vcx.Xml
import Verif.Sln.Model
import Verif.Ide.Options
import Verif.Str.MatchModel
/-
Model of project files for Visual Studio: `VSProjectGenerator`, Code/Tools/FBuild/FBuildCore/Helpers/VSProjectGenerator.cpp ("V" below).

What is written is a list of lines. Left open: `ProjectGeneratorBase::GetRelativePath` to the folder of the project (`rel`; C31), the hash of folders (`hash`),
the options of the target that is found for a configuration (`options`), and its program (`debugTarget`).
-/
namespace Verif.Vcx

/-! ### Lines -/

inductive Line
  /-- `<name attributes>` -/
  | op (ind : Nat) (n : String) (as : List (String × Text))
  /-- `</name>` -/
  | cl (ind : Nat) (n : String)
  /-- `<name attributes />` -/
  | em (ind : Nat) (n : String) (as : List (String × Text))
  /-- `<name>text</name>` -/
  | raw (ind : Nat) (n : String) (t : Text)

def attrs (as : List (String × Text)) : List (Text × Text) := as.map fun a => (a.1.toList, a.2)

def spaces (n : Nat) : Text := List.replicate n ' '

/-- without the end of the line -/
def printLine : Line → Text
  | .op i n as => spaces i ++ openTag n.toList (attrs as)
  | .cl i n => spaces i ++ closeTag n.toList
  | .em i n as => spaces i ++ emptyTag n.toList (attrs as)
  | .raw i n t => spaces i ++ openTag n.toList [] ++ t ++ closeTag n.toList

def print (l : Line) : Text := printLine l ++ ['\n']

/-- lines between `<name>` and `</name>` -/
def blk (i : Nat) (n : String) (as : List (String × Text)) (body : List Line) : List Line := .op i n as :: body ++ [.cl i n]

/-- V:611-622 -/
def escapeChar (c : Char) : Text := if c = '>' then ['&', 'g', 't', ';'] else if c = '<' then ['&', 'l', 't', ';'] else if c = '&' then ['&', 'a', 'm', 'p', ';'] else [c]
def escape (t : Text) : Text := t.flatMap escapeChar

/-- `WritePGItem`, V:602-625 -/
def pg (n : String) (v : Text) : List Line := if v = [] then [] else [.raw 4 n (escape v)]

/-! ### What is given -/

/-- `VSProjectConfig`; `f` gives the value of a member by its name -/
structure Config where
  platform : Text
  config : Text
  f : String → Text
  /-- the options of the list of objects that `FindTargetForIntellisenseInfo` gives -/
  options : Option Text := none
  debugTarget : Option Text := none

structure Project where
  configs : List Config
  files : List Text := []
  basePaths : List Text := []
  /-- pattern and type -/
  fileTypes : List (Text × Text) := []
  /-- condition and project -/
  imports : List (Text × Text) := []
  references : List Text := []
  projectReferences : List Text := []
  rootNamespace : Text := []
  guid : Text
  defaultLanguage : Text := []
  sak : Bool := false
  appEnv : Text := []

def backslash (t : Text) : Text := t.map fun c => if c = '/' then '\\' else c

/-- on other systems than Windows slashes are turned, V:363-365, 380-382, 677-679 -/
def relative (win : Bool) (rel : Text → Text) (t : Text) : Text := if win then rel t else backslash (rel t)

/-! ### Files -/

/-- `FileAscendingCompareIDeref`, V:25-33 -/
def fileLt (a b : Text × Text) : Bool := Sln.textLt (a.2.map Str.lower) (b.2.map Str.lower)

/-- V:690-703 -/
def dedup (prev : Text × Text) : List (Text × Text) → List (Text × Text)
  | [] => []
  | f :: l => if Cont.equalsI f.2 prev.2 then dedup prev l else f :: dedup f l

/-- `CanonicalizeFilePaths`, V:651-711, of the files of `AddFile`, V:60-67: absolute and relative paths -/
def uniqueFiles (win : Bool) (rel : Text → Text) (files : List Text) : List (Text × Text) :=
  match Sln.sortBy fileLt ((files.map backslash).map fun f => (f, relative win rel f)) with
  | [] => []
  | f :: l => f :: dedup f l

/-- V:142-150 -/
def fileType (types : List (Text × Text)) (name : Text) : Option Text := (types.find? fun t => Str.matchI t.1 name = some true).map (·.2)

/-- V:135, 151-160 -/
def fileLines (entry : String) (types : List (Text × Text)) (f : Text × Text) : List Line :=
  match fileType types f.2 with
  | some t => blk 4 entry [("Include", f.2)] [.raw 8 "FileType" t]
  | none => [.em 4 entry [("Include", f.2)]]

/-- V:169-187 -/
def projectReference (r : Text) : List Line :=
  if '|' ∈ r then blk 4 "ProjectReference" [("Include", r.takeWhile (· ≠ '|'))] [.raw 6 "Project" ((r.dropWhile (· ≠ '|')).drop 1)]
  else [.em 4 "ProjectReference" [("Include", r)]]

/-! ### Configurations -/

def condition (c : Config) : Text := "'$(Configuration)|$(Platform)'=='".toList ++ c.config ++ '|' :: c.platform ++ ['\'']

/-- tags and members that are written as they are -/
def items (c : Config) (l : List (String × String)) : List Line := l.flatMap fun (tag, m) => pg tag (c.f m)

/-- `ConcatIntellisenseOptions` with something behind each -/
def concat (l : List Text) (post : Char) : Text := l.flatMap (· ++ [post])

/-- V:215-237 -/
def globalItems : List (String × String) :=
  [("Keyword", "Keyword"), ("RootNamespace", "RootNamespace"), ("ApplicationType", "ApplicationType"), ("ApplicationTypeRevision", "ApplicationTypeRevision"),
   ("TargetLinuxPlatform", "TargetLinuxPlatform"), ("LinuxProjectType", "LinuxProjectType")]

def globalLines (c : Config) : List Line :=
  if globalItems.all (fun x => c.f x.2 = []) then [] else blk 2 "PropertyGroup" [("Condition", condition c), ("Label", "Globals".toList)] (items c globalItems)

/-- V:242-272 -/
def configurationLines (rel : Text → Text) (c : Config) : List Line :=
  let command := if c.f "LocalDebuggerCommand" = [] then (match c.debugTarget with | some t => rel t | none => []) else c.f "LocalDebuggerCommand"
  blk 2 "PropertyGroup" [("Condition", condition c), ("Label", "Configuration".toList)]
    ([.raw 4 "ConfigurationType" "Makefile".toList, .raw 4 "UseDebugLibraries" "false".toList] ++ pg "PlatformToolset" (c.f "PlatformToolset") ++
     pg "LocalDebuggerCommandArguments" (c.f "LocalDebuggerCommandArguments") ++ pg "LocalDebuggerCommand" command ++ pg "LocalDebuggerEnvironment" (c.f "LocalDebuggerEnvironment"))

/-- V:281-289 -/
def sheetLines (c : Config) : List Line :=
  blk 2 "ImportGroup" [("Label", "PropertySheets".toList), ("Condition", condition c)]
    [.em 4 "Import" [("Project", "$(UserRootDir)\\Microsoft.Cpp.$(Platform).user.props".toList), ("Condition", "exists('$(UserRootDir)\\Microsoft.Cpp.$(Platform).user.props')".toList),
      ("Label", "LocalAppDataPlatform".toList)]]

/-- V:302-313 -/
def commandItems (linux : Bool) : List (String × String) :=
  if linux then [("BuildCommandLine", "ProjectBuildCommand"), ("ReBuildCommandLine", "ProjectRebuildCommand"), ("CleanCommandLine", "ProjectCleanCommand")]
  else [("NMakeBuildCommandLine", "ProjectBuildCommand"), ("NMakeReBuildCommandLine", "ProjectRebuildCommand"), ("NMakeCleanCommandLine", "ProjectCleanCommand")]

/-- V:314-326 -/
def androidItems : List (String × String) :=
  [("AndroidApkLocation", "AndroidApkLocation"), ("AndroidDebugComponent", "AndroidDebugComponent"), ("AndroidDebugTarget", "AndroidDebugTarget"), ("AndroidJdb", "AndroidJdb"),
   ("AndroidLldbPostAttachCommands", "AndroidLldbPostAttachCommands"), ("AndroidLldbStartupCommands", "AndroidLldbStartupCommands"),
   ("AndroidPostApkInstallCommands", "AndroidPostApkInstallCommands"), ("AndroidPreApkInstallCommands", "AndroidPreApkInstallCommands"),
   ("AndroidSymbolDirectories", "AndroidSymbolDirectories"), ("AndroidWaitForDebugger", "AndroidWaitForDebugger"), ("LaunchFlags", "LaunchFlags"), ("NMakeOutput", "Output")]

/-- V:405-417 -/
def otherItems : List (String × String) :=
  [("Xbox360DebuggerCommand", "Xbox360DebuggerCommand"), ("DebuggerFlavor", "DebuggerFlavor"), ("AumidOverride", "AumidOverride"),
   ("LocalDebuggerWorkingDirectory", "LocalDebuggerWorkingDirectory"), ("IntDir", "IntermediateDirectory"), ("OutDir", "OutputDirectory"), ("PackagePath", "PackagePath"),
   ("AdditionalSymbolSearchPaths", "AdditionalSymbolSearchPaths"), ("LayoutDir", "LayoutDir"), ("LayoutExtensionFilter", "LayoutExtensionFilter"),
   ("RemoteDebuggerCommand", "RemoteDebuggerCommand"), ("RemoteDebuggerCommandArguments", "RemoteDebuggerCommandArguments"),
   ("RemoteDebuggerWorkingDirectory", "RemoteDebuggerWorkingDirectory")]

/-- `oln`, V:327-331: looked for if definitions or include paths are not given -/
def oln (c : Config) : Option Text := if c.f "PreprocessorDefinitions" = [] ∨ c.f "IncludeSearchPath" = [] then c.options else none

/-- a member, or something made of the options, or nothing; V:333-404 -/
def derived (c : Config) (member : String) (make : Text → Option Text) : Option Text :=
  if c.f member ≠ [] then some (c.f member) else match oln c with
    | none => some []
    | some o => make o

/-- V:348-353: both are extracted whatever is given -/
def extracted (c : Config) : Option (List Text) :=
  match oln c with
  | some o => (Ide.includes false o).bind fun _ => Ide.forced false o
  | none => some []

/-- V:294-420; `none`: an assertion -/
def propertyLines (win : Bool) (rel : Text → Text) (c : Config) : Option (List Line) := do
  let defs ← derived c "PreprocessorDefinitions" fun o => (Ide.defines false o).map (concat · ';')
  let _ ← extracted c
  let incs ← derived c "IncludeSearchPath" fun o => (Ide.includes false o).map fun l => concat (l.map (relative win rel)) ';'
  let forced ← derived c "ForcedIncludes" fun o => (Ide.forced false o).map fun l => concat (l.map (relative win rel)) ';'
  let add ← derived c "AdditionalOptions" fun o => (Ide.additional o).map (concat · ' ')
  some (blk 2 "PropertyGroup" [("Condition", condition c)]
    (items c (commandItems (c.f "Keyword" = "Linux".toList)) ++ items c androidItems ++ pg "NMakePreprocessorDefinitions" defs ++ pg "NMakeIncludeSearchPath" incs ++
     pg "NMakeForcedIncludes" forced ++ items c [("NMakeAssemblySearchPath", "AssemblySearchPath"), ("NMakeForcedUsingAssemblies", "ForcedUsingAssemblies")] ++
     pg "AdditionalOptions" add ++ items c otherItems))

/-- V:422-452 -/
def definitionLines (c : Config) : List Line :=
  blk 2 "ItemDefinitionGroup" [("Condition", condition c)]
    (blk 4 "BuildLog" [] (if c.f "BuildLogFile" = [] then [.em 6 "Path" []] else pg "Path" (c.f "BuildLogFile")) ++
     (if c.f "DeploymentType" = [] ∧ c.f "DeploymentFiles" = [] then []
      else blk 4 "Deploy" [] (items c [("DeploymentType", "DeploymentType"), ("DeploymentFiles", "DeploymentFiles")])) ++
     (if c.f "CompileFileCommand" = [] then [] else blk 4 "NMakeCompile" [] (items c [("NMakeCompileFileCommandLine", "CompileFileCommand")])))

/-- V:113-124 -/
def configLines (c : Config) : List Line :=
  blk 4 "ProjectConfiguration" [("Include", c.config ++ '|' :: c.platform)] [.raw 6 "Configuration" c.config, .raw 6 "Platform" c.platform]

/-- V:111, 125-128, 135 -/
def entryType (p : Project) : String := if p.configs.any (fun c => c.f "CompileFileCommand" ≠ []) then "ClCompile" else "CustomBuild"

/-- V:198-213 -/
def projectGlobals (p : Project) : List Line :=
  pg "RootNamespace" p.rootNamespace ++ pg "ProjectGuid" p.guid ++ pg "DefaultLanguage" p.defaultLanguage ++ pg "Keyword" "MakeFileProj".toList ++
  (if p.sak then pg "SccProjectName" "SAK".toList ++ pg "SccAuxPath" "SAK".toList ++ pg "SccLocalPath" "SAK".toList ++ pg "SccProvider" "SAK".toList else []) ++
  pg "ApplicationEnvironment" p.appEnv

def nothing : List Line := []

/-- the children of the root, V:107-462 -/
def bodyLines (win : Bool) (rel : Text → Text) (p : Project) : Option (List Line) := do
  let props ← p.configs.mapM (propertyLines win rel)
  some (blk 2 "ItemGroup" [("Label", "ProjectConfigurations".toList)] (p.configs.flatMap configLines) ++
    blk 2 "ItemGroup" [] ((uniqueFiles win rel p.files).flatMap (fileLines (entryType p) p.fileTypes)) ++
    blk 2 "ItemGroup" [] (p.projectReferences.flatMap projectReference ++ p.references.flatMap fun r => [.em 4 "Reference" [("Include", r)]]) ++
    blk 2 "PropertyGroup" [("Label", "Globals".toList)] (projectGlobals p) ++
    p.configs.flatMap globalLines ++
    [.em 2 "Import" [("Project", "$(VCTargetsPath)\\Microsoft.Cpp.Default.props".toList)]] ++
    p.configs.flatMap (configurationLines rel) ++
    [.em 2 "Import" [("Project", "$(VCTargetsPath)\\Microsoft.Cpp.props".toList)]] ++
    blk 2 "ImportGroup" [("Label", "ExtensionSettings".toList)] nothing ++
    p.configs.flatMap sheetLines ++
    [.em 2 "PropertyGroup" [("Label", "UserMacros".toList)]] ++
    props.flatten ++
    p.configs.flatMap definitionLines ++
    [.em 2 "Import" [("Project", "$(VCTargetsPath)\\Microsoft.Cpp.targets".toList)]] ++
    blk 2 "ImportGroup" [("Label", "ExtensionTargets".toList)] nothing ++
    p.imports.flatMap fun i => [.em 2 "Import" [("Condition", i.1), ("Project", i.2)]])

def header : Text := "<?xml version=\"1.0\" encoding=\"utf-8\"?>\n".toList

def xmlns : String × Text := ("xmlns", "http://schemas.microsoft.com/developer/msbuild/2003".toList)
def projectAttrs : List (String × Text) := [("DefaultTargets", "Build".toList), ("ToolsVersion", "15.0".toList), xmlns]
def filterAttrs : List (String × Text) := [("ToolsVersion", "4.0".toList), xmlns]

/-- a file with these children of the root -/
def fileText (as : List (String × Text)) (body : List Line) : Text :=
  header ++ print (.op 0 "Project" as) ++ body.flatMap print ++ printLine (.cl 0 "Project")

/-- the identifier of a project that does not give one, VCXProjectNode.cpp:211-225; `dir` is the working directory -/
def projectGuid (win : Bool) (dir name : Text) : Text :=
  Sln.formatGuid win ((if dir.isPrefixOf name then name.drop (dir.length + 1) else name).map fun c => if c = '\\' then '/' else c)

/-- `GenerateVCXProj`, V:89-466 -/
def projectText (win : Bool) (rel : Text → Text) (p : Project) : Option Text := (bodyLines win rel p).map (fileText projectAttrs)

/-! ### Filters -/

/-- `BeginsWithI` -/
def beginsWithI (s root : Text) : Bool := decide (root.length ≤ s.length) && Cont.equalsI (s.take root.length) root

/-- `GetFolderPath`, V:627-649 -/
def folderOf (bases : List Text) (file : Text) : Text :=
  match bases with
  | [] => []
  | b :: bases =>
    let stop := match Sln.beforeLast '\\' file with | some t => t.length | none => file.length
    if beginsWithI file b ∧ b.length < stop then (file.take stop).drop b.length else folderOf bases file

/-- a folder, and the folders it is V:, V:516-538 -/
def chain (folder : Text) : List Text := folder :: (Sln.parents folder).reverse

/-- V:518-538: `none`: the assertion that a folder has a name -/
def addFolders (hash : Text → BitVec 32) : List Text → List Text → Option (List Text)
  | folders, [] => some folders
  | folders, f :: l => if hash f ∈ folders.map hash then some folders else if f = [] then none else addFolders hash (folders ++ [f]) l

/-- V:495-540: the folders; `last` is `lastFolder` -/
def foldersOf (hash : Text → BitVec 32) : List Text → Text → List Text → Option (List Text)
  | [], _, folders => some folders
  | f :: l, last, folders =>
    if f = [] ∨ f = last then foldersOf hash l last folders
    else (addFolders hash folders (chain f)).bind (foldersOf hash l f)

/-- V:497-509 -/
def filterFile (folder : Text) (f : Text × Text) : List Line :=
  blk 4 "CustomBuild" [("Include", f.2)] (if folder = [] then [] else [.raw 6 "Filter" folder])

/-- V:552-556 -/
def filterLines (hash : Text → BitVec 32) (f : Text) : List Line :=
  blk 2 "ItemGroup" [] (blk 4 "Filter" [("Include", f)] [.raw 6 "UniqueIdentifier" ('{' :: Sln.hex8 (hash f) ++ "-6c94-4f93-bc2a-7f5284b7d434}".toList)])

/-- the folder of a file of the project; base paths have backslashes, V:660-666 -/
def folder (win : Bool) (p : Project) (f : Text × Text) : Text := folderOf (if win then p.basePaths else p.basePaths.map backslash) f.1

/-- `GenerateVCXProjFilters`, V:468-565 -/
def filtersText (win : Bool) (rel : Text → Text) (hash : Text → BitVec 32) (p : Project) : Option Text :=
  let files := uniqueFiles win rel p.files
  (foldersOf hash (files.map (folder win p)) [] []).map fun folders =>
    fileText filterAttrs (blk 2 "ItemGroup" [] (files.flatMap fun f => filterFile (folder win p f) f) ++ folders.flatMap (filterLines hash))

end Verif.Vcx
