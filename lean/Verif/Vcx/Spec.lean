import Verif.Vcx.Xml
import Verif.Str.MatchModel
import Verif.Vcx.Model
/-
What an IDE looks for in a project file.
-/
namespace Verif.Vcx

def Node.kids : Node → List Node
  | .elem _ _ ks => ks
  | .txt _ => []

def Node.attr (a : String) : Node → Option Text
  | .elem _ as _ => (as.find? (·.1 = a.toList)).map (·.2)
  | .txt _ => none

/-- is it an element of this name -/
def Node.is (n : String) : Node → Bool
  | .elem m _ _ => m = n.toList
  | .txt _ => false

/-- the text in an element -/
def Node.text (n : Node) : Text := n.kids.flatMap fun | .txt t => t | .elem .. => []

/-- children of a name -/
def Node.sub (n : Node) (name : String) : List Node := n.kids.filter (·.is name)

/-- the files of a project, with their types -/
def filesIn (root : Node) : List (Option Text × List Text) :=
  (root.sub "ItemGroup").flatMap fun g => (g.kids.filter fun e => e.is "ClCompile" || e.is "CustomBuild").map fun e => (e.attr "Include", (e.sub "FileType").map (·.text))

/-- the configurations of a project -/
def configsIn (root : Node) : List (Option Text) := (root.sub "ItemGroup").flatMap fun g => (g.sub "ProjectConfiguration").map (·.attr "Include")

/-- the properties that hold for a configuration only -/
def propertiesIn (root : Node) (config platform : Text) : List (Text × Text) :=
  ((root.sub "PropertyGroup").filter fun g => g.attr "Condition" = some ("'$(Configuration)|$(Platform)'=='".toList ++ config ++ '|' :: platform ++ ['\''])).flatMap fun g =>
    g.kids.flatMap fun e => match e with | .elem n _ _ => [(n, e.text)] | .txt _ => []

/-- the files of a file of filters, with the filter each is in -/
def placesIn (root : Node) : List (Option Text × List Text) :=
  (root.sub "ItemGroup").flatMap fun g => (g.sub "CustomBuild").map fun e => (e.attr "Include", (e.sub "Filter").map (·.text))

/-- the filters, with their identifiers -/
def filtersIn (root : Node) : List (Option Text × List Text) :=
  (root.sub "ItemGroup").flatMap fun g => (g.sub "Filter").map fun e => (e.attr "Include", (e.sub "UniqueIdentifier").map (·.text))

/-- names that differ in case only -/
def Same (a b : Text) : Prop := a.map Str.lower = b.map Str.lower

/-- a file is in a folder `d` of one of these paths: the path, `d`, a backslash, and a name -/
def InFolder (bases : List Text) (file d : Text) : Prop := ∃ b ∈ bases, ∃ pre name, file = pre ++ d ++ '\\' :: name ∧ '\\' ∉ name ∧ Same pre b

/-- a text that is before a backslash in the path of a file -/
def Within (files : List Text) (d : Text) : Prop := ∃ f ∈ files, ∃ pre rest, backslash f = pre ++ d ++ '\\' :: rest

/-- a text as it is seen in a file: blanks alone are nothing -/
def shown (t : Text) : Text := if blank t then [] else t

/-- what the four properties that can come from the options of the target are -/
structure Derived where
  defines : Text
  includes : Text
  forced : Text
  additional : Text

/-- the properties of a configuration, in the order in which they are in the file: six for the kind of the project, six for debugging, the commands, those for
  Android, those from the options, and the others -/
def Config.told (c : Config) (debug : Text) (d : Derived) : List (String × Text) :=
  [("Keyword", c.f "Keyword"), ("RootNamespace", c.f "RootNamespace"), ("ApplicationType", c.f "ApplicationType"), ("ApplicationTypeRevision", c.f "ApplicationTypeRevision"),
   ("TargetLinuxPlatform", c.f "TargetLinuxPlatform"), ("LinuxProjectType", c.f "LinuxProjectType"),
   ("ConfigurationType", "Makefile".toList), ("UseDebugLibraries", "false".toList), ("PlatformToolset", c.f "PlatformToolset"),
   ("LocalDebuggerCommandArguments", c.f "LocalDebuggerCommandArguments"), ("LocalDebuggerCommand", debug), ("LocalDebuggerEnvironment", c.f "LocalDebuggerEnvironment")] ++
  (if c.f "Keyword" = "Linux".toList then
    [("BuildCommandLine", c.f "ProjectBuildCommand"), ("ReBuildCommandLine", c.f "ProjectRebuildCommand"), ("CleanCommandLine", c.f "ProjectCleanCommand")]
   else [("NMakeBuildCommandLine", c.f "ProjectBuildCommand"), ("NMakeReBuildCommandLine", c.f "ProjectRebuildCommand"), ("NMakeCleanCommandLine", c.f "ProjectCleanCommand")]) ++
  [("AndroidApkLocation", c.f "AndroidApkLocation"), ("AndroidDebugComponent", c.f "AndroidDebugComponent"), ("AndroidDebugTarget", c.f "AndroidDebugTarget"),
   ("AndroidJdb", c.f "AndroidJdb"), ("AndroidLldbPostAttachCommands", c.f "AndroidLldbPostAttachCommands"), ("AndroidLldbStartupCommands", c.f "AndroidLldbStartupCommands"),
   ("AndroidPostApkInstallCommands", c.f "AndroidPostApkInstallCommands"), ("AndroidPreApkInstallCommands", c.f "AndroidPreApkInstallCommands"),
   ("AndroidSymbolDirectories", c.f "AndroidSymbolDirectories"), ("AndroidWaitForDebugger", c.f "AndroidWaitForDebugger"), ("LaunchFlags", c.f "LaunchFlags"),
   ("NMakeOutput", c.f "Output"), ("NMakePreprocessorDefinitions", d.defines), ("NMakeIncludeSearchPath", d.includes), ("NMakeForcedIncludes", d.forced),
   ("NMakeAssemblySearchPath", c.f "AssemblySearchPath"), ("NMakeForcedUsingAssemblies", c.f "ForcedUsingAssemblies"), ("AdditionalOptions", d.additional),
   ("Xbox360DebuggerCommand", c.f "Xbox360DebuggerCommand"), ("DebuggerFlavor", c.f "DebuggerFlavor"), ("AumidOverride", c.f "AumidOverride"),
   ("LocalDebuggerWorkingDirectory", c.f "LocalDebuggerWorkingDirectory"), ("IntDir", c.f "IntermediateDirectory"), ("OutDir", c.f "OutputDirectory"),
   ("PackagePath", c.f "PackagePath"), ("AdditionalSymbolSearchPaths", c.f "AdditionalSymbolSearchPaths"), ("LayoutDir", c.f "LayoutDir"),
   ("LayoutExtensionFilter", c.f "LayoutExtensionFilter"), ("RemoteDebuggerCommand", c.f "RemoteDebuggerCommand"),
   ("RemoteDebuggerCommandArguments", c.f "RemoteDebuggerCommandArguments"), ("RemoteDebuggerWorkingDirectory", c.f "RemoteDebuggerWorkingDirectory")]

/-- a property that is given is taken; else it is made of the options of the target, if there are any -/
def Comes (given : Text) (options : Option Text) (make : Text → Option (List Text)) (post : Char) (v : Text) : Prop :=
  if given ≠ [] then v = given else match options with
    | none => v = []
    | some o => ∃ l, make o = some l ∧ v = l.flatMap (· ++ [post])

end Verif.Vcx
