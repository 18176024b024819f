import Verif.Vcx.Proof
import Verif.Vcx.Spec
/-
The documents that the files are read as.
-/
namespace Verif.Vcx

/-- nothing in the project needs escaping where it is not escaped, and no value is of blanks only -/
structure Plains (win : Bool) (rel : Text → Text) (p : Project) : Prop where
  file : ∀ f ∈ p.files, Safe (relative win rel (backslash f))
  type : ∀ t ∈ p.fileTypes, SafeText t.2
  config : ∀ c ∈ p.configs, Safe c.config ∧ Safe c.platform
  reference : ∀ r, r ∈ p.references ∨ r ∈ p.projectReferences → Safe r
  imported : ∀ i ∈ p.imports, Safe i.1 ∧ Safe i.2

theorem Safe.text {t : Text} (h : Safe t) : SafeText t := fun c hc => (h c hc).2

theorem safe_append {a b : Text} : Safe (a ++ b) ↔ Safe a ∧ Safe b := by
  simp only [Safe, List.mem_append]
  exact ⟨fun h => ⟨fun c hc => h c (.inl hc), fun c hc => h c (.inr hc)⟩, fun h c hc => hc.elim (h.1 c) (h.2 c)⟩

theorem safe_cons {c : Char} {b : Text} : Safe (c :: b) ↔ (c ≠ '"' ∧ c ≠ '<' ∧ c ≠ '&') ∧ Safe b := by
  simp only [Safe, List.mem_cons, forall_eq_or_imp]

theorem condition_safe {c : Config} (h : Safe c.config ∧ Safe c.platform) : Safe (condition c) := by
  unfold condition
  simp only [safe_append, safe_cons]
  exact ⟨⟨⟨by decide, h.1⟩, by decide, h.2⟩, by decide⟩

theorem attrsOk_cons {a : String} {v : Text} {as : List (String × Text)} (ha : Name a.toList) (hv : Safe v) (h : AttrsOk as) : AttrsOk ((a, v) :: as) := by
  intro x hx
  rcases List.mem_cons.1 hx with rfl | hx
  · exact ⟨ha, hv⟩
  · exact h x hx

theorem attrsOk_nil : AttrsOk [] := by intro x hx; cases hx

/-! ### Properties -/

/-- an element with a text -/
def leaf (n : String) (v : Text) : Node := .elem n.toList [] (textNode v)
/-- a property, unless it is empty -/
def prop (n : String) (v : Text) : List Node := if v = [] then [] else [leaf n v]
/-- properties -/
def props (l : List (String × Text)) : List Node := l.flatMap fun x => prop x.1 x.2

theorem lines_pg {n : String} {v : Text} (hn : Name n.toList) : Lines (pg n v) (prop n v) := by
  unfold pg prop
  split
  · exact .nil
  · exact .raw hn (reads_escape v)

theorem lines_props {l : List (String × Text)} (h : ∀ x ∈ l, Name x.1.toList) : Lines (l.flatMap fun x => pg x.1 x.2) (props l) :=
  .flatMap fun x hx => lines_pg (h x hx)

theorem items_eq (c : Config) (l : List (String × String)) : items c l = (l.map fun x => (x.1, c.f x.2)).flatMap fun x => pg x.1 x.2 := by
  rw [items, List.flatMap_map]

theorem lines_items {c : Config} {l : List (String × String)} (h : ∀ x ∈ l, Name x.1.toList) : Lines (items c l) (props (l.map fun x => (x.1, c.f x.2))) := by
  rw [items_eq]
  apply lines_props
  intro x hx
  obtain ⟨y, hy, rfl⟩ := List.mem_map.1 hx
  exact h y hy

theorem props_append (a b : List (String × Text)) : props (a ++ b) = props a ++ props b := by simp [props]
theorem props_one (n : String) (v : Text) : props [(n, v)] = prop n v := by simp [props]

/-! ### Sections -/

def configNode (c : Config) : Node :=
  .elem "ProjectConfiguration".toList [("Include".toList, c.config ++ '|' :: c.platform)] [leaf "Configuration" c.config, leaf "Platform" c.platform]

theorem lines_config {c : Config} (h : Safe c.config ∧ Safe c.platform) : Lines (configLines c) [configNode c] := by
  refine .blk (by decide) (attrsOk_cons (by decide) ?_ attrsOk_nil) ?_
  · rw [safe_append, safe_cons]
    exact ⟨h.1, by decide, h.2⟩
  · exact .append (a := [_]) (x := [_]) (.raw (by decide) (reads_safe h.1.text)) (.raw (by decide) (reads_safe h.2.text))

def fileNode (entry : String) (types : List (Text × Text)) (f : Text × Text) : Node :=
  .elem entry.toList [("Include".toList, f.2)] (match fileType types f.2 with | some t => [leaf "FileType" t] | none => [])

theorem entry_name (p : Project) : Name (entryType p).toList := by
  unfold entryType
  split <;> decide

theorem lines_file {entry : String} {types : List (Text × Text)} {f : Text × Text} (he : Name entry.toList) (ht : ∀ t ∈ types, SafeText t.2) (hf : Safe f.2) :
    Lines (fileLines entry types f) [fileNode entry types f] := by
  have ha := attrsOk_cons (a := "Include") (by decide) hf attrsOk_nil
  unfold fileLines fileNode
  cases e : fileType types f.2 with
  | none => exact .em he ha
  | some t =>
    refine .blk he ha (.raw (by decide) (reads_safe ?_))
    unfold fileType at e
    simp only [Option.map_eq_some_iff] at e
    obtain ⟨x, hx, rfl⟩ := e
    exact ht x (List.mem_of_find?_eq_some hx)

def referenceNode (r : Text) : Node :=
  if '|' ∈ r then .elem "ProjectReference".toList [("Include".toList, r.takeWhile (· ≠ '|'))] [leaf "Project" ((r.dropWhile (· ≠ '|')).drop 1)]
  else .elem "ProjectReference".toList [("Include".toList, r)] []

theorem lines_projectReference {r : Text} (h : Safe r) : Lines (projectReference r) [referenceNode r] := by
  unfold projectReference referenceNode
  split
  · refine .blk (by decide) (attrsOk_cons (by decide) ?_ attrsOk_nil) (.raw (by decide) (reads_safe ?_))
    · intro c hc
      exact h c (List.takeWhile_subset _ hc)
    · intro c hc
      exact (h c (List.dropWhile_subset _ (List.drop_subset _ _ hc))).2
  · exact .em (by decide) (attrsOk_cons (by decide) h attrsOk_nil)

theorem lines_reference {r : Text} (h : Safe r) : Lines [.em 4 "Reference" [("Include", r)]] [.elem "Reference".toList [("Include".toList, r)] []] :=
  .em (by decide) (attrsOk_cons (by decide) h attrsOk_nil)

/-- what holds for all configurations -/
def globalPairs (p : Project) : List (String × Text) :=
  [("RootNamespace", p.rootNamespace), ("ProjectGuid", p.guid), ("DefaultLanguage", p.defaultLanguage), ("Keyword", "MakeFileProj".toList)] ++
  (if p.sak then [("SccProjectName", "SAK".toList), ("SccAuxPath", "SAK".toList), ("SccLocalPath", "SAK".toList), ("SccProvider", "SAK".toList)] else []) ++
  [("ApplicationEnvironment", p.appEnv)]

theorem lines_globals (p : Project) : Lines (projectGlobals p) (props (globalPairs p)) := by
  have e : projectGlobals p = (globalPairs p).flatMap fun x => pg x.1 x.2 := by
    unfold projectGlobals globalPairs
    cases p.sak <;> simp [List.flatMap_cons]
  rw [e]
  apply lines_props
  unfold globalPairs
  cases p.sak <;> simp only [Bool.false_eq_true, if_false, if_true, List.append_nil, List.cons_append, List.nil_append, List.forall_mem_cons] <;>
    exact ⟨by decide, by decide, by decide, by decide, by first | decide | exact ⟨by decide, by decide, by decide, by decide, by decide, by simp⟩ | exact ⟨by decide, by simp⟩⟩

/-- a group of properties of a configuration -/
def groupNode (c : Config) (label : List (String × Text)) (l : List (String × Text)) : Node :=
  .elem "PropertyGroup".toList (("Condition".toList, condition c) :: attrs label) (props l)

def configGlobals (c : Config) : List (String × Text) := globalItems.map fun x => (x.1, c.f x.2)

theorem props_nil {l : List (String × Text)} (h : ∀ x ∈ l, x.2 = []) : props l = [] := by
  unfold props
  rw [List.flatMap_eq_nil_iff]
  intro x hx
  rw [prop, if_pos (h x hx)]

theorem lines_configGlobals {c : Config} (h : Safe c.config ∧ Safe c.platform) :
    Lines (globalLines c) (if globalItems.all (fun x => c.f x.2 = []) then [] else [groupNode c [("Label", "Globals".toList)] (configGlobals c)]) := by
  unfold globalLines
  split
  · exact .nil
  · exact .blk (by decide) (attrsOk_cons (by decide) (condition_safe h) (attrsOk_cons (by decide) (by decide) attrsOk_nil)) (lines_items (by decide))

/-- the program to debug -/
def command (rel : Text → Text) (c : Config) : Text :=
  if c.f "LocalDebuggerCommand" = [] then (match c.debugTarget with | some t => rel t | none => []) else c.f "LocalDebuggerCommand"

def configPairs (rel : Text → Text) (c : Config) : List (String × Text) :=
  [("ConfigurationType", "Makefile".toList), ("UseDebugLibraries", "false".toList), ("PlatformToolset", c.f "PlatformToolset"),
   ("LocalDebuggerCommandArguments", c.f "LocalDebuggerCommandArguments"), ("LocalDebuggerCommand", command rel c), ("LocalDebuggerEnvironment", c.f "LocalDebuggerEnvironment")]

theorem lines_configuration {rel : Text → Text} {c : Config} (h : Safe c.config ∧ Safe c.platform) :
    Lines (configurationLines rel c) [groupNode c [("Label", "Configuration".toList)] (configPairs rel c)] := by
  refine .blk (by decide) (attrsOk_cons (by decide) (condition_safe h) (attrsOk_cons (by decide) (by decide) attrsOk_nil)) ?_
  have e : props (configPairs rel c) = [leaf "ConfigurationType" "Makefile".toList, leaf "UseDebugLibraries" "false".toList] ++ prop "PlatformToolset" (c.f "PlatformToolset") ++
      prop "LocalDebuggerCommandArguments" (c.f "LocalDebuggerCommandArguments") ++ prop "LocalDebuggerCommand" (command rel c) ++
      prop "LocalDebuggerEnvironment" (c.f "LocalDebuggerEnvironment") := by
    have h1 : prop "ConfigurationType" "Makefile".toList = [leaf "ConfigurationType" "Makefile".toList] := if_neg (by decide)
    have h2 : prop "UseDebugLibraries" "false".toList = [leaf "UseDebugLibraries" "false".toList] := if_neg (by decide)
    simp only [configPairs, props, List.flatMap_cons, List.flatMap_nil, h1, h2, List.append_assoc, List.append_nil, List.cons_append, List.nil_append]
  rw [e]
  refine .append (.append (.append (.append ?_ (lines_pg (by decide))) (lines_pg (by decide))) (lines_pg (by decide))) (lines_pg (by decide))
  exact .append (a := [_]) (x := [_]) (.raw (by decide) (reads_safe (by decide))) (.raw (by decide) (reads_safe (by decide)))

def sheetNode (c : Config) : Node :=
  .elem "ImportGroup".toList [("Label".toList, "PropertySheets".toList), ("Condition".toList, condition c)]
    [.elem "Import".toList (attrs [("Project", "$(UserRootDir)\\Microsoft.Cpp.$(Platform).user.props".toList), ("Condition", "exists('$(UserRootDir)\\Microsoft.Cpp.$(Platform).user.props')".toList),
      ("Label", "LocalAppDataPlatform".toList)]) []]

theorem lines_sheet {c : Config} (h : Safe c.config ∧ Safe c.platform) : Lines (sheetLines c) [sheetNode c] :=
  .blk (by decide) (attrsOk_cons (by decide) (by decide) (attrsOk_cons (by decide) (condition_safe h) attrsOk_nil)) (.em (by decide) (by decide +kernel))

def pick (c : Config) (l : List (String × String)) : List (String × Text) := l.map fun x => (x.1, c.f x.2)

/-- the properties of a configuration, with those made of the options of its target -/
def propertyPairs (c : Config) (defs incs forced add : Text) : List (String × Text) :=
  pick c (commandItems (c.f "Keyword" = "Linux".toList)) ++ pick c androidItems ++
  [("NMakePreprocessorDefinitions", defs), ("NMakeIncludeSearchPath", incs), ("NMakeForcedIncludes", forced)] ++
  pick c [("NMakeAssemblySearchPath", "AssemblySearchPath"), ("NMakeForcedUsingAssemblies", "ForcedUsingAssemblies")] ++ [("AdditionalOptions", add)] ++ pick c otherItems

theorem lines_property {win : Bool} {rel : Text → Text} {c : Config} {ls : List Line} (h : Safe c.config ∧ Safe c.platform) (hl : propertyLines win rel c = some ls) :
    ∃ defs incs forced add,
      (derived c "PreprocessorDefinitions" fun o => (Ide.defines false o).map (concat · ';')) = some defs ∧
      (derived c "IncludeSearchPath" fun o => (Ide.includes false o).map fun l => concat (l.map (relative win rel)) ';') = some incs ∧
      (derived c "ForcedIncludes" fun o => (Ide.forced false o).map fun l => concat (l.map (relative win rel)) ';') = some forced ∧
      (derived c "AdditionalOptions" fun o => (Ide.additional o).map (concat · ' ')) = some add ∧
      Lines ls [groupNode c [] (propertyPairs c defs incs forced add)] := by
  unfold propertyLines at hl
  obtain ⟨defs, h1, hl⟩ := Option.bind_eq_some_iff.1 hl
  obtain ⟨_, _, hl⟩ := Option.bind_eq_some_iff.1 hl
  obtain ⟨incs, h2, hl⟩ := Option.bind_eq_some_iff.1 hl
  obtain ⟨forced, h3, hl⟩ := Option.bind_eq_some_iff.1 hl
  obtain ⟨add, h4, e⟩ := Option.bind_eq_some_iff.1 hl
  refine ⟨defs, incs, forced, add, h1, h2, h3, h4, ?_⟩
  have e := (Option.some.inj e).symm
  subst e
  refine .blk (by decide) (attrsOk_cons (by decide) (condition_safe h) attrsOk_nil) ?_
  unfold propertyPairs
  rw [props_append, props_append, props_append, props_append, props_append]
  have e3 : props [("NMakePreprocessorDefinitions", defs), ("NMakeIncludeSearchPath", incs), ("NMakeForcedIncludes", forced)] =
      prop "NMakePreprocessorDefinitions" defs ++ prop "NMakeIncludeSearchPath" incs ++ prop "NMakeForcedIncludes" forced := by simp [props]
  rw [e3, props_one, ← List.append_assoc, ← List.append_assoc]
  refine .append (.append (.append (.append (.append (.append (.append ?_ ?_) (lines_pg (by decide))) (lines_pg (by decide))) (lines_pg (by decide))) ?_) (lines_pg (by decide))) ?_
  · apply lines_items
    unfold commandItems
    split <;> decide
  · exact lines_items (by decide)
  · exact lines_items (by decide)
  · exact lines_items (by decide)

/-- the definitions of a configuration -/
def definitionNode (c : Config) : Node :=
  .elem "ItemDefinitionGroup".toList [("Condition".toList, condition c)]
    ([.elem "BuildLog".toList [] (if c.f "BuildLogFile" = [] then [.elem "Path".toList [] []] else prop "Path" (c.f "BuildLogFile"))] ++
     (if c.f "DeploymentType" = [] ∧ c.f "DeploymentFiles" = [] then []
      else [.elem "Deploy".toList [] (props (pick c [("DeploymentType", "DeploymentType"), ("DeploymentFiles", "DeploymentFiles")]))]) ++
     (if c.f "CompileFileCommand" = [] then [] else [.elem "NMakeCompile".toList [] (props (pick c [("NMakeCompileFileCommandLine", "CompileFileCommand")]))]))

theorem lines_definition {c : Config} (h : Safe c.config ∧ Safe c.platform) : Lines (definitionLines c) [definitionNode c] := by
  refine .blk (by decide) (attrsOk_cons (by decide) (condition_safe h) attrsOk_nil) (.append (.append (.blk (by decide) attrsOk_nil ?_) ?_) ?_)
  · split
    · exact .em (by decide) attrsOk_nil
    · exact lines_pg (by decide)
  · split
    · exact .nil
    · exact .blk (by decide) attrsOk_nil (lines_items (by decide))
  · split
    · exact .nil
    · exact .blk (by decide) attrsOk_nil (lines_items (by decide))

/-! ### The project -/

/-- the properties of a configuration -/
def propertyNode (win : Bool) (rel : Text → Text) (c : Config) : Option Node := do
  let defs ← derived c "PreprocessorDefinitions" fun o => (Ide.defines false o).map (concat · ';')
  let incs ← derived c "IncludeSearchPath" fun o => (Ide.includes false o).map fun l => concat (l.map (relative win rel)) ';'
  let forced ← derived c "ForcedIncludes" fun o => (Ide.forced false o).map fun l => concat (l.map (relative win rel)) ';'
  let add ← derived c "AdditionalOptions" fun o => (Ide.additional o).map (concat · ' ')
  some (groupNode c [] (propertyPairs c defs incs forced add))

theorem lines_properties {win : Bool} {rel : Text → Text} : ∀ {l : List Config} {ls : List (List Line)}, (∀ c ∈ l, Safe c.config ∧ Safe c.platform) →
    l.mapM (propertyLines win rel) = some ls → ∃ ns, l.map (propertyNode win rel) = ns.map some ∧ Lines ls.flatten ns := by
  intro l
  induction l with
  | nil =>
    intro ls _ h
    simp only [List.mapM_nil, Option.pure_def, Option.some.injEq] at h
    subst h
    exact ⟨[], rfl, .nil⟩
  | cons c l ih =>
    intro ls hs h
    rw [List.mapM_cons] at h
    obtain ⟨a, h1, h⟩ := Option.bind_eq_some_iff.1 h
    obtain ⟨r, h2, h⟩ := Option.bind_eq_some_iff.1 h
    have h := (Option.some.inj h).symm
    subst h
    obtain ⟨ns, h3, h4⟩ := ih (fun c hc => hs c (.tail _ hc)) h2
    obtain ⟨defs, incs, forced, add, e1, e2, e3, e4, h5⟩ := lines_property (hs c (.head _)) h1
    refine ⟨groupNode c [] (propertyPairs c defs incs forced add) :: ns, ?_, ?_⟩
    · rw [List.map_cons, List.map_cons, h3]
      congr 1
      simp only [propertyNode, e1, e2, e3, e4, Option.bind_eq_bind, Option.bind_some]
    · rw [List.flatten_cons]
      exact .append (x := [_]) h5 h4

def cppImport (file : String) : Node := .elem "Import".toList [("Project".toList, file.toList)] []

def globalsNode (c : Config) : List Node := if globalItems.all (fun x => c.f x.2 = []) then [] else [groupNode c [("Label", "Globals".toList)] (configGlobals c)]

/-- what there is in the root of the project; `ns` are the properties of the configurations -/
def projectKids (win : Bool) (rel : Text → Text) (p : Project) (ns : List Node) : List Node :=
  [.elem "ItemGroup".toList [("Label".toList, "ProjectConfigurations".toList)] (p.configs.flatMap fun c => [configNode c])] ++
  [.elem "ItemGroup".toList [] ((uniqueFiles win rel p.files).flatMap fun f => [fileNode (entryType p) p.fileTypes f])] ++
  [.elem "ItemGroup".toList [] ((p.projectReferences.flatMap fun r => [referenceNode r]) ++ p.references.flatMap fun r => [.elem "Reference".toList [("Include".toList, r)] []])] ++
  [.elem "PropertyGroup".toList [("Label".toList, "Globals".toList)] (props (globalPairs p))] ++
  p.configs.flatMap globalsNode ++
  [cppImport "$(VCTargetsPath)\\Microsoft.Cpp.Default.props"] ++
  (p.configs.flatMap fun c => [groupNode c [("Label", "Configuration".toList)] (configPairs rel c)]) ++
  [cppImport "$(VCTargetsPath)\\Microsoft.Cpp.props"] ++
  [.elem "ImportGroup".toList [("Label".toList, "ExtensionSettings".toList)] []] ++
  (p.configs.flatMap fun c => [sheetNode c]) ++
  [.elem "PropertyGroup".toList [("Label".toList, "UserMacros".toList)] []] ++
  ns ++
  (p.configs.flatMap fun c => [definitionNode c]) ++
  [cppImport "$(VCTargetsPath)\\Microsoft.Cpp.targets"] ++
  [.elem "ImportGroup".toList [("Label".toList, "ExtensionTargets".toList)] []] ++
  p.imports.flatMap fun i => [.elem "Import".toList [("Condition".toList, i.1), ("Project".toList, i.2)] []]

theorem files_safe {win : Bool} {rel : Text → Text} {p : Project} (h : ∀ f ∈ p.files, Safe (relative win rel (backslash f)))
    (hu : ∀ x ∈ uniqueFiles win rel p.files, ∃ f ∈ p.files, x = (backslash f, relative win rel (backslash f))) : ∀ x ∈ uniqueFiles win rel p.files, Safe x.2 := by
  intro x hx
  obtain ⟨f, hf, rfl⟩ := hu x hx
  exact h f hf

theorem lines_import (file : String) (h : AttrsOk [("Project", file.toList)]) : Lines [.em 2 "Import" [("Project", file.toList)]] [cppImport file] := .em (by decide) h

theorem lines_body {win : Bool} {rel : Text → Text} {p : Project} {ls : List Line} (h : Plains win rel p)
    (hu : ∀ x ∈ uniqueFiles win rel p.files, ∃ f ∈ p.files, x = (backslash f, relative win rel (backslash f))) (hl : bodyLines win rel p = some ls) :
    ∃ ns, p.configs.map (propertyNode win rel) = ns.map some ∧ Lines ls (projectKids win rel p ns) := by
  unfold bodyLines at hl
  obtain ⟨props, hp, hl⟩ := Option.bind_eq_some_iff.1 hl
  obtain ⟨ns, hn, hns⟩ := lines_properties h.config hp
  have hl := (Option.some.inj hl).symm
  subst hl
  refine ⟨ns, hn, ?_⟩
  unfold projectKids
  refine .append (.append (.append (.append (.append (.append (.append (.append (.append (.append (.append (.append (.append (.append (.append ?_ ?_) ?_) ?_) ?_) ?_) ?_) ?_) ?_) ?_) ?_) hns) ?_) ?_) ?_) ?_
  · exact .blk (by decide) (by decide +kernel) (.flatMap fun c hc => lines_config (h.config c hc))
  · exact .blk (by decide) attrsOk_nil (.flatMap fun f hf => lines_file (entry_name p) h.type (files_safe h.file hu f hf))
  · exact .blk (by decide) attrsOk_nil (.append (.flatMap fun r hr => lines_projectReference (h.reference r (.inr hr))) (.flatMap fun r hr => lines_reference (h.reference r (.inl hr))))
  · exact .blk (by decide) (by decide +kernel) (lines_globals p)
  · exact .flatMap fun c hc => lines_configGlobals (h.config c hc)
  · exact lines_import _ (by decide +kernel)
  · exact .flatMap fun c hc => lines_configuration (h.config c hc)
  · exact lines_import _ (by decide +kernel)
  · exact .blk (by decide) (by decide +kernel) .nil
  · exact .flatMap fun c hc => lines_sheet (h.config c hc)
  · exact .em (by decide) (by decide +kernel)
  · exact .flatMap fun c hc => lines_definition (h.config c hc)
  · exact lines_import _ (by decide +kernel)
  · exact .blk (by decide) (by decide +kernel) .nil
  · exact .flatMap fun i hi => .em (by decide) (attrsOk_cons (by decide) (h.imported i hi).1 (attrsOk_cons (by decide) (h.imported i hi).2 attrsOk_nil))

end Verif.Vcx
