import Verif.Str.RelModel
import Verif.Str.CleanModel
import Verif.Cache.FlagsModel
/-
Model of how the command line of a compiler is put together.

Source, under /repo/Code/Tools/FBuild/FBuildCore:
  Graph/ObjectNode.cpp: SaveRemote (1211), GetCommandLineKey (1387), BuildArgs (1789),
    ExpandCompilerForceUsing (1896), GetResponseFileMode (2768), CreateDriver (2963), GetCommandLine (3012)
  ExeDrivers/Compiler/CompilerDriver*.cpp
  Helpers/Args.cpp, Helpers/ResponseFile.cpp

The calls a driver makes on the `Args` object are returned as a list, and `Args` is the result of these
calls. Lengths are natural numbers: the additions of 32 bits in `Args::Finalize` do not overflow for
anything that fits into memory next to the rest of the program.
-/
namespace Verif.Args
open Verif.Str
open Verif.Cache (Tok isArg isStart Family)

/-! ### Args -/

/-- `Args`, Helpers/Args.h: `m_Args` and `m_DelimiterIndices`. -/
structure Args where
  text : List Char := []
  delims : List Nat := []
  deriving DecidableEq

/-- What a driver does to an `Args`: `operator +=` and `Append`, or `AddDelimiter`. -/
inductive Call where
  | add (s : List Char)
  | delim
  deriving DecidableEq

/-- `Args::operator +=`, `Args::Append`, Args.cpp:41-65, and `Args::AddDelimiter`, Args.cpp:69-77. -/
def Args.call (a : Args) : Call → Args
  | .add s => { a with text := a.text ++ s }
  | .delim => { text := a.text ++ [' '], delims := a.delims ++ [a.text.length] }

/-- A sequence of calls, after `Args::Clear`. -/
def Args.ofCalls (cs : List Call) : Args := cs.foldl Args.call {}

/-- `ArgsResponseFileMode`, Args.h:20-25. -/
inductive Mode where
  | never | ifNeeded | always
  deriving DecidableEq

/-- What `Args::Finalize` arranges. -/
inductive Final where
  /-- an error, and `false` is returned -/
  | tooLong
  /-- the assertion `m_Args[ i ] == ' '` -/
  | assertion
  /-- the arguments are given directly -/
  | direct (args : List Char)
  /-- the arguments are in a response file -/
  | file (contents : List Char)
  deriving DecidableEq

/-- `m_Args[ i ] = '\n'` for every delimiter, Args.cpp:148-153. -/
def breakLines : List Nat → List Char → Option (List Char)
  | [], s => some s
  | i :: is, s => if s[i]? = some ' ' then breakLines is (s.set i '\n') else none

/-- `ResponseFile::Create` with `m_EscapeSlashes`, ResponseFile.cpp:41-72. -/
def escapeSlashes : List Char → List Char
  | [] => []
  | c :: s => if c = '\\' ∨ c = '/' then '\\' :: '\\' :: escapeSlashes s else c :: escapeSlashes s

/-- `Args::Finalize`, Args.cpp:90-174, as far as the response file is written without errors. `limit` is the
`argLimit` of the platform and `escape` is `m_EscapeSlashes`. -/
def Args.finalize (p : Platform) (limit : Nat) (mode : Mode) (escape : Bool) (exe : List Char) (a : Args) : Final :=
  let needed := decide (a.text.length + exe.length + 3 ≥ limit)
  if needed = true ∧ mode = .never then .tooLong
  else if needed = false ∧ mode ≠ .always then .direct a.text
  else
    match (if p = .windows ∧ a.text.length ≥ 131071 then breakLines a.delims a.text else some a.text) with
    | none => .assertion
    | some s => .file (if escape then escapeSlashes s else s)

/-- `ObjectNode::GetResponseFileMode`, ObjectNode.cpp:2768-2801. `compiler` holds the settings
`ForceResponseFile` and `AllowResponseFile` of the compiler node, which there is none of on a worker. -/
def responseFileMode (p : Platform) (compiler : Option (Bool × Bool)) (family : Family) : Mode :=
  if compiler.any (·.1) then .always
  else if compiler.any (·.2) then .ifNeeded
  else if p = .windows ∧ family ∈ [.msvc, .gcc, .snc, .clang, .clangCl, .codeWarrior, .greenHills] then .ifNeeded
  else .never

/-! ### Drivers -/

/-- The drivers, made by `ObjectNode::CreateDriver`. -/
inductive Driver where
  | cl (clang : Bool)
  | gcc (clang : Bool)
  | vbcc | qtRcc | orbis | snc | cuda | codeWarrior | greenHills | generic
  deriving DecidableEq

/-- `ObjectNode::CreateDriver`, ObjectNode.cpp:2963-3010. -/
def createDriver : Family → Driver
  | .msvc => .cl false
  | .clangCl => .cl true
  | .clang => .gcc true
  | .gcc => .gcc false
  | .vbcc => .vbcc
  | .qtRcc => .qtRcc
  | .orbis => .orbis
  | .snc => .snc
  | .cuda => .cuda
  | .codeWarrior => .codeWarrior
  | .greenHills => .greenHills
  | .custom => .generic

/-- `ObjectNode::Pass` -/
inductive Pass where
  | preprocess | compilePreprocessed | compile | prepSimple
  deriving DecidableEq

/-- What the drivers read: members of the driver, of the object, of its compiler, and of the options. -/
structure Ctx where
  plat : Platform
  os : Os
  /-- `job->IsLocal()` -/
  isLocal : Bool
  /-- `m_ObjectNode->GetName()` -/
  obj : List Char
  /-- `m_ObjectNode->GetSourceFile()->GetName()` -/
  src : List Char
  /-- `m_OverrideSourceFile` -/
  override : List Char := []
  /-- `m_RelativeBasePath` -/
  relBase : List Char := []
  /-- `GetPCHObjectName()` -/
  pchObj : List Char := []
  /-- the names `ExpandCompilerForceUsing` goes through -/
  usings : List (List Char) := []
  creatingPCH : Bool := false
  usingPDB : Bool := false
  /-- `m_ForceColoredDiagnostics` -/
  colored : Bool := false
  /-- `m_SourceMapping` -/
  mapping : List Char := []
  workingDir : List Char := []
  /-- `m_RemoteSourceRoot` -/
  remoteRoot : List Char := []
  /-- `IsClangGCCUpdateXLanguageArgEnabled()` -/
  updateX : Bool := false
  /-- `IsClangRewriteIncludesEnabled()` -/
  rewriteIncludes : Bool := false

/-- The outcome of a function processing one token: `false`, `true` with the calls made and whether the next
token is skipped (`++index`), or undefined behaviour. -/
inductive Did where
  | no
  | yes (skip : Bool) (calls : List Call)
  | bad
  deriving DecidableEq

/-- The loop of `CompilerDriverBase::StripTokenWithArg`, CompilerDriverBase.cpp:139-157, which calls itself
without the quotes: `some skip` if found. -/
def stripWithArgGo (o : Tok) : Nat → Tok → Option Bool
  | 0, _ => none
  | n + 1, t =>
    if o.isPrefixOf t then some (t == o)
    else if t.head? = some '"' ∧ t.getLast? = some '"' ∧ t.length > 2 then stripWithArgGo o n (t.drop 1).dropLast
    else none

/-- `CompilerDriverBase::StripTokenWithArg` -/
def stripWithArg (o : String) (t : Tok) : Option Bool := stripWithArgGo o.toList (t.length + 1) t

/-- `CompilerDriverBase::StripToken`, CompilerDriverBase.cpp:161-173. -/
def strip (o : String) (t : Tok) (allowStartsWith : Bool := false) : Bool :=
  if allowStartsWith then o.toList.isPrefixOf t else t == o.toList

/-- `CompilerDriver_CL::StripTokenWithArg_MSVC`, CompilerDriver_CL.cpp:358-369. -/
def stripWithArgMS (o : String) (t : Tok) : Option Bool := if isStart t o then some (isArg t o) else none

/-- `if ( Strip… ) { return true; }` for one function after the other. -/
def firstOf : List (Option Bool) → Did
  | [] => .no
  | some skip :: _ => .yes skip []
  | none :: r => firstOf r

/-- As an element of `firstOf`: a token that is removed alone. -/
def alone (b : Bool) : Option Bool := if b then some false else none

/-- The part of the functions for Clang which removes the static analyzer, CompilerDriver_CL.cpp:49-59 and
CompilerDriver_GCCClang.cpp:42-52. -/
def analyzer (t : Tok) : List (Option Bool) :=
  [alone (strip "--analyze" t), stripWithArg "-Xanalyzer" t, stripWithArg "-analyzer-output" t,
    stripWithArg "-analyzer-config" t, stripWithArg "-analyzer-checker" t]

/-- `ProcessArg_PreprocessorOnly` of the drivers: CompilerDriver_CL.cpp:30-62, CompilerDriver_GCCClang.cpp:28-67,
and the functions of this name in the files of the other drivers. -/
def processPre (d : Driver) (t : Tok) : Did :=
  match d with
  | .cl clang =>
    if isArg t "ZW" then .yes false [.add "/D__cplusplus_winrt ".toList]
    else firstOf (stripWithArgMS "Yc" t :: if clang then analyzer t else [])
  | .gcc clang =>
    firstOf (stripWithArg "-include-pch" t :: (if clang then analyzer t else []) ++
      [stripWithArg "-o" t, alone (strip "-c" t)])
  | .orbis | .snc | .cuda | .codeWarrior | .greenHills => firstOf [stripWithArg "-o" t, alone (strip "-c" t)]
  | .vbcc => firstOf [stripWithArg "-o" t]
  | .qtRcc => firstOf [stripWithArg "--output" t, stripWithArg "-o" t]
  | .generic => .no

/-- The expansion of relative include paths on a worker, CompilerDriver_CL.cpp:99-132. A token `/I"` has `start`
behind `end`. -/
def clInclude (c : Ctx) (t : Tok) : Did :=
  let pre := if t[2]? = some '"' then 3 else 2
  let post := if t.getLast? = some '"' then 1 else 0
  if t.length < pre + post then .bad
  else
    let path := (t.drop pre).take (t.length - pre - post)
    if isFullPath c.plat path then .no
    else .yes (isArg t "I")
      [.add (t.take pre), .add c.remoteRoot, .add ['\\'], .add path, .add (t.drop (t.length - post)), .delim]

/-- `CompilerDriver_CL::ProcessArg_CompilePreprocessed` from line 134 on. -/
def clTail (t : Tok) : Did :=
  firstOf [stripWithArgMS "FI" t,
    (if isArg t "sourceDependencies" then some true else none), alone (isStart t "sourceDependencies")]

/-- `CompilerDriver_CL::ProcessArg_CompilePreprocessed`, CompilerDriver_CL.cpp:66-155. -/
def clCompile (c : Ctx) (t : Tok) : Did :=
  match firstOf ([stripWithArgMS "Yu" t, stripWithArgMS "Fp" t] ++
      if c.isLocal then [] else [stripWithArgMS "Fd" t]) with
  | .no =>
    if c.isLocal = false ∧ isStart t "I" = true then
      match clInclude c t with
      | .no => clTail t
      | r => r
    else clTail t
  | r => r

/-- `-x` followed by the variant of the language for preprocessed files, CompilerDriver_GCCClang.cpp:246-264. -/
def cppOutput (l : Tok) : Tok :=
  if l = "c".toList then "cpp-output".toList
  else if l = "c++".toList ∨ l = "objective-c".toList ∨ l = "objective-c++".toList then l ++ "-cpp-output".toList
  else l

/-- `ProcessArg_XLanguageOption`, CompilerDriver_GCCClang.cpp:220-269. -/
def xLanguage (c : Ctx) (t next : Tok) : Did :=
  if c.updateX = false then .no
  else if t = "-x".toList ∧ next ≠ [] then .yes true [.add t, .delim, .add (cppOutput next), .delim]
  else .no

/-- `ProcessArg_DependencyOption`, CompilerDriver_GCCClang.cpp:273-295. -/
def dependency (t : Tok) : List (Option Bool) := [alone (strip "-MD" t), stripWithArg "-MF" t]

/-- `CompilerDriver_GCCClang::ProcessArg_CompilePreprocessed`, CompilerDriver_GCCClang.cpp:71-128. -/
def gccCompile (c : Ctx) (clang : Bool) (t next : Tok) : Did :=
  match firstOf ((if clang then [stripWithArg "-I" t] else []) ++ [stripWithArg "-isysroot" t]) with
  | .no =>
    match (if c.isLocal then xLanguage c t next else .no) with
    | .no =>
      firstOf ((if c.isLocal then dependency t else []) ++ [stripWithArg "-include-pch" t, stripWithArg "-include" t])
    | r => r
  | r => r

/-- `ProcessArg_CompilePreprocessed` of the drivers; for Orbis CompilerDriver_OrbisWavePSSLC.cpp:44-57. -/
def processCompile (d : Driver) (c : Ctx) (t next : Tok) : Did :=
  match d with
  | .cl _ => clCompile c t
  | .gcc clang => gccCompile c clang t next
  | .orbis => firstOf [stripWithArg "-include" t]
  | _ => .no

/-- `ProcessArg_PreparePreprocessedForRemote`, CompilerDriver_CL.cpp:290-308 and
CompilerDriver_GCCClang.cpp:198-216. -/
def processRemote (d : Driver) (c : Ctx) (t next : Tok) : Did :=
  match d with
  | .cl _ => firstOf [(if isArg t "sourceDependencies" then some true else none), alone (isStart t "sourceDependencies")]
  | .gcc _ =>
    match xLanguage c t next with
    | .no => firstOf (dependency t)
    | r => r
  | _ => .no

/-- `ProcessArg_Common`, CompilerDriver_CL.cpp:159-193 and CompilerDriver_GCCClang.cpp:132-147. -/
def processCommon (d : Driver) (c : Ctx) (t : Tok) : Did :=
  match d with
  | .cl _ =>
    if isStart t "MP" then .yes false []
    else if isArg t "Gm" then .yes false []
    else if isStart t "I\"" = true ∧ ['\\', '"'].isSuffixOf t = true then
      .yes false [.add (t.take (t.length - 2)), .add ['"'], .delim]
    else .no
  | .gcc _ =>
    if c.colored = true ∧ (strip "-fdiagnostics-color" t true || strip "-fno-diagnostics-color" t) = true then .yes false []
    else .no
  | _ => .no

/-- `token.Find( "%n" )`: what is before and behind the first occurrence. -/
def findHole (n : Char) : Tok → Option (Tok × Tok)
  | [] => none
  | a :: s =>
    match s with
    | b :: r =>
      if a = '%' ∧ b = n then some ([], r)
      else (findHole n s).map fun (u, v) => (a :: u, v)
    | [] => none

/-- `if ( m_RelativeBasePath.IsEmpty() == false )` … , CompilerDriverBase.cpp:78-87 and 105-114. -/
def relName (c : Ctx) (name : List Char) : List Char :=
  if c.relBase = [] then name else getRelativePath c.os c.relBase name

/-- `CompilerDriverBase::ProcessArg_BuildTimeSubstitution`, CompilerDriverBase.cpp:66-122. -/
def substBase (c : Ctx) (t : Tok) : Did :=
  match findHole '1' t with
  | some (u, v) =>
    .yes false [.add u, .add (if c.override = [] then relName c c.src else c.override), .add v, .delim]
  | none =>
    match findHole '2' t with
    | some (u, v) => .yes false [.add u, .add (relName c c.obj), .add v, .delim]
    | none => .no

/-- `ProcessArg_BuildTimeSubstitution`, CompilerDriver_CL.cpp:197-231, with `ExpandCompilerForceUsing`,
ObjectNode.cpp:1896-1912. The assertion that there is a name for `%3` counts as undefined behaviour. -/
def processSubst (d : Driver) (c : Ctx) (t : Tok) : Did :=
  match d with
  | .cl _ =>
    match findHole '3' t with
    | some (u, v) => if c.pchObj = [] then .bad else .yes false [.add u, .add c.pchObj, .add v, .delim]
    | none =>
      match findHole '4' t with
      | some (u, v) => .yes false (c.usings.flatMap (fun n => [.add u, .add n, .add v, .delim]) ++ [.delim])
      | none => substBase c t
  | _ => substBase c t

/-- `if ( f ) { continue; } if ( g ) { continue; }` -/
def Did.orElse : Did → Did → Did
  | .no, g => g
  | f, _ => f

/-- The functions called for a token, ObjectNode.cpp:1832-1854. -/
def process (d : Driver) (c : Ctx) (pass : Pass) (t next : Tok) : Did :=
  ((if pass = .preprocess then processPre d t else .no).orElse
    (if pass = .compilePreprocessed then processCompile d c t next else .no)).orElse
    ((processCommon d c t).orElse (processSubst d c t))

/-- The loop over the tokens, ObjectNode.cpp:1825-1859 and 1234-1250. `skip`: the next token is skipped. -/
def loop (f : Tok → Tok → Did) : Bool → List Tok → Option (List Call)
  | _, [] => some []
  | true, _ :: ts => loop f false ts
  | false, t :: ts =>
    match f t (ts.headD []) with
    | .no => (loop f false ts).map ([.add t, .delim] ++ ·)
    | .yes skip cs => (loop f skip ts).map (cs ++ ·)
    | .bad => none

/-- `AddAdditionalArgs_Preprocessor` of the drivers. -/
def extraPre (d : Driver) (c : Ctx) : List Char :=
  match d with
  | .cl _ => "/E".toList ++ if c.creatingPCH then " /d1PP".toList else []
  | .gcc clang =>
    "-E".toList ++ (if c.creatingPCH then " -dD".toList else []) ++
      if clang && c.rewriteIncludes then " -frewrite-includes".toList else []
  | .qtRcc => " --list".toList
  | .generic => []
  | _ => "-E".toList

/-- `"-fdebug-prefix-map=…"` in quotes. -/
def prefixMap (c : Ctx) : List Char :=
  "\"-fdebug-prefix-map=".toList ++ c.workingDir ++ ['='] ++ c.mapping ++ ['"']

/-- `AddAdditionalArgs_Common`, CompilerDriver_CL.cpp:259-286 and CompilerDriver_GCCClang.cpp:174-194. -/
def extraCommon (d : Driver) (c : Ctx) : List Char :=
  match d with
  | .cl clang =>
    (if c.isLocal = false ∧ c.usingPDB = true then " /Fd\"".toList ++ c.obj ++ ".pdb\"".toList else []) ++
      if clang = true ∧ c.mapping ≠ [] ∧ c.isLocal = true then " -Xclang  ".toList ++ prefixMap c else []
  | .gcc _ =>
    (if c.colored then " -fdiagnostics-color=always".toList else []) ++
      if c.mapping ≠ [] ∧ c.isLocal = true then ' ' :: prefixMap c else []
  | _ => []

/-- `ObjectNode::BuildArgs` up to finalisation, ObjectNode.cpp:1793-1871: `line` is the command line. -/
def buildArgs (d : Driver) (c : Ctx) (pass : Pass) (showIncludes : Bool) (line : List Char) : Option Args :=
  (loop (process d c pass) false (tokenize ' ' line)).map fun cs =>
    Args.ofCalls (cs ++ (if pass = .preprocess then [.add (extraPre d c)] else []) ++ [.add (extraCommon d c)] ++
      if showIncludes then [.add " /showIncludes".toList] else [])

/-- The command line sent to a worker by `ObjectNode::SaveRemote`, ObjectNode.cpp:1226-1253. -/
def saveRemote (d : Driver) (c : Ctx) (line : List Char) : Option (List Char) :=
  (loop (processRemote d c) false (tokenize ' ' line)).map fun cs => (Args.ofCalls cs).text

/-! ### Command lines and the cache -/

/-- The command lines of an object list. -/
structure Lines where
  compiler : List Char
  deoptimized : List Char
  pch : List Char
  preprocessor : List Char

/-- `ObjectNode::GetCommandLine`, ObjectNode.cpp:3012-3035. -/
def commandLine (l : Lines) (dedicated deoptimize creatingPCH : Bool) : List Char :=
  if dedicated then l.preprocessor
  else if deoptimize then l.deoptimized
  else if creatingPCH then l.pch
  else l.compiler

/-- The text hashed by `ObjectNode::GetCommandLineKey`, ObjectNode.cpp:1387-1407, on the local machine. The source
mapping is not among the arguments of this pass (`useSourceMapping` is false) but its target is appended. -/
def keyText (d : Driver) (c : Ctx) (l : Lines) : Option (List Char) :=
  (buildArgs d { c with mapping := [] } .compilePreprocessed false (commandLine l false false c.creatingPCH)).map fun a =>
    ((a.call .delim).call (.add c.mapping)).text

end Verif.Args
