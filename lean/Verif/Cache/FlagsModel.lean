import Verif.Str.TextModel
import Verif.IO.CompressModel
/-
Model of the decision which objects may be cached and distributed, and of the files that belong to an object.

Source: /repo/Code/Tools/FBuild/FBuildCore/Graph/ObjectNode.cpp
  DetermineFlags (899), IsCompilerArg_MSVC (1165), IsStartOfCompilerArg_MSVC (1188),
  GetExtraCacheFilePaths (1675), ShouldUseCache (2729), IsDistributionAllowed (2759)
-/
namespace Verif.Cache
open Verif.Str

abbrev Tok := List Char

/-- `CompilerNode::CompilerFamily` without C#, which is rejected before (ObjectNode.cpp:936). -/
inductive Family where
  | custom | msvc | clang | clangCl | gcc | snc | codeWarrior | greenHills | cuda | qtRcc | vbcc | orbis
  deriving DecidableEq

/-- What `DetermineFlags` asks the compiler node. -/
structure Compiler where
  family : Family
  distributable : Bool
  cacheable : Bool
  sourceMapping : Bool

/-- `ObjectNode::CompilerFlags`; the flags naming the family are in `family`. -/
structure Flags where
  family : Family
  creatingPCH : Bool := false
  usingPCH : Bool := false
  cached : Bool := false
  distributed : Bool := false
  pdb : Bool := false
  clr : Bool := false
  includesInStdErr : Bool := false
  wx : Bool := false
  analysis : Bool := false
  deopt : Bool := false
  nostdinc : Bool := false
  nostdincpp : Bool := false
  colorAuto : Bool := false
  gcov : Bool := false
  werror : Bool := false
  deriving DecidableEq

/-- `IsCompilerArg_MSVC`, ObjectNode.cpp:1165-1183 (same length and same end: the same). -/
def isArg (token : Tok) (arg : String) : Bool :=
  match token with
  | '/' :: r | '-' :: r => r == arg.toList
  | _ => false

/-- `IsStartOfCompilerArg_MSVC`, ObjectNode.cpp:1188-1207. -/
def isStart (token : Tok) (arg : String) : Bool :=
  match token with
  | '/' :: r | '-' :: r => arg.toList.isPrefixOf r
  | _ => false

/-- The local variables of the MSVC branch, ObjectNode.cpp:945-947. -/
structure Ms where
  flags : Flags
  clr : Bool := false
  winRT : Bool := false
  preOnly : Bool := false

/-- One token of the MSVC branch, ObjectNode.cpp:951-1000. -/
def msTok (s : Ms) (token : Tok) : Ms :=
  if isArg token "Zi" || isArg token "ZI" then
    if s.flags.family = .clangCl then s else { s with flags := { s.flags with pdb := true } }
  else if isStart token "clr" then { s with clr := true, flags := { s.flags with clr := true } }
  else if isArg token "ZW" then { s with winRT := true }
  else if isArg token "P" then { s with preOnly := true, flags := { s.flags with includesInStdErr := true } }
  else if isArg token "WX" then { s with flags := { s.flags with wx := true } }
  else if isStart token "analyze" then
    if isArg token "analyze-" then { s with flags := { s.flags with analysis := false } }
    else { s with flags := { s.flags with analysis := true } }
  else if isStart token "dynamicdeopt" then { s with flags := { s.flags with deopt := true } }
  else if s.flags.family = .clangCl && isArg token "nostdinc" then { s with flags := { s.flags with nostdinc := true } }
  else s

/-- What follows the loop, ObjectNode.cpp:1010-1028. -/
def msFinish (c : Compiler) (s : Ms) : Flags :=
  if !s.clr && !s.preOnly then
    { s.flags with
      distributed := c.distributable && !s.winRT && !s.flags.creatingPCH && !s.flags.analysis && !c.sourceMapping
      cached := c.cacheable && !s.flags.pdb }
  else s.flags

/-- The local variables of the GCC/Clang branch, ObjectNode.cpp:1032, 1041. -/
structure Gc where
  flags : Flags
  objectiveC : Bool := false
  coverage : Bool := false

/-- One token of the GCC/Clang branch, ObjectNode.cpp:1050-1107; `next` is the following token. -/
def gcTok (s : Gc) (token : Tok) (next : Option Tok) : Gc :=
  if token = "-fdiagnostics-color=auto".toList then { s with flags := { s.flags with colorAuto := true } }
  else if "-fdiagnostics-color".toList.isPrefixOf token || token = "-fno-diagnostics-color".toList then
    { s with flags := { s.flags with colorAuto := false } }
  else if token = "-ftest-coverage".toList then { s with flags := { s.flags with gcov := true } }
  else if token = "-fno-test-coverage".toList then { s with flags := { s.flags with gcov := false } }
  else if token = "--coverage".toList then { s with coverage := true }
  else if "-Werror".toList.isPrefixOf token then { s with flags := { s.flags with werror := true } }
  else if token = "-fobjc-arc".toList then { s with objectiveC := true }
  else if token = "-x".toList then
    if next = some "objective-c".toList then { s with objectiveC := true } else s
  else if token = "-nostdinc".toList || token = "--no-standard-includes".toList then
    { s with flags := { s.flags with nostdinc := true } }
  else if token = "-nostdinc++".toList then { s with flags := { s.flags with nostdincpp := true } }
  else s

/-- The loop, ObjectNode.cpp:1045-1108. -/
def gcLoop : List Tok → Gc → Gc
  | [], s => s
  | t :: l, s => gcLoop l (gcTok s t l.head?)

/-- ObjectNode.cpp:1110-1113. -/
def gcFinish (s : Gc) : Gc := if s.coverage then { s with flags := { s.flags with gcov := true } } else s

/-- ObjectNode.cpp:1124-1143. -/
def otherFinish (c : Compiler) (s : Gc) : Flags :=
  { s.flags with
    distributed := !s.flags.creatingPCH && !s.objectiveC && !c.sourceMapping && !s.flags.gcov && c.distributable
    cached := c.cacheable }

/-- `DetermineFlags`, ObjectNode.cpp:899-1161. -/
def determineFlags (c : Compiler) (args : List Char) (creatingPCH usingPCH : Bool) : Flags :=
  let f : Flags := { family := c.family, creatingPCH := creatingPCH, usingPCH := usingPCH }
  match c.family with
  | .msvc | .clangCl => msFinish c ((tokenize ' ' args).foldl msTok { flags := f })
  | .clang => otherFinish c (gcFinish (gcLoop (tokenize ' ' args) { flags := { f with colorAuto := true } }))
  | .gcc => otherFinish c (gcFinish (gcLoop (tokenize ' ' args) { flags := f }))
  | .snc | .codeWarrior | .greenHills => otherFinish c { flags := f }
  | .cuda => { f with cached := c.cacheable }
  | .orbis => { f with distributed := c.distributable, cached := c.cacheable }
  | .custom | .qtRcc | .vbcc => f

/-- The files of an object besides itself. -/
inductive Extra where
  | pchObj | pchAst | analysisXml | gcno | altObj
  deriving DecidableEq

/-- `GetExtraCacheFilePaths`, ObjectNode.cpp:1675-1741. -/
def extraFiles (f : Flags) : List Extra :=
  (if f.creatingPCH && (f.family = .msvc || f.family = .clangCl) then [.pchObj] else []) ++
  (if f.analysis then (if f.creatingPCH then [.pchAst] else []) ++ [.analysisXml] else []) ++
  (if f.gcov then [.gcno] else []) ++
  (if f.deopt then [.altObj] else [])

/-- Options and state consulted by `ShouldUseCache`. -/
structure CacheOpts where
  allowed : Bool
  read : Bool
  write : Bool
  isolated : Bool
  noUnity : Bool
  pchKey : BitVec 64

/-- `ShouldUseCache`, ObjectNode.cpp:2729-2754. -/
def shouldUseCache (f : Flags) (o : CacheOpts) : Bool :=
  let use := f.cached && o.allowed && (o.read || o.write)
  let use := if o.isolated then (if o.noUnity = false then false else use) else use
  if f.family = .msvc && f.usingPCH then (if o.pchKey = 0 then false else use) else use

end Verif.Cache
