import Verif.Link.Model
/-
Libraries that are only named on the command line of a linker, LinkerNode.cpp:1069-1550, and how linkers and other programs are run.

Not modelled: environments, messages, that files found on disk are remembered during the build (the same answer is given again),
and that processes write output besides what is read from them.
-/
namespace Verif.Link
open Verif.Str
open Verif.Cache (Tok)

/-! ### Reading the options -/

/-- what `LinkerNode::GetOtherLibraries` collects, LinkerNode.cpp:1107-1115 -/
structure Parsed where
  ignoreAll : Bool := false
  isStatic : Bool := false
  ignore : List Name := []
  defaults : List Name := []
  libs : List Name := []
  dynamics : List Name := []
  statics : List Name := []
  files : List Name := []
  paths : List Name := []
  deriving DecidableEq

/-- the options with a value -/
inductive Slot where
  | ignore | default | msPath | path | lib
  deriving DecidableEq

/-- `PathUtils::EnsureTrailingSlash`, with the slash of the platform -/
def ensureSlash (slash : Char) (p : Name) : Name :=
  if p.getLast? = some '/' ∨ p.getLast? = some '\\' then p else p ++ [slash]

/-- `LinkerNode::IsStartOfLinkerArg`, LinkerNode.cpp:951-970 -/
def isStartDash (t : Tok) (c : Char) : Bool := ['-', c].isPrefixOf t

/-- which option a token is, and the rest of the token, LinkerNode.cpp:1453-1475 -/
def slotOf (msvc : Bool) (t : Tok) : Option (Slot × Tok) :=
  if msvc then
    if isStart t "NODEFAULTLIB:" then some (.ignore, t.drop 14)
    else if isStart t "DEFAULTLIB:" then some (.default, t.drop 12)
    else if isStart t "LIBPATH:" then some (.msPath, t.drop 9)
    else none
  else
    if isStartDash t 'L' then some (.path, t.drop 2)
    else if isStartDash t 'l' then some (.lib, t.drop 2)
    else none

/-- a value is stored, LinkerNode.cpp:1494-1525 and, for `-l`, 1177-1192. `clean` is `NodeGraph::CleanPath` -/
def store (clean : Name → Name) (slash : Char) (s : Slot) (raw : Tok) (p : Parsed) : Parsed :=
  let v := stripQuotes raw
  match s with
  | .ignore => if v ≠ [] then { p with ignore := p.ignore ++ [v] } else p
  | .default => if v ≠ [] then { p with defaults := p.defaults ++ [v] } else p
  | .msPath => if v ≠ [] then { p with paths := p.paths ++ [ensureSlash slash (clean v)] } else p
  | .path => if v ≠ [] then { p with paths := p.paths ++ [v] } else p
  | .lib =>
    if v.head? = some ':' then { p with files := p.files ++ [v.drop 1] }
    else if p.isStatic then { p with statics := p.statics ++ [v] }
    else { p with dynamics := p.dynamics ++ [v] }

/-- LinkerNode.cpp:1196-1198 -/
def dynamicOptions : List String := ["-Wl,-Bdynamic", "-Bdynamic", "-Wl,-dy", "-dy", "-Wl,-call_shared", "-call_shared"]

/-- LinkerNode.cpp:1205-1208 -/
def staticOptions : List String := ["-Wl,-Bstatic", "-Bstatic", "-Wl,-dn", "-dn", "-Wl,-non_shared", "-non_shared", "-Wl,-static"]

/-- a token that is no option with a value, LinkerNode.cpp:1129-1133, 1150-1156, 1195-1239 -/
def plainToken (msvc : Bool) (t : Tok) (p : Parsed) : Parsed :=
  if msvc && (t.head? = some '/' || t.head? = some '-') then p
  else if ! msvc && dynamicOptions.any (·.toList = t) then { p with isStatic := false }
  else if ! msvc && staticOptions.any (·.toList = t) then { p with isStatic := true }
  else if ! msvc && t.head? = some '-' then p
  else if ["%", "'%", "\"%"].any (·.toList.isPrefixOf t) then p
  else { p with libs := p.libs ++ [stripQuotes t] }

/-- the loop over the tokens, LinkerNode.cpp:1122-1240; the slot: the next token is its value. `none`: the options end where a value is
needed; the iterator is moved past the end, and the loop does not stop there -/
def readTokens (clean : Name → Name) (slash : Char) (msvc : Bool) : Option Slot → List Tok → Parsed → Option Parsed
  | none, [], p => some p
  | some _, [], _ => none
  | some s, t :: ts, p => readTokens clean slash msvc none ts (store clean slash s t p)
  | none, t :: ts, p =>
    if msvc && isArg t "NODEFAULTLIB" then readTokens clean slash msvc none ts { p with ignoreAll := true }
    else
      match slotOf msvc t with
      | some (s, []) => readTokens clean slash msvc (some s) ts p
      | some (s, c :: v) => readTokens clean slash msvc none ts (store clean slash s (c :: v) p)
      | none => readTokens clean slash msvc none ts (plainToken msvc t p)

/-- the first entry that is the same up to case is removed, LinkerNode.cpp:1254-1262 -/
def eraseI (n : Name) : List Name → List Name
  | [] => []
  | d :: ds => if sameI n d then ds else d :: eraseI n ds

/-- the default libraries that are left, LinkerNode.cpp:1243-1264 -/
def keptDefaults (p : Parsed) : List Name :=
  if p.ignoreAll then [] else p.ignore.foldl (fun ds n => eraseI n ds) p.defaults

/-! ### Finding the files -/

/-- a name as the graph and the disk know it: a node that is a file or a file on disk, a node that is no file, or nothing -/
inductive Found where
  | file | notFile | nothing
  deriving DecidableEq

/-- `LinkerNode::GetOtherLibrary` for one path, LinkerNode.cpp:1374-1419: the name that is tried -/
def candidate (clean : Name → Name) (slash : Char) (path lib : Name) : Name :=
  clean ((if path ≠ [] then ensureSlash slash path else []) ++ lib)

/-- the loops over paths and names, LinkerNode.cpp:1421-1442, 1316-1341: the first name for which there is something. `none`: an error -/
def firstOf (look : Name → Found) : List Name → Option (List Name)
  | [] => some []
  | n :: ns =>
    match look n with
    | .file => some [n]
    | .notFile => none
    | .nothing => firstOf look ns

/-- the names tried for a library that was named as a file, LinkerNode.cpp:1276-1290 -/
def fileCandidates (clean : Name → Name) (slash : Char) (paths : List Name) (lib : Name) : List Name :=
  if lib.length > 2 ∧ lib[1]? = some ':' then [candidate clean slash [] lib] else paths.map (candidate clean slash · lib)

/-- the names tried for `-l`, LinkerNode.cpp:1304-1341 -/
def dynamicCandidates (clean : Name → Name) (slash : Char) (paths : List Name) (lib : Name) : List Name :=
  paths.flatMap fun path =>
    [candidate clean slash path ("lib".toList ++ lib ++ ".so".toList), candidate clean slash path ("lib".toList ++ lib ++ ".a".toList)]

/-- the names tried for `-l` after `-Bstatic`, LinkerNode.cpp:1344-1354 -/
def staticCandidates (clean : Name → Name) (slash : Char) (paths : List Name) (lib : Name) : List Name :=
  paths.map (candidate clean slash · ("lib".toList ++ lib ++ ".a".toList))

/-- one library after the other -/
def allOf (look : Name → Found) : List (List Name) → Option (List Name)
  | [] => some []
  | c :: cs =>
    match firstOf look c, allOf look cs with
    | some a, some b => some (a ++ b)
    | _, _ => none

/-- the names tried for all libraries, LinkerNode.cpp:1266-1362 -/
def wanted (clean : Name → Name) (slash : Char) (msvc : Bool) (envPaths : List Name) (p : Parsed) : List (List Name) :=
  let paths := p.paths ++ envPaths
  (p.libs ++ keptDefaults p).map (fileCandidates clean slash paths) ++
    if msvc then []
    else
      p.dynamics.map (dynamicCandidates clean slash paths) ++ p.statics.map (staticCandidates clean slash paths) ++
        p.files.map fun f => paths.map (candidate clean slash · f)

/-- result of `otherLibraries` -/
inductive Others where
  /-- a name is a node but not a file -/
  | error
  /-- a read behind the end of the tokens -/
  | outOfBounds
  | ok (deps : List Name)
  deriving DecidableEq

/-- `LinkerNode::GetOtherLibraries`, LinkerNode.cpp:1097-1365; `envPaths`: the paths in the environment variable -/
def otherLibraries (clean : Name → Name) (slash : Char) (look : Name → Found) (msvc : Bool) (envPaths : List Name) (options : List Char) :
    Others :=
  match readTokens clean slash msvc none (tokenize ' ' options) {} with
  | none => .outOfBounds
  | some p =>
    match allOf look (wanted clean slash msvc envPaths p) with
    | none => .error
    | some ds => .ok ds

/-! ### Running programs -/

/-- what becomes of a process -/
inductive Ran where
  | notStarted
  /-- stopped because the build is stopped -/
  | aborted
  | exited (code : Int)
  deriving DecidableEq

inductive Result where
  | ok | failed | aborted
  deriving DecidableEq

/-- errors of Microsoft's linker for which linking is tried again, LinkerNode.cpp:268-322 -/
def retryCodes : List Int := [1000, 1136, 1140, 1158, 1201, 1318]

/-- the loop of `LinkerNode::DoBuild`, LinkerNode.cpp:229-354: how often the linker was started, and the result. `runs n` is what
happens the `n`th time -/
def linkLoop (msvc : Bool) (runs : Nat → Ran) : Nat × Result :=
  match runs 1 with
  | .notStarted => (1, .failed)
  | .aborted => (1, .aborted)
  | .exited code =>
    if code ≠ 0 then
      if msvc && retryCodes.contains code then
        match runs 2 with
        | .notStarted => (2, .failed)
        | .aborted => (2, .aborted)
        | .exited code => (2, if code ≠ 0 then .failed else .ok)
      else (1, .failed)
    else (1, .ok)

/-- `LinkerNode::DoBuild`, LinkerNode.cpp:195-413: the result and how often linker and stamp program were started. `cleanup`: whether old
files could be deleted; `args`: whether there are arguments; `stamp`: what happens to the program that stamps the file, if there is one -/
def linkBuild (msvc : Bool) (cleanup args : Bool) (runs : Nat → Ran) (stamp : Option Ran) : Result × Nat × Nat :=
  if ! cleanup then (.failed, 0, 0)
  else if ! args then (.failed, 0, 0)
  else
    match linkLoop msvc runs with
    | (n, .ok) =>
      match stamp with
      | none => (.ok, n, 0)
      | some .notStarted => (.failed, n, 1)
      | some .aborted => (.aborted, n, 1)
      | some (.exited code) => (if code ≠ 0 then .failed else .ok, n, 1)
    | (n, r) => (r, n, 0)

/-- `LibraryNode::DoBuild` and `CSNode::DoBuild`, LibraryNode.cpp:150-234, CSNode.cpp:168-236 -/
def toolBuild (ready : Bool) (ran : Ran) : Result :=
  if ! ready then .failed
  else
    match ran with
    | .notStarted => .failed
    | .aborted => .aborted
    | .exited code => if code ≠ 0 then .failed else .ok

/-- what happens to a file that is written: not opened; or opened, and this much of the data was written -/
inductive Writing where
  | notOpened
  | wrote (n : Nat)
  deriving DecidableEq

/-- `ExecNode::DoBuild`, ExecNode.cpp:187-261: the result, and what is written to the output by us. `out`: what the program prints -/
def execBuild (returnCode : Int) (useStdOut : Bool) (ran : Ran) (out : List Char) (writing : Writing) : Result × Option (List Char) :=
  match ran with
  | .notStarted => (.failed, none)
  | .aborted => (.aborted, none)
  | .exited code =>
    if code ≠ returnCode then (.failed, none)
    else if useStdOut then
      match writing with
      | .notOpened => (.ok, none)
      | .wrote n => (.ok, some (out.take n))
    else (.ok, none)

/-- `TestNode::DoBuild`, TestNode.cpp:180-262: the result, and what is in the output file -/
def testBuild (ran : Ran) (timedOut : Bool) (out err : List Char) (writing : Writing) : Result × Option (List Char) :=
  match ran with
  | .notStarted => (.failed, none)
  | .aborted => (.aborted, none)
  | .exited code =>
    match writing with
    | .notOpened => (.failed, none)
    | .wrote n =>
      let text := out ++ err
      if n < text.length then (.failed, some (text.take n))
      else if timedOut || code ≠ 0 then (.failed, some text)
      else (.ok, some text)

/-! ### Flags and files of the linker -/

/-- `FindI` -/
def hasI (p : String) (t : Tok) : Bool := (findSub (p.toList.map lower) (t.map lower)).isSome

/-- what `DetermineFlags` looks for, LinkerNode.cpp:790-796 -/
structure MsFlags where
  dll : Bool := false
  debug : Bool := false
  incremental : Bool := false
  incrementalNo : Bool := false
  wx : Bool := false
  ref : Bool := false
  icf : Bool := false
  lbr : Bool := false
  order : Bool := false
  deriving DecidableEq

/-- a token, LinkerNode.cpp:798-857 -/
def msToken (f : MsFlags) (t : Tok) : MsFlags :=
  if isArg t "DLL" then { f with dll := true }
  else if isArg t "DEBUG" then { f with debug := true }
  else if isArg t "INCREMENTAL" then { f with incremental := true }
  else if isArg t "INCREMENTAL:NO" then { f with incrementalNo := true }
  else if isArg t "WX" then { f with wx := true }
  else if isStart t "OPT" then
    { f with
      ref := f.ref || (hasI "REF" t && ! hasI "NOREF" t)
      icf := f.icf || (hasI "ICF" t && ! hasI "NOICF" t)
      lbr := f.lbr || (hasI "LBR" t && ! hasI "NOLBR" t) }
  else if isStart t "ORDER" then { f with order := true }
  else f

/-- the flags of Microsoft's linker, LinkerNode.cpp:781-877 -/
def msFlags (options : List Char) : MsFlags := (tokenize ' ' options).foldl msToken {}

/-- `LINK_FLAG_INCREMENTAL`, LinkerNode.cpp:859-877 -/
def incrementalLinking (f : MsFlags) : Bool :=
  (f.debug || f.incremental) && ! (f.incrementalNo || f.ref || f.icf || f.lbr || f.order)

/-- `LINK_FLAG_DLL` for other linkers, LinkerNode.cpp:879-899 -/
def otherDll (options : List Char) : Bool :=
  (tokenize ' ' options).any fun t =>
    let t := t.map lower
    t = "-shared".toList || t = "-dynamiclib".toList || t = "--oformat=prx".toList || t = "/dll".toList ||
      ("-Wl".toList.isPrefixOf t && (findSub "--oformat=prx".toList t).isSome)

/-- `LinkerNode::DoPreLinkCleanup`, LinkerNode.cpp:426-475: the files to be deleted, in this order -/
def cleanupFiles (msvc incremental forceClean firstBuild : Bool) (name : Name) : List Name :=
  if ! msvc then []
  else if (! incremental || forceClean) || firstBuild then
    [name, stripExtension name ++ ".ilk".toList, stripExtension name ++ ".pdb".toList]
  else []

end Verif.Link
