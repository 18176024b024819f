import Verif.Str.TextModel
import Verif.Str.MatchModel
/-
Model of the command line: `FBuildOptions::ProcessCommandLine`, Code/Tools/FBuild/FBuildCore/FBuildOptions.cpp:43-545 ("O" below),
and of the command lines the wrapper processes are given, Code/Tools/FBuild/FBuild/Main.cpp:268-345.
The name of the program and messages are left out. `sscanf` of numbers is a parameter.
-/
namespace Verif.Cmd

abbrev Arg := List Char

/-- what the options are read on -/
structure Env where
  windows : Bool
  /-- `sscanf( s, "%u", &n )` -/
  scanU : Arg → Option Nat
  /-- `sscanf( s, "%i", &n )` -/
  scanI : Arg → Option Int
  /-- `Env::IsStdOutRedirected` -/
  redirected : Bool
  /-- the variable `FASTBUILD_CACHE_MODE` -/
  cacheMode : Option Arg
  /-- `CPUInfo::GetNumUsefulCores` -/
  cores : Nat

/-- the options that are true or false -/
inductive Fld
  | continueAfterDBMove | useCacheRead | useCacheWrite | cacheInfo | cacheVerbose | forceCleanBuild | generateCompilationDatabase
  | allowDistributed | distVerbose | generateDotGraph | generateDotGraphFull | fixupErrorPaths | noLocalConsumptionOfRemoteJobs
  | allowLocalRace | showProgress | progressSpecified | enableMonitor | fastCancel | stopOnFirstError | showSummary | noSummaryOnError | noUnity
  | profile | showCommandSummary | showTotalTimeTaken | showVerbose | showCommandLines | showCommandOutput | displayDependencyDB
  | displayTargetList | showHiddenTargets | waitMode | showBuildReason
  deriving DecidableEq

/-- the initial values, FBuildOptions.h:50-107 -/
def initial : Fld → Bool
  | .allowLocalRace | .fastCancel | .stopOnFirstError | .showCommandSummary | .showTotalTimeTaken => true
  | _ => false

inductive Mode
  | none | main | intermediate | final | wsl
  deriving DecidableEq

/-- a branch that only assigns constants -/
structure Branch where
  name : String
  /-- assignments on all systems -/
  sets : List (Fld × Bool)
  /-- assignments under `__WINDOWS__` -/
  winSets : List (Fld × Bool) := []
  /-- of `m_WrapperMode`, under `__WINDOWS__` -/
  mode : Option Mode := .none
  /-- the whole branch is under `__WINDOWS__` -/
  winOnly : Bool := false

/-- the branches that only assign constants, O:99-489, in order. The comparisons of the other branches fail for all these names. -/
def branches : List Branch := [
  { name := "-continueafterdbmove", sets := [(.continueAfterDBMove, true)] },
  { name := "-cache", sets := [(.useCacheRead, true), (.useCacheWrite, true)] },
  { name := "-cacheread", sets := [(.useCacheRead, true)] },
  { name := "-cachewrite", sets := [(.useCacheWrite, true)] },
  { name := "-cacheinfo", sets := [(.cacheInfo, true)] },
  { name := "-cacheverbose", sets := [(.cacheVerbose, true)] },
  { name := "-clean", sets := [(.forceCleanBuild, true)] },
  { name := "-compdb", sets := [(.generateCompilationDatabase, true)] },
  { name := "-debug", sets := [], winOnly := true },
  { name := "-dist", sets := [(.allowDistributed, true)] },
  { name := "-distverbose", sets := [(.allowDistributed, true), (.distVerbose, true), (.showBuildReason, true)] },
  { name := "-dot", sets := [(.generateDotGraph, true), (.generateDotGraphFull, false)] },
  { name := "-dotfull", sets := [(.generateDotGraph, true), (.generateDotGraphFull, true)] },
  { name := "-fastcancel", sets := [] },
  { name := "-fixuperrorpaths", sets := [(.fixupErrorPaths, true)] },
  { name := "-forceremote", sets := [(.allowDistributed, true), (.noLocalConsumptionOfRemoteJobs, true), (.allowLocalRace, false)] },
  { name := "-ide", sets := [(.showProgress, false), (.progressSpecified, true)], winSets := [(.fixupErrorPaths, true)], mode := some .main },
  { name := "-vs", sets := [(.showProgress, false), (.progressSpecified, true)], winSets := [(.fixupErrorPaths, true)], mode := some .main },
  { name := "-monitor", sets := [(.enableMonitor, true)] },
  { name := "-nofastcancel", sets := [(.fastCancel, false)] },
  { name := "-nolocalrace", sets := [(.allowLocalRace, false)] },
  { name := "-noprogress", sets := [(.showProgress, false), (.progressSpecified, true)] },
  { name := "-nostoponerror", sets := [(.stopOnFirstError, false)] },
  { name := "-nosummaryonerror", sets := [(.showSummary, true), (.noSummaryOnError, true)] },
  { name := "-nounity", sets := [(.noUnity, true)] },
  { name := "-profile", sets := [(.profile, true)] },
  { name := "-progress", sets := [(.showProgress, true), (.progressSpecified, true)] },
  { name := "-quiet", sets := [(.showCommandSummary, false), (.showTotalTimeTaken, false), (.showVerbose, false)] },
  { name := "-showcmds", sets := [(.showCommandLines, true)] },
  { name := "-showcmdoutput", sets := [(.showCommandOutput, true)] },
  { name := "-showdeps", sets := [(.displayDependencyDB, true)] },
  { name := "-showtargets", sets := [(.displayTargetList, true)] },
  { name := "-showalltargets", sets := [(.displayTargetList, true), (.showHiddenTargets, true)] },
  { name := "-summary", sets := [(.showSummary, true)] },
  { name := "-verbose", sets := [(.showVerbose, true), (.showCommandLines, true), (.showCommandOutput, true), (.cacheVerbose, true)] },
  { name := "-wait", sets := [(.waitMode, true)] },
  { name := "-why", sets := [(.showBuildReason, true)] },
  { name := "-wrapper", sets := [], mode := some .main, winOnly := true },
  { name := "-wrapperintermediate", sets := [], mode := some .intermediate, winOnly := true },
  { name := "-wrapperfinal", sets := [], mode := some .final, winOnly := true }]

/-- the branch taken for an argument -/
def branch (windows : Bool) (a : Arg) : Option Branch := branches.find? fun b => b.name.toList = a && (windows || !b.winOnly)

/-- the assignments one after the other -/
def assign (sets : List (Fld × Bool)) (f : Fld → Bool) : Fld → Bool := sets.foldl (fun f p x => if x = p.1 then p.2 else f x) f

/-- `FBuildOptions` -/
structure Opts where
  args : Arg := []
  mode : Mode := .none
  wslPath : Arg := []
  targets : List Arg := []
  sources : List Arg := []
  flags : Fld → Bool := initial
  cacheTrim : Nat := 0
  cacheLevel : Int := 1
  distLevel : Int := -1
  report : Arg := []
  dbFile : Arg := []
  config : Arg := []
  threads : Nat

inductive Out
  | error
  | quit
  | ok (o : Opts)

/-- what becomes of an argument -/
inductive Step
  | error
  | quit
  /-- `skip`: the next argument has been used -/
  | next (skip : Bool) (o : Opts)

/-- `m_Args += ' '` if it is not empty, O:90-93 -/
def spaced (o : Opts) : Opts := if o.args = [] then o else { o with args := o.args ++ [' '] }

def Opts.add (o : Opts) (s : Arg) : Opts := { o with args := o.args ++ s }

def quote (s : Arg) : Arg := '"' :: (s ++ ['"'])

def begins (p : String) (a : Arg) : Bool := p.toList.isPrefixOf a

/-- the branch for an argument -/
inductive Kind
  | flag (b : Branch)
  | trim
  | level (dist : Bool)
  | config
  | db
  | quit
  | jobs (n : Nat)
  | report
  | source
  | unknown
  | target

/-- the comparisons, O:97-491. Those of `branches` are put first, no argument is equal to two of them. -/
def kind (env : Env) (a : Arg) : Kind :=
  if begins "-" a then
    match branch env.windows a with
    | some b => .flag b
    | none =>
      if a = "-cachetrim".toList then .trim
      else if a = "-cachecompressionlevel".toList then .level false
      else if a = "-distcompressionlevel".toList then .level true
      else if a = "-config".toList then .config
      else if a = "-dbfile".toList then .db
      else if a = "-help".toList ∨ a = "-version".toList then .quit
      else if begins "-j" a ∧ (env.scanU (a.drop 2)).isSome then .jobs ((env.scanU (a.drop 2)).getD 0)
      else if begins "-report" a then .report
      else if a = "-sourcefile".toList then .source
      else .unknown
  else .target

/-- the branch, O:97-500. The options have the argument in `m_Args` already, but for targets. -/
def perform (env : Env) (a : Arg) (next : Option Arg) (o : Opts) : Kind → Step
  | .flag b =>
    .next false { o with flags := assign (b.sets ++ (if env.windows then b.winSets else [])) o.flags
                         mode := if env.windows then b.mode.getD o.mode else o.mode }
  | .trim =>
    match next.bind env.scanU, next with
    | some n, some v => .next true ({ o with cacheTrim := n }.add (' ' :: v))
    | _, _ => .error
  | .level dist =>
    match next.bind env.scanI, next with
    | some n, some v =>
      if n < -128 ∨ n > 12 then .error
      else .next true ((if dist then { o with distLevel := n } else { o with cacheLevel := n } : Opts).add (' ' :: v))
    | _, _ => .error
  | .config =>
    match next with
    | some v => .next true ({ o with config := v }.add (' ' :: quote v))
    | none => .error
  | .db =>
    match next with
    | some v => .next true ({ o with dbFile := v }.add (' ' :: quote v))
    | none => .error
  | .quit => .quit
  | .jobs n => if n ≤ 256 then .next false { o with threads := n } else .error
  | .report =>
    match Verif.Str.tokenize '=' a with
    | _ :: t :: _ =>
      let t := t.map Verif.Str.lower
      if t = "html".toList ∨ t = "json".toList then .next false { o with report := t } else .error
    | _ => .next false { o with report := "html".toList }
  | .source =>
    match next with
    | some v =>
      let o := { o with sources := o.sources ++ Verif.Str.tokenize ';' v }.add (' ' :: v)
      if o.sources = [] then .error else .next true o
    | none => if o.sources = [] then .error else .next false o
  | .unknown => .error
  | .target => .next false { o.add (quote a) with targets := o.targets ++ [a] }

/-- one round of the loop, O:66-500; `next`: the argument behind -/
def step (env : Env) (first : Bool) (a : Arg) (next : Option Arg) (o : Opts) : Step :=
  if env.windows ∧ o.mode = .none ∧ a = "-wsl".toList then
    if first then
      match next with
      | some p => .next true { o with mode := .wsl, wslPath := p }
      | none => .error
    else .error
  else
    let o := spaced o
    if o.mode = .wsl then .next false (o.add a)
    else perform env a next (if begins "-" a then o.add a else o) (kind env a)

/-- what is done after the loop, O:503-543 -/
def finish (env : Env) (o : Opts) : Out :=
  let o := if o.flags .progressSpecified then o else { o with flags := assign [(.showProgress, !env.redirected)] o.flags }
  let o := if o.targets = [] then { o with targets := ["all".toList] } else o
  if o.flags .useCacheRead = false ∧ o.flags .useCacheWrite = false then
    match env.cacheMode with
    | none => .ok o
    | some m =>
      if m = "r".toList then .ok { o with flags := assign [(.useCacheRead, true)] o.flags }
      else if m = "w".toList then .ok { o with flags := assign [(.useCacheWrite, true)] o.flags }
      else if m = "rw".toList then .ok { o with flags := assign [(.useCacheRead, true), (.useCacheWrite, true)] o.flags }
      else .error
  else .ok o

/-- the loop. `skip`: the argument has been used -/
def loop (env : Env) (first skip : Bool) : List Arg → Opts → Out
  | [], o => finish env o
  | a :: l, o =>
    if skip then loop env false false l o
    else match step env first a l.head? o with
      | .error => .error
      | .quit => .quit
      | .next s o => loop env false s l o

/-- `ProcessCommandLine` with the arguments behind the name of the program -/
def process (env : Env) (l : List Arg) : Out := loop env true false l { threads := env.cores }

/-! ### the processes of the wrapper -/

/-- The arguments a program is started with on Windows, as the C runtime takes them from the text behind the name of the program.
`n`: backslashes that have been read; `word`: there is a word. -/
def argv (quoted word : Bool) (n : Nat) (cur : Arg) : List Char → List Arg
  | [] => if word ∨ n ≠ 0 then [cur ++ List.replicate n '\\'] else []
  | '\\' :: l => argv quoted true (n + 1) cur l
  | '"' :: '"' :: l =>
    if n % 2 = 1 then argv quoted true 0 (cur ++ List.replicate (n / 2) '\\' ++ ['"']) ('"' :: l)
    else if quoted then argv quoted true 0 (cur ++ List.replicate (n / 2) '\\' ++ ['"']) l
    else argv (!quoted) true 0 (cur ++ List.replicate (n / 2) '\\') ('"' :: l)
  | '"' :: l =>
    if n % 2 = 1 then argv quoted true 0 (cur ++ List.replicate (n / 2) '\\' ++ ['"']) l
    else argv (!quoted) true 0 (cur ++ List.replicate (n / 2) '\\') l
  | c :: l =>
    if ¬ quoted ∧ (c = ' ' ∨ c = '\t') then
      if word ∨ n ≠ 0 then (cur ++ List.replicate n '\\') :: argv false false 0 [] l else argv false false 0 [] l
    else argv quoted true 0 (cur ++ List.replicate n '\\' ++ [c]) l

/-- what the intermediate process is given, Main.cpp:278-282 -/
def forIntermediate (o : Opts) : List Arg := argv false false 0 [] (o.args ++ " -wrapperintermediate".toList)

/-- what the final process is given, Main.cpp:324-328 -/
def forFinal (o : Opts) : List Arg := argv false false 0 [] (o.args ++ " -wrapperfinal".toList)

/-- what is done, Main.cpp:176-205 -/
inductive Action
  | targetList | dependencies | dotGraph | compdb | cacheInfo | cacheTrim | build
  deriving DecidableEq

def action (o : Opts) : Action :=
  if o.flags .displayTargetList then .targetList
  else if o.flags .displayDependencyDB then .dependencies
  else if o.flags .generateDotGraph then .dotGraph
  else if o.flags .generateCompilationDatabase then .compdb
  else if o.flags .cacheInfo then .cacheInfo
  else if o.cacheTrim ≠ 0 then .cacheTrim
  else .build

end Verif.Cmd
