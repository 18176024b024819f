import Verif.Cmd.Model
/-
What a command line means: a list of items, and the options field by field.
-/
namespace Verif.Cmd

/-- the parts of a command line -/
inductive Item
  /-- an option without a value -/
  | flag (a : Arg)
  | trim (v : Arg) (n : Nat)
  | level (dist : Bool) (v : Arg) (n : Int)
  | config (v : Arg)
  | db (v : Arg)
  | jobs (a : Arg) (n : Nat)
  | report (a t : Arg)
  /-- `none`: the option is the last argument -/
  | source (v : Option Arg)
  | target (a : Arg)

/-! ### which items there are -/

def plainNames : List String := ["-continueafterdbmove", "-cache", "-cacheread", "-cachewrite", "-cacheinfo", "-cacheverbose", "-clean", "-compdb",
  "-dist", "-distverbose", "-dot", "-dotfull", "-fastcancel", "-fixuperrorpaths", "-forceremote", "-ide", "-vs", "-monitor",
  "-nofastcancel", "-nolocalrace", "-noprogress", "-nostoponerror", "-nosummaryonerror", "-nounity", "-profile", "-progress", "-quiet",
  "-showcmds", "-showcmdoutput", "-showdeps", "-showtargets", "-showalltargets", "-summary", "-verbose", "-wait", "-why"]

def windowsNames : List String := ["-debug", "-wrapper", "-wrapperintermediate", "-wrapperfinal"]

def IsFlag (windows : Bool) (a : Arg) : Prop := ∃ s, (s ∈ plainNames ∨ windows = true ∧ s ∈ windowsNames) ∧ a = s.toList

/-- what is behind the first `=` is the kind of report, without any it is `html` -/
def ReportOf (a t : Arg) : Prop :=
  (∃ x y l, Verif.Str.tokenize '=' a = x :: y :: l ∧ t = y.map Verif.Str.lower ∧ (t = "html".toList ∨ t = "json".toList)) ∨
    ((Verif.Str.tokenize '=' a).length < 2 ∧ t = "html".toList)

/-- `had`: there is a source file in front -/
inductive Items (env : Env) : Bool → List Arg → List Item → Prop
  | nil {had : Bool} : Items env had [] []
  | flag {had : Bool} {a : Arg} {l : List Arg} {is : List Item} : IsFlag env.windows a → Items env had l is →
      Items env had (a :: l) (.flag a :: is)
  | trim {had : Bool} {v : Arg} {n : Nat} {l : List Arg} {is : List Item} : env.scanU v = some n → Items env had l is →
      Items env had ("-cachetrim".toList :: v :: l) (.trim v n :: is)
  | level {had dist : Bool} {v : Arg} {n : Int} {l : List Arg} {is : List Item} : env.scanI v = some n → -128 ≤ n → n ≤ 12 → Items env had l is →
      Items env had ((if dist then "-distcompressionlevel" else "-cachecompressionlevel").toList :: v :: l) (.level dist v n :: is)
  | config {had : Bool} {v : Arg} {l : List Arg} {is : List Item} : Items env had l is → Items env had ("-config".toList :: v :: l) (.config v :: is)
  | db {had : Bool} {v : Arg} {l : List Arg} {is : List Item} : Items env had l is → Items env had ("-dbfile".toList :: v :: l) (.db v :: is)
  | jobs {had : Bool} {v : Arg} {n : Nat} {l : List Arg} {is : List Item} : env.scanU v = some n → n ≤ 256 → Items env had l is →
      Items env had (('-' :: 'j' :: v) :: l) (.jobs v n :: is)
  | report {had : Bool} {v t : Arg} {l : List Arg} {is : List Item} : ReportOf ("-report".toList ++ v) t → Items env had l is →
      Items env had (("-report".toList ++ v) :: l) (.report v t :: is)
  | source {had : Bool} {v : Arg} {l : List Arg} {is : List Item} : had = true ∨ Verif.Str.tokenize ';' v ≠ [] → Items env true l is →
      Items env had ("-sourcefile".toList :: v :: l) (.source (some v) :: is)
  | sourceEnd : Items env true ["-sourcefile".toList] [.source none]
  | target {had : Bool} {a : Arg} {l : List Arg} {is : List Item} : a.head? ≠ some '-' → Items env had l is →
      Items env had (a :: l) (.target a :: is)

/-! ### what they mean -/

/-- the last that says something, or `d` -/
def lastOf {α : Type} (f : Item → Option α) (d : α) (is : List Item) : α := (is.filterMap f).getLast?.getD d

/-- flags that make it true and false -/
def switch (on off : List String) (i : Item) : Option Bool :=
  match i with
  | .flag a => if a ∈ on.map (·.toList) then some true else if a ∈ off.map (·.toList) then some false else none
  | _ => none

/-- For each field the options that switch it on and off. -/
def switches (windows : Bool) : Fld → List String × List String
  | .continueAfterDBMove => (["-continueafterdbmove"], [])
  | .useCacheRead => (["-cache", "-cacheread"], [])
  | .useCacheWrite => (["-cache", "-cachewrite"], [])
  | .cacheInfo => (["-cacheinfo"], [])
  | .cacheVerbose => (["-cacheverbose", "-verbose"], [])
  | .forceCleanBuild => (["-clean"], [])
  | .generateCompilationDatabase => (["-compdb"], [])
  | .allowDistributed => (["-dist", "-distverbose", "-forceremote"], [])
  | .distVerbose => (["-distverbose"], [])
  | .generateDotGraph => (["-dot", "-dotfull"], [])
  | .generateDotGraphFull => (["-dotfull"], ["-dot"])
  | .fixupErrorPaths => (if windows then ["-fixuperrorpaths", "-ide", "-vs"] else ["-fixuperrorpaths"], [])
  | .noLocalConsumptionOfRemoteJobs => (["-forceremote"], [])
  | .allowLocalRace => ([], ["-forceremote", "-nolocalrace"])
  | .showProgress => (["-progress"], ["-noprogress", "-ide", "-vs"])
  | .progressSpecified => (["-progress", "-noprogress", "-ide", "-vs"], [])
  | .enableMonitor => (["-monitor"], [])
  | .fastCancel => ([], ["-nofastcancel"])
  | .stopOnFirstError => ([], ["-nostoponerror"])
  | .showSummary => (["-summary", "-nosummaryonerror"], [])
  | .noSummaryOnError => (["-nosummaryonerror"], [])
  | .noUnity => (["-nounity"], [])
  | .profile => (["-profile"], [])
  | .showCommandSummary => ([], ["-quiet"])
  | .showTotalTimeTaken => ([], ["-quiet"])
  | .showVerbose => (["-verbose"], ["-quiet"])
  | .showCommandLines => (["-showcmds", "-verbose"], [])
  | .showCommandOutput => (["-showcmdoutput", "-verbose"], [])
  | .displayDependencyDB => (["-showdeps"], [])
  | .displayTargetList => (["-showtargets", "-showalltargets"], [])
  | .showHiddenTargets => (["-showalltargets"], [])
  | .waitMode => (["-wait"], [])
  | .showBuildReason => (["-why", "-distverbose"], [])

/-- what a field is if no option is about it -/
def default (env : Env) : Fld → Bool
  | .showProgress => !env.redirected
  | .allowLocalRace | .fastCancel | .stopOnFirstError | .showCommandSummary | .showTotalTimeTaken => true
  | _ => false

/-- caching in no item, and the variable asks for it -/
def byVariable (env : Env) (is : List Item) (modes : List String) : Bool :=
  (∀ i ∈ is, switch ["-cache", "-cacheread", "-cachewrite"] [] i = none) && env.cacheMode.any (· ∈ modes.map (·.toList))

def flagValue (env : Env) (is : List Item) (f : Fld) : Bool :=
  lastOf (switch (switches env.windows f).1 (switches env.windows f).2) (default env f) is ||
    match f with
    | .useCacheRead => byVariable env is ["r", "rw"]
    | .useCacheWrite => byVariable env is ["w", "rw"]
    | _ => false

def modeOf (windows : Bool) (i : Item) : Option Mode :=
  match i with
  | .flag a =>
    if windows = false then none
    else if a = "-ide".toList ∨ a = "-vs".toList ∨ a = "-wrapper".toList then some .main
    else if a = "-wrapperintermediate".toList then some .intermediate
    else if a = "-wrapperfinal".toList then some .final
    else none
  | _ => none

def trimOf : Item → Option Nat | .trim _ n => some n | _ => none
def levelOf (dist : Bool) : Item → Option Int | .level d _ n => if d = dist then some n else none | _ => none
def configOf : Item → Option Arg | .config v => some v | _ => none
def dbOf : Item → Option Arg | .db v => some v | _ => none
def jobsOf : Item → Option Nat | .jobs _ n => some n | _ => none
def reportOf : Item → Option Arg | .report _ t => some t | _ => none
def targetOf : Item → Option Arg | .target a => some a | _ => none
def sourcesOf : Item → List Arg | .source (some v) => Verif.Str.tokenize ';' v | _ => []

/-- how an item is passed on -/
def Item.text : Item → Arg
  | .flag a => a
  | .trim v _ => "-cachetrim ".toList ++ v
  | .level dist v _ => (if dist then "-distcompressionlevel " else "-cachecompressionlevel ").toList ++ v
  | .config v => "-config ".toList ++ quote v
  | .db v => "-dbfile ".toList ++ quote v
  | .jobs v _ => "-j".toList ++ v
  | .report v _ => "-report".toList ++ v
  | .source (some v) => "-sourcefile ".toList ++ v
  | .source none => "-sourcefile".toList
  | .target a => quote a

/-- with spaces between them -/
def joined : List Arg → Arg
  | [] => []
  | [a] => a
  | a :: l => a ++ ' ' :: joined l

/-- the options of a command line of these items -/
structure Meaning (env : Env) (is : List Item) (o : Opts) : Prop where
  flags : ∀ f, o.flags f = flagValue env is f
  mode : o.mode = lastOf (modeOf env.windows) .none is
  targets : o.targets = if is.filterMap targetOf = [] then ["all".toList] else is.filterMap targetOf
  sources : o.sources = is.flatMap sourcesOf
  trim : o.cacheTrim = lastOf trimOf 0 is
  cacheLevel : o.cacheLevel = lastOf (levelOf false) 1 is
  distLevel : o.distLevel = lastOf (levelOf true) (-1) is
  config : o.config = lastOf configOf [] is
  db : o.dbFile = lastOf dbOf [] is
  threads : o.threads = lastOf jobsOf env.cores is
  report : o.report = lastOf reportOf [] is
  wsl : o.wslPath = []
  args : o.args = joined (is.map Item.text)

/-- The variable is about nothing, or it is one of the modes. -/
def ModeOK (env : Env) (is : List Item) : Prop :=
  (∃ i ∈ is, switch ["-cache", "-cacheread", "-cachewrite"] [] i ≠ none) ∨ ∀ m, env.cacheMode = some m → m ∈ ["r", "w", "rw"].map (·.toList)

/-! ### passing it on -/

/-- no blank and no quote -/
def Bare (v : Arg) : Prop := ∀ c ∈ v, c ≠ ' ' ∧ c ≠ '\t' ∧ c ≠ '"'

/-- fit to be put in quotes -/
def Quotable (v : Arg) : Prop := (∀ c ∈ v, c ≠ '"') ∧ v.getLast? ≠ some '\\'

def Item.Safe : Item → Prop
  | .trim v _ | .level _ v _ | .source (some v) => v ≠ [] ∧ Bare v
  | .jobs v _ | .report v _ => Bare v
  | .config v | .db v | .target v => Quotable v
  | .flag _ => True
  | .source none => False

end Verif.Cmd
