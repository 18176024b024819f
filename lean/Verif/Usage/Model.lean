/-
How much of its machine a worker takes.

* `FBuildWorkerOptions.cpp` (O): the command line of a worker,
* `Worker/WorkerSettings.cpp` (W): settings, kept in a file,
* `Worker/IdleDetection.cpp` (I): whether others use the machine,
* `Worker/Worker.cpp` (K): `UpdateAvailability`, called about twice a second,
* `Main.cpp` (M): options win over settings,

all of Code/Tools/FBuild/FBuildWorker, and `WorkerThreadRemote.cpp` (R) of FBuildCore/WorkerPool.

Simplifications: percentages are exact rational numbers (floats in the code; for processors and
percentages whose product is below 2^24 the result O:58 is the same); which processes belong to the
worker and their times are given; scanning a number (`sscanf`) is a parameter.
-/
namespace Verif.Usage

abbrev Text := List Char

/-- `WorkerSettings::Mode`, WorkerSettings.h:21-27. -/
inductive Mode
  | disabled | whenIdle | dedicated | proportional
  deriving DecidableEq, Repr

/-! ### Settings -/

/-- The members of `WorkerSettings`.  The mode is whatever number was read (W:106-108). -/
structure Settings where
  mode : BitVec 32
  idleThreshold : BitVec 32
  cpus : BitVec 32
  minimized : BitVec 8
  freeMemory : BitVec 32
  deriving DecidableEq

def Mode.code : Mode → BitVec 32
  | .disabled => 0
  | .whenIdle => 1
  | .dedicated => 2
  | .proportional => 3

/-- The constructor before `Load` (W:27-37). -/
def defaults (cores : Nat) : Settings :=
  ⟨Mode.whenIdle.code, 20, BitVec.ofNat 32 (max 1 (cores / 2)), 0, 1024⟩

/-- Four bytes, least first. -/
def bytes4 (v : BitVec 32) : List (BitVec 8) :=
  [v.extractLsb' 0 8, v.extractLsb' 8 8, v.extractLsb' 16 8, v.extractLsb' 24 8]

/-- `Read( uint32_t & )` (IOStream.h:41): what is read and what is left; `none` at the end of the
file, where the variable keeps its value (`ReadBuffer` may then have read some bytes into it, which
is left out). -/
def read4 : List (BitVec 8) → Option (BitVec 32 × List (BitVec 8))
  | a :: b :: c :: d :: l => some (d ++ c ++ b ++ a, l)
  | _ => none

/-- `Save` (W:124-143). -/
def save (s : Settings) : List (BitVec 8) :=
  [0x46, 0x57, 0x53, 4] ++ bytes4 s.mode ++ bytes4 s.idleThreshold ++ bytes4 s.cpus ++ [s.minimized]

/-- `Load` (W:93-114).  `none`: the mode is a variable that was never set. -/
def load (s : Settings) (file : List (BitVec 8)) : Option Settings :=
  let version := file[3]?.getD 0
  if version.toNat < 1 ∨ version.toNat > 4 then some s
  else do
    let (mode, l) ← read4 (file.drop 4)
    let s := { s with mode := mode }
    let (s, l) :=
      if version.toNat ≥ 4 then
        match read4 l with
        | some (v, l) => ({ s with idleThreshold := v }, l)
        | none => (s, [])
      else (s, l)
    let (s, l) :=
      match read4 l with
      | some (v, l) => ({ s with cpus := v }, l)
      | none => (s, [])
    some (match l with
      | b :: _ => { s with minimized := b }
      | [] => s)

/-- What the file says, if there is one (W:39, 96). -/
def found (cores : Nat) : Option (List (BitVec 8)) → Option Settings
  | none => some (defaults cores)
  | some f => load (defaults cores) f

/-- The constructor (W:27-43); `file` is none if there is no file. -/
def settings (cores : Nat) (file : Option (List (BitVec 8))) : Option Settings := do
  let s ← found cores file
  some { s with cpus := BitVec.ofNat 32 (min cores s.cpus.toNat) }

/-! ### Options -/

structure Options where
  cpus : Option Nat := none
  mode : Option Mode := none
  freeMemory : Nat := 0
  console : Bool := false
  periodicRestart : Bool := false
  deriving DecidableEq

/-- `Math::Clamp( num, 1, numCPUs )`, Conversions.h:29-32 -/
def clamp (a lo hi : Int) : Int := min (max a lo) hi

/-- `(int32_t)( (float)numCPUs * (float)num / 100.0f )` (O:58); `none`: the number does not fit,
which is undefined. -/
def percent (cores : Nat) (num : Int) : Option Int :=
  let x := Int.tdiv (cores * num) 100
  if -2147483648 ≤ x ∧ x ≤ 2147483647 then some x else none

def cpusOption : Text := "-cpus=".toList
def memoryOption : Text := "-minfreememory=".toList

/-- `-cpus=` (O:50-78): `some none` is a usage error. -/
def cpusToken (scan : Text → Option Int) (cores : Nat) (token : Text) : Option (Option Nat) :=
  match scan (token.drop 6) with
  | none => some none
  | some num =>
      if token.getLast? = some '%' then
        (percent cores num).map fun x => some (clamp x 1 cores).toNat
      else if num > 0 then some (some (clamp num 1 cores).toNat)
      else if num < 0 then some (some (clamp (cores + num) 1 cores).toNat)
      else some none

/-- `token` is one of these; what each does (O:79-107, 118-132). -/
def plain (win : Bool) (token : Text) (o : Options) : Option Options :=
  if token = "-console".toList ∧ win then some { o with console := true }
  else if token = "-mode=disabled".toList then some { o with mode := some .disabled }
  else if token = "-mode=idle".toList then some { o with mode := some .whenIdle }
  else if token = "-mode=dedicated".toList then some { o with mode := some .dedicated }
  else if token = "-mode=proportional".toList then some { o with mode := some .proportional }
  else if token = "-periodicrestart".toList then some { o with periodicRestart := true }
  else if (token = "-nosubprocess".toList ∨ token = "-subprocess".toList ∨ token = "-debug".toList) ∧ win
    then some o
  else none

/-- One token (O:41-137), on Windows or Linux: `none` is undefined, `some none` a usage error. -/
def token1 (win : Bool) (scan : Text → Option Int) (scanU : Text → Option Nat) (cores : Nat)
    (token : Text) (o : Options) : Option (Option Options) :=
  if cpusOption.isPrefixOf token then
    (cpusToken scan cores token).map fun r => r.map fun n => { o with cpus := some n }
  else if win && memoryOption.isPrefixOf token then
    some (some (match scanU (token.drop 15) with
      | some n => { o with freeMemory := n }
      | none => o))
  else some (plain win token o)

/-- `ProcessCommandLine` (O:34-140). -/
def options (win : Bool) (scan : Text → Option Int) (scanU : Text → Option Nat) (cores : Nat) :
    List Text → Options → Option (Option Options)
  | [], o => some (some o)
  | t :: ts, o =>
      match token1 win scan scanU cores t o with
      | none => none
      | some none => some none
      | some (some o) => options win scan scanU cores ts o

/-- Options win over settings (M:122-134). -/
def override (o : Options) (s : Settings) : Settings :=
  let s := match o.cpus with
    | some n => { s with cpus := BitVec.ofNat 32 n }
    | none => s
  let s := match o.mode with
    | some m => { s with mode := m.code }
    | none => s
  if o.freeMemory ≠ 0 then { s with freeMemory := BitVec.ofNat 32 o.freeMemory } else s

/-! ### Whether others use the machine -/

/-- A process of the worker and its time when last asked; 0 is never. -/
structure Proc where
  pid : Nat
  last : BitVec 64
  deriving DecidableEq

/-- The members of `IdleDetection`. -/
structure Idle where
  usageOurs : Rat := 0
  usageTotal : Rat := 0
  isIdle : Bool := false
  value : Rat := 0
  current : Rat := 0
  smooth : Int := 0
  smoothValue : Int := 0
  procs : List Proc
  lastIdle : BitVec 64 := 0
  lastBusy : BitVec 64 := 0

/-- What a call finds: the times of the machine so far, whether the timer of I:143 has run out,
the processes of the worker now (the first is the worker itself) and their times. -/
structure Sight where
  idleTime : BitVec 64
  busyTime : BitVec 64
  timer : Bool := true
  alive : List Nat
  time : Nat → BitVec 64

/-- `UpdateProcessList` (I:295-470): processes that are gone are forgotten, new ones are added. -/
def processes (x : Sight) (ps : List Proc) : List Proc :=
  ps.filter (fun p => x.alive.contains p.pid) ++
    ((x.alive.filter fun pid => !(ps.any fun p => p.pid == pid)).map fun pid => ⟨pid, 0⟩)

/-- The share of the worker's processes, in percent (I:151-170). -/
def ours (x : Sight) (system : BitVec 64) : List Proc → Rat
  | [] => 0
  | p :: ps =>
      (if p.last ≠ 0 then ((x.time p.pid - p.last).toNat : Rat) / (system.toNat : Rat) * 100 else 0) +
        ours x system ps

/-- The time that passed on all processors since the last call, 0 at the first (I:116-128). -/
def passed (x : Sight) (d : Idle) : BitVec 64 :=
  if d.lastBusy ≠ 0 then (x.idleTime - d.lastIdle) + (x.busyTime - d.lastBusy) else 0

/-- The times of the machine are noted (I:123-131). -/
def total (x : Sight) (d : Idle) : Idle :=
  { d with
    usageTotal := if d.lastBusy ≠ 0 then
        ((x.busyTime - d.lastBusy).toNat : Rat) / ((passed x d).toNat : Rat) * 100
      else d.usageTotal,
    lastIdle := x.idleTime, lastBusy := x.busyTime }

/-- The processes of the worker are asked (I:143-174). -/
def ask (x : Sight) (system : BitVec 64) (d : Idle) : Idle :=
  if x.timer then
    if system ≠ 0 then
      { d with
        procs := (processes x d.procs).map fun p => { p with last := x.time p.pid },
        usageOurs := ours x system (processes x d.procs) }
    else { d with procs := processes x d.procs }
  else d

/-- The share that nobody else uses (I:176). -/
def judge (d : Idle) : Idle := { d with current := 1 - (d.usageTotal - d.usageOurs) / 100 }

/-- `IsIdleInternal` (I:113-178); the boolean is its result.  `none`: no time has passed since the
last call, and the usage is not a number. -/
def measure (threshold : Nat) (x : Sight) (d : Idle) : Option (Idle × Bool) :=
  if d.lastBusy ≠ 0 ∧ passed x d = 0 then none
  -- I:136-140
  else if (total x d).usageTotal < (threshold : Rat) then some ({ total x d with current := 1 }, true)
  else some (judge (ask x (passed x d) (total x d)),
      decide ((total x d).usageTotal - (ask x (passed x d) (total x d)).usageOurs < (threshold : Rat)))

/-- One step of a smoothed value (I:73-81, 94-102). -/
def step (up : Bool) (n : Int) : Int := clamp (if up then n + 1 else n - 2) 0 10

/-- `Update` (I:70-109), after the measurement. -/
def smoothen (idle : Bool) (d : Idle) : Idle :=
  let n := step idle d.smooth
  let isIdle := if n = 10 then true else if n = 0 then false else d.isIdle
  let m := step (decide (d.value ≤ d.current)) d.smoothValue
  let value := if m = 10 ∨ m = 0 then d.current else d.value
  { d with smooth := n, isIdle := isIdle, smoothValue := m, value := value }

/-- `Update` (I:70-109). -/
def update (threshold : Nat) (x : Sight) (d : Idle) : Option Idle :=
  (measure threshold x d).map fun r => smoothen r.2 r.1

/-- Any number of calls; with what was measured each time, the last one first. -/
def updates (threshold : Nat) : List Sight → Idle × List (Bool × Rat) → Option (Idle × List (Bool × Rat))
  | [], r => some r
  | x :: xs, (d, seen) =>
      match measure threshold x d with
      | none => none
      | some (d, idle) => updates threshold xs (smoothen idle d, (idle, d.current) :: seen)

/-! ### Processors -/

/-- How many processors are to be used (K:320-358).  A mode that is none of the four leaves the
number as it is. -/
def numCPUs (s : Settings) (d : Idle) (restart disk memory : Bool) : Nat :=
  let n := s.cpus.toNat
  let n :=
    if s.mode = Mode.whenIdle.code then (if d.isIdle then n else 0)
    else if s.mode = Mode.proportional.code then
      if 0 ≤ d.value ∧ d.value ≤ 1 then ((n : Rat) * d.value).floor.toNat else 0
    else if s.mode = Mode.disabled.code then 0
    else n
  if restart || !disk || !memory then 0 else n

/-- Whether the worker is available to clients (K:362). -/
def isAvailable (n : Nat) : Bool := decide (n > 0)

/-- `IsEnabled` (R:115-122): threads have the numbers 1001, 1002, … (JobQueueRemote.cpp:44-47). -/
def isEnabled (n : Nat) (index : BitVec 16) : Bool := decide ((index - 1000#16).toNat ≤ n)

/-- The threads that may take jobs, of so many. -/
def enabled (threads n : Nat) : List Nat :=
  (List.range threads).filter fun i => isEnabled n (BitVec.ofNat 16 (i + 1001))

end Verif.Usage
