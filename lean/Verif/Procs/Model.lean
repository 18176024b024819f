/-
Model of the processes of a build: `Main`, `WrapperMainProcess`, `WrapperIntermediateProcess`, Code/Tools/FBuild/FBuild/Main.cpp:73-341 ("M" below),
with `SystemMutex`, Code/Core/Process/SystemMutex.cpp, and `SharedMemory`, Code/Core/Process/SharedMemory.cpp (Windows; the modes are only there).
All processes work in one directory, so the names of the mutexes and of the memory are the same.

`SystemMutex::TryLock` may fail without a reason (on Windows the name is taken for a moment by others that try): where it is tried again and
again that is no step, where it is tried once it is the step `refused`. A process that is killed lets go of everything at once.
-/
namespace Verif.Procs

/-- where a process is -/
inductive PC
  | unborn
  /-- started by the user, in front of the mutex, M:115-136. `wrapper`: with `-ide` or `-wrapper` -/
  | start (wrapper : Bool)
  /-- without wrapper, M:172-227 -/
  | plain
  /-- M:276 -/
  | create
  /-- M:278-279 -/
  | clear
  /-- M:286 -/
  | spawn
  /-- M:293, for process `i` -/
  | waitInter (i : Nat)
  /-- M:306-309 -/
  | waitStarted
  /-- M:312-319 -/
  | waitFinal
  /-- the intermediate process of `m`, M:333 -/
  | inter (m : Nat)
  /-- the final process, M:149-158 -/
  | final
  /-- M:160-168, with the mutex -/
  | map
  /-- M:169 -/
  | tell
  /-- M:172-227 in the final process -/
  | build
  /-- M:246-249 -/
  | store (c : Int)
  /-- the end of `Main`: `finalProcess` is destroyed, then `mainProcess`, then the memory -/
  | leave (c : Int)
  | leaveMain (c : Int)
  | leaveMap (c : Int)
  | gone (c : Int)
  | killed
  deriving DecidableEq

/-- `FBUILD_FAILED_TO_SPAWN_WRAPPER_FINAL`, M:28-40 -/
def noFinal : Int := -6
/-- `FBUILD_FAILED_TO_SPAWN_WRAPPER` -/
def noInter : Int := -5
/-- `FBUILD_WRAPPER_CRASHED` -/
def crashed : Int := -7
/-- `FBUILD_ALREADY_RUNNING` -/
def running : Int := -4

structure State where
  pc : Nat → PC := fun _ => .unborn
  /-- who has the mutex `mainProcess` -/
  main : Option Nat := none
  /-- who has the mutex `finalProcess` -/
  final : Option Nat := none
  /-- who has the memory open; it is there while someone has -/
  opened : List Nat := []
  /-- the memory: `SharedData::Started`, `SharedData::ReturnCode` -/
  started : Bool := false
  code : Int := 0
  /-- not in the code: the final process that has been started for a main process -/
  child : Nat → Option Nat := fun _ => none
  /-- not in the code: what a final process has written as the result -/
  stored : Nat → Option Int := fun _ => none

def upd {α : Type} (f : Nat → α) (p : Nat) (x : α) : Nat → α := fun q => if q = p then x else f q

def State.at (s : State) (p : Nat) (x : PC) : State := { s with pc := upd s.pc p x }

def drop (o : Option Nat) (p : Nat) : Option Nat := if o = some p then none else o

inductive Act
  /-- the user starts process `p` -/
  | launch (p : Nat) (wrapper : Bool)
  | lockMain (p : Nat)
  | refused (p : Nat)
  | create (p : Nat)
  | clear (p : Nat)
  | spawn (p i : Nat)
  | spawnFails (p : Nat)
  | interSpawn (p f : Nat)
  | interFails (p : Nat)
  | interLeft (p : Nat)
  | seen (p : Nat)
  | waited (p : Nat)
  | lockFinal (p : Nat)
  /-- the final process finds that there is no main process -/
  | giveUp (p : Nat)
  | map (p : Nat)
  | tell (p : Nat)
  /-- the build is over -/
  | finish (p : Nat) (c : Int)
  | store (p : Nat)
  | leave (p : Nat)
  | kill (p : Nat)
  deriving DecidableEq

/-- what a process does; `none`: it cannot -/
def act (s : State) : Act → Option State
  | .launch p w => if s.pc p = .unborn then some (s.at p (.start w)) else none
  | .lockMain p => match s.pc p with
    | .start w => if s.main = none then some { s.at p (if w then .create else .plain) with main := some p } else none
    | _ => none
  | .refused p => match s.pc p with
    | .start _ => some (s.at p (.leave running))
    | _ => none
  | .create p => if s.pc p = .create then
      -- memory that is there already is taken as it is
      some { s.at p .clear with opened := p :: s.opened, started := if s.opened = [] then false else s.started, code := if s.opened = [] then 0 else s.code }
    else none
  | .clear p => if s.pc p = .clear then some { s.at p .spawn with started := false, code := crashed } else none
  | .spawn p i => if s.pc p = .spawn ∧ s.pc i = .unborn then some ((s.at p (.waitInter i)).at i (.inter p)) else none
  | .spawnFails p => if s.pc p = .spawn then some (s.at p (.leave noInter)) else none
  | .interSpawn p f => match s.pc p with
    | .inter m => if s.pc f = .unborn then some { (s.at p (.leave 0)).at f .final with child := upd s.child m (some f) } else none
    | _ => none
  | .interFails p => match s.pc p with
    | .inter _ => some (s.at p (.leave noFinal))
    | _ => none
  -- M:293-303
  | .interLeft p => match s.pc p with
    | .waitInter i => match s.pc i with
      | .gone c => some (s.at p (if c = 0 then .waitStarted else .leave c))
      | .killed => some (s.at p (.leave 1))
      | _ => none
    | _ => none
  | .seen p => if s.pc p = .waitStarted ∧ s.started then some (s.at p .waitFinal) else none
  -- M:314, 321
  | .waited p => if s.pc p = .waitFinal ∧ s.final = none then some { s.at p (.leave s.code) with final := some p } else none
  | .lockFinal p => if s.pc p = .final ∧ s.final = none then some { s.at p .map with final := some p } else none
  | .giveUp p => if s.pc p = .final ∧ s.main = none then some { s.at p (.leave noFinal) with main := some p } else none
  | .map p => if s.pc p = .map then
      if s.opened = [] then some (s.at p (.leave noFinal)) else some { s.at p .tell with opened := p :: s.opened }
    else none
  | .tell p => if s.pc p = .tell then some { s.at p .build with started := true } else none
  | .finish p c => match s.pc p with
    | .plain => some (s.at p (.leave c))
    | .build => some (s.at p (.store c))
    | _ => none
  | .store p => match s.pc p with
    | .store c => some { s.at p (.leave c) with code := c, stored := upd s.stored p (some c) }
    | _ => none
  | .leave p => match s.pc p with
    | .leave c => some { s.at p (.leaveMain c) with final := drop s.final p }
    | .leaveMain c => some { s.at p (.leaveMap c) with main := drop s.main p }
    | .leaveMap c => some { s.at p (.gone c) with opened := s.opened.filter (· ≠ p) }
    | _ => none
  | .kill p => match s.pc p with
    | .unborn => none
    | .gone _ => none
    | .killed => none
    | _ => some { s.at p .killed with final := drop s.final p, main := drop s.main p, opened := s.opened.filter (· ≠ p) }

def run (s : State) : List Act → Option State
  | [] => some s
  | a :: l => (act s a).bind (run · l)

end Verif.Procs
