import Verif.Compdb.Model
/-!
The profile of a build (`-profile`): `BuildProfiler`, Helpers/BuildProfiler.cpp. Text is a list of characters, each a byte. Times are converted to
microseconds by floating point numbers: that conversion is a parameter (`us`), like the one of MiB to tenths of GiB (`gib`).
-/
namespace Verif.Profile
open Verif.Compdb (escape)

abbrev Text := List Char

/-- `%u`, `%i` of numbers that are not negative -/
def digits (n : Nat) : Text :=
  if n < 10 then [Char.ofNat (48 + n)] else digits (n / 10) ++ [Char.ofNat (48 + n % 10)]
decreasing_by omega

/-- `%i` -/
def int : Int → Text
  | .ofNat n => digits n
  | .negSucc n => '-' :: digits (n + 1)

/-- `%02u` -/
def two (n : Nat) : Text := if n < 10 then '0' :: digits n else digits n

/-- `%2.1f` of a number of tenths -/
def tenths (n : Nat) : Text := digits (n / 10) ++ ['.', Char.ofNat (48 + n % 10)]

/-- `Event`, BuildProfiler.h:57-80 -/
structure Event where
  machine : Int
  thread : Nat
  start : Int
  stop : Int
  step : Text
  target : Option Text

/-- `WorkerInfo`, BuildProfiler.h:100-105 -/
structure Worker where
  maxThread : Nat
  name : Text

/-- `Metrics`, BuildProfiler.h:83-96 -/
structure Metrics where
  time : Int
  job : Nat
  process : Nat
  system : Nat
  connections : Nat

/-- what was recorded -/
structure Prof where
  events : List Event
  workers : List Worker

/-- `RecordLocal`, BuildProfiler.cpp:59-69 -/
def recordLocal (p : Prof) (thread : Nat) (start stop : Int) (step : Text) (target : Option Text) : Prof :=
  { p with events := p.events ++ [⟨-1, thread, start, stop, step, target⟩] }

/-- `RecordRemote`, BuildProfiler.cpp:73-105 -/
def recordRemote (p : Prof) (id : Nat) (name : Text) (thread : Nat) (start stop : Int) (step target : Text) : Prof :=
  { workers :=
      if p.workers.length ≤ id then p.workers ++ List.replicate (id - p.workers.length) ⟨0, []⟩ ++ [⟨thread, name⟩]
      else p.workers.modify id fun w => { w with maxThread := max w.maxThread thread }
    events := p.events ++ [⟨id, thread, start, stop, step, some target⟩] }

/-- `m_UniqueId` of each worker, Client.cpp:321-328 -/
def uniqueIds (workers : List Text) : List Nat := workers.map fun _ => workers.length

/-- the entry that names a process or thread -/
def metaText (kind : Text) (pid : Int) (tid : Nat) (name : Text) : Text :=
  "{\"name\":\"".toList ++ kind ++ "\",\"ph\":\"M\",\"pid\":".toList ++ int pid ++ ",\"tid\":".toList ++ digits tid ++
    ",\"args\":{\"name\":\"".toList ++ name ++ "\"}}".toList

/-- what the options and the machine have to say -/
structure Setup where
  cpu : Text
  program : Text
  args : Text
  threads : Nat
  distributed : Bool

/-- headings, BuildProfiler.cpp:138-158 -/
def headings (signed : Bool) (o : Setup) : List Text :=
  [metaText "process_name".toList (-2) 0 "Memory Usage".toList,
   metaText "process_name".toList (-3) 0 "Network Usage".toList,
   metaText "process_name".toList (-4) 0 ("CPU: ".toList ++ o.cpu),
   metaText "process_name".toList (-1) 0 (escape signed o.program ++ [' '] ++ escape signed o.args),
   metaText "thread_name".toList (-1) 0 "Phase".toList] ++
  (List.range' 1 o.threads).map fun i => metaText "thread_name".toList (-1) i ("Thread ".toList ++ two i)

/-- workers, BuildProfiler.cpp:161-169 -/
def workerText (ws : List Worker) : List Text :=
  ws.zipIdx.flatMap fun (w, pid) =>
    metaText "process_name".toList pid 0 ("Worker: ".toList ++ w.name) ::
    (List.range' 1000 (w.maxThread + 1 - 1000)).map fun i => metaText "thread_name".toList pid i ("Thread ".toList ++ two (i - 1000))

/-- the target of an event, BuildProfiler.cpp:186-191 -/
def targetText (signed : Bool) : Option Text → Text
  | some t => ",\"args\":{\"name\":\"".toList ++ escape signed t ++ "\"}".toList
  | none => []

/-- an event, BuildProfiler.cpp:173-194 -/
def eventText (signed : Bool) (us : Int → Nat) (e : Event) : Text :=
  "{\"name\":\"".toList ++ e.step ++ "\",\"ph\":\"X\",\"ts\":".toList ++ digits (us e.start) ++ ",\"dur\":".toList ++ digits (us (e.stop - e.start)) ++
    ",\"pid\":".toList ++ int e.machine ++ ",\"tid\":".toList ++ digits e.thread ++
    targetText signed e.target ++ "}".toList

/-- the four numbers -/
inductive Stat
  | job | process | system | connections
  deriving DecidableEq, Repr

/-- the values last written -/
structure Last where
  job : Nat
  process : Nat
  system : Nat
  connections : Nat

/-- `OUTPUT_STAT`, BuildProfiler.cpp:204-211 -/
def statText (us : Int → Nat) (gib : Nat → Nat) (s : Stat) (time : Int) (v : Nat) : Text :=
  let item (name unit pid value : Text) := "{\"name\":\"".toList ++ name ++ "\",\"ph\":\"C\",\"ts\":".toList ++ digits (us time) ++ ",\"pid\":".toList ++ pid ++
    ",\"args\":{\"".toList ++ unit ++ "\":".toList ++ value ++ "}}".toList
  match s with
  | .job => item "Process - Job (MiB)".toList "MiB".toList "-2".toList (digits v)
  | .process => item "Process - Total (MiB)".toList "MiB".toList "-2".toList (digits v)
  | .system => item "System - Total (GiB)".toList "GiB".toList "-2".toList (tenths (gib v))
  | .connections => item "Connections".toList "Num".toList "-3".toList (digits v)

/-- one round of the loop over the metrics, BuildProfiler.cpp:199-223: what is written (number, value) and the values last written -/
def round (distributed : Bool) (last : Last) (m : Metrics) (isLast : Bool) : List (Stat × Nat) × Last :=
  let a := if last.job ≠ m.job ∨ isLast then ([(Stat.job, m.job)], { last with job := m.job }) else ([], last)
  let b := if a.2.process ≠ m.process ∨ isLast then (a.1 ++ [(Stat.process, m.process)], { a.2 with process := m.process }) else a
  let c := if b.2.system ≠ m.system ∨ isLast then (b.1 ++ [(Stat.system, m.system)], { b.2 with system := m.system }) else b
  if distributed then
    if c.2.connections ≠ m.connections ∨ isLast then (c.1 ++ [(Stat.connections, m.connections)], { c.2 with connections := m.connections }) else c
  else c

/-- the loop -/
def rounds (distributed : Bool) : Last → List Metrics → List (Int × List (Stat × Nat))
  | _, [] => []
  | last, m :: ms => (m.time, (round distributed last m ms.isEmpty).1) :: rounds distributed (round distributed last m ms.isEmpty).2 ms

/-- metrics, BuildProfiler.cpp:197-224 -/
def metricsText (us : Int → Nat) (gib : Nat → Nat) (distributed : Bool) (ms : List Metrics) : List Text :=
  (rounds distributed ⟨0, 0, 0, 0⟩ ms).flatMap fun (t, l) => l.map fun (s, v) => statText us gib s t v

/-- the last entry of `Serialize`, BuildProfiler.cpp:227-231 -/
def cpuText (us : Int → Nat) (captureStart : Int) : Text :=
  "{\"ts\":".toList ++ digits (us captureStart) ++ ",\"name\":\"\",\"ph\":\"C\",\"pid\":-4}".toList

/-- `Serialize`, BuildProfiler.cpp:126-236 -/
def serialize (signed : Bool) (us : Int → Nat) (gib : Nat → Nat) (o : Setup) (p : Prof) (ms : List Metrics) (captureStart : Int) : Text :=
  '[' :: (headings signed o ++ workerText p.workers ++ p.events.map (eventText signed us) ++ metricsText us gib o.distributed ms ++
    [cpuText us captureStart]).flatMap fun t => t ++ [',']

/-- the four times of the end -/
structure Ends where
  captureStart : Int
  captureEnd : Int
  saveStart : Int
  saveEnd : Int

/-- what `SaveJSON` adds, BuildProfiler.cpp:268-279 -/
def finalText (us : Int → Nat) (e : Ends) : Text :=
  let item (name : Text) (a b : Int) := "{\"name\":\"".toList ++ name ++ "\",\"ph\":\"X\",\"ts\":".toList ++ digits (us a) ++ ",\"dur\":".toList ++ digits (us (b - a)) ++
    ",\"pid\":-1,\"tid\":0}".toList
  item "CaptureProfileJSON".toList e.captureStart e.captureEnd ++ [','] ++ item "Shutdown".toList e.captureEnd e.saveStart ++ [','] ++
    item "WriteProfileJSON".toList e.saveStart e.saveEnd ++ [']']

/-- writing into a file that may be there already -/
def writeAt (file : Text) (pos : Nat) (t : Text) : Text := file.take pos ++ t ++ file.drop (pos + t.length)

/-- `SaveJSON` with a file that holds `old`, BuildProfiler.cpp:240-288 -/
def saveJSON (us : Int → Nat) (buffer : Text) (e : Ends) (old : Text) : Text :=
  let f := writeAt old 0 buffer
  let g := writeAt f buffer.length (finalText us e)
  g.take (buffer.length + (finalText us e).length)

end Verif.Profile
