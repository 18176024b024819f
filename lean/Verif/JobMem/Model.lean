/-
The data a job owns and the total of the memory that local jobs own: `Job::OwnData`, `Job::~Job`
(Code/Tools/FBuild/FBuildCore/WorkerPool/Job.cpp:26-115), the places that call it, and the test of the limit for jobs that may be distributed
(Code/Tools/FBuild/FBuildCore/Graph/ObjectNode.cpp:415-420, 475-488).

Each job is used by one thread at a time, the total by all. The steps of `OwnData` are events of their own, in any order among the jobs.
-/
namespace Verif.JobMem

/-- the arguments of `OwnData`, Job.cpp:86 -/
structure New where
  /-- address of the data, none for `nullptr` -/
  data : Option Nat
  size : Nat
  packed : Bool
  deriving DecidableEq

/-- where the thread of a job is in `OwnData` -/
inductive Pc
  /-- not in `OwnData` -/
  | idle
  /-- the old data is freed, its size is to be subtracted, Job.cpp:96-100 -/
  | sub (n : New)
  /-- the members are to be set, Job.cpp:103-106 -/
  | set (n : New)
  /-- the size is to be added, Job.cpp:108-112 -/
  | add
  /-- the job was deleted -/
  | gone
  deriving DecidableEq

/-- how far a job is -/
inductive Stage
  /-- it may take data -/
  | raw
  /-- a local job that is below the limit, and is to be compressed, ObjectNode.cpp:478-482 -/
  | checked
  /-- a local job that is compressed and was queued, ObjectNode.cpp:484-487 -/
  | sent
  /-- a local job that is built here at once, ObjectNode.cpp:490-502 -/
  | denied
  /-- in the destructor, Job.cpp:53-66 -/
  | dying
  deriving DecidableEq

/-- `Job`, Job.h:110-134, as far as it is about the data -/
structure Job where
  isLocal : Bool
  data : Option Nat
  size : Nat
  packed : Bool
  pc : Pc
  stage : Stage

structure World where
  jobs : List Job
  /-- `s_TotalLocalDataMemoryUsage`, Job.cpp:26 -/
  total : Int
  /-- the buffers that are allocated and were handed to a job -/
  heap : List Nat

inductive Fault
  /-- `ASSERT( size <= 0xFFFFFFFF )`, Job.cpp:88 -/
  | tooBig
  /-- `ASSERT( data != m_Data )`, Job.cpp:89 -/
  | same
  /-- the data is not allocated -/
  | doubleFree
  /-- `VERIFY( s_TotalLocalDataMemoryUsage.Sub( ... ) >= 0 )`, Job.cpp:99 -/
  | verify
  deriving DecidableEq

/-- what a thread does next -/
inductive Ev
  /-- `Job( node )` or `Job( stream )`, Job.cpp:30-49 -/
  | new (isLocal : Bool)
  /-- `OwnData( mem, size, packed )` with a buffer from `ALLOC`: ObjectNode.cpp:1984, 2102, 2305, JobQueueRemote.cpp:499, Job.cpp:210 -/
  | own (i b s : Nat) (packed : Bool)
  /-- `OwnData( nullptr, 0, false )` for a job of a worker, ObjectNode.cpp:2258-2261 -/
  | release (i : Nat)
  /-- the test of the limit, ObjectNode.cpp:477-478 -/
  | check (i : Nat)
  /-- `OwnData( c.ReleaseResult(), compressedSize, true )`, ObjectNode.cpp:484 -/
  | compress (i b s : Nat)
  /-- `~Job` -/
  | destroy (i : Nat)
  /-- the next step inside `OwnData` -/
  | step (i : Nat)

/-- the settings that matter: `GetDistributableJobMemoryLimitMiB`, and the number of threads that build -/
structure Cfg where
  limit : Nat
  threads : Nat

/-- `MEGABYTE`, Code/Core/Env/Types.h -/
def megabyte : Nat := 1024 * 1024

/-- `Job::Job`, Job.cpp:30-49 -/
def fresh (isLocal : Bool) : Job := ⟨isLocal, none, 0, false, .idle, .raw⟩

/-- `OwnData` up to `FREE`, Job.cpp:86-94. The stage becomes `st`. -/
def begin (w : World) (i : Nat) (j : Job) (n : New) (st : Stage) : Except Fault World :=
  if 0xFFFFFFFF < n.size then .error .tooBig
  else if n.data = j.data then .error .same
  else match j.data with
    | none => .ok { w with jobs := w.jobs.set i { j with pc := .set n, stage := st } }
    | some a =>
      if a ∈ w.heap then .ok { w with jobs := w.jobs.set i { j with pc := .sub n, stage := st }, heap := w.heap.erase a }
      else .error .doubleFree

/-- the rest of `OwnData`, Job.cpp:96-112 -/
def advance (w : World) (i : Nat) (j : Job) : Option (Except Fault World) :=
  match j.pc with
  | .idle => none
  | .gone => none
  | .sub n =>
    if j.isLocal then
      if w.total - j.size < 0 then some (.error .verify)
      else some (.ok { w with jobs := w.jobs.set i { j with pc := .set n }, total := w.total - j.size })
    else some (.ok { w with jobs := w.jobs.set i { j with pc := .set n } })
  | .set n => some (.ok { w with jobs := w.jobs.set i { j with data := n.data, size := n.size, packed := n.packed, pc := .add } })
  | .add =>
    let t := if j.isLocal then w.total + j.size else w.total
    let k : Job := match j.stage with
      | .dying => { j with pc := .gone }
      | .checked => { j with pc := .idle, stage := .sent }
      | _ => { j with pc := .idle }
    some (.ok { w with jobs := w.jobs.set i k, total := t })

/-- the number of jobs between the test and the queue: each is on a thread of its own -/
def busy (l : List Job) : Nat := (l.filter (fun j => j.stage = .checked)).length

/-- One event. None if the program does not do this here. `ALLOC` gives an address that is not in use. -/
def exec (c : Cfg) (w : World) (e : Ev) : Option (Except Fault World) :=
  match e with
  | .new l => some (.ok { w with jobs := w.jobs ++ [fresh l] })
  | .own i b s p =>
    match w.jobs[i]? with
    | some j =>
      if j.pc = .idle ∧ j.stage = .raw ∧ b ∉ w.heap then some (begin { w with heap := b :: w.heap } i j ⟨some b, s, p⟩ .raw) else none
    | none => none
  | .release i =>
    match w.jobs[i]? with
    | some j => if j.pc = .idle ∧ j.stage = .raw ∧ j.isLocal = false then some (begin w i j ⟨none, 0, false⟩ .raw) else none
    | none => none
  | .check i =>
    match w.jobs[i]? with
    | some j =>
      if j.pc = .idle ∧ j.stage = .raw ∧ j.isLocal ∧ j.data.isSome ∧ busy w.jobs < c.threads then
        some (.ok { w with jobs := w.jobs.set i { j with stage := if w.total / megabyte < c.limit then .checked else .denied } })
      else none
    | none => none
  | .compress i b s =>
    match w.jobs[i]? with
    | some j =>
      if j.pc = .idle ∧ j.stage = .checked ∧ b ∉ w.heap then
        some (begin { w with heap := b :: w.heap } i j ⟨some b, s, true⟩ .checked)
      else none
    | none => none
  | .destroy i =>
    match w.jobs[i]? with
    | some j =>
      if j.pc = .idle ∧ j.stage ≠ .checked ∧ j.stage ≠ .dying then
        match j.data with
        | none => some (.ok { w with jobs := w.jobs.set i { j with pc := .gone, stage := .dying } })
        | some _ => some (begin w i j ⟨none, 0, false⟩ .dying)
      else none
    | none => none
  | .step i =>
    match w.jobs[i]? with
    | some j => advance w i j
    | none => none

/-- the start of the program -/
def World.init : World := ⟨[], 0, []⟩

end Verif.JobMem
