/-
The client of distributed builds: Code/Tools/FBuild/FBuildCore/Protocol/Client.cpp (C), with the side of the
worker it talks to as far as the conversation goes, Protocol/Server.cpp (S).

Two models.  `Man` is `ConnectToWorkers` with its timers.  `Sys` is the conversation: a connection has the
thread that receives, the thread that sends and the main thread that offers jobs; a step is what one of them
does while it holds a mutex.  Messages arrive in the order they were sent (C41).  The queue of jobs is a list from which jobs
are taken and to which they come back (C15, C16); which job is taken, whether a local race was won, and what
the worker decides are inputs.  Logging, profiling, the cache and the files of a result are not modelled
(C64, C66, C67).
-/
namespace Verif.Client

/-! ### Which workers there are connections to -/

/-- `ClientWorkerInfo` (C:38-53): `since` is when `m_ConnectionDelayTimer` was set to zero. -/
structure Wk where
  inUse : Bool
  deny : Bool
  since : Int
  deriving DecidableEq

/-- `CONNECTION_REATTEMPT_DELAY_TIME` in milliseconds (C:33). -/
def delay : Int := 10000

structure Man where
  pool : List Wk
  /-- `m_ActiveConnections`: the worker and `m_Complete` -/
  conns : List (Nat × Bool)
  /-- `m_NextWorkerIndex` -/
  next : Nat
  deriving DecidableEq

/-- `RegisterFoundWorkers` (C:306-334); `r` is the random index. -/
def register (n : Nat) (now : Int) (r : Nat) : Man := ⟨List.replicate n ⟨false, false, now - delay⟩, [], r⟩

def setUse (p : List Wk) (w : Nat) (b : Bool) : List Wk :=
  match p[w]? with
  | none => p
  | some k => p.set w { k with inUse := b }

/-- The connections that ended are removed, from the last one on (C:345-363). -/
def clean : List (Nat × Bool) → List Wk → List (Nat × Bool) × List Wk
  | [], p => ([], p)
  | c :: cs, p =>
      let r := clean cs p
      if c.2 then (r.1, setUse r.2 c.1 false) else (c :: r.1, r.2)

/-- The loop of C:366-413, `k` times more; `none` is an index outside of the pool. -/
def connectLoop (limit : Nat) (now : Int) : Nat → Man → Option Man
  | 0, m => some m
  | k + 1, m =>
      if limit ≤ m.conns.length then some m
      else if m.pool.length ≤ m.conns.length then some m
      else
        match m.pool[m.next]? with
        | none => none
        | some w =>
            let m' := { m with next := (m.next + 1) % m.pool.length }
            if w.inUse then connectLoop limit now k m'
            else if w.deny then connectLoop limit now k m'
            else if now - w.since < delay then connectLoop limit now k m'
            else connectLoop limit now k
              { m' with conns := m.conns ++ [(m.next, false)], pool := m.pool.set m.next { w with inUse := true } }

/-- `ConnectToWorkers` (C:338-414). -/
def connectToWorkers (limit : Nat) (now : Int) (m : Man) : Option Man :=
  let r := clean m.conns m.pool
  connectLoop limit now r.2.length { m with conns := r.1, pool := r.2 }

/-- The thread of a connection ends (C:1200-1212): `failed` when there was no connection (C:1226-1232). -/
def ended (now : Int) (failed : Bool) (i : Nat) (m : Man) : Man :=
  match m.conns[i]? with
  | none => m
  | some c =>
      let m' := { m with conns := m.conns.set i (c.1, true) }
      if failed then
        match m.pool[c.1]? with
        | none => m'
        | some w => { m' with pool := m.pool.set c.1 { w with since := now } }
      else m'

/-- A worker is deny listed (C:771-774). -/
def denyWorker (w : Nat) (m : Man) : Man :=
  match m.pool[w]? with
  | none => m
  | some k => { m with pool := m.pool.set w { k with deny := true } }

inductive MOp
  | pass (now : Int)
  | ended (now : Int) (failed : Bool) (i : Nat)
  | deny (w : Nat)

def mstep (limit : Nat) (m : Man) : MOp → Option Man
  | .pass now => connectToWorkers limit now m
  | .ended now failed i => some (ended now failed i m)
  | .deny w => some (denyWorker w m)

def mrun (limit : Nat) : Man → List MOp → Option Man
  | m, [] => some m
  | m, o :: os => (mstep limit m o).bind fun m => mrun limit m os

/-- Whether `CommunicateJobAvailability` (C:419-470) tells a worker, and what: `told` is
`m_NumJobsAvailableSentToClient`. -/
def communicate (timer : Bool) (num told : Nat) : Option Nat :=
  if !timer && num == 0 then none
  else if (timer && told != num) || (num != 0 && told == 0) then some num
  else none

/-! ### The conversation -/

structure Job where
  id : Nat
  tool : Nat
  deriving DecidableEq

/-- From the client. -/
inductive CMsg
  | connection (num : Nat)
  | status (num : Nat)
  | noJob
  | job (j : Job)
  | manifest (t : Nat)
  | file (t i : Nat)
  deriving DecidableEq

/-- From the worker.  Of the job of a result only its id is in the message. -/
inductive WMsg
  | requestJob
  | result (j : Job) (ok sys : Bool)
  | requestManifest (t : Nat)
  | requestFile (t i : Nat)
  deriving DecidableEq

inductive Phase
  | starting
  | up
  | down
  deriving DecidableEq

structure Conn where
  /-- the worker -/
  w : Nat
  phase : Phase
  /-- `m_Jobs` -/
  jobs : List Job
  /-- `m_SendQueue` and `m_MsgStatus` -/
  sendQ : List CMsg
  status : Option Nat
  /-- `m_SendThreadWakeSemaphore`, and threads that have queued something and are about to signal it -/
  sem : Nat
  owed : Nat
  /-- what the sending thread has taken and not sent -/
  sending : List CMsg
  /-- `m_NumJobsAvailableSentToClient` -/
  told : Nat
  /-- on the way to the worker, and from it -/
  out : List CMsg
  inc : List WMsg
  /-- at the worker: `m_NumJobsRequested`, `m_NumJobsAvailable`, its jobs (with whether they wait for their tool),
  and the manifests and files it asked for and has not got -/
  requested : Nat
  avail : Nat
  held : List (Job × Bool)
  asked : List Nat
  askedF : List (Nat × Nat)
  deriving DecidableEq

def newConn (w : Nat) : Conn := ⟨w, .starting, [], [], none, 0, 0, [], 0, [], [], 0, 0, [], [], []⟩

structure Sys where
  /-- distributable jobs -/
  pool : List Job
  conns : List Conn
  done : List Job
  deny : List Nat
  /-- `m_SystemErrorCount` by job -/
  errs : Nat → Nat

inductive Out (α : Type)
  | ok (a : α)
  /-- this step cannot happen now -/
  | off
  | assert

inductive Op
  /-- a connection is made, C:404-412 -/
  | connect (w : Nat)
  /-- the first message, with the number of jobs read at some time before (C:1238-1244) -/
  | greet (c num : Nat)
  /-- the main thread offers jobs -/
  | offer (c num : Nat)
  /-- a thread signals the semaphore -/
  | signal (c : Nat)
  /-- the sending thread wakes up and takes messages -/
  | take (c : Nat)
  | send (c : Nat)
  /-- the receiving thread takes the next message; `pick` is the job of the queue, `raced` whether a result is not
  wanted any more -/
  | recv (c : Nat) (pick : Option Job) (raced : Bool)
  | disconnect (c : Nat)
  /-- the worker: takes the next message (`waits` if a job has to wait for its tool), asks, starts jobs, ends one -/
  | wRecv (c : Nat) (waits : Bool)
  | wRequest (c : Nat)
  | wAsk (c t : Nat)
  | wAskFile (c t i : Nat)
  | wStart (c t : Nat)
  | wFinish (c : Nat) (j : Job) (ok sys : Bool)

/-- `EnqueueSend` up to its signal (C:1166-1184). -/
def enqueue (k : Conn) (m : CMsg) : Conn := { k with sendQ := k.sendQ ++ [m], owed := k.owed + 1 }

/-- `EnqueueSendJobAvailability` up to its signal (C:1188-1197). -/
def offer (k : Conn) (num : Nat) : Conn := { k with status := some num, told := num, owed := k.owed + 1 }

/-- One turn of the loop of `SendQueueMainLoop` (C:1256-1276). -/
def take (k : Conn) : Out Conn :=
  if k.phase = .up ∧ 0 < k.sem ∧ k.sending = [] then
    match k.status with
    | some n => .ok { k with sem := k.sem - 1, status := none, sending := [.status n] }
    | none => .ok { k with sem := k.sem - 1, sending := k.sendQ, sendQ := [] }
  else .off

/-- C:1278-1304. -/
def send (k : Conn) : Out Conn :=
  if k.phase = .up then
    match k.sending with
    | [] => .off
    | m :: ms => .ok { k with sending := ms, out := k.out ++ [m] }
  else .off

/-- What the worker does with a message: S:273-331, 335-428, 432-483, 487-559. -/
def wRecv (waits : Bool) (k : Conn) : Out Conn :=
  if k.phase = .up then
    match k.out with
    | [] => .off
    | m :: ms =>
        let k := { k with out := ms }
        match m with
        | .connection n => .ok { k with avail := n }
        | .status n => .ok { k with avail := n }
        | .noJob => if k.requested = 0 then .assert else .ok { k with requested := k.requested - 1 }
        | .job j =>
            if k.requested = 0 then .assert
            else .ok { k with requested := k.requested - 1, held := k.held ++ [(j, waits)] }
        | .manifest t => if t ∈ k.asked then .ok { k with asked := k.asked.erase t } else .assert
        | .file t i => if (t, i) ∈ k.askedF then .ok { k with askedF := k.askedF.erase (t, i) } else .assert
  else .off

/-- `RequestMissingFiles` and `MsgRequestManifest` for a job that waits (S:383-428, 804-830). -/
def wAsk (k : Conn) (t : Nat) : Out Conn :=
  if k.phase = .up ∧ ∃ h ∈ k.held, h.1.tool = t ∧ h.2 = true then
    .ok { k with asked := t :: k.asked, inc := k.inc ++ [.requestManifest t] }
  else .off

def wAskFile (nf : Nat → Nat) (k : Conn) (t i : Nat) : Out Conn :=
  if k.phase = .up ∧ i < nf t ∧ ∃ h ∈ k.held, h.1.tool = t ∧ h.2 = true then
    .ok { k with askedF := (t, i) :: k.askedF, inc := k.inc ++ [.requestFile t i] }
  else .off

/-- `CheckWaitingJobs` (S:563-611), when the tool is complete: nothing of it is asked for any more. -/
def wStart (k : Conn) (t : Nat) : Out Conn :=
  if k.phase = .up ∧ t ∉ k.asked ∧ (∀ f ∈ k.askedF, f.1 ≠ t) then
    .ok { k with held := k.held.map fun h => if h.1.tool = t then (h.1, false) else h }
  else .off

/-- `FinalizeCompletedJobs` (S:717-779). -/
def wFinish (k : Conn) (j : Job) (ok sys : Bool) : Out Conn :=
  if k.phase = .up ∧ (j, false) ∈ k.held then
    .ok { k with held := k.held.erase (j, false), inc := k.inc ++ [.result j ok sys] }
  else .off

/-- A step that changes one connection only. -/
def local_ (s : Sys) (c : Nat) (f : Conn → Out Conn) : Out Sys :=
  match s.conns[c]? with
  | none => .off
  | some k =>
      match f k with
      | .ok k => .ok { s with conns := s.conns.set c k }
      | .off => .off
      | .assert => .assert

/-- `SYSTEM_ERROR_ATTEMPT_COUNT` (C:34). -/
def attempts : Nat := 3

/-- `ProcessJobResultCommon` (C:685-1046) for a job that is not one of this connection is a failed `VERIFY`. -/
def result (s : Sys) (c : Nat) (k : Conn) (id : Nat) (ok sys raced : Bool) : Out Sys :=
  match k.jobs.find? fun j => j.id = id with
  | none => .assert
  | some j =>
      let e := if sys then s.errs id + 1 else s.errs id
      let s := { s with
        conns := s.conns.set c { k with jobs := k.jobs.eraseP fun j => j.id = id }
        deny := if sys then k.w :: s.deny else s.deny
        errs := fun i => if i = id then e else s.errs i }
      if raced then .ok { s with done := j :: s.done }
      else if ok then .ok { s with done := j :: s.done }
      else if sys ∧ e < attempts then .ok { s with pool := j :: s.pool }
      else .ok { s with done := j :: s.done }

/-- `OnReceive` (C:474-558). -/
def recv (nf : Nat → Nat) (s : Sys) (c : Nat) (pick : Option Job) (raced : Bool) : Out Sys :=
  match s.conns[c]? with
  | none => .off
  | some k =>
      if k.phase = .down then .off
      else
        match k.inc with
        | [] => .off
        | m :: ms =>
            let k := { k with inc := ms }
            match m with
            -- C:563-638
            | .requestJob =>
                if k.w ∈ s.deny then .ok { s with conns := s.conns.set c (enqueue k .noJob) }
                else
                  match pick with
                  | none => .ok { s with conns := s.conns.set c (enqueue k .noJob) }
                  | some j =>
                      if j ∈ s.pool then
                        .ok { s with
                          pool := s.pool.erase j
                          conns := s.conns.set c (enqueue { k with jobs := k.jobs ++ [j], told := 0 } (.job j)) }
                      else .off
            | .result j ok sys => result s c k j.id ok sys raced
            -- C:1051-1074 and 1116-1132
            | .requestManifest t =>
                if ∃ j ∈ k.jobs, j.tool = t then .ok { s with conns := s.conns.set c (enqueue k (.manifest t)) } else .assert
            -- C:1079-1112
            | .requestFile t i =>
                if (∃ j ∈ k.jobs, j.tool = t) ∧ i < nf t then
                  .ok { s with conns := s.conns.set c (enqueue k (.file t i)) }
                else .assert

/-- `OnDisconnected` (C:192-223), on both sides. -/
def disconnect (s : Sys) (c : Nat) : Out Sys :=
  match s.conns[c]? with
  | none => .off
  | some k =>
      if k.phase = .down then .off
      else .ok { s with
        pool := k.jobs ++ s.pool
        conns := s.conns.set c { k with phase := .down, jobs := [], out := [], inc := [], sending := [], held := [] } }

def step (nf : Nat → Nat) (s : Sys) : Op → Out Sys
  | .connect w => if w ∈ s.deny then .off else .ok { s with conns := s.conns ++ [newConn w] }
  | .greet c num => local_ s c fun k =>
      if k.phase = .starting then .ok { k with phase := .up, told := num, out := [.connection num] } else .off
  | .offer c num => local_ s c fun k => if k.phase = .down then .off else .ok (offer k num)
  | .signal c => local_ s c fun k => if k.owed = 0 then .off else .ok { k with owed := k.owed - 1, sem := k.sem + 1 }
  | .take c => local_ s c take
  | .send c => local_ s c send
  | .recv c pick raced => recv nf s c pick raced
  | .disconnect c => disconnect s c
  | .wRecv c waits => local_ s c (wRecv waits)
  | .wRequest c => local_ s c fun k =>
      if k.phase = .up then .ok { k with requested := k.requested + 1, inc := k.inc ++ [.requestJob] } else .off
  | .wAsk c t => local_ s c fun k => wAsk k t
  | .wAskFile c t i => local_ s c fun k => wAskFile nf k t i
  | .wStart c t => local_ s c fun k => wStart k t
  | .wFinish c j ok sys => local_ s c fun k => wFinish k j ok sys

def start (jobs : List Job) : Sys := ⟨jobs, [], [], [], fun _ => 0⟩

end Verif.Client
