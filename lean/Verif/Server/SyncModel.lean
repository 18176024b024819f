import Verif.Server.LoadModel
/-
Synchronising toolchains on a worker: Code/Tools/FBuild/FBuildCore/Protocol/Server.cpp (`Process`,
`CheckWaitingJobs`, `RequestMissingFiles`, `OnDisconnected`) and the state kept in ToolManifest.h/.cpp.
Every connection has a thread of its own; a step is what a thread does while it holds the mutex of the
manifests or of the client list. `OnDisconnected` is two steps, as it holds the two mutexes one after the
other; its second part is one step although it takes the manifest mutex anew for each request. A client
sends a manifest or a file only when asked for it. Connections are never reused. What is in a file and the
work queue itself are not modelled: `queued` and `received` only record.
-/
namespace Verif.Server

/-- `ToolManifestFile::SyncState`, ToolManifest.h -/
inductive FileState where
  | missing
  | syncing
  | present
deriving DecidableEq, Repr

/-- a `ToolManifest` on the worker: `m_UserData`, `m_Files`, `m_Synchronized` -/
structure Man where
  owner : Option Nat
  files : List FileState
  sync : Bool
deriving DecidableEq, Repr

/-- `ClientState`: the connection and `m_WaitingJobs` with the tool of each job -/
structure Client where
  id : Nat
  waiting : List (Nat × Nat)
deriving DecidableEq, Repr

/-- where the thread of a connection is -/
inductive Thread where
  | fresh
  | idle
  /-- `Disconnect` was called -/
  | closing
  /-- after the locked part of `Process( MsgManifest )`, Server.cpp:471 -/
  | manifestRead (t : Nat)
  /-- before `CheckWaitingJobs( t )` -/
  | check (t : Nat)
  /-- before `RequestMissingFiles( t )`, Server.cpp:481 -/
  | request (t : Nat)
  /-- between the two parts of `OnDisconnected`, with `cancelledManifests` -/
  | leaving (cancelled : List Nat)
  | gone
deriving DecidableEq, Repr

structure Sync where
  clients : List Client
  thread : Nat → Thread
  /-- `m_Tools` in order -/
  known : List Nat
  tools : Nat → Option Man
  /-- manifests asked for (connection, tool) and not answered -/
  asked : Nat → Nat → Bool
  /-- files asked for (connection, tool, file) and not answered -/
  askedFile : Nat → Nat → Nat → Bool
  /-- jobs given to the work queue: connection, job, tool -/
  queued : List (Nat × Nat × Nat)
  /-- jobs received -/
  received : List (Nat × Nat × Nat)

def Sync.initial : Sync := ⟨[], fun _ => .fresh, [], fun _ => none, fun _ _ => false, fun _ _ _ => false, [], []⟩

def upd {α : Type} (f : Nat → α) (a : Nat) (b : α) : Nat → α := fun x => if x = a then b else f x

def Sync.setThread (s : Sync) (c : Nat) (p : Thread) : Sync := { s with thread := upd s.thread c p }
def Sync.setMan (s : Sync) (t : Nat) (m : Man) : Sync := { s with tools := upd s.tools t (some m) }
def Sync.ask (s : Sync) (c t : Nat) (b : Bool) : Sync := { s with asked := upd s.asked c (upd (s.asked c) t b) }

/-- `cs->m_WaitingJobs.Append( job )` -/
def addWaiting (c j t : Nat) (x : Client) : Client := if x.id = c then { x with waiting := x.waiting ++ [(j, t)] } else x
def Sync.wait (s : Sync) (c j t : Nat) : Sync := { s with clients := s.clients.map (addWaiting c j t) }

/-- `RequestMissingFiles`, Server.cpp:796-823: all missing files are asked for; with assertions enabled the manifest may not
belong to another connection -/
def requestMissing (dbg : Bool) (s : Sync) (b t : Nat) : Out Sync :=
  match s.tools t with
  | none => .off
  | some m =>
    if .missing ∈ m.files then
      if dbg ∧ m.owner ≠ none ∧ m.owner ≠ some b then .assert
      else .ok { s.setMan t { m with owner := some b, files := m.files.map fun f => if f = .missing then .syncing else f } with
        askedFile := fun c u i => if c = b ∧ u = t ∧ m.files[i]? = some .missing then true else s.askedFile c u i }
    else .ok s

/-- the loops over the waiting jobs of other clients in `OnDisconnected`, Server.cpp:154-166 -/
def handOver (dbg : Bool) (cancelled : List Nat) : List (Nat × Nat) → Sync → Out Sync
  | [], s => .ok s
  | (b, t) :: r, s =>
    if t ∈ cancelled then
      match requestMissing dbg s b t with
      | .ok s => handOver dbg cancelled r s
      | .off => .off
      | .assert => .assert
    else handOver dbg cancelled r s

/-- client and tool of every waiting job -/
def waitList (l : List Client) : List (Nat × Nat) := l.flatMap fun x => x.waiting.map fun w => (x.id, w.2)

/-- `CancelSynchronizingFiles` with the release of ownership, ToolManifest.cpp:527-557 and Server.cpp:139-140 -/
def Man.cancel (m : Man) : Man := { m with owner := none, files := m.files.map fun f => if f = .syncing then .missing else f }

inductive SOp where
  /-- `OnConnected` -/
  | connect (c : Nat)
  /-- `m_ClientList.SortDeref()`, Server.cpp:668 -/
  | reorder (l : List Client)
  /-- `Process( MsgJob )`, Server.cpp:335-424 -/
  | job (c j t : Nat)
  /-- `Process( MsgManifest )`, Server.cpp:438-468: the manifest cannot be read, or which of its files are present -/
  | manifest (c t : Nat) (d : Option (List Bool))
  /-- `Process( MsgManifest )`, Server.cpp:471-479 -/
  | afterManifest (c : Nat)
  /-- `RequestMissingFiles` at the end of `Process( MsgManifest )` -/
  | request (c : Nat)
  /-- `Process( MsgFile )`, Server.cpp:486-550, and `ReceiveFileData`; `ok` if the file could be stored -/
  | file (c t i : Nat) (ok : Bool)
  /-- `CheckWaitingJobs`, Server.cpp:559-601 -/
  | check (c : Nat)
  /-- `OnDisconnected`, Server.cpp:116-145 -/
  | leave (c : Nat)
  /-- `OnDisconnected`, Server.cpp:147-180 -/
  | left (c : Nat)

/-- `dbg`: assertions are enabled -/
def sstep (dbg : Bool) (s : Sync) : SOp → Out Sync
  | .connect c => if s.thread c = .fresh then .ok { s.setThread c .idle with clients := s.clients ++ [⟨c, []⟩] } else .off
  | .reorder l => if l.Perm s.clients then .ok { s with clients := l } else .off
  | .job c j t =>
    if s.thread c = .idle then
      let s := { s with received := s.received ++ [(c, j, t)] }
      match s.tools t with
      | some m =>
        if m.sync then .ok { s with queued := s.queued ++ [(c, j, t)] }
        else if m.owner ≠ none then .ok (s.wait c j t)
        else
          let s := s.setMan t { m with owner := some c }
          if m.files ≠ [] then
            match requestMissing dbg s c t with
            | .ok s => .ok (s.wait c j t)
            | .off => .off
            | .assert => .assert
          else .ok ((s.ask c t true).wait c j t)
      | none =>
        .ok ((({ s.setMan t ⟨some c, [], false⟩ with known := s.known ++ [t] }).ask c t true).wait c j t)
    else .off
  | .manifest c t d =>
    if s.thread c = .idle ∧ s.asked c t = true then
      let s := s.ask c t false
      match s.tools t with
      | none => .assert
      | some m =>
        if dbg ∧ m.files ≠ [] then .assert
        else match d with
          | none => if dbg then .assert else .ok (s.setThread c .closing)
          | some present =>
            if present = [] then .off
            else .ok ((s.setMan t { m with
              files := present.map fun b => if b then .present else .missing
              sync := m.sync || present.all id }).setThread c (.manifestRead t))
    else .off
  | .afterManifest c =>
    match s.thread c with
    | .manifestRead t =>
      match s.tools t with
      | none => .off
      | some m => .ok (s.setThread c (if m.sync then .check t else .request t))
    | _ => .off
  | .request c =>
    match s.thread c with
    | .request t =>
      match requestMissing dbg s c t with
      | .ok s => .ok (s.setThread c .idle)
      | .off => .off
      | .assert => .assert
    | _ => .off
  | .file c t i ok =>
    if s.thread c = .idle ∧ s.askedFile c t i = true then
      let s := { s with askedFile := fun c' t' i' => if c' = c ∧ t' = t ∧ i' = i then false else s.askedFile c' t' i' }
      match s.tools t with
      | none => .assert
      | some m =>
        if dbg ∧ m.owner ≠ some c then .assert
        else
          match m.files[i]? with
          | none => .assert
          | some f =>
            if f ≠ .present ∧ dbg ∧ f ≠ .syncing then .assert
            else if f ≠ .present ∧ ok = false then .ok (s.setThread c .closing)
            else
              let files := if f = .present then m.files else m.files.set i .present
              let sync := m.sync || (decide (f ≠ .present) && files.all (· = .present))
              if sync = false then .ok (s.setMan t { m with files := files })
              else .ok ((s.setMan t ⟨none, files, true⟩).setThread c (.check t))
    else .off
  | .check c =>
    match s.thread c with
    | .check t =>
      let started := s.clients.flatMap fun x => ((x.waiting.filter fun w => w.2 = t).reverse.map fun w => (x.id, w.1, w.2))
      if dbg ∧ started = [] then .assert
      else .ok { s.setThread c .idle with
        clients := s.clients.map fun x => { x with waiting := x.waiting.filter fun w => w.2 ≠ t }
        queued := s.queued ++ started }
    | _ => .off
  | .leave c =>
    if s.thread c = .idle ∨ s.thread c = .closing then
      let cancelled := s.known.filter fun t => match s.tools t with
        | none => false
        | some m => !m.sync && decide (m.owner = some c)
      if dbg ∧ ∃ t ∈ cancelled, ∃ m, s.tools t = some m ∧ m.files ≠ [] ∧ ¬ .syncing ∈ m.files then .assert
      else .ok ({ s with tools := fun t => if t ∈ cancelled then (s.tools t).map Man.cancel else s.tools t }.setThread c (.leaving cancelled))
    else .off
  | .left c =>
    match s.thread c with
    | .leaving cancelled =>
      let s := { s with clients := s.clients.filter fun x => x.id ≠ c }
      match handOver dbg cancelled (waitList s.clients) s with
      | .ok s => .ok (s.setThread c .gone)
      | .off => .off
      | .assert => .assert
    | _ => .off

end Verif.Server
