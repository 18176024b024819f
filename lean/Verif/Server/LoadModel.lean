/-
How a worker asks clients for jobs: Code/Tools/FBuild/FBuildCore/Protocol/Server.cpp, `FindNeedyClients`,
`FinalizeCompletedJobs` and the counters kept by `Process`. Each connection has its own thread; the server
thread runs `FinalizeCompletedJobs` and `FindNeedyClients`. Every access to an atomic counter is a step of
its own; the client list cannot change while `FindNeedyClients` holds its mutex. Clients are named by their
position in the list. Order of requests, `TryMutexHolder` and the end of the request loop are left open:
the model may stop asking at any time and ask in any order, so it has at least the behaviours of the code.
-/
namespace Verif.Server

/-- the counters of `ClientState`, Server.h:63-88. `moving`: the connection's thread is between
`m_NumJobsRequested.Decrement()` and `m_NumJobsActive.Increment()`, Server.cpp:340-341 -/
structure Counts where
  available : Nat
  requested : Nat
  active : Nat
  moving : Bool
deriving DecidableEq

/-- where the server thread is -/
inductive Pc where
  | idle
  /-- scanning clients from position `i` on, Server.cpp:652-663; `left` is `availableJobs`, which started at `cap` -/
  | scan (cap : Nat) (i : Nat) (left : Int)
  /-- `m_NumJobsRequested` of client `i` was loaded as `r` -/
  | half (cap : Nat) (i : Nat) (left : Int) (r : Nat)
  /-- the request loop, Server.cpp:672-712 -/
  | ask (cap : Nat) (left : Int)
  /-- client `i` passed the test of line 680 -/
  | send (cap : Nat) (left : Int) (i : Nat)
deriving DecidableEq

structure Load where
  clients : List Counts
  pc : Pc
deriving DecidableEq

inductive Op where
  /-- `OnConnected`, Server.cpp:106-113 -/
  | connect
  /-- the erasure in `OnDisconnected`, Server.cpp:148-152 -/
  | disconnect (i : Nat)
  /-- `Process( MsgConnection )` and `Process( MsgStatus )`, Server.cpp:273-321 -/
  | status (i n : Nat)
  /-- `Process( MsgNoJobAvailable )`, Server.cpp:325-331 -/
  | noJob (i : Nat)
  /-- `Process( MsgJob )`, Server.cpp:339-340: one request less -/
  | job1 (i : Nat)
  /-- `Process( MsgJob )`, Server.cpp:341: one active job more -/
  | job2 (i : Nat)
  /-- a completed job in `FinalizeCompletedJobs`, Server.cpp:751-752 -/
  | done (i : Nat)
  /-- `FindNeedyClients` with `GetNumCPUsToUse() = cpus`, Server.cpp:641-646 -/
  | find (cpus : Nat)
  /-- first load of the scan, line 655 -/
  | loadRequested
  /-- second load of the scan and the subtraction, lines 656-662 -/
  | loadActive
  /-- the test for client `i`, lines 678-683 -/
  | test (i : Nat)
  /-- `m_NumJobsRequested.Increment()` and the message, lines 693-696 -/
  | request
  /-- the end of the request loop -/
  | stop
deriving DecidableEq

/-- outcomes: a new state, the operation cannot happen now, or an assertion fails -/
inductive Out (α : Type) where
  | ok (s : α)
  | off
  | assert
deriving DecidableEq

def onClient (s : Load) (i : Nat) (f : Counts → Out Counts) : Out Load :=
  match s.clients[i]? with
  | none => .off
  | some x =>
    match f x with
    | .ok y => .ok { s with clients := s.clients.set i y }
    | .off => .off
    | .assert => .assert

def step (s : Load) : Op → Out Load
  | .connect => if s.pc = .idle then .ok { s with clients := s.clients ++ [⟨0, 0, 0, false⟩] } else .off
  | .disconnect i =>
    if s.pc = .idle then
      match s.clients[i]? with
      | none => .off
      | some x => if x.moving then .off else .ok { s with clients := s.clients.eraseIdx i }
    else .off
  | .status i n => onClient s i fun x => .ok { x with available := n }
  | .noJob i => onClient s i fun x =>
    if x.moving then .off
    else if x.requested > 0 then .ok { x with requested := x.requested - 1 } else .assert
  | .job1 i => onClient s i fun x =>
    if x.moving then .off
    else if x.requested > 0 then .ok { x with requested := x.requested - 1, moving := true } else .assert
  | .job2 i => onClient s i fun x =>
    if x.moving then .ok { x with active := x.active + 1, moving := false } else .off
  | .done i =>
    if s.pc = .idle then onClient s i fun x => if x.active > 0 then .ok { x with active := x.active - 1 } else .assert
    else .off
  | .find cpus =>
    if s.pc = .idle then
      if cpus = 0 then .ok s else .ok { s with pc := .scan (cpus + 1) 0 (cpus + 1) }
    else .off
  | .loadRequested =>
    match s.pc with
    | .scan cap i left =>
      match s.clients[i]? with
      | none => .ok { s with pc := .ask cap left }
      | some x => .ok { s with pc := .half cap i left x.requested }
    | _ => .off
  | .loadActive =>
    match s.pc with
    | .half cap i left r =>
      match s.clients[i]? with
      | none => .off
      | some x =>
        let left := left - (r + x.active : Nat)
        if left ≤ 0 then .ok { s with pc := .idle } else .ok { s with pc := .scan cap (i + 1) left }
    | _ => .off
  | .test i =>
    match s.pc with
    | .ask cap left =>
      match s.clients[i]? with
      | none => .off
      | some x =>
        if left ≤ 0 then .off
        else if x.requested ≥ x.available then .ok s
        else .ok { s with pc := .send cap left i }
    | _ => .off
  | .request =>
    match s.pc with
    | .send cap left i =>
      match s.clients[i]? with
      | none => .off
      | some x => .ok { s with clients := s.clients.set i { x with requested := x.requested + 1 }, pc := .ask cap (left - 1) }
    | _ => .off
  | .stop =>
    match s.pc with
    | .ask _ _ => .ok { s with pc := .idle }
    | .send _ _ _ => .ok { s with pc := .idle }
    | _ => .off

def initial : Load := ⟨[], .idle⟩

/-- a run of the given operations; operations that cannot happen and failing assertions end it -/
def run (s : Load) : List Op → Option Load
  | [] => some s
  | o :: os =>
    match step s o with
    | .ok s => run s os
    | _ => none

end Verif.Server
