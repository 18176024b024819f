import Verif.Client.Model
/-
What the client promises.
-/
namespace Verif.Client

/-- Ten seconds. -/
def Pause : Int := 10000

/-- There is no reason to connect to this worker now. -/
def Settled (now : Int) (k : Wk) : Prop := k.inUse = true ∨ k.deny = true ∨ now - k.since < Pause

/-- The connections are to different workers, these and no others are in use, and there are not too many. -/
structure Orderly (limit : Nat) (m : Man) : Prop where
  once : (m.conns.map Prod.fst).Nodup
  used : ∀ w k, m.pool[w]? = some k → (k.inUse = true ↔ w ∈ m.conns.map Prod.fst)
  known : ∀ w ∈ m.conns.map Prod.fst, w < m.pool.length
  few : m.conns.length ≤ limit

/-- All the jobs there are, wherever they are. -/
def Sys.all (s : Sys) : List Job := s.pool ++ s.conns.flatMap (·.jobs) ++ s.done

def jobOf : CMsg → Option Job
  | .job j => some j
  | _ => none

def resultOf : WMsg → Option Job
  | .result j _ _ => some j
  | _ => none

/-- What is on its way to the worker of a connection, first to last. -/
def Conn.pend (k : Conn) : List CMsg := k.out ++ k.sending ++ k.sendQ

/-- Messages other than the number of jobs. -/
def plain : CMsg → Bool
  | .connection _ => false
  | .status _ => false
  | _ => true

def numOf : CMsg → Option Nat
  | .connection n => some n
  | .status n => some n
  | _ => none

/-- The steps of the threads, and nothing that could not happen. -/
inductive Reach (nf : Nat → Nat) (jobs : List Job) : Sys → Prop
  | start : Reach nf jobs (start jobs)
  | step {s s'} {o : Op} : Reach nf jobs s → step nf s o = .ok s' → Reach nf jobs s'

/-- The number of jobs the worker of a connection will have been told when all that is on its way has arrived. -/
def Conn.latest (k : Conn) : Nat := (((k.out ++ k.sending).filterMap numOf) ++ k.status.toList).getLast?.getD k.avail

/-- As `Reach`, and no jobs are offered before the first message of a connection was sent. -/
inductive Calm (nf : Nat → Nat) (jobs : List Job) : Sys → Prop
  | start : Calm nf jobs (start jobs)
  | step {s s'} {o : Op} : Calm nf jobs s → (∀ c num k, o = .offer c num → s.conns[c]? = some k → k.phase ≠ .starting) →
      step nf s o = .ok s' → Calm nf jobs s'

end Verif.Client
