import Verif.Str.TextModel
/-
Running a program on Linux: Code/Core/Process/Process.cpp (P).

The arguments and the environment of the program, the descriptors of the pipes, reading its output with `ReadAllData`, and
its end.  What the program, the programs started by it, the clock and other threads do are moves of the environment between
any two steps of the loop.  Sizes are natural numbers.  A failed `ASSERT`, a dangling pointer and a call of `read` that never
returns are `none`.
-/
namespace Verif.Proc

/- The arguments. -/

/-- `argVectorBuffer`: an allocation, its size, and what was appended.  Growing it gives a new allocation. -/
structure Buf where
  alloc : Nat
  reserved : Nat
  chars : List Char

/-- A pointer into the buffer. -/
structure Ptr where
  alloc : Nat
  offset : Nat

/-- `AString::SetReserved` (AString.cpp:583-612), of a string that is shorter. -/
def setReserved (b : Buf) (n : Nat) : Buf :=
  if n ≤ b.reserved then b else { b with alloc := b.alloc + 1, reserved := n }

/-- `AString::Append` (AString.cpp:614-695). -/
def append (b : Buf) (cs : List Char) : Buf :=
  let b := if b.reserved < b.chars.length + cs.length then
      { b with alloc := b.alloc + 1, reserved := b.chars.length + cs.length } else b
  { b with chars := b.chars ++ cs }

/-- The loop over the tokens (P:346-363). -/
def argLoop (s : List Char) : List (Nat × Nat) → Buf → List Ptr → Buf × List Ptr
  | [], b, ps => (b, ps)
  | (i, j) :: rs, b, ps =>
      let arg := Str.removeQuotes ((s.drop i).take (j - i))
      let p : Ptr := ⟨b.alloc, b.chars.length⟩
      argLoop s rs (append (append b arg) ['\x00']) (ps ++ [p])

/-- The arguments after the first, which is the executable (P:327-365). -/
def argVector (s : List Char) : Buf × List Ptr :=
  argLoop s (Str.tokenRanges ' ' s) (setReserved ⟨0, 2048, []⟩ (s.length + 1)) []

/-- What the program reads at a pointer. -/
def deref (b : Buf) (p : Ptr) : Option (List Char) :=
  if p.alloc = b.alloc ∧ p.offset < b.chars.length then some ((b.chars.drop p.offset).takeWhile (· ≠ '\x00')) else none

/-- The loop over the environment (P:369-380), by the number of characters in memory: the offsets of the strings. -/
def envLoop (m : List Char) : Nat → Nat → Option (List Nat)
  | 0, _ => none
  | fuel + 1, pos =>
      match m[pos]? with
      | none => none
      | some c =>
          if c = '\x00' then some []
          else
            let len := ((m.drop pos).takeWhile (· ≠ '\x00')).length
            (envLoop m fuel (pos + len + 1)).map (pos :: ·)

/- The descriptors. -/

inductive Obj
  | outR | outW | errR | errW
  | other (n : Nat)
deriving DecidableEq, Repr

/-- A table of descriptors. -/
abbrev Fds := Nat → Option Obj

def dup2 (t : Fds) (a b : Nat) : Fds := fun i => if i = b then t a else t i
def close (t : Fds) (a : Nat) : Fds := fun i => if i = a then none else t i

/-- `pipe` twice (P:316-317), with the descriptors the system chose. -/
def pipes (t : Fds) (o0 o1 e0 e1 : Nat) : Fds := fun i =>
  if i = o0 then some .outR else if i = o1 then some .outW else if i = e0 then some .errR else if i = e1 then some .errW else t i

/-- The program (P:432-438, 509-519). -/
def childFds (t : Fds) (o0 o1 e0 e1 : Nat) : Fds :=
  close (close (close (close (dup2 (dup2 t o1 1) e1 2) o0) o1) e0) e1

/-- This process, the program was started (P:461-466, 555-567). -/
def parentFds (t : Fds) (o1 e1 : Nat) : Fds := close (close t o1) e1

/-- It was not (P:416-419, 555-562). -/
def failedFds (t : Fds) (o0 o1 e0 e1 : Nat) : Fds := close (close (parentFds t o1 e1) o0) e0

/-- `WaitForExit` (P:656-657). -/
def exitFds (t : Fds) (o0 e0 : Nat) : Fds := close (close t o0) e0

/- The output and the end. -/

abbrev Bytes := List UInt8

/-- A pipe: what was ever sent, how much of it was read, and whether anybody can still send. -/
structure Pipe where
  sent : Bytes
  got : Nat
  isOpen : Bool
deriving DecidableEq, Repr

def Pipe.pending (p : Pipe) : Bytes := p.sent.drop p.got

/-- What `select` says: there is something to read, or the end. -/
def Pipe.readable (p : Pipe) : Bool := !p.pending.isEmpty || !p.isOpen

/-- A string to read to. -/
structure Mem where
  bytes : Bytes
  reserved : Nat
deriving DecidableEq, Repr

inductive Status
  | exited (code : Int)
  | signaled (sig : Int)
  | other (n : Int)
deriving DecidableEq, Repr

/-- The conversion of P:597-613 and 672-687. -/
def Status.code : Status → Int
  | .exited c => c
  | .signaled n => -n
  | .other n => n

/-- The program as the system sees it. -/
inductive Child
  | running
  | stopped
  | ended (st : Status)
  | reaped
deriving DecidableEq, Repr

/-- `m_HasAlreadyWaitTerminated`, `m_ReturnStatus`. -/
structure Handle where
  waited : Bool
  ret : Int
deriving DecidableEq, Repr

/-- `Process::IsRunning` (P:570-617).  `waitpid` of a program that was waited for already is an error. -/
def isRunning (c : Child) (h : Handle) : Option (Bool × Child × Handle) :=
  if h.waited then some (false, c, h)
  else
    match c with
    | .running => some (true, c, h)
    | .stopped => some (true, c, h)
    | .ended st => some (false, .reaped, ⟨true, st.code⟩)
    | .reaped => none

/-- What a waiting `waitpid` may give: interrupted, stopped, ended. -/
inductive Wake
  | intr
  | stopped
  | ended (st : Status)
deriving DecidableEq, Repr

/-- The loop of `WaitForExit` (P:660-692). -/
def waitLoop : List Wake → Option Int
  | [] => none
  | .intr :: r => waitLoop r
  | .stopped :: r => waitLoop r
  | .ended st :: _ => some st.code

/-- `Process::WaitForExit` (P:625-697). -/
def waitForExit (c : Child) (h : Handle) (ws : List Wake) : Option Int :=
  if h.waited = false then
    if c = .reaped then none else waitLoop ws
  else some h.ret

/-- Where in `ReadAllData` the thread is. -/
inductive Pc
  | top | sel
  | rdOut (errToo : Bool)
  | rdErr | chk | wait
  | done (ok : Bool)
deriving DecidableEq, Repr

/-- Who was killed. -/
inductive Kill
  | nobody | program | all
deriving DecidableEq, Repr

structure S where
  pc : Pc
  out : Pipe
  err : Pipe
  outMem : Mem
  errMem : Mem
  prevOut : Nat
  prevErr : Nat
  /-- `processExited` -/
  exited : Bool
  child : Child
  handle : Handle
  /-- `t.GetElapsedMS()` -/
  now : Nat
  /-- `timeOutMS` -/
  limit : Nat
  abort : Bool
  kill : Kill
  /-- The end of the program and how much it and others had sent by then; only for statements. -/
  atEnd : Option (Status × Nat × Nat)
deriving DecidableEq, Repr

/-- `Process::ReadCommon` (P:907-930): `k + 1` is how much `read` would give if it could. -/
def readCommon (k : Nat) (p : Pipe) (m : Mem) : Option (Pipe × Mem) :=
  let m := if m.reserved - m.bytes.length = 0 then { m with reserved := m.reserved + 16 * 1024 * 1024 } else m
  let space := m.reserved - m.bytes.length
  if p.pending = [] then
    if p.isOpen then none else some (p, m)
  else
    let n := min (k + 1) (min space p.pending.length)
    some ({ p with got := p.got + n }, { m with bytes := m.bytes ++ p.pending.take n })

/-- One step of `ReadAllData` (P:735-818) and `Read` (P:861-904). -/
def act (k : Nat) (s : S) : Option S :=
  match s.pc with
  | .top =>
      if s.abort then some { s with kill := .all, pc := .done true }
      else some { s with prevOut := s.outMem.bytes.length, prevErr := s.errMem.bytes.length, pc := .sel }
  | .sel =>
      if s.out.readable then some { s with pc := .rdOut s.err.readable }
      else if s.err.readable then some { s with pc := .rdErr }
      else some { s with pc := .chk }
  | .rdOut e =>
      match readCommon k s.out s.outMem with
      | none => none
      | some (p, m) => some { s with out := p, outMem := m, pc := if e then .rdErr else .chk }
  | .rdErr =>
      match readCommon k s.err s.errMem with
      | none => none
      | some (p, m) => some { s with err := p, errMem := m, pc := .chk }
  | .chk =>
      if s.prevOut ≠ s.outMem.bytes.length ∨ s.prevErr ≠ s.errMem.bytes.length then some { s with pc := .top }
      else some { s with pc := .wait }
  | .wait =>
      match isRunning s.child s.handle with
      | none => none
      | some (true, c, h) =>
          if s.limit > 0 ∧ s.now ≥ s.limit then some { s with child := c, handle := h, kill := .program, pc := .done false }
          else some { s with child := c, handle := h, pc := .top }
      | some (false, c, h) =>
          if s.exited = false then some { s with child := c, handle := h, exited := true, pc := .top }
          else some { s with child := c, handle := h, pc := .done true }
  | .done _ => none

/-- What happens otherwise. -/
inductive Ev
  | write (toErr : Bool) (bs : Bytes)
  | close (ofErr : Bool)
  | stop | cont
  | exit (st : Status)
  | tick (n : Nat)
  | abort

def env (e : Ev) (s : S) : S :=
  match e with
  | .write false bs => if s.out.isOpen then { s with out := { s.out with sent := s.out.sent ++ bs } } else s
  | .write true bs => if s.err.isOpen then { s with err := { s.err with sent := s.err.sent ++ bs } } else s
  | .close false => { s with out := { s.out with isOpen := false } }
  | .close true => { s with err := { s.err with isOpen := false } }
  | .stop => if s.child = .running then { s with child := .stopped } else s
  | .cont => if s.child = .stopped then { s with child := .running } else s
  | .exit st =>
      if s.child = .running ∨ s.child = .stopped then
        { s with child := .ended st, atEnd := some (st, s.out.sent.length, s.err.sent.length) }
      else s
  | .tick n => { s with now := s.now + n }
  | .abort => { s with abort := true }

inductive Move
  | ev (e : Ev)
  | go (k : Nat)
  /-- `select` gives an error, in a build without `ASSERT` (P:882-886). -/
  | intr

def step (m : Move) (s : S) : Option S :=
  match m with
  | .ev e => some (env e s)
  | .go k => act k s
  | .intr => if s.pc = .sel then some { s with pc := .chk } else some s

def run : List Move → S → Option S
  | [], s => some s
  | m :: ms, s => (step m s).bind (run ms)

/-- After `Spawn` (P:461-470): `out` and `err` are the strings given. -/
def start (out err : Mem) (limit : Nat) : S :=
  { pc := .top, out := ⟨[], 0, true⟩, err := ⟨[], 0, true⟩, outMem := out, errMem := err, prevOut := 0, prevErr := 0,
    exited := false, child := .running, handle := ⟨false, 0⟩, now := 0, limit := limit, abort := false, kill := .nobody,
    atEnd := none }

end Verif.Proc
