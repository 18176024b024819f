import Verif.IO.StreamModel
/-
Message framing: Code/Core/Network/TCPConnectionPool.cpp (Send, SendInternal, HandleRead),
Code/Tools/FBuild/FBuildCore/Protocol/Protocol.cpp (IMessage::Send) and the pairing of messages and payloads in
Protocol/Server.cpp and Client.cpp (OnReceive).
-/
namespace Verif.Net
open Verif.IO

/-! ## Sending -/

/-- One round of the loop in `SendInternal`: what `writev` or `WSASend` did. -/
inductive Write where
  /-- up to `n + 1` of the bytes offered were taken -/
  | sent (n : Nat)
  /-- nothing could be written; neither the connection is closing nor the time is up -/
  | wouldBlock
  /-- any reason to give up: closing, time out or an error -/
  | giveUp
deriving DecidableEq

/-- a buffer for sending: its size is a `uint32_t`, TCPConnectionPool.cpp:501-503 and 518-529 -/
def sendBuffer (data : List Byte) : List Byte := data.take (data.length % 2 ^ 32)

/-- `Send` without payload, TCPConnectionPool.cpp:492-506 -/
def framesOf (data : List Byte) : List (List Byte) := [wrU32 (BitVec.ofNat 32 data.length), sendBuffer data]

/-- the buffers of a message, with or without payload, TCPConnectionPool.cpp:509-532 -/
def buffersOf (data : List Byte) : Option (List Byte) → List (List Byte)
  | none => framesOf data
  | some p => framesOf data ++ framesOf p

/-- the total, a `uint32_t`, TCPConnectionPool.cpp:555-560 -/
def totalBytes (bufs : List (List Byte)) : Nat := bufs.foldl (fun t b => (t + b.length) % 2 ^ 32) 0

/-- filling the buffers with unsent data, TCPConnectionPool.cpp:579-601 -/
def gather (bytesSent : Nat) : Nat → List (List Byte) → List (List Byte)
  | _, [] => []
  | offset, b :: bs =>
    let overlap := if bytesSent > offset then bytesSent - offset else 0
    let rest := gather bytesSent ((offset + b.length) % 2 ^ 32) bs
    if overlap < b.length then b.drop overlap :: rest else rest

/-- the loop of `SendInternal`, TCPConnectionPool.cpp:575-640: whether all was sent, and the bytes given to the
network. Without further rounds it is still waiting (`false`). -/
def sendLoop (bufs : List (List Byte)) : Nat → List Write → Bool × List Byte
  | bytesSent, [] => (decide (¬ bytesSent < totalBytes bufs), [])
  | bytesSent, w :: ws =>
    if bytesSent < totalBytes bufs then
      match w with
      | .giveUp => (false, [])
      | .wouldBlock => sendLoop bufs bytesSent ws
      | .sent n =>
        let out := (gather bytesSent 0 bufs).flatten.take (n + 1)
        let r := sendLoop bufs ((bytesSent + out.length) % 2 ^ 32) ws
        (r.1, out ++ r.2)
    else (true, [])

/-- a message and its payload -/
structure Msg where
  data : List Byte
  payload : Option (List Byte)
deriving DecidableEq

/-- sending messages one after the other over a connection (with the outcomes of the writes of each): after giving
up, the connection is closing and nothing more is sent, TCPConnectionPool.cpp:543-546, 612-637 -/
def sendAll : List (Msg × List Write) → List Byte
  | [] => []
  | (m, ws) :: rest =>
    let r := sendLoop (buffersOf m.data m.payload) 0 ws
    if r.1 then r.2 ++ sendAll rest else r.2

/-! ## Receiving -/

/-- what a call of `recv` does -/
inductive Recv where
  /-- gives up to `n + 1` bytes of those that have arrived -/
  | data (n : Nat)
  /-- nothing has arrived: -1 with `errno` EAGAIN -/
  | again
  /-- the peer has closed the connection: 0, leaving `errno` as it is -/
  | closed
  /-- -1 with another `errno` -/
  | error
deriving DecidableEq

inductive Rd where
  /-- in the loop, with `errno` telling EAGAIN or not -/
  | waiting (errnoAgain : Bool)
  /-- `HandleRead` returns false -/
  | lost
  /-- the bytes, `errno`, the remaining calls and the remaining stream -/
  | got (bytes : List Byte) (errnoAgain : Bool) (calls : List Recv) (stream : List Byte)
deriving DecidableEq

/-- the loops around `recv`, TCPConnectionPool.cpp:684-707 and 718-744: `need` more bytes are wanted. `WouldBlock` is
consulted whenever the result is 0 or negative. -/
def recvLoop : Nat → Bool → List Recv → List Byte → List Byte → Rd
  | 0, errno, calls, stream, acc => .got acc errno calls stream
  | _ + 1, errno, [], _, _ => .waiting errno
  | need + 1, errno, .data n :: calls, stream, acc =>
    let c := stream.take (min (n + 1) (need + 1))
    if c = [] then recvLoop (need + 1) true calls stream acc
    else recvLoop (need + 1 - c.length) errno calls (stream.drop c.length) (acc ++ c)
  | need + 1, _, .again :: calls, stream, acc => recvLoop (need + 1) true calls stream acc
  | need + 1, errno, .closed :: calls, stream, acc => if errno then recvLoop (need + 1) true calls stream acc else .lost
  | _ + 1, _, .error :: _, _, _ => .lost

/-- `HandleRead`, TCPConnectionPool.cpp:677-755: the frame for `OnReceive` -/
def handleRead (errno : Bool) (calls : List Recv) (stream : List Byte) : Rd :=
  match recvLoop 4 errno calls stream [] with
  | .got size errno calls stream => recvLoop (ofLE size) errno calls stream []
  | r => r

/-- the state of a connection: `m_CurrentMessage`, and what has been processed -/
structure Conn where
  current : Option (List Byte)
  processed : List Msg
  /-- a frame too short to be a message was read as one -/
  invalid : Bool
deriving DecidableEq

/-- `IMessage::HasPayload`: the third byte, Protocol.h:90-99 -/
def hasPayload (data : List Byte) : Bool := match data[2]? with | some b => b ≠ 0 | none => false

/-- `OnReceive`, Server.cpp:185-277 and Client.cpp:474-560: pairing messages and payloads -/
def onReceive (c : Conn) (frame : List Byte) : Conn :=
  match c.current with
  | none =>
    if frame.length < 3 then { c with invalid := true }
    else if hasPayload frame then { c with current := some frame }
    else { c with processed := c.processed ++ [⟨frame, none⟩] }
  | some m => { c with current := none, processed := c.processed ++ [⟨m, some frame⟩] }

/-- the loop of `ConnectionThreadFunction`, TCPConnectionPool.cpp:1072-1118, as far as the calls of `recv` go; whether
the thread has left it -/
def receive : Nat → Bool → List Recv → List Byte → Conn → Conn × Bool
  | 0, _, _, _, c => (c, false)
  | fuel + 1, errno, calls, stream, c =>
    match handleRead errno calls stream with
    | .waiting _ => (c, false)
    | .lost => (c, true)
    | .got frame errno calls stream => receive fuel errno calls stream (onReceive c frame)

/-- all that a receiver does with a stream -/
def receiveAll (calls : List Recv) (stream : List Byte) : Conn × Bool :=
  receive (calls.length + 1) false calls stream ⟨none, [], false⟩

end Verif.Net
