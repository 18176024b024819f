import Verif.Net.FrameModel
/-
The messages of Code/Tools/FBuild/FBuildCore/Protocol/Protocol.h and Protocol.cpp as they are laid out in memory, which
is how they are sent (little endian, with the padding bytes that the constructors clear).
-/
namespace Verif.Net
open Verif.IO

/-- the messages, Protocol.h:105-280 -/
inductive PMsg where
  | connection (version numJobs : BitVec 32) (platform versionMinor : BitVec 8) (hostName : List Byte)
  | connectionAck (workerVersion : BitVec 16) (major minor : BitVec 8)
  | status (numJobs : BitVec 32)
  | requestJob
  | noJobAvailable
  | job (compressionLevel : BitVec 16) (toolId : BitVec 64)
  | jobResult
  | jobResultCompressed
  | requestManifest (toolId : BitVec 64)
  | manifest (toolId : BitVec 64)
  | requestFile (fileId : BitVec 32) (toolId : BitVec 64)
  | file (fileId : BitVec 32) (toolId : BitVec 64)
deriving DecidableEq

/-- `IMessage`: type, size, payload flag and a padding byte, Protocol.cpp:56-62 -/
def imessage (type : Byte) (size : Nat) (payload : Bool) : List Byte := [type, BitVec.ofNat 8 size, if payload then 1 else 0, 0]

/-- the constructors, Protocol.cpp:108-215: the bytes of each message. The host name is an array of 64 characters. -/
def PMsg.bytes : PMsg → List Byte
  | .connection v n p m h => imessage 1 80 false ++ wrU32 v ++ wrU32 n ++ [p, m, 0, 0] ++ h
  | .connectionAck w ma mi => imessage 12 8 false ++ wrWord 2 w ++ [ma, mi]
  | .status n => imessage 2 8 false ++ wrU32 n
  | .requestJob => imessage 3 4 false
  | .noJobAvailable => imessage 4 4 false
  | .job l t => imessage 5 16 true ++ wrWord 2 l ++ [0, 0] ++ wrU64 t
  | .jobResult => imessage 6 4 true
  | .jobResultCompressed => imessage 11 4 true
  | .requestManifest t => imessage 7 16 false ++ [0, 0, 0, 0] ++ wrU64 t
  | .manifest t => imessage 8 16 true ++ [0, 0, 0, 0] ++ wrU64 t
  | .requestFile f t => imessage 9 16 false ++ wrU32 f ++ wrU64 t
  | .file f t => imessage 10 16 true ++ wrU32 f ++ wrU64 t

/-- reading a field of `n` bytes at an offset -/
def field (w n offset : Nat) (b : List Byte) : BitVec w := BitVec.ofNat w (ofLE ((b.drop offset).take n))

inductive Cast where
  /-- an unknown type: assertion, then disconnection -/
  | unknown
  /-- the buffer is smaller than the message: reading the fields is out of bounds -/
  | outOfBounds
  | msg (m : PMsg)
deriving DecidableEq

/-- guards the cast to a message of `n` bytes -/
def sized (n : Nat) (b : List Byte) (m : PMsg) : Cast := if b.length < n then .outOfBounds else .msg m

/-- the `switch` of `OnReceive` by the first byte and the casts, Server.cpp:217-271 and Client.cpp:505-560, with the
getters of Protocol.h. (Each side only knows the messages it can receive; here they are taken together.) -/
def castMsg (b : List Byte) : Cast :=
  match b[0]? with
  | none => .outOfBounds
  | some t =>
    if t = 1 then sized 80 b (.connection (field 32 4 4 b) (field 32 4 8 b) (field 8 1 12 b) (field 8 1 13 b) ((b.drop 16).take 64))
    else if t = 2 then sized 8 b (.status (field 32 4 4 b))
    else if t = 3 then sized 4 b .requestJob
    else if t = 4 then sized 4 b .noJobAvailable
    else if t = 5 then sized 16 b (.job (field 16 2 4 b) (field 64 8 8 b))
    else if t = 6 then sized 4 b .jobResult
    else if t = 7 then sized 16 b (.requestManifest (field 64 8 8 b))
    else if t = 8 then sized 16 b (.manifest (field 64 8 8 b))
    else if t = 9 then sized 16 b (.requestFile (field 32 4 4 b) (field 64 8 8 b))
    else if t = 10 then sized 16 b (.file (field 32 4 4 b) (field 64 8 8 b))
    else if t = 11 then sized 4 b .jobResultCompressed
    else if t = 12 then sized 8 b (.connectionAck (field 16 2 4 b) (field 8 1 6 b) (field 8 1 7 b))
    else .unknown

end Verif.Net
