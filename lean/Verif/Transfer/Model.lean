import Verif.IO.CompressModel
/-
Sending a job to a worker and its result back: `Job::Serialize`/`Deserialize` (WorkerPool/Job.cpp:169-211),
`SaveRemote`/`LoadRemote` (Graph/Node.cpp:457-486, Graph/ObjectNode.cpp:878-895 and 1211-1254),
`ObjectNode::WriteTmpFile` (2107-2265), `JobQueueRemote::DoBuild`/`ReadResults` (WorkerPool/JobQueueRemote.cpp:300-502),
`Server::FinalizeCompletedJobs` (Protocol/Server.cpp:717-780) and `ProcessJobResultCommon` (Protocol/Client.cpp:685-1045),
all under Code/Tools/FBuild/FBuildCore.

Not modelled: what the arguments are (`SaveRemote` is given them, see C79), races and retries (C109 and the job queue),
the messages' headers (`MsgJob`, `MsgJobResult`), statistics, logging. Reading a message that is cut off is `none`;
the code ignores the results of `Read` there. Names are bytes.
-/
namespace Verif.Transfer
open Verif.IO

abbrev Name := List Byte

/-- bytes of a literal -/
def lit (s : String) : Name := s.toList.map (fun c => BitVec.ofNat 8 c.toNat)

def dot : Byte := 0x2E#8

/-- what is before the last `c` (`FindLast( c )` as an end), AString.cpp -/
def beforeLast (c : Byte) : Name → Option Name
  | [] => none
  | x :: r =>
    match beforeLast c r with
    | some b => some (x :: b)
    | none => if x = c then some [] else none

/-- what is after the last `c` (`FindLast( c ) + 1`), AString.cpp -/
def afterLast (c : Byte) : Name → Option Name
  | [] => none
  | x :: r =>
    match afterLast c r with
    | some b => some b
    | none => if x = c then some r else none

/-! ## objects -/

/-- an object: its name, `GetPCHObjectName()` (ObjectNode.cpp:1331-1335: the one of the list it belongs to; empty
without a list, that is on workers) and `m_CompilerFlags.m_Flags` -/
structure Obj where
  name : Name
  pchObj : Name
  flags : BitVec 32

/-- ObjectNode.h:62 and 93 -/
def Obj.pdb (o : Obj) : Bool := o.flags &&& 0x1000#32 != 0
/-- ObjectNode.h:70 and 101 -/
def Obj.analysis (o : Obj) : Bool := o.flags &&& 0x200000#32 != 0
/-- ObjectNode.h:76 and 107 -/
def Obj.deopt (o : Obj) : Bool := o.flags &&& 0x8000000#32 != 0

/-- `GetPDBName`, ObjectNode.cpp:1283-1288 -/
def Obj.pdbName (o : Obj) : Name := o.name ++ lit ".pdb"

/-- the name without its last extension, ObjectNode.cpp:1296-1300 and 1322-1326 -/
def Obj.stem (o : Obj) : Name :=
  let source := if o.pchObj = [] then o.name else o.pchObj
  match beforeLast dot source with
  | some b => b
  | none => source

/-- `GetNativeAnalysisXMLPath`, ObjectNode.cpp:1292-1302 -/
def Obj.xmlName (o : Obj) : Name := o.stem ++ lit ".nativecodeanalysis.xml"
/-- `GetAltObjPath`, ObjectNode.cpp:1318-1328 -/
def Obj.altName (o : Obj) : Name := o.stem ++ lit ".alt.obj"

/-! ## the job on its way to the worker -/

/-- a job of the client -/
structure Job where
  id : BitVec 32
  obj : Obj
  source : Name
  args : List Byte
  compressed : Bool
  data : List Byte

/-- `Node::SaveRemote` (Node.cpp:473-486; `OBJECT_NODE` is 6) and `ObjectNode::SaveRemote` (ObjectNode.cpp:1211-1254) -/
def wrNode (j : Job) : List Byte :=
  wrU32 6#32 ++ (wrStr j.obj.name ++ (wrStr j.source ++ (wrU32 j.obj.flags ++ wrStr j.args)))

/-- `Job::Serialize`, Job.cpp:169-187 -/
def wrJob (j : Job) (workDir : Name) : List Byte :=
  wrU32 j.id ++ (wrStr j.obj.name ++ (wrStr workDir ++ (wrNode j ++ (wrBool j.compressed ++
    (wrU32 (BitVec.ofNat 32 j.data.length) ++ j.data)))))

/-- a job of the worker -/
structure RemoteJob where
  id : BitVec 32
  remoteName : Name
  remoteRoot : Name
  obj : Obj
  source : Name
  args : List Byte
  compressed : Bool
  data : List Byte

/-- `Node::LoadRemote` (Node.cpp:457-469, another type fails an assertion) and `ObjectNode::LoadRemote`
(ObjectNode.cpp:878-895): an object without a list -/
def rdNode : Parser (Obj × Name × List Byte) := do
  let type ← rdU32
  if type ≠ 6#32 then Parser.fail
  let name ← rdStr
  let source ← rdStr
  let flags ← rdU32
  let args ← rdStr
  return (⟨name, [], flags⟩, source, args)

/-- `Job::Deserialize`, Job.cpp:191-211 -/
def rdJob : Parser RemoteJob := do
  let id ← rdU32
  let remoteName ← rdStr
  let remoteRoot ← rdStr
  let node ← rdNode
  let compressed ← rdBool
  let size ← rdU32
  let data ← rdBytes size.toNat
  return ⟨id, remoteName, remoteRoot, node.1, node.2.1, node.2.2, compressed, data⟩

/-- the data of a job that may be distributed: the preprocessed source compressed, ObjectNode.cpp:478-484; `none` if
an assertion fails -/
def packSource (c : Codecs) (level : Int) (source : List Byte) : Option (Bool × List Byte) :=
  (compress c source level).map (fun r => (true, r.2))

/-! ## the source on the worker -/

/-- the extension added for GCC, ObjectNode.cpp:2130-2188 -/
def addedExt (ext : Name) : Name :=
  if ext = lit "c" then lit ".i"
  else if ext = lit "cpp" ∨ ext = lit "cc" ∨ ext = lit "cxx" ∨ ext = lit "c++" ∨ ext = lit "cp" ∨ ext = lit "CPP" ∨ ext = lit "C" then lit ".ii"
  else if ext = lit "m" then lit ".mi"
  else if ext = lit "mm" ∨ ext = lit "M" then lit ".mii"
  else if ext = lit "F" ∨ ext = lit "fpp" ∨ ext = lit "FPP" then lit ".f"
  else if ext = lit "FOR" then lit ".for"
  else if ext = lit "FTN" then lit ".ftn"
  else if ext = lit "F90" then lit ".f90"
  else if ext = lit "F95" then lit ".f95"
  else if ext = lit "F03" then lit ".f03"
  else if ext = lit "F08" then lit ".f08"
  else if ext = lit "S" ∨ ext = lit "sx" then lit ".s"
  else []

/-- the name of the temporary file, ObjectNode.cpp:2129-2188; `gcc` is `IsGCC()` -/
def tmpName (gcc : Bool) (fileName : Name) : Name :=
  if gcc then
    match afterLast dot fileName with
    | some ext => if ext ≠ [] then fileName ++ addedExt ext else fileName
    | none => fileName
  else fileName

inductive Written where
  /-- the assertion in line 2109 -/
  | assert
  /-- a read outside the buffer or another assertion -/
  | ub
  /-- "Decompression failed", a system error -/
  | systemError
  | wrote (data : List Byte)
deriving DecidableEq

/-- what `WriteTmpFile` writes, ObjectNode.cpp:2109 and 2190-2251 (if the file can be written) -/
def writeTmp (c : Codecs) (compressed : Bool) (data : List Byte) : Written :=
  if data = [] then .assert
  else if compressed then
    match decompress c data with
    | .outOfBounds | .assert => .ub
    | .corrupt => .systemError
    | .ok d => .wrote d
  else .wrote data

/-! ## the result on its way back -/

/-- `DoBuild` on a worker, JobQueueRemote.cpp:316-325: the object is put into the temporary directory (which ends in
a slash) under its own file name; `none` without a slash in the name (a pointer computed from null) -/
def workerObj (slash : Byte) (tmpDir : Name) (j : RemoteJob) : Option Obj :=
  (afterLast slash j.remoteName).map (fun f => { j.obj with name := tmpDir ++ f })

/-- the files to send, `ReadResults`, JobQueueRemote.cpp:441-478 -/
def resultFiles (o : Obj) : List Name :=
  [o.name] ++ (if o.pdb then [o.pdbName] else []) ++ (if o.analysis then [o.xmlName] else []) ++
    (if o.deopt then [o.altName] else [])

/-- `Node::BuildResult` as far as it is reported -/
inductive Built where | ok | failed
deriving DecidableEq

/-- a job of the worker when it's done: `systemErrors` is `GetSystemErrorCount()` -/
structure Done where
  result : Built
  systemErrors : Nat
  messages : List (List Byte)
  data : List Byte

/-- `ReadResults` after a successful compilation, JobQueueRemote.cpp:382-398 and 480-501: `files` are the files of the
worker; `none` if an assertion fails. `unread` is the message "Error reading file". -/
def readResults (c : Codecs) (files : Name → FileView) (o : Obj) (level : Int) (allowZstd : Bool)
    (messages : List (List Byte)) (unread : Name → List Byte) : Option Done :=
  match createFromFiles ((resultFiles o).map files) with
  | none => none
  | some (.error i) => some ⟨.failed, 0, messages ++ [unread ((resultFiles o).getD i [])], []⟩
  | some (.ok b) =>
    if level ≠ 0 then (mbCompress c b level allowZstd).map (fun z => ⟨.ok, 0, messages, z⟩)
    else some ⟨.ok, 0, messages, b⟩

/-- what `FinalizeCompletedJobs` sends, Server.cpp:737-749 -/
def wrResult (id : BitVec 32) (name : Name) (d : Done) (buildTime : BitVec 32) (thread : BitVec 16) : List Byte :=
  wrU32 id ++ (wrStr name ++ (wrBool (d.result == .ok) ++ (wrBool (decide (d.systemErrors > 0)) ++ (wrArr wrStr d.messages ++
    (wrU32 buildTime ++ (wrWord 2 thread ++ (wrU32 (BitVec.ofNat 32 d.data.length) ++ d.data)))))))

/-- the result as the client reads it, Client.cpp:694-720 -/
structure Result where
  id : BitVec 32
  name : Name
  ok : Bool
  systemError : Bool
  messages : List (List Byte)
  buildTime : BitVec 32
  thread : BitVec 16
  data : List Byte

/-- Client.cpp:694-720 -/
def rdResult : Parser Result := do
  let id ← rdU32
  let name ← rdStr
  let ok ← rdBool
  let systemError ← rdBool
  let messages ← rdArr rdStr
  let buildTime ← rdU32
  let thread ← rdWord 2
  let size ← rdU32
  let data ← rdBytes size.toNat
  return ⟨id, name, ok, systemError, messages, buildTime, thread, data⟩

/-- writing the files: what was written, `fileIndex` and `result`; `none` after undefined behaviour -/
abbrev Writing := Option (List (Name × List Byte) × Nat × Bool)

/-- `if ( result && … ) result = WriteFileToDisk( name, mb, fileIndex++ )`, Client.cpp:945-977 and 1136-1144 -/
def writeNext (b : List Byte) (wanted : Bool) (name : Name) : Writing → Writing
  | none => none
  | some (w, i, ok) =>
    if ok && wanted then
      match extractFile b i with
      | .uninitialised | .outOfBounds => none
      | .failed => some (w, i + 1, false)
      | .wrote d => some (w ++ [(name, d)], i + 1, true)
    else some (w, i, ok)

/-- the files written, Client.cpp:938-977 (when the directory exists) -/
def writeFiles (b : List Byte) (o : Obj) : Writing :=
  writeNext b o.deopt o.altName (writeNext b o.analysis o.xmlName (writeNext b o.pdb o.pdbName
    (writeNext b true o.name (some ([], 0, true)))))

/-- the buffer: decompressed if the message says so, Client.cpp:925-930. The result of `Decompress` is ignored: the
buffer stays as it is. -/
def unpack (c : Codecs) (isCompressed : Bool) (data : List Byte) : Option (List Byte) :=
  if isCompressed then
    match mbDecompress c data with
    | .outOfBounds | .assert => none
    | .corrupt => some data
    | .ok b => some b
  else some data

/-- what becomes of the job -/
inductive Fate where
  /-- finished as `eOk` -/
  | done
  /-- finished as `eFailed` -/
  | fails
  /-- `ReturnUnfinishedDistributableJob` -/
  | retried
deriving DecidableEq

/-- the client's files written and the job's fate, Client.cpp:898-1045, for a job that's not discarded; `errors` is
its number of system errors, this one included; `SYSTEM_ERROR_ATTEMPT_COUNT` is 3 -/
def receive (c : Codecs) (o : Obj) (isCompressed : Bool) (r : Result) (errors : Nat) :
    Option (List (Name × List Byte) × Fate) :=
  if r.ok then
    match unpack c isCompressed r.data with
    | none => none
    | some b => (writeFiles b o).map (fun w => (w.1, if w.2.2 then .done else .fails))
  else if r.systemError then some ([], if errors < 3 then .retried else .fails)
  else some ([], .fails)

end Verif.Transfer
