/-!
The log for monitors: `FLog::Monitor` (FLog.cpp:88-109) with each place that writes to it, and `Job::GetMessagesForMonitorLog`
(WorkerPool/Job.cpp:228-272). Text is a list of characters. How `%f` writes a number is not modelled: the text is given. The lines are in the order in
which the threads get the lock.
-/
namespace Verif.Monitor

abbrev Text := List Char

/-- how a job ends, JobQueue.cpp:1000-1011, JobQueueRemote.cpp:429, Client.cpp:885 -/
inductive Status
  | cached | complete | aborted | preprocessed | failed | error | success
deriving DecidableEq

/-- the words, JobQueue.cpp:1000-1011, JobQueueRemote.cpp:429, Client.cpp:885 -/
def Status.word : Status → String
  | .cached => "SUCCESS_CACHED"
  | .complete => "SUCCESS_COMPLETE"
  | .aborted => "ABORTED"
  | .preprocessed => "SUCCESS_PREPROCESSED"
  | .failed => "FAILED"
  | .error => "ERROR"
  | .success => "SUCCESS"

/-- what is written; for a local job the worker is `local` -/
inductive Event
  | startBuild (version pid : Nat)
  | stopBuild
  | startJob (worker name : Text)
  | timeout (worker name : Text)
  | finishJob (status : Status) (worker name : Text) (messages : List Text)
  | progress (value : Text)
  | memory (value : Text)

/-- `%s`: up to the null character -/
def cstr (t : Text) : Text := t.takeWhile (· ≠ '\x00')

/-- `AString::Replace` of a character -/
def replace (a b : Char) (t : Text) : Text := t.map fun c => if c = a then b else c

/-- `GetMessagesForLog`, Job.cpp:228-244 -/
def messagesForLog (ms : List Text) : Text := ms.foldl (· ++ ·) []

/-- `GetMessagesForMonitorLog`, Job.cpp:248-272 -/
def messagesForMonitorLog (ms : List Text) : Text :=
  if ms.isEmpty then [] else replace '"' '\'' (replace '\r' '\x0C' (replace '\n' '\x0C' (messagesForLog ms)))

/-- `%u` -/
def dec (n : Nat) : Text := Nat.toDigits 10 n

/-- the text of a literal -/
@[irreducible] def lit (s : String) : Text := s.toList

/-- the formats: FLog.cpp:215, 241; Client.cpp:200-202, 614, 884-888; JobQueue.cpp:909, 1016-1019; JobQueueRemote.cpp:310, 428-431; FBuild.cpp:732;
ObjectNode.cpp:201 -/
def format : Event → Text
  | .startBuild v p => lit "START_BUILD " ++ dec v ++ lit " " ++ dec p ++ lit "\n"
  | .stopBuild => lit "STOP_BUILD\n"
  | .startJob w n => lit "START_JOB " ++ cstr w ++ lit " \"" ++ cstr n ++ lit "\" \n"
  | .timeout w n => lit "FINISH_JOB TIMEOUT " ++ cstr w ++ lit " \"" ++ cstr n ++ lit "\" \n"
  | .finishJob s w n ms => lit "FINISH_JOB " ++ lit s.word ++ lit " " ++ cstr w ++ lit " \"" ++ cstr n ++ lit "\" \"" ++
      cstr (messagesForMonitorLog ms) ++ lit "\"\n"
  | .progress f => lit "PROGRESS_STATUS " ++ f ++ lit " \n"
  | .memory f => lit "GRAPH FASTBuild \"Distributable Jobs MemUsage\" MB " ++ f ++ lit "\n"

/-- `Monitor`, FLog.cpp:88-109 -/
def line (time : Nat) (e : Event) : Text := dec time ++ lit " " ++ cstr (format e)

/-- the file -/
def log (es : List (Nat × Event)) : Text := es.foldl (fun t e => t ++ line e.1 e.2) []

end Verif.Monitor
