import Verif.Monitor.Model
/-!
What C127 is stated with: how a monitor reads the log.
-/
namespace Verif.Monitor

/-- what a monitor sees of an event -/
inductive Seen
  | startBuild (version pid : Nat)
  | stopBuild
  | startJob (worker name : Text)
  | timeout (worker name : Text)
  | finishJob (status : String) (worker name message : Text)
  | progress (value : Text)
  | memory (value : Text)
deriving DecidableEq

/-- the text before the first `c`, and after it -/
def upTo (c : Char) (t : Text) : Text × Text := (t.takeWhile (· ≠ c), (t.dropWhile (· ≠ c)).drop 1)

/-- `"…" ` -/
def quoted : Text → Option Text
  | '"' :: x => match x.reverse with
    | ' ' :: '"' :: y => some y.reverse
    | _ => none
  | _ => none

/-- `"…" "…"`, the second without quotes inside -/
def twoQuoted : Text → Option (Text × Text)
  | '"' :: x => match x.reverse with
    | '"' :: y => match upTo '"' y with
      | (m, ' ' :: '"' :: n) => some (n.reverse, m.reverse)
      | _ => none
    | _ => none
  | _ => none

/-- a number in digits -/
def number (t : Text) : Nat := t.foldl (fun n c => 10 * n + (c.toNat - '0'.toNat)) 0

/-- what follows `p` -/
def after (p t : Text) : Option Text := if p.isPrefixOf t then some (t.drop p.length) else none

/-- one event -/
def readBody (b : Text) : Option Seen :=
  let word := (upTo ' ' b).1
  let rest := (upTo ' ' b).2
  if word = lit "STOP_BUILD" then some .stopBuild
  else if word = lit "START_BUILD" then some (.startBuild (number (upTo ' ' rest).1) (number (upTo ' ' rest).2))
  else if word = lit "START_JOB" then (quoted (upTo ' ' rest).2).map (.startJob (upTo ' ' rest).1)
  else if word = lit "FINISH_JOB" then
    let status := (upTo ' ' rest).1
    let rest := (upTo ' ' rest).2
    if status = lit "TIMEOUT" then (quoted (upTo ' ' rest).2).map (.timeout (upTo ' ' rest).1)
    else (twoQuoted (upTo ' ' rest).2).map fun p => .finishJob (String.ofList status) (upTo ' ' rest).1 p.1 p.2
  else if word = lit "PROGRESS_STATUS" then some (.progress (upTo ' ' rest).1)
  else (after (lit "GRAPH FASTBuild \"Distributable Jobs MemUsage\" MB ") b).map .memory

/-- one line: the time and the event -/
def readLine (t : Text) : Option (Nat × Seen) := (readBody (upTo ' ' t).2).map fun s => (number (upTo ' ' t).1, s)

/-- the complete lines -/
def lines : Text → Text → List Text
  | _, [] => []
  | acc, c :: t => if c = '\n' then acc.reverse :: lines [] t else lines (c :: acc) t

/-- the file, while it is written or after -/
def read (t : Text) : List (Option (Nat × Seen)) := (lines [] t).map readLine

/-- a message as a monitor gets it: ends of lines are form feeds, quotes are single -/
def seenChar (c : Char) : Char := if c = '\n' ∨ c = '\r' then '\x0C' else if c = '"' then '\'' else c

/-- what is seen -/
def Event.seen : Event → Seen
  | .startBuild v p => .startBuild v p
  | .stopBuild => .stopBuild
  | .startJob w n => .startJob w n
  | .timeout w n => .timeout w n
  | .finishJob s w n ms => .finishJob s.word w n ((ms.flatten.takeWhile (· ≠ '\x00')).map seenChar)
  | .progress f => .progress f
  | .memory f => .memory f

/-- no ends of lines and null characters; a worker and a number have no spaces -/
def NoEnd (t : Text) : Prop := '\n' ∉ t ∧ '\x00' ∉ t
def Word (t : Text) : Prop := NoEnd t ∧ ' ' ∉ t

def Event.Fine : Event → Prop
  | .startJob w n | .timeout w n | .finishJob _ w n _ => Word w ∧ NoEnd n
  | .progress f | .memory f => Word f
  | _ => True

end Verif.Monitor
