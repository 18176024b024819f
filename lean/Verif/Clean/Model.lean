import Verif.Ext.Model
/-!
`Node::CleanMessageToPreventMSBuildFailure` (Graph/Node.cpp:1140-1203), used for messages of workers (Protocol/Client.cpp:760). Text is a list of
characters without null; what is behind a position is the rest of the list.
-/
namespace Verif.Clean
open Verif.Ext (Text lower startsI)

/-- AString.h:204-208 -/
def isWhitespace (c : Char) : Bool := c = ' ' || c = '\r' || c = '\n' || c = '\t'
def isLetter (c : Char) : Bool := ('A' ≤ c && c ≤ 'Z') || ('a' ≤ c && c ≤ 'z')
def isNumber (c : Char) : Bool := '0' ≤ c && c ≤ '9'
def isCode (c : Char) : Bool := isLetter c || isNumber c

/-- `AString::FindI` (AString.cpp:1025-1050): what is before the first occurrence, and the rest -/
def splitI (pat : Text) : Text → Option (Text × Text)
  | [] => none
  | c :: t => if startsI pat (c :: t) then some ([], c :: t) else (splitI pat t).map fun p => (c :: p.1, p.2)

/-- Node.cpp:1157-1158 -/
def errorToken : Text := ['e', 'r', 'r', 'o', 'r', ' ']
def warningToken : Text := ['w', 'a', 'r', 'n', 'i', 'n', 'g', ' ']

/-- Node.cpp:1157-1158: an error, and only if there is none, a warning -/
def token (t : Text) : Option (Text × Text) :=
  match splitI errorToken t with
  | some p => some p
  | none => splitI warningToken t

/-- `while ( p( *pos ) ) ++pos;`: what is passed, and the rest -/
def skip (p : Char → Bool) (t : Text) : Text × Text := (t.takeWhile p, t.dropWhile p)

/-- one pass of the loop behind the token, Node.cpp:1165-1185: what is passed, and the rest -/
def skipAll (t : Text) : Text × Text :=
  let a := skip isLetter t
  let b := skip isWhitespace a.2
  let c := skip isCode b.2
  let d := skip isWhitespace c.2
  (a.1 ++ b.1 ++ c.1 ++ d.1, d.2)

/-- the loop, Node.cpp:1152-1202; `none` when it does not end in so many passes -/
def loop : Nat → Text → Option Text
  | 0, _ => none
  | fuel + 1, t => match token t with
    | none => some t
    | some (a, b) => match skipAll b with
      | (kept, ':' :: r) => (loop fuel r).map fun o => a ++ kept ++ [' '] ++ o
      | (kept, r) => (loop fuel r).map fun o => a ++ kept ++ o

/-- `CleanMessageToPreventMSBuildFailure`, Node.cpp:1140-1203 -/
def clean (t : Text) : Option Text := loop (t.length + 1) t

end Verif.Clean
