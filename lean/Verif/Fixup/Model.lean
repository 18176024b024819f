import Verif.Str.TextModel
/-!
Lines of compilers changed to what Visual Studio can follow: `Node::FixupPathForVSIntegration` and its helpers (Graph/Node.cpp:887-1120). Text is a
list of characters without null. `NodeGraph::CleanPath` (C03) and `Scan( "%i" )` are parameters. `Tokenize` is that of C29.
-/
namespace Verif.Fixup
open Verif.Str (tokenize)

abbrev Text := List Char

/-- what the line becomes; `bad`: a failed assertion -/
inductive Result
  | line (t : Text)
  | bad
  deriving DecidableEq

/-- `AString::Find` of a text (AString.cpp:930-955): what is before the first occurrence, and the rest -/
def split (pat : Text) : Text → Option (Text × Text)
  | [] => none
  | c :: t => if pat.isPrefixOf (c :: t) then some ([], c :: t) else (split pat t).map fun p => (c :: p.1, p.2)

/-- Node.cpp:899-903 -/
def gccTags : List Text := [[':', ' ', 'w', 'a', 'r', 'n', 'i', 'n', 'g', ':'], [':', ' ', 'n', 'o', 't', 'e', ':'],
  [':', ' ', 'e', 'r', 'r', 'o', 'r', ':'], [':', ' ', 'f', 'a', 't', 'a', 'l', ' ', 'e', 'r', 'r', 'o', 'r', ':'],
  [':', ' ', 'r', 'e', 'm', 'a', 'r', 'k', ':']]

/-- Node.cpp:918-921 -/
def sncTags : List Text := [[':', ' ', 'e', 'r', 'r', 'o', 'r', ' '], [':', ' ', 'w', 'a', 'r', 'n', 'i', 'n', 'g', ' '],
  [':', ' ', 'n', 'o', 't', 'e', ' '], [':', ' ', 'r', 'e', 'm', 'a', 'r', 'k', ' ']]

def warningText : Text := ['w', 'a', 'r', 'n', 'i', 'n', 'g']
def errorText : Text := ['e', 'r', 'r', 'o', 'r']

/-- `CleanPathForVSIntegration`, Node.cpp:1093-1120 -/
def cleanVS (cp : Text → Text) (path : Text) : Text :=
  if path.length = 1 then path
  else if 7 ≤ path.length ∧ ['/', 'm', 'n', 't', '/'].isPrefixOf path ∧ path[6]? = some '/' then
    ((path.drop 5).take 1 ++ ':' :: path.drop 6).map fun c => if c = '/' then '\\' else c
  else cp path

/-- Node.cpp:956-968: `none` when the format is not expected -/
def colonStyle (before : Text) : Option Text :=
  if ':' ∉ before ∧ ',' ∈ before then
    if before.count '(' + before.count ',' + before.count ')' = 3 then some (before.map fun c => if c = '(' ∨ c = ',' ∨ c = ')' then ':' else c)
    else none
  else some before

/-- `FixupPathForVSIntegration_GCC`, Node.cpp:951-1008: `none` when the line stays -/
def gcc (cp : Text → Text) (scan : Text → Bool) (before rest : Text) : Option Text :=
  match colonStyle before with
  | none => none
  | some b => match (tokenize ':' b).reverse with
    | col :: row :: more => match more.reverse with
      | [] => none
      | path :: mid =>
        if scan col && scan row then
          some (cleanVS cp path ++ mid.flatMap (fun t => ':' :: t) ++ '(' :: (row ++ ',' :: (col ++ ')' :: rest)))
        else none
    | _ => none

/-- `FixupPathForVSIntegration_SNC`, Node.cpp:1012-1035 -/
def snc (cp : Text → Text) (before rest : Text) : Option Text :=
  match split ['('] before with
  | none => none
  | some (path, open_) => some (cleanVS cp path ++ open_ ++ rest)

/-- Node.cpp:1066-1072: the name without quotes; `none`: the assertion of `Trim` (AString.cpp:803) -/
def vbccName (t : Text) : Option Text :=
  if ['"'].isPrefixOf t ∧ ['"', ':'].isSuffixOf t then
    if 3 ≤ t.length then some ((t.drop 1).take (t.length - 3)) else none
  else some t

/-- `FixupPathForVSIntegration_VBCC`, Node.cpp:1039-1089 -/
def vbcc (cp : Text → Text) (line : Text) : Result :=
  match tokenize ' ' line with
  | t0 :: t1 :: _ :: t3 :: t4 :: t5 :: t6 :: t7 :: t8 :: more =>
    if t0 ≠ warningText ∧ t0 ≠ errorText then .bad
    else if t3 ≠ ['l', 'i', 'n', 'e'] then .line line
    else if t5 ≠ ['o', 'f'] then .line line
    else match vbccName t6 with
      | none => .bad
      | some name => .line (cleanVS cp name ++ '(' :: (t4 ++ [',', '1', ')', ':', ' '] ++ t0 ++ ' ' :: (t1 ++ [':', ' ']
          ++ (t7 :: t8 :: more).flatMap fun t => t ++ [' '])))
  | _ => .line line

/-- `FixupPathForVSIntegration`, Node.cpp:889-947 -/
def fixup (cp : Text → Text) (scan : Text → Bool) (line : Text) : Result :=
  match gccTags.findSome? fun w => split w line with
  | some (before, rest) => .line ((gcc cp scan before rest).getD line)
  | none => match sncTags.findSome? fun w => split w line with
    | some (before, rest) => .line ((snc cp before rest).getD line)
    | none => if (warningText ++ [' ']).isPrefixOf line ∨ (errorText ++ [' ']).isPrefixOf line then vbcc cp line else .line line

end Verif.Fixup
