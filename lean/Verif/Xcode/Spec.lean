import Verif.Xcode.Model
/-!
Xcode projects as Xcode reads them. Nothing here uses the functions of the model, only its types.

The readers below follow the old-style property lists of Apple (`CFOldStylePList.c`) and the attributes of XML.
-/
namespace Verif.Xcode.Spec

/-! ### Property lists -/

/-- a character a text without quotes may have -/
def Unquoted (c : Char) : Prop :=
  ('a' ≤ c ∧ c ≤ 'z') ∨ ('A' ≤ c ∧ c ≤ 'Z') ∨ ('0' ≤ c ∧ c ≤ '9') ∨ c ∈ ['_', '$', '/', ':', '.', '-']

instance (c : Char) : Decidable (Unquoted c) := by unfold Unquoted; infer_instance

inductive Mode | out | line | block

/-- spaces and comments mean nothing -/
def skip : Mode → Text → Text
  | .out, '/' :: '/' :: r => skip .line r
  | .out, '/' :: '*' :: r => skip .block r
  | .out, c :: r => if c ∈ [' ', '\t', '\n', '\r'] then skip .out r else c :: r
  | .line, c :: r => if c = '\n' then skip .out r else skip .line r
  | .block, '*' :: '/' :: r => skip .out r
  | .block, _ :: r => skip .block r
  | _, [] => []

/-- what a backslash and a character stand for -/
def escaped : Char → Option Char
  | '\\' => some '\\'
  | '"' => some '"'
  | '\'' => some '\''
  | 'n' => some '\n'
  | 't' => some '\t'
  | 'r' => some '\r'
  | _ => none

/-- a text up to the closing quote, and what follows -/
def quoted : Text → Option (Text × Text)
  | [] => none
  | '"' :: r => some ([], r)
  | '\\' :: c :: r => (escaped c).bind fun x => (quoted r).map fun q => (x :: q.1, q.2)
  | c :: r => (quoted r).map fun q => (c :: q.1, q.2)

/-- a text, and what follows -/
def readText (t : Text) : Option (Text × Text) :=
  match skip .out t with
  | [] => none
  | '"' :: r => quoted r
  | c :: r => if Unquoted c then some ((c :: r).takeWhile (fun x => decide (Unquoted x)), (c :: r).dropWhile (fun x => decide (Unquoted x))) else none

inductive Value | text (t : Text) | list (l : List Text)
deriving DecidableEq

/-- the members of a list up to the closing parenthesis; `fuel` bounds their number -/
def members : Nat → Text → Option (List Text × Text)
  | 0, _ => none
  | fuel + 1, t =>
    match skip .out t with
    | ')' :: r => some ([], r)
    | _ =>
      (readText t).bind fun v =>
        match skip .out v.2 with
        | ',' :: r => (members fuel r).map fun m => (v.1 :: m.1, m.2)
        | ')' :: r => some ([v.1], r)
        | _ => none

def readValue (t : Text) : Option (Value × Text) :=
  match skip .out t with
  | '(' :: r => (members t.length r).map fun m => (.list m.1, m.2)
  | _ => (readText t).map fun v => (.text v.1, v.2)

/-- `name = value;` and what follows -/
def readSetting (t : Text) : Option (Text × Value × Text) :=
  (readText t).bind fun n =>
    match skip .out n.2 with
    | '=' :: r =>
      (readValue r).bind fun v =>
        match skip .out v.2 with
        | ';' :: r => some (n.1, v.1, r)
        | _ => none
    | _ => none

/-- the name of a setting -/
def Setting (name : Text) : Prop := name ≠ [] ∧ ∀ c ∈ name, ('a' ≤ c ∧ c ≤ 'z') ∨ ('A' ≤ c ∧ c ≤ 'Z') ∨ c = '_'

/-- does not look like a comment -/
def NoComment (t : Text) : Prop := ¬ ['/', '/'] <+: t

/-- can do without quotes -/
def Simple (t : Text) : Prop := t ≠ [] ∧ ∀ c ∈ t, Unquoted c

/-! ### Attributes of XML -/

/-- what follows `&` -/
def entity : Text → Option (Char × Text)
  | 'l' :: 't' :: ';' :: r => some ('<', r)
  | 'g' :: 't' :: ';' :: r => some ('>', r)
  | 'a' :: 'm' :: 'p' :: ';' :: r => some ('&', r)
  | 'q' :: 'u' :: 'o' :: 't' :: ';' :: r => some ('"', r)
  | 'a' :: 'p' :: 'o' :: 's' :: ';' :: r => some ('\'', r)
  | _ => none

/-- an attribute up to its closing quote, and what follows: tabs and ends of lines become spaces. `fuel` bounds its length. -/
def attr : Nat → Text → Option (Text × Text)
  | 0, _ => none
  | _ + 1, [] => none
  | fuel + 1, c :: r =>
    if c = '"' then some ([], r)
    else if c = '<' then none
    else if c = '&' then (entity r).bind fun e => (attr fuel e.2).map fun a => (e.1 :: a.1, a.2)
    else (attr fuel r).map fun a => ((if c ∈ ['\t', '\n', '\r'] then ' ' else c) :: a.1, a.2)

/-! ### The objects -/

/-- the identifiers in a field of an object -/
def field (o : Obj) (f : Field) : List Text := (o.refs.filter fun r => r.1 = f).map (·.2)

/-- what a field may refer to -/
def allowed : Field → List Isa
  | .fileRef => [.fileReference]
  | .children => [.fileReference, .group]
  | .buildConfigurationList => [.configurationList]
  | .buildPhases => [.sourcesPhase]
  | .mainGroup => [.group]
  | .targets => [.legacyTarget, .nativeTarget]
  | .files => [.buildFile]
  | .buildConfigurations => [.configuration]

/-- the group `g` is shown below the groups of these names, from the main group on -/
inductive Shown (objs : List Obj) : Obj → List Text → Prop
  | main {pr g : Obj} : pr ∈ objs → pr.isa = .project → g ∈ objs → g.isa = .group → field pr .mainGroup = [g.id] → Shown objs g []
  | child {g c : Obj} {names : List Text} : Shown objs g names → c ∈ objs → c.isa = .group → c.id ∈ field g .children →
      Shown objs c (names ++ [c.name])

/-- a path is the directories one after the other, and the name -/
def join (dirs : List Text) (name : Text) : Text := dirs.flatMap (fun d => d ++ ['/']) ++ name

/-- `rel` is what is left of `file` after the longest base path it begins with -/
def Relative (bases : List Text) (file rel : Text) : Prop :=
  ∃ b, (b ∈ bases ∨ b = []) ∧ file = b ++ rel ∧ ∀ b' ∈ bases, b' <+: file → b'.length ≤ b.length

end Verif.Xcode.Spec
