/-!
Projects of Visual Studio that are not generated: `VSProjectExternalNode` (Graph/VSProjectExternalNode.cpp:48-250). The module that reads projects on
Windows is a parameter. Text is a list of characters.
-/
namespace Verif.Ext

abbrev Text := List Char

/-- the members of the node, VSProjectExternalNode.h:38-40, VSProjectBaseNode.h:51-55, and its stamp; a configuration is platform and name -/
structure Ext where
  guid : Text
  typeGuid : Text
  configs : List (Text × Text)
  tuples : List (Text × Text)
  stamp : Nat

/-- the file: its time, and the text if it can be read -/
structure File where
  time : Nat
  text : Option Text

/-- `VspteModuleWrapper`, on Windows -/
inductive Module
  | otherSystem
  | notLoaded
  | fails
  | data (typeGuid : Text) (configs : List (Text × Text))

/-- how a build of the node ends; `bad`: a range with its end before its begin -/
inductive Result
  | ok (s : Ext)
  | failed
  | bad

/-- a letter in lower case, AString.cpp:1001-1013 -/
def lower (c : Char) : Char := if 'A' ≤ c ∧ c ≤ 'Z' then Char.ofNat (c.toNat + 32) else c

/-- `StrNCmpI(…) == 0` -/
def startsI (pat t : Text) : Bool := pat.isPrefixOf (t.map lower)

/-- `AString::FindI` from the begin, AString.cpp:1025-1050, of a text without capitals -/
def findI (pat : Text) : Text → Option Nat
  | [] => if startsI pat [] then some 0 else none
  | c :: t => if startsI pat (c :: t) then some 0 else (findI pat t).map (· + 1)

/-- the tags, VSProjectExternalNode.cpp:119-120, without capitals -/
def openTag : Text := ['<', 'p', 'r', 'o', 'j', 'e', 'c', 't', 'g', 'u', 'i', 'd', '>']
def closeTag : Text := ['<', '/', 'p', 'r', 'o', 'j', 'e', 'c', 't', 'g', 'u', 'i', 'd', '>']

/-- the braces, VSProjectExternalNode.cpp:128-139 -/
def brace (g : Text) : Text :=
  let g := if g.head? = some '{' then g else '{' :: g
  if g.getLast? = some '}' then g else g ++ ['}']

/-- the configurations that are added, VSProjectExternalNode.cpp:199-211 -/
def defaults : List (Text × Text) :=
  [(['W', 'i', 'n', '3', '2'], ['D', 'e', 'b', 'u', 'g']), (['W', 'i', 'n', '3', '2'], ['R', 'e', 'l', 'e', 'a', 's', 'e']),
   (['x', '6', '4'], ['R', 'e', 'l', 'e', 'a', 's', 'e']), (['x', '6', '4'], ['D', 'e', 'b', 'u', 'g'])]

/-- `CopyConfigs`, VSProjectExternalNode.cpp:195-241 -/
def copyConfigs (s : Ext) : Ext :=
  let cs := defaults.foldl (fun cs d => if cs.any fun e => d.2 = e.2 && d.1 = e.1 then cs else cs ++ [d]) s.configs
  { s with configs := cs, tuples := if cs.isEmpty then s.tuples else cs }

/-- `Initialize`, VSProjectExternalNode.cpp:53-66 -/
def init (s : Ext) : Ext :=
  let s' := copyConfigs s
  if s.configs.isEmpty then { s' with configs := [] } else s'

/-- the identifier from the file, VSProjectExternalNode.cpp:97-140 -/
def readGuid (f : File) (s : Ext) : Result :=
  match f.text with
  | none => .failed
  | some t =>
    match findI openTag t, findI closeTag t with
    | some a, some b => if b < a + 13 then .bad else .ok { s with guid := brace ((t.drop (a + 13)).take (b - (a + 13))) }
    | _, _ => .failed

/-- the module, VSProjectExternalNode.cpp:143-184 -/
def askModule (m : Module) (s : Ext) : Result :=
  match m with
  | .otherSystem => .ok s
  | m => if s.typeGuid.isEmpty || s.configs.isEmpty then
      match m with
      | .data t cs => .ok { s with typeGuid := if s.typeGuid.isEmpty then t else s.typeGuid, configs := if s.configs.isEmpty then cs else s.configs }
      | _ => .failed
    else .ok s

/-- `RecordStampFromBuiltFile`, Node.cpp:1269-1278 -/
def record (f : Option File) (s : Ext) : Ext := { s with stamp := match f with | some f => f.time | none => 0 }

/-- `DoBuild`, VSProjectExternalNode.cpp:74-193 -/
def build (f : Option File) (m : Module) (s : Ext) : Result :=
  if s.guid.isEmpty || s.typeGuid.isEmpty || s.configs.isEmpty then
    match f with
    | none => .failed
    | some fl =>
      if s.stamp = fl.time then .ok (record f s)
      else match (if s.guid.isEmpty then readGuid fl s else .ok s) with
        | .ok s1 => match askModule m s1 with
          | .ok s2 => .ok (record f (copyConfigs s2))
          | r => r
        | r => r
  else .ok (record f s)

end Verif.Ext
