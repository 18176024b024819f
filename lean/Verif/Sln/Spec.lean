import Verif.Sln.Model
/-
Reading a solution file: what Visual Studio finds in it.
-/
namespace Verif.Sln

/-- a project, or a folder: the first line and the sections -/
structure Entry where
  type : Text
  name : Text
  path : Text
  guid : Text
  sections : List (Text × List (Text × Text)) := []
  deriving DecidableEq

structure Doc where
  entries : List Entry
  /-- the sections of `Global` -/
  globals : List (Text × List (Text × Text))
  deriving DecidableEq

/-- what is behind a prefix -/
def strip : Text → Text → Option Text
  | [], t => some t
  | _ :: _, [] => none
  | a :: p, b :: t => if a = b then strip p t else none

/-- up to a character, and what is behind it -/
def until? (c : Char) : Text → Option (Text × Text)
  | [] => none
  | a :: t => if a = c then some ([], t) else (until? c t).map fun (x, y) => (a :: x, y)

/-- `key = value` -/
def readPair (t : Text) : Option (Text × Text) := do
  let (k, t) ← until? '=' t
  let v ← strip [' '] t
  if k.getLast? = some ' ' then some (k.dropLast, v) else none

/-- four fields, each up to a quote; what is between them -/
def readFields (s1 s2 t : Text) : Option Entry := do
  let (type, t) ← until? '"' t
  let (name, t) ← until? '"' (← strip s1 t)
  let (path, t) ← until? '"' (← strip s2 t)
  let (guid, t) ← until? '"' (← strip s2 t)
  if t = [] then some ⟨type, name, path, guid, []⟩ else none

/-- behind `Project("` -/
def readHead (t : Text) : Option Entry := readFields ") = \"".toList ", \"".toList t

def kProject : Text := "Project(\"".toList
def kGlobal : Text := "Global".toList
def kEndProject : Text := "EndProject".toList
def kSection : Text := "\tProjectSection(".toList
def kEndSection : Text := "\tEndProjectSection".toList
def kEndGlobal : Text := "EndGlobal".toList
def kGlobalSection : Text := "\tGlobalSection(".toList
def kEndGlobalSection : Text := "\tEndGlobalSection".toList
def kTabs : Text := "\t\t".toList

/-- where the reader is -/
inductive St
  /-- outside of everything -/
  | top (es : List Entry)
  | entry (es : List Entry) (e : Entry)
  | entrySection (es : List Entry) (e : Entry) (name : Text) (pairs : List (Text × Text))
  | glob (es : List Entry) (gs : List (Text × List (Text × Text)))
  | globSection (es : List Entry) (gs : List (Text × List (Text × Text))) (name : Text) (pairs : List (Text × Text))
  | done (d : Doc)
  deriving DecidableEq

/-- one line -/
def step : St → Text → Option St
  | .top es, l => match strip kProject l with
    | some t => (readHead t).map (.entry es)
    | none => if l = kGlobal then some (.glob es []) else some (.top es)
  | .entry es e, l => if l = kEndProject then some (.top (es ++ [e])) else
    match strip kSection l with
    | some t => (until? ')' t).map fun (n, _) => .entrySection es e n []
    | none => none
  | .entrySection es e n ps, l => match strip kTabs l with
    | some t => (readPair t).map fun kv => .entrySection es e n (ps ++ [kv])
    | none => if l = kEndSection then some (.entry es { e with sections := e.sections ++ [(n, ps)] }) else none
  | .glob es gs, l => if l = kEndGlobal then some (.done ⟨es, gs⟩) else
    match strip kGlobalSection l with
    | some t => (until? ')' t).map fun (n, _) => .globSection es gs n []
    | none => none
  | .globSection es gs n ps, l => match strip kTabs l with
    | some t => (readPair t).map fun kv => .globSection es gs n (ps ++ [kv])
    | none => if l = kEndGlobalSection then some (.glob es (gs ++ [(n, ps)])) else none
  | .done _, _ => none

def steps : St → List Text → Option St
  | s, [] => some s
  | s, l :: ls => (step s l).bind (steps · ls)

/-- the lines of a text, each of which ends with `\r\n`; `cur` is the line so far -/
def splitLines : Text → Text → Option (List Text)
  | cur, [] => if cur = [] then some [] else none
  | cur, '\r' :: '\n' :: t => (splitLines [] t).map (cur :: ·)
  | cur, c :: t => splitLines (cur ++ [c]) t

/-- reading a solution file -/
def read (t : Text) : Option Doc := do
  match ← steps (.top []) (← splitLines [] t) with
  | .done d => some d
  | _ => none

/-- all pairs of the sections of a name -/
def pairsOf (secs : List (Text × List (Text × Text))) (name : Text) : List (Text × Text) := (secs.filter (·.1 = name)).flatMap (·.2)

/-- no character with a meaning in the file -/
def Plain (t : Text) : Prop := ∀ c ∈ t, c ≠ '"' ∧ c ≠ '\r' ∧ c ≠ '\n' ∧ c ≠ '='

/-- the path of a solution folder: with backslashes, and without one at the end -/
def pathOf : Text → Text
  | [] => []
  | [c] => if c = '/' ∨ c = '\\' then [] else [c]
  | c :: t => (if c = '/' then '\\' else c) :: pathOf t

/-- the configurations asked for; without any there are four -/
def configsOf (inp : Input) : List Config :=
  if inp.configs = [] then
    [⟨win32, debug, x86, debug, inp.baseBuild, inp.baseDeploy⟩, ⟨win32, release, x86, release, inp.baseBuild, inp.baseDeploy⟩,
     ⟨x64, debug, x64, debug, inp.baseBuild, inp.baseDeploy⟩, ⟨x64, release, x64, release, inp.baseBuild, inp.baseDeploy⟩]
  else inp.configs.map fun c =>
    { c with solConfig := if c.solConfig = [] then c.config else c.solConfig
             solPlatform := (let p := if c.solPlatform = [] then c.platform else c.solPlatform
                             if p.map Str.lower = ['w', 'i', 'n', '3', '2'] then ['x', '8', '6'] else p) }

/-- a folder asked for, or one it is in -/
def IsFolder (inp : Input) (q : Text) : Prop := ∃ f ∈ inp.folders, q = pathOf f.path ∨ ∃ r, pathOf f.path = q ++ '\\' :: r

/-- the projects an input speaks of -/
def asked (inp : Input) : List Text :=
  inp.projects ++ inp.folders.flatMap (·.projects) ++ inp.deps.flatMap (fun d => d.projects ++ d.deps) ++
  (if inp.configs = [] then inp.baseBuild ++ inp.baseDeploy else inp.configs.flatMap fun c => c.build ++ c.deploy)

/-- a project asked for -/
def IsProject (find : Text → Option Project) (inp : Input) (p : Project) : Prop := ∃ n ∈ asked inp, find n = some p

end Verif.Sln
