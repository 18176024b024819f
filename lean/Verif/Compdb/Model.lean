import Verif.Compdb.Dfs
import Verif.Args.Model
import Verif.Dirs.Model
/-
Model of `-compdb`: Code/Tools/FBuild/FBuildCore/Helpers/CompilationDatabase.cpp ("C" below) and Helpers/JSON.cpp,
`ObjectListNode::EnumerateInputFiles`, ObjectListNode.cpp:873-910, `UnityNode::EnumerateInputFiles`, UnityNode.cpp:777-810.
Strings are lists of bytes, given as characters below 256. Directory lists have the files that are found when they are built
(C:114-119). The length of the output is not limited to 32 bits.
-/
namespace Verif.Compdb
open Verif.Str (tokenize removeQuotes)
open Verif.Args (findHole)

abbrev Name := List Char

/-! ### JSON.cpp -/

def hexDigit (d : Nat) : Char := "0123456789ABCDEF".toList.getD d '0'

/-- `n` with `k` hexadecimal digits -/
def hex : Nat → Nat → List Char
  | 0, _ => []
  | k + 1, n => hex k (n / 16) ++ [hexDigit (n % 16)]

/-- one character of `JSON::AppendEscaped`, JSON.cpp:18-68. `signed`: `char` has a sign, as on x86; then all bytes from 128 on
are less than 0x1F, and `%04X` is given the negative number as 32 bits -/
def escChar (signed : Bool) (c : Char) : List Char :=
  if signed ∧ 128 ≤ c.toNat then ['\\', 'u'] ++ hex 8 (4294967040 + c.toNat)
  else if c.toNat ≤ 0x1F then
    if c.toNat = 8 then ['\\', 'b']
    else if c = '\t' then ['\\', 't']
    else if c = '\n' then ['\\', 'n']
    else if c.toNat = 12 then ['\\', 'f']
    else if c = '\r' then ['\\', 'r']
    else ['\\', 'u'] ++ hex 4 c.toNat
  else if c = '"' then ['\\', '"']
  else if c = '\\' then ['\\', '\\']
  else [c]

/-- `JSON::Escape`, JSON.cpp:72-80: up to the first zero byte -/
def escape (signed : Bool) (s : Name) : Name := (s.takeWhile (·.toNat ≠ 0)).flatMap (escChar signed)

/-! ### input files -/

mutual
/-- what an object list or a unity is made of -/
inductive Src
  /-- `DirectoryListNode`: its path and files -/
  | dir (path : Name) (files : List Name)
  /-- `UnityNode`: its static dependencies -/
  | unity (deps : Srcs)
  /-- `ObjectListNode`: `m_CompilerInputFiles`, and the static dependencies that are inputs -/
  | list (files : List Name) (inputs : Srcs)
  /-- any other node that is a file -/
  | file (name : Name)
inductive Srcs
  | nil
  | cons (s : Src) (l : Srcs)
end

/-- files with their base directory -/
abbrev Ins := List (Name × Name)

def ofDir (path : Name) (files : List Name) : Ins := files.map fun f => (f, path)

def join (a b : Option Ins) : Option Ins :=
  match a, b with
  | some a, some b => some (a ++ b)
  | _, _ => none

/-- the loops of `EnumerateInputFiles` of object lists, ObjectListNode.cpp:884-909, and of unities, UnityNode.cpp:781-809.
`none`: `ASSERT( false )`, an unexpected type of node -/
def enumerate (unity : Bool) : Srcs → Option Ins
  | .nil => some []
  | .cons (.dir p fs) l => join (some (ofDir p fs)) (enumerate unity l)
  | .cons (.unity d) l => if unity then none else join (enumerate true d) (enumerate unity l)
  | .cons (.list fs d) l => if unity then join (join (some (ofDir [] fs)) (enumerate false d)) (enumerate unity l) else none
  | .cons (.file n) l => join (some [(n, [])]) (enumerate unity l)

/-! ### entries -/

/-- an `ObjectListNode` or `LibraryNode` -/
structure ListNd where
  /-- executable of the compiler, or the name of the node if it is no `CompilerNode`, C:143-155; empty if there is none -/
  compiler : Name
  /-- `isMSVC`, C:137-139 -/
  msvc : Bool
  /-- `GetCompilerOptions` -/
  options : Name
  /-- what `GetObjectFileName` depends on -/
  cfg : Verif.Dirs.ObjConfig
  files : List Name
  inputs : Srcs

/-- `EnumerateInputFiles` of the list -/
def ListNd.ins (n : ListNd) : Option Ins := join (some (ofDir [] n.files)) (enumerate false n.inputs)

/-- the loop over the arguments, C:163-175; the index is set back for a token that is removed -/
def prepare (signed msvc : Bool) : List Name → List Name
  | [] => []
  | t :: l => if msvc && Verif.Cache.isStart t "analyze" then prepare signed msvc l else escape signed t :: prepare signed msvc l

/-- `Tokenize`, `RemoveQuotes` and the loop, C:160-175 -/
def ListNd.args (signed : Bool) (n : ListNd) : List Name := prepare signed n.msvc ((tokenize ' ' n.options).map removeQuotes)

/-- the argument for a file, C:212-243 -/
def argFor (file out a : Name) : Name :=
  match findHole '1' a with
  | some (u, v) => u ++ file ++ v
  | none => match findHole '2' a with
    | some (u, v) => u ++ out ++ v
    | none => a

/-- the text of an entry; all strings escaped, C:201-251 -/
def entry (wd file out compiler : Name) (args : List Name) : Name :=
  "  {\n    \"directory\": \"".toList ++ (wd ++ ("\",\n    \"file\": \"".toList ++ (file ++ ("\",\n    \"output\": \"".toList ++ (out ++
    ("\",\n    \"arguments\": [\"".toList ++ (compiler ++ ("\"".toList ++
      (args.flatMap (fun a => ", \"".toList ++ (argFor file out a ++ "\"".toList)) ++ "]\n  },\n".toList)))))))))

/-- `HandleInputFile`, C:191-252. `none`: the end of a path comes before its start in `GetObjectFileName` -/
def entryOf (signed : Bool) (wd : Name) (n : ListNd) (i : Name × Name) : Option Name :=
  match Verif.Dirs.objectName n.cfg i.1 i.2 with
  | none => none
  | some o => some (entry (escape signed wd) (escape signed i.1) (escape signed o) (escape signed n.compiler) (n.args signed))

/-- texts one after the other -/
def texts {α : Type} (f : α → Option Name) : List α → Option Name
  | [] => some []
  | a :: l => match f a, texts f l with
    | some x, some y => some (x ++ y)
    | _, _ => none

/-- `HandleObjectListNode`, C:129-179 -/
def listText (signed : Bool) (wd : Name) (n : ListNd) : Option Name :=
  match n.ins with
  | none => none
  | some l => texts (entryOf signed wd n) l

/-! ### the database -/

structure Nd where
  /-- pre-build, static and dynamic dependencies -/
  deps : List Nat
  list : Option ListNd

abbrev Graph := List Nd

def succ (g : Graph) (n : Nat) : List Nat := (g[n]?.map (·.deps)).getD []

/-- the text for a node that is left, C:110-131 -/
def nodeText (signed : Bool) (wd : Name) (g : Graph) (n : Nat) : Option Name :=
  match g[n]?.bind (·.list) with
  | some l => listText signed wd l
  | none => some []

/-- `Remove last comma`, C:64-78, on the output from its end, which has at least one more character in front. `none`: no change -/
def dropComma : List Char → Option (List Char)
  | [] => none
  | [_] => none
  | c :: r =>
    if c = ',' then some ('\n' :: r)
    else if c = '\n' ∨ c = '\r' ∨ c = ' ' ∨ c = '\t' then dropComma r
    else none

def removeLastComma (s : List Char) : List Char :=
  match dropComma s.reverse with
  | some r => r.reverse
  | none => s

/-- `Generate`, C:51-83, for the targets `roots` -/
def generate (signed : Bool) (wd : Name) (g : Graph) (roots : List Nat) : Option Name :=
  match Dfs.all (Dfs.visit (succ g) (g.length + 1)) roots ⟨[], []⟩ with
  | none => none
  | some s => match texts (nodeText signed wd g) s.out with
    | none => none
    | some t => some (removeLastComma ("[\n".toList ++ t) ++ "]\n".toList)

end Verif.Compdb
