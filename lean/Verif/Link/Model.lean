import Verif.Args.Model
import Verif.Str.MatchModel
/-
Linking, making libraries, and running other programs: what goes in and what the command lines look like.

Source, under /repo/Code/Tools/FBuild/FBuildCore/Graph:
  LinkerNode.cpp, LibraryNode.cpp, ObjectListNode.cpp:628-684, DLLNode.cpp, ExecNode.cpp, CSNode.cpp, TestNode.cpp,
  Node.cpp:318-339; and Args::StripQuotes, Helpers/Args.cpp:186-222.

Names are lists of characters without NUL. Not modelled: finding the nodes named in the configuration (the nodes are given as
trees), flags of nodes that have no effect on inputs, environments, messages, and the text of warnings.
-/
namespace Verif.Link
open Verif.Str
open Verif.Args (Call)
open Verif.Cache (Tok)

abbrev Name := List Char

/-! ### Nodes -/

/-- the linker a DLL is made with, DLLNode.cpp:44-60 -/
inductive Flavour where
  | msvc | orbis | other
  deriving DecidableEq

/-- nodes with what they are made of, one after the other. `sub` are the dynamic dependencies of an object list or a library, the source of
a copy, the targets of an alias; `rest` are the nodes that follow. -/
inductive Forest where
  | nil
  /-- a file or the output of an `Exec`: linked as it is -/
  | file (name : Name) (rest : Forest)
  | object (name : Name) (rest : Forest)
  /-- an object that creates a precompiled header; `obj` is `GetPCHObjectName`, `ms`: `IsMSVC() || IsClangCl()` -/
  | pch (name obj : Name) (ms : Bool) (rest : Forest)
  | list (name : Name) (sub rest : Forest)
  /-- `ms`: the flag `LIB_FLAG_LIB` -/
  | library (name : Name) (ms : Bool) (sub rest : Forest)
  /-- `imp` is the import library given by the user, or empty -/
  | dll (name : Name) (flavour : Flavour) (imp : Name) (rest : Forest)
  | copy (name : Name) (src rest : Forest)
  | alias (name : Name) (sub rest : Forest)
  /-- any other node -/
  | unsupported (name : Name) (rest : Forest)
  deriving DecidableEq

/-- `PathUtils::StripFileExtension`, PathUtils.cpp:187-194: everything before the last dot -/
def stripExtension (n : Name) : Name :=
  let ext := n.reverse.takeWhile (· ≠ '.')
  if ext.length < n.length then n.take (n.length - ext.length - 1) else n

/-- `DLLNode::GetImportLibName`, DLLNode.cpp:35-61 -/
def importLib (name : Name) (f : Flavour) (imp : Name) : Name :=
  if imp ≠ [] then imp
  else
    match f with
    | .msvc => stripExtension name ++ ".lib".toList
    | .orbis => stripExtension name ++ "_stub_weak.a".toList
    | .other => name

/-- `ObjectListNode::GetInputFiles`, ObjectListNode.cpp:630-684 -/
def objectInputs (instead : Bool) : Forest → List Name → List Name
  | .nil, out => out
  | .pch _ obj ms rest, out => objectInputs instead rest (if ms && ! out.contains obj then out ++ [obj] else out)
  | .list _ sub rest, out => objectInputs instead rest (objectInputs instead sub out)
  | .library n _ sub rest, out => objectInputs instead rest (if instead then objectInputs instead sub out else out ++ [n])
  | .file n rest, out => objectInputs instead rest (out ++ [n])
  | .object n rest, out => objectInputs instead rest (out ++ [n])
  | .dll n _ _ rest, out => objectInputs instead rest (out ++ [n])
  | .copy n _ rest, out => objectInputs instead rest (out ++ [n])
  | .alias n _ rest, out => objectInputs instead rest (out ++ [n])
  | .unsupported n rest, out => objectInputs instead rest (out ++ [n])

/-- `LinkerNode::GetInputFiles( Node *, … )`, LinkerNode.cpp:640-677, for one node after the other -/
def linkInputs (linkObjects : Bool) : Forest → List Name → List Name
  | .nil, out => out
  | .library n _ sub rest, out => linkInputs linkObjects rest (if linkObjects then objectInputs linkObjects sub out else out ++ [n])
  | .list _ sub rest, out => linkInputs linkObjects rest (objectInputs linkObjects sub out)
  | .dll n f imp rest, out => linkInputs linkObjects rest (out ++ [importLib n f imp])
  | .copy _ src rest, out => linkInputs linkObjects rest (linkInputs linkObjects src out)
  | .file n rest, out => linkInputs linkObjects rest (out ++ [n])
  | .object n rest, out => linkInputs linkObjects rest (out ++ [n])
  | .pch n _ _ rest, out => linkInputs linkObjects rest (out ++ [n])
  | .alias n _ rest, out => linkInputs linkObjects rest (out ++ [n])
  | .unsupported n rest, out => linkInputs linkObjects rest (out ++ [n])

/-- `LinkerNode::DependOnNode`, LinkerNode.cpp:1556-1630, for the nodes named in a list: one tree for each dependency. `none`: an error -/
def dependOn : Forest → Option (List Forest)
  | .nil => some []
  | .file n rest => (dependOn rest).map (.file n .nil :: ·)
  | .list n sub rest => (dependOn rest).map (.list n sub .nil :: ·)
  | .library n ms sub rest => (dependOn rest).map (.library n ms sub .nil :: ·)
  | .dll n f imp rest => (dependOn rest).map (.dll n f imp .nil :: ·)
  | .copy n src rest => (dependOn rest).map (.copy n src .nil :: ·)
  | .alias _ sub rest =>
    match dependOn sub with
    | none => none
    | some a => (dependOn rest).map (a ++ ·)
  | .object _ _ | .pch _ _ _ _ | .unsupported _ _ => none

/-! ### The linker -/

/-- a `LinkerNode` -/
structure Linker where
  name : Name
  options : List Char
  msvc : Bool
  linkObjects : Bool
  deps : List Forest
  libs2Start : Nat
  assemblyStart : Nat
  assemblyNum : Nat

/-- the end of `LinkerNode::Initialize`, LinkerNode.cpp:165-183 -/
def initLinker (name : Name) (options : List Char) (msvc linkObjects : Bool) (exe : Forest) (libs libs2 assembly others stamp : List Forest) :
    Linker :=
  let a := [exe] ++ libs
  let b := a ++ libs2
  let c := b ++ assembly
  { name, options, msvc, linkObjects, deps := c ++ others ++ stamp, libs2Start := a.length, assemblyStart := b.length,
    assemblyNum := assembly.length }

/-- `LinkerNode::GetInputFiles( Args &, startIndex, endIndex, … )`, LinkerNode.cpp:617-636: the names -/
def Linker.range (l : Linker) (startIndex endIndex : Nat) : List Name :=
  ((l.deps.take endIndex).drop startIndex).foldl (fun out n => linkInputs l.linkObjects n out) []

/-- the name of a node -/
def nodeName : Forest → Name
  | .file n _ | .object n _ | .pch n _ _ _ | .list n _ _ | .library n _ _ _ | .dll n _ _ _ | .copy n _ _ | .alias n _ _ | .unsupported n _ => n
  | .nil => []

/-- `LinkerNode::GetAssemblyResourceFiles`, LinkerNode.cpp:681-707 -/
def Linker.assemblyFiles (l : Linker) : List Name :=
  ((l.deps.drop l.assemblyStart).take l.assemblyNum).foldl
    (fun out n =>
      match n with
      | .list _ sub _ => objectInputs false sub out
      | .library _ _ sub _ => objectInputs false sub out
      | n => out ++ [nodeName n]) []

/-- `AString::Find`: what is before and behind the first occurrence -/
def findSub (p : Tok) : Tok → Option (Tok × Tok)
  | [] => none
  | c :: s => if p.isPrefixOf (c :: s) then some ([], (c :: s).drop p.length) else (findSub p s).map fun (u, v) => (c :: u, v)

/-- `Args::StripQuotes`, Args.cpp:186-222 -/
def stripQuotes (s : Tok) : Tok :=
  let a := if s.head? = some '"' ∨ s.head? = some '\'' then 1 else 0
  let b := s.length - if s.getLast? = some '"' ∨ s.getLast? = some '\'' then 1 else 0
  (s.take b).drop a

/-- equal up to the case of letters, `StrNCmpI` and `EqualsI` -/
def sameI (a b : List Char) : Bool := a.map lower == b.map lower

/-- `LinkerNode::IsLinkerArg_MSVC`, LinkerNode.cpp:905-926 -/
def isArg (t : Tok) (arg : String) : Bool :=
  match t with
  | '/' :: r | '-' :: r => sameI r arg.toList
  | _ => false

/-- `LinkerNode::IsStartOfLinkerArg_MSVC`, LinkerNode.cpp:930-951 -/
def isStart (t : Tok) (arg : String) : Bool :=
  match t with
  | '/' :: r | '-' :: r => decide (arg.length ≤ r.length) && sameI (r.take arg.length) arg.toList
  | _ => false

/-- `while ( cleanValue.EndsWith( '\\' ) )`, LinkerNode.cpp:541-544 -/
def trimSlashes (s : List Char) : List Char := (s.reverse.dropWhile (· = '\\')).reverse

/-- the inputs put between the two parts of a token, LinkerNode.cpp:628-635 -/
def spread (pre post : Tok) (inputs : List Name) : List Call := inputs.flatMap fun i => [.add pre, .add i, .add post, .delim]

/-- `LinkerNode::GetInputFiles( token, fullArgs )`, LinkerNode.cpp:580-613, and the delimiter added by the caller. `none`: the
assertion that there is `%1` -/
def Linker.inputCalls (l : Linker) (t : Tok) : Option (List Call) :=
  match findSub "%1[0]".toList t with
  | some (u, v) => some (spread u v (l.range 1 l.libs2Start) ++ [.delim])
  | none =>
    match findSub "%1[1]".toList t with
    | some (u, v) => some (spread u v (l.range l.libs2Start l.assemblyStart) ++ [.delim])
    | none =>
      match findSub "%1".toList t with
      | some (u, v) => some (spread u v (l.range 1 l.assemblyStart) ++ [.delim])
      | none => none

/-- a token of the options, LinkerNode.cpp:487-559. `clean` is `NodeGraph::CleanPath` without making the path full -/
def Linker.token (clean : Name → Name) (l : Linker) (t : Tok) : Option (List Call) :=
  if (findSub "%1".toList t).isSome then l.inputCalls t
  else
    match findSub "%2".toList t with
    | some (u, v) => some [.add u, .add l.name, .add v, .delim]
    | none =>
      if l.msvc then
        match findSub "%3".toList t with
        | some (u, v) => some (spread u v l.assemblyFiles)
        | none =>
          if isStart t "LIBPATH:" then
            some [.add (t.take 1), .add "LIBPATH:\"".toList, .add (trimSlashes (clean (stripQuotes (t.drop 9)))), .add ['"'], .delim]
          else some [.add t, .delim]
      else some [.add t, .delim]

/-- the loop over tokens -/
def tokenCalls (f : Tok → Option (List Call)) : List Tok → Option (List Call)
  | [] => some []
  | t :: ts =>
    match f t, tokenCalls f ts with
    | some a, some b => some (a ++ b)
    | _, _ => none

/-- `LinkerNode::BuildArgs` before `Finalize`, LinkerNode.cpp:479-560 -/
def Linker.buildArgs (clean : Name → Name) (l : Linker) : Option Args.Args :=
  (tokenCalls (l.token clean) (tokenize ' ' l.options)).map Args.Args.ofCalls

/-! ### Librarians, programs and C# -/

/-- `token.EndsWith( p )`: what comes before -/
def beforeEnd (p t : Tok) : Option Tok :=
  if p.isSuffixOf t then some (t.take (t.length - p.length)) else none

/-- a token of the options of a librarian, LibraryNode.cpp:248-309 -/
def libraryToken (name : Name) (inputs : List Name) (t : Tok) : List Call :=
  match beforeEnd "%1".toList t with
  | some u => spread u [] inputs ++ [.delim]
  | none =>
    match beforeEnd "\"%1\"".toList t with
    | some u => spread (u ++ ['"']) ['"'] inputs ++ [.delim]
    | none =>
      match beforeEnd "%2".toList t with
      | some u => [.add u, .add name, .delim]
      | none =>
        match beforeEnd "\"%2\"".toList t with
        | some u => [.add (u ++ ['"']), .add name, .add ['"'], .delim]
        | none => [.add t, .delim]

/-- `LibraryNode::BuildArgs` before `Finalize`, LibraryNode.cpp:239-309; `deps` are the dynamic dependencies, `ms` is `LIB_FLAG_LIB` -/
def libraryArgs (name : Name) (ms : Bool) (deps : Forest) (options : List Char) : Args.Args :=
  Args.Args.ofCalls ((tokenize ' ' options).flatMap (libraryToken name (objectInputs (! ms) deps [])))

/-- `ExecNode::GetInputFiles` and `CSNode::GetInputFiles`, ExecNode.cpp:366-402, CSNode.cpp:360-391: blanks between the files -/
def between (pre post : Tok) : List Name → List Call
  | [] => []
  | [i] => [.add pre, .add i, .add post]
  | i :: is => [.add pre, .add i, .add post, .delim] ++ between pre post is

/-- a token of the arguments of an `Exec`, ExecNode.cpp:316-361; a blank is added like a delimiter -/
def execToken (name : Name) (inputs : List Name) (t : Tok) : List Call :=
  (match beforeEnd "%1".toList t with
  | some u => between u [] inputs
  | none =>
    match beforeEnd "\"%1\"".toList t with
    | some u => between (u ++ ['"']) ['"'] inputs
    | none =>
      match beforeEnd "%2".toList t with
      | some u => [.add u, .add name]
      | none =>
        match beforeEnd "\"%2\"".toList t with
        | some u => [.add (u ++ ['"']), .add name, .add ['"']]
        | none => [.add t]) ++ [.delim]

/-- the inputs of an `Exec`: files, and the files of directory lists, in the order of the dependencies, ExecNode.cpp:369-401 -/
def execInputs (deps : List (Name ⊕ List Name)) : List Name :=
  deps.flatMap fun
    | .inl n => [n]
    | .inr fs => fs

/-- `ExecNode::GetFullArgs`, ExecNode.cpp:308-362 -/
def execArgs (name : Name) (deps : List (Name ⊕ List Name)) (options : List Char) : Args.Args :=
  Args.Args.ofCalls ((tokenize ' ' options).flatMap (execToken name (execInputs deps)))

/-- `CSNode::GetExtraRefs`, CSNode.cpp:395-418 -/
def commas (quote : Tok) : List Name → List Call
  | [] => []
  | [i] => [.add quote, .add i, .add quote]
  | i :: is => [.add quote, .add i, .add quote, .add [',']] ++ commas quote is

/-- a token of the options of a C# compiler, CSNode.cpp:284-347 -/
def csToken (name : Name) (inputs refs : List Name) (t : Tok) : List Call :=
  (match beforeEnd "%1".toList t with
  | some u => between u [] inputs
  | none =>
    match beforeEnd "\"%1\"".toList t with
    | some u => between (u ++ ['"']) ['"'] inputs
    | none =>
      match beforeEnd "%2".toList t with
      | some u => [.add u, .add name]
      | none =>
        match beforeEnd "\"%2\"".toList t with
        | some u => [.add (u ++ ['"']), .add name, .add ['"']]
        | none =>
          match beforeEnd "%3".toList t with
          | some u => .add u :: commas [] refs
          | none =>
            match beforeEnd "\"%3\"".toList t with
            | some u => .add u :: commas ['"'] refs
            | none => [.add t]) ++ [.delim]

/-- `CSNode::BuildArgs` before `Finalize`, CSNode.cpp:276-347; files given, then files of directory lists -/
def csArgs (name : Name) (files found refs : List Name) (options : List Char) : Args.Args :=
  Args.Args.ofCalls ((tokenize ' ' options).flatMap (csToken name (files ++ found) refs))

end Verif.Link
