/-!
The environment of the programs a build runs: `SettingsNode::ProcessEnvironment`, `FBuild::SetEnvironmentString`,
`Env::AllocEnvironmentString`, `Node::GetEnvironmentString`, the part of `NodeGraph` that saves and loads it, and what
`Process::Spawn` makes of it on Linux.

Memory that is allocated has arbitrary contents; reading or writing outside of it is `none`.
-/
namespace Verif.Settings

abbrev Byte := UInt8
abbrev Text := List Byte

/-- write `bs` from `off` on -/
def put (mem : List Byte) (off : Nat) (bs : List Byte) : Option (List Byte) :=
  if off + bs.length ≤ mem.length then some (mem.take off ++ bs ++ mem.drop (off + bs.length)) else none

/-- `AString::Copy( src, dst, len )`, AString.cpp:1510-1514: `len` bytes and a null -/
def copy (src : List Byte) (mem : List Byte) (off len : Nat) : Option (List Byte) :=
  if len ≤ src.length then put mem off (src.take len ++ [0]) else none

/-- the memory of a string: it ends with a null -/
def cstr (s : Text) : List Byte := s ++ [0]

/-- the space the variables need, SettingsNode.cpp:168-172, Env.cpp:294-299 -/
def size (env : List Text) : Nat := (env.map fun s => s.length + 1).sum

/-- the loop of `ProcessEnvironment`, SettingsNode.cpp:181-193; `lib` is what was found so far, `off` is `dst` -/
def processLoop : List Text → List Byte → Nat → Text → Option (List Byte × Nat × Text)
  | [], mem, off, lib => some (mem, off, lib)
  | s :: env, mem, off, lib =>
    let lib := if [76, 73, 66, 61].isPrefixOf s then s.drop 4 else lib
    (copy (cstr s) mem off s.length).bind fun mem => processLoop env mem (off + (s.length + 1)) lib

/-- `ProcessEnvironment` up to the call of `SetEnvironmentString`, SettingsNode.cpp:159-197; `mem` is what was allocated -/
def process (env : List Text) (mem : List Byte) : Option (List Byte × Text) :=
  (processLoop env mem 0 []).bind fun r => (put r.1 r.2.1 [0]).map fun m => (m, r.2.2)

/-- `SetEnvironmentString`, FBuild.cpp:560-567; `mem` is what was allocated, `size + 1` bytes -/
def setString (str : List Byte) (size : Nat) (mem : List Byte) : Option (List Byte) := copy str mem 0 size

/-- the loop of `AllocEnvironmentString`, Env.cpp:305-311 -/
def allocLoop : List Text → List Byte → Nat → Option (List Byte × Nat)
  | [], mem, off => some (mem, off)
  | s :: env, mem, off => (copy (cstr s) mem off (s.length + 1)).bind fun mem => allocLoop env mem (off + (s.length + 1))

/-- `AllocEnvironmentString`, Env.cpp:292-315; `mem` is what was allocated -/
def alloc (env : List Text) (mem : List Byte) : Option (List Byte) :=
  (allocLoop env mem 0).bind fun r => put r.1 r.2 [0]

/-- what `Process::Spawn` hands to the program, Process.cpp:366-381: each string up to the first empty one.
`fuel` bounds the number of strings. -/
def spawn : Nat → List Byte → Option (List Text)
  | 0, _ => none
  | _ + 1, [] => none
  | fuel + 1, b :: mem =>
    if b = 0 then some []
    else
      match (b :: mem).dropWhile (· != 0) with
      | [] => none
      | _ :: rest => (spawn fuel rest).map ((b :: mem).takeWhile (· != 0) :: ·)

/-- what the build holds: nothing, if `.Environment` is empty -/
structure Held where
  str : List Byte
  size : Nat
  lib : Text

/-- contents of the memory that is allocated -/
structure Garbage where
  fill : Nat → List Byte
  length : ∀ n, (fill n).length = n

/-- the settings, SettingsNode.cpp:70-73. The outer option is a fault. -/
def settings (g g' : Garbage) (env : List Text) : Option (Option Held) :=
  if env = [] then some none
  else
    (process env (g.fill (size env + 1))).bind fun r =>
      (setString r.1 (size env) (g'.fill (size env + 1))).map fun m => some ⟨m, size env, r.2⟩

/-- `GetLibEnvVar`, FBuild.cpp:623-638 -/
def libVar (held : Option Held) (real : Text) : Text := (held.map Held.lib).getD real

/-- what is saved, NodeGraph.cpp:495-506 -/
def save (held : Option Held) : Option (Option (List Byte × Nat × Text)) :=
  match held with
  | none => some none
  | some h => if 0 < h.size then if h.size ≤ h.str.length then some (some (h.str.take h.size, h.size, h.lib)) else none else some none

/-- what is loaded, NodeGraph.cpp:341-351, 462-465 -/
def load (g : Garbage) (saved : Option (List Byte × Nat × Text)) : Option (Option Held) :=
  match saved with
  | none => some none
  | some (bytes, size, lib) => (setString bytes size (g.fill (size + 1))).map fun m => some ⟨m, size, lib⟩

/-- `Node::GetEnvironmentString`, Node.cpp:1241-1265, with what `Process::Spawn` makes of it: the inner `none` means that the program
inherits the environment of the build. `own` is the environment of the node. -/
def given (g : Garbage) (own : List Text) (held : Option Held) : Option (Option (List Text)) :=
  if own = [] then
    match held with
    | none => some none
    | some h => (spawn (h.str.length + 1) h.str).map some
  else (alloc own (g.fill (size own + 1))).bind fun m => (spawn (m.length + 1) m).map some

end Verif.Settings
