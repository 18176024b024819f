/-!
Groups of jobs that may not all run at once: `SettingsNode::InitializeConcurrencyGroups`, `SettingsNode::GetConcurrencyGroup`
and `Node::InitializeConcurrencyGroup`. Numbers of 32 bits are natural numbers below `2 ^ 32`.
-/
namespace Verif.Settings

/-- `ConcurrencyGroup` as it is written, SettingsNode.h:83-87 -/
structure Group where
  name : List Char
  jobs : Nat
  memory : Nat
  deriving DecidableEq, Repr

/-- a group after `Initialize` -/
structure Made where
  name : List Char
  limit : Nat
  index : Nat
  deriving DecidableEq, Repr

inductive GroupError
  | tooMany
  | again (name : List Char)
  | noLimit (name : List Char)
  deriving DecidableEq, Repr

/-- `eUnlimited`, SettingsNode.h:72 -/
def unlimited : Nat := 0xFFFFFFFF

/-- `kMaxConcurrencyGroups`, SettingsNode.h:39 -/
def maxGroups : Nat := 16

/-- `AString::EqualsI` -/
def equalsI (a b : List Char) : Bool := a.map Char.toLower == b.map Char.toLower

/-- the limit of a group, SettingsNode.cpp:267-285; `total` is the memory of the machine -/
def limitOf (total : Nat) (g : Group) : Nat :=
  let memory := if 0 < g.memory then max (total / g.memory) 1 else unlimited
  let jobs := if 0 < g.jobs then g.jobs else unlimited
  min memory jobs

/-- the loop, SettingsNode.cpp:237-303; `done` are the groups before -/
def initLoop (total : Nat) : List Group → List Made → Except GroupError (List Made)
  | [], done => .ok done
  | g :: gs, done =>
    if done.any fun o => equalsI o.name g.name then .error (.again g.name)
    else
      let limit := limitOf total g
      if limit = unlimited then .error (.noLimit g.name)
      else initLoop total gs (done ++ [⟨g.name, limit, done.length⟩])

/-- `InitializeConcurrencyGroups`, SettingsNode.cpp:202-305 -/
def initGroups (total : Nat) (gs : List Group) : Except GroupError (List Made) :=
  if maxGroups < gs.length then .error .tooMany
  else initLoop total gs [⟨[], unlimited, 0⟩]

/-- `Node::InitializeConcurrencyGroup`, Node.cpp:1205-1237; `none` is error 1603 -/
def groupOf (made : List Made) (name : List Char) : Option Nat :=
  if name = [] then some 0
  else (made.find? fun g => equalsI g.name name).map Made.index

end Verif.Settings
