import Verif.Report.Libs
/-!
The files included by the objects of a library, for the report of a build: `Report::GetIncludeFilesRecurse`, `AddInclude` and `IncludeStatsMap`,
Helpers/Report/Report.cpp:231-365. Counters are natural numbers (their 32 bits are left out). `pch`: `IsCreatingPCH` of an object; `hash`: `GetNameHash`.
-/
namespace Verif.Report.Incl
open Verif.Report

/-- `IncludeStats`, Report.h:58-68 -/
structure Inc where
  node : Nat
  count : Nat
  pch : Bool
deriving DecidableEq

/-- `m_Table`, Report.h:82: the chain of each entry -/
abbrev Table := Nat → List Inc

/-- the entry of a node, Report.cpp:311-312, 334-335 -/
def key (hash : Nat → Nat) (n : Nat) : Nat := hash n &&& 0xFFFF

/-- `Find`, Report.cpp:308-327 -/
def find (hash : Nat → Nat) (t : Table) (n : Nat) : Option Inc := (t (key hash n)).find? fun i => i.node = n

/-- `Insert`, Report.cpp:331-346 -/
def insert (hash : Nat → Nat) (t : Table) (n : Nat) : Table := fun k => if k = key hash n then ⟨n, 0, false⟩ :: t k else t k

/-- the item found or inserted is changed, Report.cpp:278-279 -/
def bump (n : Nat) (p : Bool) : List Inc → List Inc
  | [] => []
  | i :: l => if i.node = n then ⟨i.node, i.count + 1, i.pch || p⟩ :: l else i :: bump n p l

/-- `AddInclude`, Report.cpp:262-280 -/
def add (hash : Nat → Nat) (n : Nat) (p : Bool) (t : Table) : Table :=
  let t := if (find hash t n).isSome then t else insert hash t n
  fun k => if k = key hash n then bump n p (t k) else t k

/-- one after the other -/
def each (f : Nat → Table → Option Table) : List Nat → Table → Option Table
  | [], t => some t
  | n :: l, t => match f n t with
    | some t => each f l t
    | none => none

/-- `GetIncludeFilesRecurse`, Report.cpp:233-258; `none` when the stack is used up -/
def collect (g : Nat → Node) (pch : Nat → Bool) (hash : Nat → Nat) : Nat → Nat → Table → Option Table
  | 0, _, _ => none
  | fuel + 1, n, t =>
    if (g n).kind = .object then some ((g n).dynamic_.foldl (fun t d => add hash d (pch n) t) t)
    else match each (collect g pch hash fuel) (g n).static_ t with
      | none => none
      | some t => each (collect g pch hash fuel) (g n).dynamic_ t

/-- `Flatten`, Report.cpp:350-363 -/
def flatten (t : Table) : List Inc := (List.range 65536).flatMap t

/-- the includes of a library, JSONReport.cpp:543-552, HTMLReport.cpp:643-652 -/
def includes (g : Nat → Node) (pch : Nat → Bool) (hash : Nat → Nat) (sort : List Inc → List Inc) (fuel lib : Nat) : Option (List Inc) :=
  (collect g pch hash fuel lib (fun _ => [])).map fun t => sort (flatten t)

end Verif.Report.Incl
