import Verif.Str.MatchModel
/-
Hash tables with chained buckets. A chain of `m_Next` pointers is a list, first element first; the table is
a function from bucket index to chain. Hash values are `BitVec 32`.
-/
namespace Verif.Cont

/-- `UnorderedMap`, Code/Core/Containers/UnorderedMap.h:25-69: `m_Buckets` (`none` is the null pointer) and
`m_Count`. -/
structure UMap (K V : Type) where
  buckets : Option (BitVec 32 → List (K × V))
  count : Nat

/-- constructor -/
def UMap.empty {K V : Type} : UMap K V := ⟨none, 0⟩

/-- `kTableSizeMask`, UnorderedMap.h:63-65 -/
def tableSizeMask : BitVec 32 := 0xFFFF

section
variable {K V : Type} [DecidableEq K]

/-- the loops over a bucket, UnorderedMap.h:128-136 -/
def chainFind (key : K) : List (K × V) → Option V
  | [] => none
  | kv :: next => if kv.1 = key then some kv.2 else chainFind key next

/-- `UnorderedMap::Find`, UnorderedMap.h:111-140; `hash` is the hashing function. -/
def UMap.find (hash : K → BitVec 32) (m : UMap K V) (key : K) : Option V :=
  match m.buckets with
  | none => none
  | some b => chainFind key (b (hash key &&& tableSizeMask))

/-- `UnorderedMap::Insert`, UnorderedMap.h:144-182. The debug check of lines 159-167 is not part of it. -/
def UMap.insert (hash : K → BitVec 32) (m : UMap K V) (key : K) (value : V) : UMap K V :=
  let b := m.buckets.getD (fun _ => [])
  let id := hash key &&& tableSizeMask
  ⟨some (fun i => if i = id then (key, value) :: b id else b i), m.count + 1⟩

/-- The debug check in `Insert`, lines 159-167. -/
def UMap.insertAssert (hash : K → BitVec 32) (m : UMap K V) (key : K) : Bool :=
  ((m.buckets.getD (fun _ => [])) (hash key &&& tableSizeMask)).all fun kv => decide (kv.1 ≠ key)
end

open Verif.Str

/-- A node as far as lookup is concerned: name and stored `m_NameHash`. `id` stands for the address. -/
structure NodeRef where
  id : Nat
  name : List Char
  nameHash : BitVec 32

/-- `m_NodeMap` and `m_AllNodes`, Code/Tools/FBuild/FBuildCore/Graph/NodeGraph.h:221-225 -/
structure NodeTable where
  maxKey : BitVec 32
  map : BitVec 32 → List NodeRef
  all : List NodeRef

/-- Constructor, NodeGraph.cpp:84-93: `( 1u << nodeMapHashBits ) - 1u` -/
def NodeTable.empty (bits : Nat) : NodeTable := ⟨(1 : BitVec 32) <<< bits - 1, fun _ => [], []⟩

/-- `AString::ToLower`, Code/Core/Strings/AString.cpp:764-778 -/
def toLower (s : List Char) : List Char := s.map lower

/-- `Node::CalcNameHash`, Code/Tools/FBuild/FBuildCore/Graph/Node.cpp:1130-1136; `xx` stands for xxHash3. -/
def calcNameHash (xx : List Char → BitVec 64) (name : List Char) : BitVec 32 := (xx (toLower name)).truncate 32

/-- `AString::EqualsI`: `strcasecmp` in the C locale, AString.h:110 and AString.cpp:188-197 -/
def equalsI : List Char → List Char → Bool
  | [], [] => true
  | a :: s, b :: t => eqNoCase a b && equalsI s t
  | _, _ => false

/-- loop of `FindNodeInternal`, NodeGraph.cpp:1419-1431 -/
def nodeChainFind (hash : BitVec 32) (name : List Char) : List NodeRef → Option NodeRef
  | [] => none
  | n :: next =>
    if n.nameHash = hash then
      if equalsI n.name name then some n else nodeChainFind hash name next
    else nodeChainFind hash name next

/-- `NodeGraph::FindNodeInternal`, NodeGraph.cpp:1411-1432 -/
def NodeTable.findInternal (xx : List Char → BitVec 64) (t : NodeTable) (name : List Char) (hint : BitVec 32) : Option NodeRef :=
  let hash := if hint ≠ 0 then hint else calcNameHash xx name
  nodeChainFind hash name (t.map (hash &&& t.maxKey))

/-- `NodeGraph::AddNode`, NodeGraph.cpp:950-966, without the assertion that the name is new -/
def NodeTable.add (t : NodeTable) (n : NodeRef) : NodeTable :=
  let key := n.nameHash &&& t.maxKey
  { t with map := fun i => if i = key then n :: t.map key else t.map i, all := t.all ++ [n] }

/-- `Node::SetName`, Node.cpp:789-794 -/
def NodeRef.make (xx : List Char → BitVec 64) (id : Nat) (name : List Char) (hint : BitVec 32) : NodeRef :=
  ⟨id, name, if hint ≠ 0 then hint else calcNameHash xx name⟩

end Verif.Cont
