import Verif.Mig.Model
/-! Independent vocabulary for the migration properties C61 and C62. -/
namespace Verif.Mig
open Verif.Sched

mutual
/-- Types of reflected properties. -/
inductive Kind where
  | str | strs | num | bool | ref | refs
  | struct (s : Schema)
  | structs (s : Schema)
/-- The properties of a class: which of them are not compared, and their types. -/
inductive Schema where
  | nil
  | cons (ignored : Bool) (k : Kind) (rest : Schema)
end

mutual
/-- The value has the type. -/
def confVal : Kind → Val → Bool
  | .str, .str _ => true
  | .strs, .strs _ => true
  | .num, .num _ => true
  | .bool, .bool _ => true
  | .ref, .ref _ => true
  | .refs, .refs _ => true
  | .struct s, .struct f => confFields s f
  | .structs s, .structs l => confElems s l
  | _, _ => false
/-- The object belongs to the class. -/
def confFields : Schema → Fields → Bool
  | .nil, .nil => true
  | .cons i k s, .cons j v r => i == j && confVal k v && confFields s r
  | _, _ => false
/-- All elements belong to the class. -/
def confElems : Schema → Elems → Bool
  | _, .nil => true
  | s, .cons f r => confFields s f && confElems s r
end

mutual
/-- Forget what is not compared. -/
def eraseVal : Val → Val
  | .struct f => .struct (erase f)
  | .structs l => .structs (eraseElems l)
  | v => v
/-- The properties of an object with those that are not compared blanked out. -/
def erase : Fields → Fields
  | .nil => .nil
  | .cons i v r => .cons i (if i then .bool false else eraseVal v) (erase r)
/-- The same for every element. -/
def eraseElems : Elems → Elems
  | .nil => .nil
  | .cons f r => .cons (erase f) (eraseElems r)
end

/-- A graph as the parser leaves it: nodes are found under their name; nothing was built; nothing visited. -/
structure Parsed (schema : Nat → Schema) (g : NG) : Prop where
  key : ∀ n nd, g.node n = some nd → nd.name.key = n
  conf : ∀ n nd, g.node n = some nd → confFields (schema nd.type) nd.props = true
  clean : ∀ n nd, g.node n = some nd → nd.stamp = 0 ∧ nd.dyn = [] ∧ nd.tag = false

/-- A graph loaded from a database. -/
structure Loaded (schema : Nat → Schema) (O : NG) : Prop where
  key : ∀ n nd, O.node n = some nd → nd.name.key = n
  conf : ∀ n nd, O.node n = some nd → confFields (schema nd.type) nd.props = true

/-- What identifies the targets of a list of dependencies: exact name, type and state. -/
def sig (g : NG) (l : List Dep) : List (Option (Name × Nat × Nat)) :=
  l.map fun d => (g.node d.node).map fun x => (x.name, x.type, x.stamp)

/-- Everything about the old node `o` is found again in the node `nd` of the graph `g`: its class, its
properties, the nodes it depends on (by exact name and type, in the same order) and their state, the
recorded versions and the discovered dependencies. -/
structure Carried (O g : NG) (o nd : MNode) : Prop where
  type : nd.type = o.type
  stamp : nd.stamp = o.stamp
  time : nd.time = o.time
  props : erase nd.props = erase o.props
  pre : sig g nd.pre = sig O o.pre
  static : sig g nd.static = sig O o.static
  some_pre : none ∉ sig O o.pre
  some_static : none ∉ sig O o.static
  recorded : nd.static.map (·.stamp) = o.static.map (·.stamp)
  dyn : nd.dyn = o.dyn

/-- What the build file says about a node. -/
structure SameRule (nd nd' : MNode) : Prop where
  name : nd'.name = nd.name
  type : nd'.type = nd.type
  props : erase nd'.props = erase nd.props
  pre : nd'.pre = nd.pre
  static : nd'.static.map (fun d => (d.node, d.weak)) = nd.static.map (fun d => (d.node, d.weak))

/-- All nodes that the old database and `Initialize` can name are in the finite list `U`. -/
structure Within (init : Init) (O : NG) (U : List Nat) : Prop where
  old : ∀ k o, O.node k = some o → o.name.key ∈ U
  init : ∀ h nd p, p ∈ (init h nd).1 ++ (init h nd).2 → p.1.key ∈ U

/-- `h` contains every node of `g` with the same description. -/
def Extends (g h : NG) : Prop := ∀ n nd, g.node n = some nd → ∃ nd', h.node n = some nd' ∧ SameRule nd nd'

mutual
/-- Every node referred to is in the graph, spelled the same way. -/
def refsVal (g : NG) : Val → Prop
  | .struct f => refsIn g f
  | .structs l => refsElems g l
  | .ref none => False
  | .ref (some nm) => ∃ nd, g.node nm.key = some nd ∧ nd.name = nm
  | .refs l => ∀ nm ∈ l, ∃ nd, g.node nm.key = some nd ∧ nd.name = nm
  | _ => True
/-- The same for the properties of an object. -/
def refsIn (g : NG) : Fields → Prop
  | .nil => True
  | .cons _ v r => refsVal g v ∧ refsIn g r
/-- The same for the elements of an array. -/
def refsElems (g : NG) : Elems → Prop
  | .nil => True
  | .cons f r => refsIn g f ∧ refsElems g r
end

/-- What identifies a dependency independently of versions. -/
def keys (l : List Dep) : List (Nat × Bool) := l.map fun d => (d.node, d.weak)

/-- Names and weak flags of dependencies, as `Initialize` states them. -/
def named (O : NG) (l : List Dep) : List (Name × Bool) :=
  l.filterMap fun d => (O.node d.node).map fun x => (x.name, d.weak)

/-- The new build files describe the project of the old database.
* `same`: every parsed node is in the old database, with the same name, class, properties, dependencies;
* the remaining nodes of the old database were found while building: `refs`, `init`, `deps` say that
  they can be described again from their recorded properties (objects name their object list, copied
  files their source);
* `file`: input files have no stamp in a loaded database (`Node::LoadExtended` is not called for them);
* `rank`: dependencies are not cyclic. -/
structure SameBuild (schema : Nat → Schema) (init : Init) (O g : NG) (r : Nat → Nat) : Prop where
  same : ∀ n nd, g.node n = some nd → ∃ o, O.node n = some o ∧ o.name = nd.name ∧ o.type = nd.type ∧
    erase o.props = erase nd.props ∧ (nd.type ≠ fileType → keys o.pre = keys nd.pre ∧ keys o.static = keys nd.static)
  all : ∀ n nd, g.node n = some nd → n ∈ g.all
  all' : ∀ n ∈ g.all, ∃ nd, g.node n = some nd
  file : ∀ n o, O.node n = some o → o.type = fileType → o.stamp = 0
  closed : ∀ n nd, g.node n = some nd → ∀ d ∈ nd.pre ++ nd.static, ∃ x, g.node d.node = some x
  closedOld : ∀ n o, O.node n = some o → ∀ d ∈ o.pre ++ o.static ++ o.dyn, ∃ x, O.node d.node = some x
  rank : ∀ n o, O.node n = some o → ∀ d ∈ o.pre ++ o.static ++ o.dyn, r d.node < r n
  refs : ∀ n o, O.node n = some o → o.type ≠ fileType → g.node n = none → refsIn g o.props
  init : ∀ n o, O.node n = some o → o.type ≠ fileType → g.node n = none →
    ∀ h nd, Extends g h → nd.name = o.name → nd.type = o.type → nd.props = o.props →
      init h nd = (named O o.pre, named O o.static)
  deps : ∀ n o, O.node n = some o → o.type ≠ fileType → g.node n = none →
    ∀ d ∈ o.pre ++ o.static, (∃ x, g.node d.node = some x) ∨ ∀ x, O.node d.node = some x → x.type = fileType

end Verif.Mig
