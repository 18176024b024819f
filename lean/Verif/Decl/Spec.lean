import Verif.Decl.Model
/-
What a user expects of names, lists of targets and properties. `find`, the types of nodes and the record `Ctx` are taken from the model;
everything else is stated again. The theorems are in Verif/Decl/Props.lean.
-/
namespace Verif.Decl
open Verif.Bff (Val)

/-! ### graphs -/

/-- no two nodes have the same name, names are not empty, dependencies are nodes, and an alias does not stand for an alias -/
structure WF (g : Graph) : Prop where
  uniq : ∀ (i j : Nat) (a b : Nd), g[i]? = some a → g[j]? = some b → key a.name = key b.name → i = j
  named : ∀ d ∈ g, d.name ≠ []
  deps : ∀ d ∈ g, ∀ n ∈ d.deps, n < g.length
  pre : ∀ d ∈ g, ∀ n ∈ d.pre, n < g.length
  flat : ∀ d ∈ g, d.type = .alias → ∀ n ∈ d.deps, ∀ e : Nd, g[n]? = some e → e.type ≠ .alias

/-- what is assumed about cleaning the names in `N` -/
structure Tidy (K : Ctx) (N : Name → Prop) : Prop where
  closed : ∀ s, N s → N (K.clean s)
  same : ∀ s t, N s → N t → key s = key t → key (K.clean s) = key (K.clean t)
  idem : ∀ s, N s → K.clean (K.clean s) = K.clean s

/-- a name that is not empty is not empty when it is cleaned -/
def CleanNe (K : Ctx) (N : Name → Prop) : Prop := ∀ s, N s → s ≠ [] → K.clean s ≠ []

/-- nodes stay what they are, and names in `N` stay names of what they are names of -/
structure Extends (K : Ctx) (N : Name → Prop) (g g' : Graph) : Prop where
  nodes : ∀ (i : Nat) d, g[i]? = some d → ∃ e, g'[i]? = some e ∧ e.name = d.name ∧ e.type = d.type
  names : ∀ s n, N s → find K g s = some n → find K g' s = some n

/-! ### lists of nodes -/

/-- what a node stands for: an alias for what it was made for, another one for itself -/
def targets (g : Graph) (n : Nat) : List Nat :=
  match g[n]? with
  | some d => if d.type = .alias then d.deps else [n]
  | none => []

/-- without repetition, in the order of the first occurrences -/
def firsts : List Nat → List Nat
  | [] => []
  | x :: l => x :: (firsts l).filter (fun y => decide (y ≠ x))

/-- all that a node stands for is of a type in `T` -/
def Usable (T : NType → Prop) (g : Graph) (n : Nat) : Prop := ∀ m ∈ targets g n, ∃ d, g[m]? = some d ∧ T d.type

/-- what the targets of an alias or pre-build dependencies may be -/
def Target (t : NType) : Prop := t ≠ .proxy ∧ t ≠ .dirList ∧ t ≠ .alias ∧ t ≠ .settings ∧ t ≠ .compilerInfo

/-- what the inputs of other nodes may be: files and lists of objects -/
def Input (t : NType) : Prop := t.isFile = true ∨ t = .objectList

/-- files for `fs` were added -/
def WithFiles (K : Ctx) (g : Graph) (fs : List Name) : Graph := g ++ fs.map fun s => ⟨K.clean s, .file, [], []⟩

/-! ### strings -/

/-- two lists of the same length, related one by one -/
inductive All2 {α β : Type} (R : α → β → Prop) : List α → List β → Prop
  | nil : All2 R [] []
  | cons {a : α} {b : β} {l : List α} {k : List β} : R a b → All2 R l k → All2 R (a :: l) (b :: k)

/-- what a string stands for if a file is expected: the targets of an alias by name, anything else itself -/
def stands (K : Ctx) (g : Graph) (s : Name) : List Name :=
  match (find K g s).bind (g[·]?) with
  | some d => if d.type = .alias then d.deps.filterMap fun n => (g[n]?).map (·.name) else [s]
  | none => [s]

/-- the path made of a string -/
inductive PathOf (K : Ctx) (path file : Option Bool) (s : Name) : Name → Prop
  | plain : path = none → file = none → PathOf K path file s s
  | relPath : path = some true → file = none → PathOf K path file s (K.fixFolder s)
  | path : path = some false → file = none → PathOf K path file s (K.slash (K.clean s))
  | relFile : path = none → file = some true → K.isFolder (K.fixFile s) = false → PathOf K path file s (K.fixFile s)
  | file : path = none → file = some false → K.isFolder (K.clean s) = false → PathOf K path file s (K.clean s)

/-- the node a string names if a file is expected -/
def Names (K : Ctx) (g : Graph) (m : Meta) (s : Name) (d : Nd) : Prop := m.file = some false ∧ (find K g s).bind (g[·]?) = some d

/-- The value of a string of a property: an empty one stays, a target that is not a file stays if the property allows it, and anything
else is a path. -/
inductive Value (K : Ctx) (g : Graph) (m : Meta) : Name → Name → Prop
  | empty : Value K g m [] []
  | target (s : Name) (d : Nd) : s ≠ [] → Names K g m s d → d.type.isFile = false → d.type ≠ .alias →
      (m.nonFile = some none ∨ m.nonFile = some (some d.type)) → Value K g m s s
  | path (s r : Name) : s ≠ [] → (∀ d, Names K g m s d → d.type.isFile = true) → PathOf K m.path m.file s r → Value K g m s r

/-- the strings of a string or an array of strings -/
def Strs (v : Val) (ss : List Name) : Prop := v = .strs ss ∨ ∃ s, v = .str s ∧ ss = [s]

/-- the strings of a variable, with aliases replaced by what they stand for -/
def parts (K : Ctx) (g : Graph) (m : Meta) (ss : List Name) : List Name :=
  if m.file = some false then ss.flatMap fun s => if s = [] then [s] else stands K g s else ss

/-! ### classes -/

/-- the properties -/
def Cls.list : Cls → List (Meta × Ty)
  | .nil => []
  | .cons m t c => (m, t) :: c.list

/-- The properties of a class set one after the other, hidden ones left out. `prop` says what a property, with the value `lk` gives it,
does: what is stored, if anything. -/
inductive Runs (prop : Ty → Meta → Option Val → Graph → Graph → Option PV → Prop) (lk : Meta → Option Val) :
    List (Meta × Ty) → Graph → Graph → Obj → Prop
  | nil (g : Graph) : Runs prop lk [] g g []
  | hidden {m : Meta} {t : Ty} {l : List (Meta × Ty)} {g g' : Graph} {o : Obj} : m.hidden = true → Runs prop lk l g g' o →
      Runs prop lk ((m, t) :: l) g g' o
  | set {m : Meta} {t : Ty} {l : List (Meta × Ty)} {g h g' : Graph} {x : PV} {o : Obj} : m.hidden = false → prop t m (lk m) g h (some x) →
      Runs prop lk l h g' o → Runs prop lk ((m, t) :: l) g g' ((m.name, x) :: o)
  | keep {m : Meta} {t : Ty} {l : List (Meta × Ty)} {g h g' : Graph} {o : Obj} : m.hidden = false → prop t m (lk m) g h none →
      Runs prop lk l h g' o → Runs prop lk ((m, t) :: l) g g' o

/-- elements of an array of structs one after the other -/
inductive Elems (one : List (Name × Val) → Graph → Graph → Obj → Prop) : List (List (Name × Val)) → Graph → Graph → List Obj → Prop
  | nil (g : Graph) : Elems one [] g g []
  | cons {s : List (Name × Val)} {l : List (List (Name × Val))} {g h g' : Graph} {o : Obj} {os : List Obj} : one s g h o →
      Elems one l h g' os → Elems one (s :: l) g g' (o :: os)

/-- the value of a property of a struct: the first member of that name, or, if there is none and the property is inherited, the variable
in scope -/
def From (K : Ctx) (ms : List (Name × Val)) (m : Meta) (v : Option Val) : Prop :=
  (∃ a x b, ms = a ++ ('.' :: m.name, x) :: b ∧ (∀ y ∈ a, y.1 ≠ '.' :: m.name) ∧ v = some x) ∨
  ((∀ y ∈ ms, y.1 ≠ '.' :: m.name) ∧ v = if m.inherit then K.var ('.' :: m.name) else none)

/-- nodes in properties are nodes and no aliases -/
def Good (g : Graph) (o : Obj) : Prop :=
  ∀ n x, (n, x) ∈ o → ∀ l, x = .nodes l → ∀ i ∈ l, ∃ d, g[i]? = some d ∧ d.type ≠ .alias

/-- the strings of variables are in `N` -/
def Vars (K : Ctx) (N : Name → Prop) : Prop :=
  ∀ n v, K.var n = some v → (∀ s, v = .str s → N s) ∧ ∀ l, v = .strs l → ∀ s ∈ l, N s

/-- `Initialize` of a node keeps graphs in order and leaves other nodes as they are -/
def InitOK (K : Ctx) (N : Name → Prop) (f : Fn) : Prop :=
  ∀ g i o g', WF g → i < g.length → Good g o → f.init g i o = .ok g' →
    WF g' ∧ Extends K N g g' ∧ ∀ j, j < g.length → j ≠ i → g'[j]? = g[j]?

end Verif.Decl
