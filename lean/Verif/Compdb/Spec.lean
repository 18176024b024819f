import Verif.Compdb.Model
import Verif.Args.Spec
/-
What a reader of JSON makes of a text (RFC 8259, without numbers and the literals `true`, `false` and `null`, which do not occur),
and what should be in a compilation database.
-/
namespace Verif.Compdb
open Verif.Args (Hole NoHole)

/-! ### JSON -/

/-- values -/
inductive J
  | str (s : Name)
  | arr (l : List J)
  | obj (l : List (Name × J))

/-- white space -/
def ws : List Char → List Char
  | [] => []
  | c :: s => if c = ' ' ∨ c = '\n' ∨ c = '\r' ∨ c = '\t' then ws s else c :: s

/-- the value of a hexadecimal digit -/
def hexVal (c : Char) : Option Nat :=
  if '0' ≤ c ∧ c ≤ '9' then some (c.toNat - 48)
  else if 'A' ≤ c ∧ c ≤ 'F' then some (c.toNat - 55)
  else if 'a' ≤ c ∧ c ≤ 'f' then some (c.toNat - 87)
  else none

/-- four digits -/
def hexQuad (a b c d : Char) : Option Nat :=
  match hexVal a, hexVal b, hexVal c, hexVal d with
  | some a, some b, some c, some d => some (a * 4096 + b * 256 + c * 16 + d)
  | _, _, _, _ => none

/-- escapes of one character -/
def unesc (c : Char) : Option Char :=
  if c = '"' then some '"' else if c = '\\' then some '\\' else if c = '/' then some '/' else if c = 'b' then some (Char.ofNat 8)
  else if c = 'f' then some (Char.ofNat 12) else if c = 'n' then some '\n' else if c = 'r' then some '\r' else if c = 't' then some '\t'
  else none

/-- the rest of a string behind the opening quote, and what follows the closing one -/
def pstr : List Char → Option (List Char × List Char)
  | [] => none
  | '"' :: r => some ([], r)
  | '\\' :: 'u' :: a :: b :: c :: d :: r => match hexQuad a b c d, pstr r with
    | some n, some (s, t) => some (Char.ofNat n :: s, t)
    | _, _ => none
  | '\\' :: e :: r => match unesc e, pstr r with
    | some c, some (s, t) => some (c :: s, t)
    | _, _ => none
  | c :: r => if c.toNat < 32 ∨ c = '\\' then none else match pstr r with
    | some (s, t) => some (c :: s, t)
    | none => none

mutual
/-- a value -/
def pval : Nat → List Char → Option (J × List Char)
  | 0, _ => none
  | f + 1, s => match ws s with
    | '"' :: r => match pstr r with
      | some (x, r) => some (.str x, r)
      | none => none
    | '[' :: r => match ws r with
      | ']' :: r => some (.arr [], r)
      | r => match parr f r with
        | some (l, r) => some (.arr l, r)
        | none => none
    | '{' :: r => match ws r with
      | '}' :: r => some (.obj [], r)
      | r => match pobj f r with
        | some (l, r) => some (.obj l, r)
        | none => none
    | _ => none
/-- the elements of an array and its end -/
def parr : Nat → List Char → Option (List J × List Char)
  | 0, _ => none
  | f + 1, s => match pval f s with
    | none => none
    | some (v, r) => match ws r with
      | ']' :: r => some ([v], r)
      | ',' :: r => match parr f r with
        | some (l, r) => some (v :: l, r)
        | none => none
      | _ => none
/-- the members of an object and its end -/
def pobj : Nat → List Char → Option (List (Name × J) × List Char)
  | 0, _ => none
  | f + 1, s => match ws s with
    | '"' :: r => match pstr r with
      | none => none
      | some (k, r) => match ws r with
        | ':' :: r => match pval f r with
          | none => none
          | some (v, r) => match ws r with
            | '}' :: r => some ([(k, v)], r)
            | ',' :: r => match pobj f r with
              | some (l, r) => some ((k, v) :: l, r)
              | none => none
            | _ => none
        | _ => none
    | _ => none
end

/-- what a whole text means -/
def parse (s : List Char) : Option J :=
  match pval (s.length + 1) s with
  | some (v, r) => if ws r = [] then some v else none
  | none => none

/-! ### databases -/

/-- all files an object list is made of, with the directory of the list they are from -/
def leaves : Srcs → Ins
  | .nil => []
  | .cons (.dir p fs) l => fs.map (fun f => (f, p)) ++ leaves l
  | .cons (.unity d) l => leaves d ++ leaves l
  | .cons (.list fs d) l => (fs.map (fun f => (f, [])) ++ leaves d) ++ leaves l
  | .cons (.file n) l => (n, []) :: leaves l

/-- the files an object list compiles -/
def ListNd.sources (n : ListNd) : Ins := n.files.map (fun f => (f, [])) ++ leaves n.inputs

/-- an option for a file: the first `%1` is the file; if there is none, the first `%2` is the object -/
def ArgOf (file out a b : Name) : Prop :=
  (∃ u v, Hole '1' a u v ∧ b = u ++ file ++ v) ∨
  (NoHole '1' a ∧ ∃ u v, Hole '2' a u v ∧ b = u ++ out ++ v) ∨
  (NoHole '1' a ∧ NoHole '2' a ∧ b = a)

/-- element by element -/
def Pairs {α β : Type} (R : α → β → Prop) : List α → List β → Prop
  | [], [] => True
  | a :: l, b :: m => R a b ∧ Pairs R l m
  | _, _ => False

/-- the options of an object list: without quotes, and without `/analyze` of Microsoft's compiler -/
def ListNd.options' (n : ListNd) : List Name :=
  ((Verif.Str.tokenize ' ' n.options).map Verif.Str.removeQuotes).filter fun t =>
    !(n.msvc && ("/analyze".toList.isPrefixOf t || "-analyze".toList.isPrefixOf t))

/-- an entry: file, object, and command line -/
structure Entry where
  file : Name
  output : Name
  arguments : List Name

/-- as JSON -/
def Entry.json (wd : Name) (e : Entry) : J :=
  .obj [("directory".toList, .str wd), ("file".toList, .str e.file), ("output".toList, .str e.output),
    ("arguments".toList, .arr (e.arguments.map .str))]

/-- the entry of a file of an object list -/
def IsEntry (n : ListNd) (i : Name × Name) (e : Entry) : Prop :=
  e.file = i.1 ∧ Verif.Dirs.objectName n.cfg i.1 i.2 = some e.output ∧
    ∃ as, e.arguments = n.compiler :: as ∧ Pairs (ArgOf e.file e.output) n.options' as

/-- no bytes that are not ASCII if `char` has a sign, no zero bytes and nothing beyond bytes -/
def Plain (signed : Bool) (s : Name) : Prop := ∀ c ∈ s, 0 < c.toNat ∧ c.toNat < 256 ∧ (signed = true → c.toNat < 128)

end Verif.Compdb
