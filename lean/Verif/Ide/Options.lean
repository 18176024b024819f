import Verif.Light.Model
/-
C102: what an IDE, and the light cache, are told about the options of the compiler. Model of `ExtractIntellisenseOptions`,
Code/Tools/FBuild/FBuildCore/Helpers/ProjectGeneratorBase.cpp ("P" below), with the lists of prefixes.
-/
namespace Verif.Ide
open Verif.Str

abbrev Text := List Char

/-! ### The code -/

/-- `AString::Replace( "\"", "\\\"" )`, P:634 -/
def escape (t : Text) : Text := t.flatMap fun c => if c = '"' then ['\\', '"'] else [c]

/-- P:625-628; `none`: the assertion of `Trim` -/
def trim (body : Text) : Option Text :=
  if body.head? = some '"' ∧ body.getLast? = some '"' then (if body.length < 2 then none else some body.tail.dropLast) else some body

/-- what is done with a token that is followed by `next`, P:587-622. `none`: the end of the function -/
def body (full : Bool) (prefixes : List Text) (token : Text) (next : Option Text) : Option Text :=
  let ownBody := match prefixes.find? (·.isPrefixOf token) with
    | some p => if full then token else token.drop p.length
    | none => []
  if token ∈ prefixes then
    match next with
    | none => none
    | some n => if removeQuotes n = [] then some ownBody else some (removeQuotes n)
  else some ownBody

/-- the loop, P:580-638; the outer `none`: an assertion -/
def loop (esc full : Bool) (prefixes : List Text) : List Text → Option (List Text)
  | [] => some []
  | tok :: rest =>
    match body full prefixes (removeQuotes tok) rest.head? with
    | none => some []
    | some b => do
      let b ← trim b
      let r ← loop esc full prefixes rest
      some ((if b = [] then [] else [if esc then escape b else b]) ++ r)

/-- `ExtractIntellisenseOptions`, P:566-640 -/
def extract (esc full : Bool) (prefixes : List Text) (args : Text) : Option (List Text) := loop esc full prefixes (tokenize ' ' args)

/-- `m_IncludePrefixes`, P:43-75 -/
def includeGroups : List (List Text) := Light.includePrefixes
/-- P:79-82 -/
def forcePrefixes : List Text := Light.forcePrefixes
/-- P:86-89 -/
def definePrefixes : List Text := ["/D".toList, "-D".toList]
/-- P:93-97 -/
def additionalPrefixes : List Text := ["-std".toList, "/std".toList, "-wd".toList, "/wd".toList]

/-- `ExtractIncludePaths`, P:512-521 -/
def includes (esc : Bool) (args : Text) : Option (List Text) := (includeGroups.mapM fun g => extract esc false g args).map List.flatten
/-- P:523-531 -/
def forced (esc : Bool) (args : Text) : Option (List Text) := extract esc false forcePrefixes args
/-- `ExtractDefines`, P:536-547 -/
def defines (esc : Bool) (args : Text) : Option (List Text) := extract esc false definePrefixes args
/-- `ExtractAdditionalOptions`, P:551-562 -/
def additional (args : Text) : Option (List Text) := extract false true additionalPrefixes args

/-! ### What a command line says -/

/-- the arguments of a command line: C29 -/
def argsOf (line : Text) : List Text := (tokenize ' ' line).map removeQuotes

/-- the value, without quotes around it -/
inductive Unquoted : Text → Text → Prop
  | quoted (t : Text) : Unquoted ('"' :: t ++ ['"']) t
  | plain {t : Text} (h : ∀ u, t ≠ '"' :: u ∨ t.getLast? ≠ some '"') : Unquoted t t

/-- a value is added, unless there is none -/
def given (w : Text) (vs : List Text) : List Text := if w = [] then vs else w :: vs

/-- `Says keys args vs`: read from left to right, the arguments give these values to the options `keys`. An option has its value in the same argument or in the next one. -/
inductive Says (keys : List Text) : List Text → List Text → Prop
  | nil : Says keys [] []
  /-- `-I value` -/
  | apart {k v w : Text} {rest vs : List Text} (hk : k ∈ keys) (hw : Unquoted v w) (h : Says keys rest vs) : Says keys (k :: v :: rest) (given w vs)
  /-- `-I` at the end -/
  | last {k : Text} (hk : k ∈ keys) : Says keys [k] []
  /-- `-Ivalue`, where `-I` is the longest option that fits -/
  | joined {k v w : Text} {rest vs : List Text} (hk : k ∈ keys) (hv : v ≠ []) (hl : ∀ k' ∈ keys, k' <+: k ++ v → k'.length ≤ k.length) (hw : Unquoted v w)
      (h : Says keys rest vs) : Says keys ((k ++ v) :: rest) (given w vs)
  /-- another argument -/
  | other {a : Text} {rest vs : List Text} (ha : ∀ k ∈ keys, ¬ k <+: a) (h : Says keys rest vs) : Says keys (a :: rest) vs

/-- the values that are arguments of their own -/
inductive Apart (keys : List Text) : List Text → Text → Prop
  | here {k v : Text} {rest : List Text} (hk : k ∈ keys) : Apart keys (k :: v :: rest) v
  | later {a v : Text} {rest : List Text} (h : Apart keys rest v) : Apart keys (a :: rest) v

end Verif.Ide
