import Verif.Incl.Model
/-
What the lists of headers should be, stated over whole lines.
-/
namespace Verif.Incl
open Verif.Str

/-- the lines of a text; `nl` says which characters end a line -/
def lines (nl : Char → Bool) : List Char → List (List Char)
  | [] => [[]]
  | c :: s =>
    if nl c then [] :: lines nl s
    else
      match lines nl s with
      | [] => [[c]]
      | l :: ls => (c :: l) :: ls

/-- the line ends of GCC's output -/
def crlf (c : Char) : Bool := c == '\n' || c == '\r'

/-- A line marker as documented for GCC: `# number "name" flags`; or a `#line number "name"`. -/
def Marker (intro line name flags : List Char) : Prop :=
  ∃ digits : List Char, (∀ c ∈ digits, c.isDigit = true) ∧ '"' ∉ name ∧
    line = intro ++ digits ++ " \"".toList ++ name ++ '"' :: flags

/-- the two ways a marker is introduced -/
def IsIntro (i : List Char) : Prop := i = "# ".toList ∨ i = "#line ".toList

/-- the line enters a header named `name`; `direct` says that markers are `#line` directives, which have no
flags: names in angle brackets and names of directories are not headers, and a marker with flags must have
flag 1 -/
def Enters (direct : Bool) (line name : List Char) : Prop :=
  ∃ intro flags, IsIntro intro ∧ Marker intro line name flags ∧ name.head? ≠ some '<' ∧
    (∀ c, name.getLast? = some c → isSlash c = false) ∧
    (" 1".toList <+: flags ∨ direct = true ∨ intro = "#line ".toList)

/-- a line which begins like a marker with a name and has no closing quote -/
def OpenMarker (line : List Char) : Prop :=
  ∃ intro digits r : List Char, IsIntro intro ∧ (∀ c ∈ digits, c.isDigit = true) ∧
    line = intro ++ digits ++ " \"".toList ++ r ∧ r.head? ≠ some '<' ∧ '"' ∉ r

/-- the headers entered by lines, in order; after a `#line` directive all markers count as such -/
inductive Entered : Bool → List (List Char) → List (List Char) → Prop
  | nil (d) : Entered d [] []
  | skip {d l ls ns} : (∀ n, ¬ Enters d l n) → Entered (d || "#line ".toList.isPrefixOf l) ls ns → Entered d (l :: ls) ns
  | take {d l ls ns n} : Enters d l n → Entered (d || "#line ".toList.isPrefixOf l) ls ns → Entered d (l :: ls) (n :: ns)

/-- A line of `/showIncludes` output: a prefix in two parts, each ended by a colon, spaces and a path on a
drive without characters not allowed in names. -/
def Shows (line path : List Char) : Prop :=
  ∃ (pre mid : List Char) (k : Nat) (d : Char) (rest : List Char),
    line = pre ++ ':' :: mid ++ ':' :: List.replicate k ' ' ++ path ∧
    pre ≠ [] ∧ ':' ∉ pre ∧ mid ≠ [] ∧ ':' ∉ mid ∧
    path = d :: ':' :: rest ∧ d.isAlpha = true ∧ ∀ c ∈ rest, c ∉ ['<', '>', '"', '|', '?', '*', ':']

/-- a line without the `\r` of its line end -/
def chomp (line : List Char) : List Char := if line.getLast? = some '\r' then line.dropLast else line

/-- the paths shown by lines, in order -/
inductive Shown : List (List Char) → List (List Char) → Prop
  | nil : Shown [] []
  | skip {l ls ns} : (∀ n, ¬ Shows l n) → Shown ls ns → Shown (l :: ls) ns
  | take {l ls ns n} : Shows l n → Shown ls ns → Shown (l :: ls) (n :: ns)

/-- The line starts a file in Microsoft's preprocessed output: `#line 1 "name"`, maybe indented. -/
def Starts (line name : List Char) : Prop :=
  ∃ ws x y : List Char, (∀ c ∈ ws, c = ' ' ∨ c = '\t') ∧ '"' ∉ x ∧ '"' ∉ name ∧
    line = ws ++ "#line 1 ".toList ++ x ++ '"' :: name ++ '"' :: y

/-- a line which begins so and has no quoted name -/
def OpenStart (line : List Char) : Prop :=
  ∃ ws z : List Char, (∀ c ∈ ws, c = ' ' ∨ c = '\t') ∧ line = ws ++ "#line 1 ".toList ++ z ∧ z.count '"' < 2

/-- the files started by lines, in order -/
inductive Started : List (List Char) → List (List Char) → Prop
  | nil : Started [] []
  | skip {l ls ns} : (∀ n, ¬ Starts l n) → Started ls ns → Started (l :: ls) ns
  | take {l ls ns n} : Starts l n → Started ls ns → Started (l :: ls) (n :: ns)

/-- How GCC prints a file's name between quotes (`cpp_quote_string`, for names without line ends): quotes and
backslashes get a backslash before them. -/
def quoted : List Char → List Char
  | [] => []
  | c :: s => if c = '\\' ∨ c = '"' then '\\' :: c :: quoted s else c :: quoted s

end Verif.Incl
