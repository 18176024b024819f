import Verif.Bff.Token
/-
How the tokens of a build file are written. Nothing here refers to the tokenizer.
-/
namespace Verif.Bff.Lex

/-- words with a meaning of their own -/
def words : List (Str × Tok) :=
  [("true".toList, .bool true), ("false".toList, .bool false), ("define".toList, .kw .define), ("elif".toList, .kw .elif),
   ("else".toList, .kw .else_), ("exists".toList, .kw .exists_), ("file_exists".toList, .kw .fileExists),
   ("function".toList, .kw .function), ("if".toList, .kw .if_), ("import".toList, .kw .import_),
   ("include".toList, .kw .include_), ("in".toList, .kw .in_), ("not".toList, .kw .not), ("once".toList, .kw .once),
   ("undef".toList, .kw .undef)]

/-- the functions of the language -/
def functions : List Str :=
  ["Alias", "Compiler", "Copy", "CopyDir", "CSAssembly", "DLL", "Error", "Exec", "Executable", "ForEach", "If", "Library",
   "ListDependencies", "ObjectList", "Print", "RemoveDir", "Settings", "Test", "TextFile", "Unity", "Using", "VCXProject",
   "VSProjectExternal", "VSSolution", "XCodeProject"].map String.toList

/-- what a word means -/
def word (w : Str) : Tok :=
  match words.find? (fun p => p.1 = w) with
  | some p => p.2
  | none => if w ∈ functions then .func w else .ident w

def Letter (c : Char) : Prop := ('A' ≤ c ∧ c ≤ 'Z') ∨ ('a' ≤ c ∧ c ≤ 'z') ∨ c = '_'
def Digit (c : Char) : Prop := '0' ≤ c ∧ c ≤ '9'

instance (c : Char) : Decidable (Letter c) := by unfold Letter; infer_instance
instance (c : Char) : Decidable (Digit c) := by unfold Digit; infer_instance

/-- what may be between quotes: `^` makes the next character plain, lines do not end -/
inductive Quotable (q : Char) : Str → Prop
  | nil : Quotable q []
  | plain {c : Char} {s : Str} : c ≠ q → c ≠ '^' → c ≠ '\r' → c ≠ '\n' → c ≠ '\x00' → Quotable q s → Quotable q (c :: s)
  | escaped {c : Char} {s : Str} : c ≠ '\r' → c ≠ '\n' → c ≠ '\x00' → Quotable q s → Quotable q ('^' :: c :: s)

/-- the value of a decimal number -/
def decimal (ds : Str) : Nat := ds.foldl (fun n c => 10 * n + (c.toNat - '0'.toNat)) 0

/-- decimal digits without a superfluous zero -/
structure Decimal (ds : Str) : Prop where
  ne : ds ≠ []
  digits : ∀ c ∈ ds, Digit c
  zero : ds.head? = some '0' → ds = ['0']

/-- operators -/
def opText : Op → Str
  | .assign => ['='] | .gt => ['>'] | .lt => ['<'] | .not => ['!'] | .plus => ['+'] | .minus => ['-']
  | .eq => ['=', '='] | .ne => ['!', '='] | .ge => ['>', '='] | .le => ['<', '='] | .and => ['&', '&'] | .or => ['|', '|']

def brText : Br → Char
  | .rl => '(' | .rr => ')' | .cl => '{' | .cr => '}' | .sl => '[' | .sr => ']'

/-- how a token is written -/
inductive Spell : Str → Tok → Prop
  | word {c : Char} {w : Str} : Letter c → (∀ d ∈ w, Letter d ∨ Digit d) → Spell (c :: w) (word (c :: w))
  | var {c d : Char} {w : Str} : c = '.' ∨ c = '^' → (∀ e ∈ d :: w, Letter e ∨ Digit e) → Spell (c :: d :: w) (.var (c :: d :: w))
  | quotedVar {c q : Char} {x : Str} : c = '.' ∨ c = '^' → q = '\'' ∨ q = '"' → Quotable q x →
      Spell (c :: q :: (x ++ [q])) (.var (c :: q :: (x ++ [q])))
  | str {q : Char} {x : Str} : q = '\'' ∨ q = '"' → Quotable q x → Spell (q :: (x ++ [q])) (.str x)
  | num {ds : Str} : Decimal ds → decimal ds ≤ 2147483647 → Spell ds (.num (decimal ds))
  | neg {ds : Str} : Decimal ds → decimal ds ≤ 2147483648 → Spell ('-' :: ds) (.num (-(decimal ds : Int)))
  | op (o : Op) : Spell (opText o) (.op o)
  | brace (b : Br) : Spell [brText b] (.brace b)
  | comma : Spell [','] .comma

/-- the token and a character right after it would be read as something else -/
def Glues : Tok → Char → Prop
  | .ident _, c | .kw _, c | .func _, c | .bool _, c | .var _, c => Letter c ∨ Digit c
  | .num _, c => Digit c ∨ c = 'x' ∨ c = 'X'
  | .op .assign, c | .op .gt, c | .op .lt, c | .op .not, c => c = '='
  | .op .minus, c => Digit c
  | _, _ => False

/-- a text and its tokens: white space and comments may be put between tokens, and must be where two would be read as one -/
inductive Text : Str → List Tok → Prop
  | nil : Text [] []
  | space {c : Char} {s : Str} {ts : List Tok} : c = ' ' ∨ c = '\t' ∨ c = '\r' ∨ c = '\n' → Text s ts → Text (c :: s) ts
  | semicolon {x s : Str} {ts : List Tok} : '\n' ∉ x → Text s ts → Text (';' :: (x ++ '\n' :: s)) ts
  | slashes {x s : Str} {ts : List Tok} : '\n' ∉ x → Text s ts → Text ('/' :: '/' :: (x ++ '\n' :: s)) ts
  | lastSemicolon {x : Str} : '\n' ∉ x → Text (';' :: x) []
  | lastSlashes {x : Str} : '\n' ∉ x → Text ('/' :: '/' :: x) []
  | tok {w s : Str} {t : Tok} {ts : List Tok} : Spell w t → (∀ c, s.head? = some c → ¬ Glues t c) → Text s ts → Text (w ++ s) (t :: ts)

end Verif.Bff.Lex
