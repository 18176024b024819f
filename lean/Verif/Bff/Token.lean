/-
Tokens of build files (.bff): Code/Tools/FBuild/FBuildCore/BFF/Tokenizer/BFFToken.h, BFFToken.cpp,
BFFTokenRange.h, BFFKeywords.h, BFFOperators.h. Source positions, used for error messages only, are left out.
-/
namespace Verif.Bff

abbrev Str := List Char

/-- `BFFOperator::Type`, BFFOperators.h:31-50 -/
inductive Op | assign | gt | lt | not | plus | minus | eq | ne | ge | le | and | or
  deriving DecidableEq, Repr

/-- the number of the enumerator, BFFOperators.h:31-50 -/
def Op.num : Op → Nat
  | .assign => 0 | .gt => 1 | .lt => 2 | .not => 3 | .plus => 4 | .minus => 5
  | .eq => 6 | .ne => 7 | .ge => 8 | .le => 9 | .and => 10 | .or => 11

/-- `BFFKeyword::Type`, BFFKeywords.h:35-55. `true` and `false` never become keyword tokens
(BFFTokenizer.cpp:474-483), nor does `endif` -/
inductive Kw
  | define | elif | else_ | endIf | exists_ | false_ | fileExists | function | if_ | import_ | in_ | include_
  | not | once | true_ | undef
  deriving DecidableEq, Repr

/-- the number of the enumerator, BFFKeywords.h:35-55 -/
def Kw.num : Kw → Nat
  | .define => 0 | .elif => 1 | .else_ => 2 | .endIf => 3 | .exists_ => 4 | .false_ => 5 | .fileExists => 6
  | .function => 7 | .if_ => 8 | .import_ => 9 | .in_ => 10 | .include_ => 11 | .not => 12 | .once => 13
  | .true_ => 14 | .undef => 15

/-- `BFFToken::BraceType`, BFFToken.h:47-55: `( ) { } [ ]` -/
inductive Br | rl | rr | cl | cr | sl | sr
  deriving DecidableEq, Repr

/-- the value of the enumerator is the character, BFFToken.h:47-55 -/
def Br.num : Br → Nat
  | .rl => 40 | .rr => 41 | .cl => 123 | .cr => 125 | .sl => 91 | .sr => 93

/-- `BFFToken::GetMatchingClosingBracketType`, BFFToken.h:299-315, for an opening bracket -/
def Br.close : Br → Option Br
  | .rl => some .rr
  | .cl => some .cr
  | .sl => some .sr
  | _ => none

/-- `BFFToken`, BFFToken.h:39-182. A variable keeps its leading `.` or `^` (and quotes); a string is what is
between the quotes, escape characters included. -/
inductive Tok
  | invalid
  | ident (s : Str)
  | func (s : Str)
  | var (s : Str)
  | kw (k : Kw)
  | num (i : Int)
  | op (o : Op)
  | brace (b : Br)
  | str (s : Str)
  | bool (b : Bool)
  | comma
  | eof
  deriving DecidableEq, Repr

/-- the byte read through `m_BraceType`. It shares its memory with the number, operator, keyword and boolean of
the token (BFFToken.h:167-174), so for a number this is its lowest byte (little endian). -/
def Tok.byte : Tok → Nat
  | .brace b => b.num
  | .num i => (i % 256).toNat
  | .op o => o.num
  | .kw k => k.num
  | .bool b => b.toNat
  | _ => 0

/-- `IsRoundLeftBracket` and so on, BFFToken.h:109-114: the type of the token is not looked at -/
def Tok.is (t : Tok) (b : Br) : Bool := t.byte == b.num

/-- the outcome of a function that reports errors by returning false. `assert`: a failing `ASSERT`.
`fuel`: the bound of the model's recursion was hit (shown not to happen). -/
inductive Res (α : Type)
  | ok (a : α)
  | err
  | assert
  | fuel
  deriving DecidableEq, Repr

def Res.bind {α β : Type} : Res α → (α → Res β) → Res β
  | .ok a, f => f a
  | .err, _ => .err
  | .assert, _ => .assert
  | .fuel, _ => .fuel

instance : Monad Res where
  pure := .ok
  bind := .bind

@[simp] theorem Res.bind_ok {α β : Type} (a : α) (f : α → Res β) : ((Res.ok a : Res α) >>= f) = f a := rfl
@[simp] theorem Res.bind_err {α β : Type} (f : α → Res β) : ((Res.err : Res α) >>= f) = .err := rfl
@[simp] theorem Res.bind_assert {α β : Type} (f : α → Res β) : ((Res.assert : Res α) >>= f) = .assert := rfl
@[simp] theorem Res.bind_fuel {α β : Type} (f : α → Res β) : ((Res.fuel : Res α) >>= f) = .fuel := rfl
@[simp] theorem Res.pure_eq {α : Type} (a : α) : (pure a : Res α) = .ok a := rfl

theorem Res.bind_eq_ok {α β : Type} {x : Res α} {f : α → Res β} {b : β} :
    (x >>= f) = .ok b ↔ ∃ a, x = .ok a ∧ f a = .ok b := by
  cases x <;> simp

/-- `BFFVariable`, BFFVariable.h:30-160, BFFVariable.cpp: one of six types. A struct is a list of named members;
an element of an array of structs is the struct (its name is never used) -/
inductive Val
  | str (s : Str)
  | bool (b : Bool)
  | strs (l : List Str)
  | int (i : Int)
  | struct (ms : List (Str × Val))
  | structs (l : List (List (Str × Val)))

end Verif.Bff
