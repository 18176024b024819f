import Verif.Bff.InterpModel
/-
From text to tokens: Code/Tools/FBuild/FBuildCore/BFF/Tokenizer/BFFTokenizer.cpp ("tokenizer" below), BFFMacros.cpp,
BFFFile.cpp, BFFFileExists.cpp and `FBuild::ImportEnvironmentVar`.

A range of text is a list of characters without what follows it. What follows is a NUL or the `#` of the directive that
ends the block, and the code that looks one character ahead treats all of these alike.

Source positions and texts of error messages are left out. `assert`: a failing `ASSERT` or `VERIFY`, or a number that
does not fit `int32_t`.
-/
namespace Verif.Bff.Lex

/-! ### characters, tokenizer:24-129 -/

def isWs (c : Char) : Bool := c = ' ' || c = '\r' || c = '\n' || c = '\t'
def isBlank (c : Char) : Bool := c = ' ' || c = '\t'
def isEol (c : Char) : Bool := c = '\r' || c = '\n' || c = '\x00'
def isUpper (c : Char) : Bool := 'A' ≤ c && c ≤ 'Z'
def isLower (c : Char) : Bool := 'a' ≤ c && c ≤ 'z'
def isDigit (c : Char) : Bool := '0' ≤ c && c ≤ '9'
def isIdStart (c : Char) : Bool := isUpper c || isLower c || c = '_'
def isId (c : Char) : Bool := isUpper c || isLower c || c = '_' || isDigit c
def isQuote (c : Char) : Bool := c = '\'' || c = '"'

/-- `SkipToStartOfNextLine`, tokenizer:117-128 -/
def skipLine : Str → Str
  | [] => []
  | c :: s => if c = '\n' then s else skipLine s

/-- what it skips -/
def lineOf : Str → Str
  | [] => []
  | c :: s => if c = '\n' then [c] else c :: lineOf s

/-! ### tokens -/

/-- the loop of `GetQuotedString`, tokenizer:1342-1375: what is before the closing quote, and what follows it -/
def quoted (q : Char) : Bool → Str → Option (Str × Str)
  | _, [] => none
  | esc, c :: s =>
    if isEol c then none
    else if esc then (quoted q false s).map fun r => (c :: r.1, r.2)
    else if c = q then some ([], s)
    else (quoted q (c = '^') s).map fun r => (c :: r.1, r.2)

/-- keywords and functions, `HandleIdentifier`, tokenizer:471-519 -/
def classify (n : Str) : Tok :=
  match String.ofList n with
  | "true" => .bool true
  | "false" => .bool false
  | "define" => .kw .define
  | "elif" => .kw .elif
  | "else" => .kw .else_
  | "exists" => .kw .exists_
  | "file_exists" => .kw .fileExists
  | "function" => .kw .function
  | "if" => .kw .if_
  | "import" => .kw .import_
  | "include" => .kw .include_
  | "in" => .kw .in_
  | "not" => .kw .not
  | "once" => .kw .once
  | "undef" => .kw .undef
  | _ => if (Interp.findFn n).isSome then .func n else .ident n

def hexVal (c : Char) : Option Nat :=
  if isDigit c then some (c.toNat - 48)
  else if 'a' ≤ c ∧ c ≤ 'f' then some (c.toNat - 87)
  else if 'A' ≤ c ∧ c ≤ 'F' then some (c.toNat - 55)
  else none

/-- the digits of a number in some base, as far as there are any -/
def digits (base : Nat) : Nat → Str → Nat
  | n, c :: s =>
    match hexVal c with
    | some d => if d < base then digits base (n * base + d) s else n
    | none => n
  | n, [] => n

/-- `vsscanf( s, "%i", &i )` without the sign. None: the `0x` of a hexadecimal number is not followed by a digit. -/
def scanNat : Str → Option Nat
  | '0' :: x :: s =>
    if x = 'x' ∨ x = 'X' then
      if (s.head?.bind hexVal).isSome then some (digits 16 0 s) else none
    else some (digits 8 0 (x :: s))
  | s => some (digits 10 0 s)

/-- `vsscanf( s, "%i", &i )`, tokenizer:399. None: no number, or undefined as it does not fit -/
def scanInt (s : Str) : Option Int :=
  match s with
  | '-' :: s => (scanNat s).bind fun n => if n ≤ 2147483648 then some (-n) else none
  | s => (scanNat s).bind fun n => if n ≤ 2147483647 then some n else none

/-- one round of the loop of `Tokenize`, tokenizer:262-445 -/
inductive Lx
  | skip (rest : Str)
  | tok (t : Tok) (rest : Str)
  | hash (rest : Str)
  | bad
  | assert
  deriving DecidableEq

/-- operators of two characters, tokenizer:317-360 -/
def op2 (c d : Char) : Option Op :=
  if c = '=' ∧ d = '=' then some .eq
  else if c = '!' ∧ d = '=' then some .ne
  else if c = '<' ∧ d = '=' then some .le
  else if c = '>' ∧ d = '=' then some .ge
  else if c = '&' ∧ d = '&' then some .and
  else if c = '|' ∧ d = '|' then some .or
  else none

/-- operators of one character, tokenizer:371-381. `some none`: the failing `ASSERT` -/
def op1 (c : Char) : Option (Option Op) :=
  if c = '=' then some (some .assign)
  else if c = '>' then some (some .gt)
  else if c = '<' then some (some .lt)
  else if c = '!' then some (some .not)
  else if c = '+' then some (some .plus)
  else if c = '-' then some (some .minus)
  else if c = '&' ∨ c = '|' then some none
  else none

def bracket (c : Char) : Option Br :=
  if c = '(' then some .rl
  else if c = ')' then some .rr
  else if c = '{' then some .cl
  else if c = '}' then some .cr
  else if c = '[' then some .sl
  else if c = ']' then some .sr
  else none

/-- `HandleVariable`, tokenizer:523-559 -/
def lexVar (c : Char) (s : Str) : Lx :=
  match s with
  | q :: r =>
    if isQuote q then
      match quoted q false r with
      | some (x, r) => .tok (.var (c :: q :: (x ++ [q]))) r
      | none => .bad
    else if s.takeWhile isId = [] then .bad
    else .tok (.var (c :: s.takeWhile isId)) (s.dropWhile isId)
  | [] => .bad

/-- a string, tokenizer:304-313 -/
def lexStr (q : Char) (s : Str) : Lx :=
  match quoted q false s with
  | some (x, r) => .tok (.str x) r
  | none => .bad

/-- a number, tokenizer:390-403 -/
def lexNum (c : Char) (s : Str) : Lx :=
  match scanInt (c :: s) with
  | some i => .tok (.num i) (s.dropWhile isDigit)
  | none => .assert

/-- from the operators of one character on, tokenizer:362-445 -/
def lexRest (c : Char) (s : Str) : Lx :=
  if c = '-' ∧ (s.head?.map isDigit).getD false then lexNum c s
  else match op1 c with
    | some (some o) => .tok (.op o) s
    | some none => .assert
    | none =>
      if isDigit c then lexNum c s
      else if c = ',' then .tok .comma s
      else match bracket c with
        | some b => .tok (.brace b) s
        | none => if c = '#' then .hash s else .bad

def lex (c : Char) (s : Str) : Lx :=
  if isWs c then .skip (s.dropWhile isWs)
  else if c = ';' ∨ (c = '/' ∧ s.head? = some '/') then .skip (skipLine (c :: s))
  else if isIdStart c then .tok (classify (c :: s.takeWhile isId)) (s.dropWhile isId)
  else if c = '.' ∨ c = '^' then lexVar c s
  else if isQuote c then lexStr c s
  else match s with
    | d :: r =>
      match op2 c d with
      | some o => .tok (.op o) r
      | none => lexRest c s
    | [] => lexRest c s

/-- the tokens of the line of a directive, `ParseDirectiveLine`, tokenizer:658-695: a `#` is not allowed in it -/
def lexLine : Nat → Str → Res (List Tok)
  | _, [] => .ok []
  | 0, _ :: _ => .fuel
  | n + 1, c :: s =>
    match lex c s with
    | .skip r => lexLine n r
    | .tok t r => do
      let l ← lexLine n r
      pure (t :: l)
    | .hash _ => .err
    | .bad => .err
    | .assert => .assert

/-! ### state -/

/-- what is outside: files by their clean name, environment variables, their hash, files that exist, and path functions -/
structure World where
  load : Str → Option Str
  env : Str → Option Str
  /-- `xxHash::Calc32` -/
  hash : Str → Nat
  exists_ : Str → Bool
  /-- `NodeGraph::CleanPath` -/
  clean : Str → Str
  /-- `PathUtils::ArePathsEqual` -/
  same : Str → Str → Bool
  /-- `ExpandIncludePath` of a path in a file of some name, tokenizer:1418-1432 -/
  expand : Str → Str → Str
  /-- the tokens that are always defined, BFFMacros.cpp:36-61 -/
  builtin : Str → Bool

/-- `BFFFile`, BFFFile.h:15-44 -/
structure File where
  name : Str
  text : Str
  once : Bool

structure St where
  /-- `m_Tokens` -/
  toks : List Tok
  /-- `m_Files` -/
  files : List File
  /-- `BFFMacros::m_Tokens` -/
  macros : List Str
  /-- `m_ImportedEnvironmentVars`: name and hash -/
  envs : List (Str × Nat)
  /-- `BFFFileExists` -/
  exist : List (Str × Bool)

def defined (W : World) (st : St) (x : Str) : Bool := x ∈ st.macros || W.builtin x

/-- `ImportEnvironmentVar` after the hash is known, FBuild.cpp:591-613: already there, or added. False: there with another
hash. -/
def importVar (st : St) (x : Str) (h : Nat) : Bool × St :=
  match st.envs.find? (fun e => e.1 = x) with
  | some e => (e.2 = h, st)
  | none => (true, { st with envs := st.envs ++ [(x, h)] })

/-- `BFFFileExists::CheckFile`, BFFFileExists.cpp:22-43 -/
def checkFile (W : World) (st : St) (p : Str) : Bool × St :=
  match st.exist.find? (fun e => e.1 = p) with
  | some e => (e.2, st)
  | none => (W.exists_ p, { st with exist := st.exist ++ [(p, W.exists_ p)] })

/-! ### `#if` -/

/-- the hash of a variable, 0 if there is none, FBuild.cpp:573-589 -/
def envHash (W : World) (x : Str) : Nat := ((W.env x).map W.hash).getD 0

/-- `HandleDirective_IfExists`, `HandleDirective_IfFileExists`, `HandleDirective_IfDefined`, tokenizer:976-1098, and the
choice between them, lines 893-922. `ev`: whether the result is asked for. -/
def term (W : World) (file : Str) (ev : Bool) (st : St) : List Tok → Res (Bool × List Tok × St)
  | .kw .exists_ :: b :: .ident x :: c :: ts =>
    if b.is .rl && c.is .rr then
      if ev then pure (envHash W x ≠ 0, ts, (importVar st x (envHash W x)).2) else pure (false, ts, st)
    else .err
  | .kw .fileExists :: b :: .str x :: c :: ts =>
    if b.is .rl && c.is .rr then
      if ev then pure ((checkFile W st (W.expand file x)).1, ts, (checkFile W st (W.expand file x)).2)
      else pure (false, ts, st)
    else .err
  | .ident x :: ts => .ok (ev && defined W st x, ts, st)
  | _ => .err

def isNot : List Tok → Bool
  | .op .not :: _ => true
  | _ => false

/-- a term with its negation, tokenizer:877-928 -/
def negTerm (W : World) (file : Str) (ev : Bool) (st : St) (ts : List Tok) : Res (Bool × List Tok × St) := do
  let r ← term W file ev st (if isNot ts then ts.drop 1 else ts)
  pure ((if ev && isNot ts then !r.1 else r.1), r.2)

/-- store to `operatorHistory`, an array of 256, tokenizer:930-956 -/
def record (h : List Nat) (r : Nat) : Res (List Nat) :=
  if 256 ≤ h.length then .assert
  else if h.length + 1 = 256 then .err
  else .ok (h ++ [r])

/-- the terms after the first, tokenizer:862-957. `h`: `operatorHistory` so far -/
def terms (W : World) (file : Str) (ev : Bool) : Nat → St → List Nat → List Tok → Res (List Nat × List Tok × St)
  | n + 1, st, h, .op .and :: ts => do
    let r ← negTerm W file ev st ts
    let h ← record h (2 ||| r.1.toNat)
    terms W file ev n r.2.2 h r.2.1
  | n + 1, st, h, .op .or :: ts => do
    let r ← negTerm W file ev st ts
    let h ← record h (4 ||| r.1.toNat)
    terms W file ev n r.2.2 h r.2.1
  | 0, _, _, .op .and :: _ => .fuel
  | 0, _, _, .op .or :: _ => .fuel
  | _, st, h, ts => .ok (h, ts, st)

/-- the loop over `&&`, tokenizer:960-970 -/
def andPass : List Nat → List Nat
  | a :: b :: l => if b &&& 2 ≠ 0 then 0 :: andPass ((a &&& b) :: l) else a :: andPass (b :: l)
  | l => l
termination_by l => l.length

/-- the loop over `||`, tokenizer:971-976 -/
def orPass : List Nat → Bool
  | [] => false
  | a :: l => (a &&& 1 = 1) || orPass l

/-- `HandleDirective_IfExpression`, tokenizer:846-981: the result (false if it is not asked for), and the tokens left -/
def ifExpr (W : World) (file : Str) (ev : Bool) (st : St) (ts : List Tok) : Res (Bool × List Tok × St) := do
  let r ← negTerm W file ev st ts
  let r ← terms W file ev ts.length r.2.2 [r.1.toNat] r.2.1
  pure (ev && orPass (andPass r.1), r.2)

inductive End | elif | else_ | endif
  deriving DecidableEq

/-- `GetDirective`, tokenizer:1383-1414. None: the error -/
def dirName (s : Str) : Option Str :=
  match s with
  | c :: _ => if isLower c then some (s.takeWhile fun c => isLower c || c = '_') else none
  | [] => none

/-- `ParseToEndIf`, tokenizer:1104-1186. Result: the block, what ends it, and the text after it (for `#elif` and `#else`
the rest of their line is the beginning of it). -/
def toEnd (allow : Bool) : Nat → Nat → Str → Res (Str × End × Str)
  | 0, _, _ => .fuel
  | n + 1, d, s =>
    match s.dropWhile isBlank with
    | [] => .err
    | c :: r =>
      if c = '#' then
        match dirName (r.dropWhile isBlank) with
        | none => .err
        | some x =>
          if x = "endif".toList ∧ d = 1 then .ok (s.takeWhile isBlank, .endif, skipLine s)
          else if x = "elif".toList ∧ d = 1 then
            if allow then .ok (s.takeWhile isBlank, .elif, (r.dropWhile isBlank).drop x.length) else .err
          else if x = "else".toList ∧ d = 1 then
            if allow then .ok (s.takeWhile isBlank, .else_, (r.dropWhile isBlank).drop x.length) else .err
          else do
            let b ← toEnd allow n (if x = "endif".toList then d - 1 else if x = "if".toList then d + 1 else d) (skipLine s)
            pure (lineOf s ++ b.1, b.2)
      else do
        let b ← toEnd allow n d (skipLine s)
        pure (lineOf s ++ b.1, b.2)

/-- what follows the first block of an `#if`, tokenizer:770-826. `v`: one of the conditions was true; `blk`: its block. -/
def branches (W : World) (file : Str) : Nat → St → Bool → Option Str → End → Str → Res (Option Str × Str × St)
  | _, st, _, blk, .endif, s => .ok (blk, s, st)
  | _, st, v, blk, .else_, s => do
    let b ← toEnd false (s.length + 1) 1 s
    pure (if v then blk else some b.1, b.2.2, st)
  | 0, _, _, _, .elif, _ => .fuel
  | n + 1, st, v, blk, .elif, s => do
    let args ← lexLine s.length (lineOf s)
    let r ← ifExpr W file (!v) st args
    let b ← toEnd true ((skipLine s).length + 1) 1 (skipLine s)
    if r.2.1 ≠ [] then .err
    else branches W file n r.2.2 (v || r.1) (if v then blk else if r.1 then some b.1 else none) b.2.1 b.2.2

/-! ### directives -/

/-- what a directive leaves to do: a block to tokenize, arguments that are too many, and the text after it -/
structure Left where
  st : St
  blk : Option Str
  args : List Tok
  rest : Str

/-- `varValue.Replace( "^", "^^" )` and `varValue.Replace( "$", "^$" )`, tokenizer:1222-1223 -/
def escape (s : Str) : Str :=
  let carets := ((Verif.Str.replace ['^'] ['^', '^'] 0 s).map (·.1)).getD s
  ((Verif.Str.replace ['$'] ['^', '$'] 0 carets).map (·.1)).getD carets

/-- set `m_Once` of a file -/
def setOnce (i : Nat) (fs : List File) : List File := fs.modify i fun f => { f with once := true }

/-- `HandleDirective`, tokenizer:563-654, with the handlers of tokenizer:699-739, 743-834, 1190-1328. `inc`:
`Tokenize( fileName )` one level deeper; `i`: the file. -/
def directive (W : World) (inc : St → Str → Res St) (i : Nat) (st : St) (s : Str) : Res Left := do
  let args ← lexLine s.length (lineOf s)
  match st.files[i]? with
  | none => .assert
  | some f =>
    match args with
    | .kw .define :: .ident x :: ts =>
      if defined W st x then .err else pure ⟨{ st with macros := st.macros ++ [x] }, none, ts, skipLine s⟩
    | .kw .undef :: .ident x :: ts =>
      if x ∈ st.macros then pure ⟨{ st with macros := st.macros.erase x }, none, ts, skipLine s⟩ else .err
    | .kw .once :: ts =>
      if f.once then .assert else pure ⟨{ st with files := setOnce i st.files }, none, ts, skipLine s⟩
    | .kw .import_ :: .ident x :: ts =>
      match W.env x with
      | none => .err
      | some v =>
        if (importVar st x (W.hash v)).1 then
          pure ⟨{ (importVar st x (W.hash v)).2 with
            toks := st.toks ++ [.var ('.' :: x), .op .assign, .str (escape v)] }, none, ts, skipLine s⟩
        else .err
    | .kw .include_ :: .str x :: ts => do
      let st ← inc st (W.expand f.name x)
      pure ⟨st, none, ts, skipLine s⟩
    | .kw .if_ :: ts => do
      let r ← ifExpr W f.name true st ts
      let b ← toEnd true ((skipLine s).length + 1) 1 (skipLine s)
      let c ← branches W f.name s.length r.2.2 r.1 (if r.1 then some b.1 else none) b.2.1 b.2.2
      pure ⟨c.2.2, c.1, r.2.1, c.2.1⟩
    | _ => .err

/-- `Tokenize( file, pos, end )`, tokenizer:260-448 -/
def range (W : World) (inc : St → Str → Res St) (i : Nat) : Nat → St → Str → Res St
  | _, st, [] => .ok st
  | 0, _, _ :: _ => .fuel
  | n + 1, st, c :: s =>
    match lex c s with
    | .skip r => range W inc i n st r
    | .tok t r => range W inc i n { st with toks := st.toks ++ [t] } r
    | .bad => .err
    | .assert => .assert
    | .hash r => do
      let l ← directive W inc i st r
      match l.blk with
      | none => if l.args = [] then range W inc i n l.st l.rest else .err
      | some b => do
        let st ← range W inc i n l.st b
        if l.args = [] then range W inc i n st l.rest else .err

/-! ### files -/

/-- the file of a name among those seen, tokenizer:180-196 -/
def findFile (W : World) (x : Str) : List File → Option (Nat × File)
  | [] => none
  | f :: fs => if W.same f.name x then some (0, f) else (findFile W x fs).map fun p => (p.1 + 1, p.2)

/-- `Tokenize( fileName )`, tokenizer:167-217. `inc`: the same one level deeper -/
def readFile (W : World) (inc : St → Str → Res St) (st : St) (x : Str) : Res St :=
  match findFile W (W.clean x) st.files with
  | some (i, f) => if f.once then .ok st else range W inc i f.text.length st f.text
  | none =>
    match W.load (W.clean x) with
    | none => .err
    | some t => range W inc st.files.length t.length { st with files := st.files ++ [⟨W.clean x, t, false⟩] } t

/-- the same with `k` levels of `#include` allowed in it, tokenizer:1246-1251 -/
def tokFile (W : World) : Nat → St → Str → Res St
  | 0 => readFile W (fun _ _ => .err)
  | k + 1 => readFile W (tokFile W k)

/-- `TokenizeFromFile`, tokenizer:151-165 -/
def tokenize (W : World) (x : Str) : Res St := do
  let st ← tokFile W 127 ⟨[], [], [], [], []⟩ x
  pure { st with toks := st.toks ++ [.eof] }

end Verif.Bff.Lex
