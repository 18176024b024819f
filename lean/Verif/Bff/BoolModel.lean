import Verif.Bff.Token
/-
Conditions of `If( ... )`: Code/Tools/FBuild/FBuildCore/BFF/BFFBooleanExpParser.cpp.

`look` gives the value of a variable token (`GetVar`, lines 48-79), or none if it is unknown.
A token range is the list of its remaining tokens. The token behind the range is the closing `)` of the header
(BFFParser.cpp:459-474, 758-776): it is what `GetCurrent` gives at the end of the range.
-/
namespace Verif.Bff.BoolExp

/-- `BFFTokenRange::GetCurrent`, BFFTokenRange.h:30, for the header of `If` -/
def cur (ts : List Tok) : Tok := ts.headD (.brace .rr)

/-- `BFFTokenRange::operator++`, BFFTokenRange.h:34-38 -/
def next : List Tok → Res (List Tok)
  | [] => .assert
  | _ :: ts => .ok ts

/-- `BoolOperator`, lines 28-44 -/
inductive BOp | in_ | notIn | eq | ne | lt | le | gt | ge | and | or
  deriving DecidableEq, Repr

/-- `Operand`, lines 243-288: none for an unknown variable, `some none` for a token that is no operand at all -/
def operand (look : Str → Option Val) : Tok → Option (Option Val)
  | .var s => (look s).map some
  | .bool b => some (some (.bool b))
  | .num i => some (some (.int i))
  | .str s => some (some (.str s))
  | _ => some none

/-- `OperandOf<Bool>`, lines 302-341 -/
def boolOf (look : Str → Option Val) (t : Tok) : Res Bool :=
  match operand look t with
  | some (some (.bool b)) => .ok b
  | _ => .err

/-- `OperandOf<Number>`, lines 302-341 -/
def intOf (look : Str → Option Val) (t : Tok) : Res Int :=
  match operand look t with
  | some (some (.int b)) => .ok b
  | _ => .err

/-- `OperandOf<String>`, lines 302-341 -/
def strOf (look : Str → Option Val) (t : Tok) : Res Str :=
  match operand look t with
  | some (some (.str b)) => .ok b
  | _ => .err

/-- `OperandOf<ArrayOfString>`, lines 302-341 -/
def strsOf (look : Str → Option Val) (t : Tok) : Res (List Str) :=
  match operand look t with
  | some (some (.strs b)) => .ok b
  | _ => .err

/-- `sBoolOperators`, lines 291-298 -/
def boolOps : BOp → Bool
  | .eq | .ne | .and | .or => true
  | _ => false

/-- `sIntOperators`, lines 376-385 -/
def intOps : BOp → Bool
  | .eq | .ne | .lt | .le | .gt | .ge => true
  | _ => false

/-- `sStringOperators`, lines 421-432 -/
def strOps : BOp → Bool
  | .eq | .ne | .lt | .le | .gt | .ge | .in_ | .notIn => true
  | _ => false

/-- `CompareBools`, lines 345-373 -/
def compareBools (l r : Bool) : BOp → Res Bool
  | .eq => .ok (l == r)
  | .ne => .ok (l != r)
  | .and => .ok (l && r)
  | .or => .ok (l || r)
  | _ => .err

/-- `CompareInts`, lines 389-418 -/
def compareInts (l r : Int) : BOp → Res Bool
  | .eq => .ok (l == r)
  | .ne => .ok (l != r)
  | .lt => .ok (decide (l < r))
  | .le => .ok (decide (l < r) || l == r)
  | .gt => .ok (decide (l > r))
  | .ge => .ok (decide (l > r) || l == r)
  | _ => .err

/-- `AString::Compare` (`strcmp`), Code/Core/Strings/AString.cpp:174-177, for strings without NUL -/
def strLt : Str → Str → Bool
  | [], [] => false
  | x :: a, y :: b => if x = y then strLt a b else decide (x.toNat < y.toNat)
  | [], _ :: _ => true
  | _ :: _, [] => false

/-- `CompareStrings`, lines 436-469 -/
def compareStrs (l r : Str) : BOp → Res Bool
  | .eq => .ok (l == r)
  | .ne => .ok (l != r)
  | .lt => .ok (strLt l r)
  | .le => .ok (strLt l r || l == r)
  | .gt => .ok (strLt r l)
  | .ge => .ok (strLt r l || l == r)
  | .in_ | .notIn => .assert
  | _ => .err

/-- `IsExpEnd`, lines 479-486 -/
def isEnd (ends : Bool) (ts : List Tok) : Bool := ts.isEmpty || (ends && (cur ts).is .rr)

/-- the operator at the current token, lines 521-572; `not` needs another token -/
def opOf : Tok → Option BOp
  | .kw .in_ => some .in_
  | .op .eq => some .eq
  | .op .ne => some .ne
  | .op .le => some .le
  | .op .lt => some .lt
  | .op .ge => some .ge
  | .op .gt => some .gt
  | .op .and => some .and
  | .op .or => some .or
  | _ => none

/-- `ParseOperator`, lines 512-602 -/
def parseOp (supported : BOp → Bool) (ts : List Tok) : Res (BOp × List Tok) := do
  let (op, ts) ←
    if cur ts = .kw .not then do
      let ts ← next ts
      pure (if cur ts = .kw .in_ then some BOp.notIn else none, ts)
    else
      pure (opOf (cur ts), ts)
  match op with
  | none => .err
  | some o =>
    if supported o then do
      let ts ← next ts
      pure (o, ts)
    else .err

/-- `ParseStringInArray`, lines 614-640 -/
def parseStrIn (look : Str → Option Val) (l : Str) (op : BOp) (ts : List Tok) : Res (Bool × List Tok) := do
  let rest ← next ts
  let r ← strsOf look (cur ts)
  pure (if op = .notIn then ! r.contains l else r.contains l, rest)

/-- `ParseStringArrayInArray`, lines 651-698 -/
def parseStrsIn (look : Str → Option Val) (l : List Str) (ts : List Tok) : Res (Bool × List Tok) := do
  let (op, ts) ← parseOp (fun _ => true) ts
  if op = .in_ ∨ op = .notIn then do
    let rest ← next ts
    let r ← strsOf look (cur ts)
    let found := l.any fun s => r.contains s
    pure (if op = .notIn then ! found else found, rest)
  else .err

/-- `ParseIntComparisonExp`, lines 847-866 -/
def parseInt (look : Str → Option Val) (l : Int) (ts : List Tok) : Res (Bool × List Tok) := do
  let (op, ts) ← parseOp intOps ts
  let r ← intOf look (cur ts)
  let rest ← next ts
  let b ← compareInts l r op
  pure (b, rest)

/-- `ParseStringComparisonExp`, lines 879-915 -/
def parseStr (look : Str → Option Val) (l : Str) (ts : List Tok) : Res (Bool × List Tok) := do
  let (op, ts) ← parseOp strOps ts
  match cur ts with
  | .str _ | .var _ =>
    if op = .in_ ∨ op = .notIn then parseStrIn look l op ts
    else do
      let r ← strOf look (cur ts)
      let rest ← next ts
      let b ← compareStrs l r op
      pure (b, rest)
  | _ => .err

mutual

/-- `ParseUnaryBooleanOperand`, lines 709-746. The right side of `ParseBinaryBooleanExp`, lines 794-835, is the
same switch and uses this definition too. -/
def parseOperand (look : Str → Option Val) : Nat → List Tok → Res (Bool × List Tok)
  | 0, _ => .fuel
  | f + 1, ts =>
    match cur ts with
    | .bool _ | .var _ => do
      let b ← boolOf look (cur ts)
      let ts ← next ts
      pure (b, ts)
    | .op _ => parseNot look f ts
    | .brace .rl | .brace .rr => parseSub look f ts
    | _ => .err

/-- `ParseUnaryBooleanExp`, lines 757-773 -/
def parseNot (look : Str → Option Val) : Nat → List Tok → Res (Bool × List Tok)
  | 0, _ => .fuel
  | f + 1, ts =>
    if cur ts = .op .not then do
      let ts ← next ts
      let (b, ts) ← parseOperand look f ts
      pure (! b, ts)
    else .err

/-- `ParseSubBooleanExp`, lines 923-939 -/
def parseSub (look : Str → Option Val) : Nat → List Tok → Res (Bool × List Tok)
  | 0, _ => .fuel
  | f + 1, ts =>
    if (cur ts).is .rl = false then .assert
    else do
      let ts ← next ts
      let (b, ts) ← parseExp look f true ts
      if (cur ts).is .rr = false then .err
      else do
        let ts ← next ts
        pure (b, ts)

/-- the loops of `ParseBooleanExp`, lines 980-987, 1033-1039, 1055-1061, with `ParseBinaryBooleanExp`,
lines 785-837, as their body -/
def parseRest (look : Str → Option Val) : Nat → Bool → Bool → List Tok → Res (Bool × List Tok)
  | 0, _, _, _ => .fuel
  | f + 1, ends, l, ts =>
    if isEnd ends ts then pure (l, ts)
    else do
      let (op, ts) ← parseOp boolOps ts
      let (r, ts) ← parseOperand look f ts
      let b ← compareBools l r op
      parseRest look f ends b ts

/-- `ParseBooleanExp`, lines 958-1073 -/
def parseExp (look : Str → Option Val) : Nat → Bool → List Tok → Res (Bool × List Tok)
  | 0, _, _ => .fuel
  | f + 1, ends, ts =>
    match cur ts with
    | .var _ | .bool _ | .num _ | .str _ =>
      match operand look (cur ts) with
      | none => .err
      | some v => do
        let ts ← next ts
        match v with
        | some (.bool b) => parseRest look f ends b ts
        | some (.int i) => do
          let (b, ts) ← parseInt look i ts
          if isEnd ends ts then pure (b, ts) else .err
        | some (.str s) => do
          let (b, ts) ← parseStr look s ts
          if isEnd ends ts then pure (b, ts) else .err
        | some (.strs l) => do
          let (b, ts) ← parseStrsIn look l ts
          if isEnd ends ts then pure (b, ts) else .err
        | _ => .err
    | .op _ => do
      let (b, ts) ← parseNot look f ts
      parseRest look f ends b ts
    | .brace .rl | .brace .rr => do
      let (b, ts) ← parseSub look f ts
      parseRest look f true b ts
    | _ => .err

end

/-- `BFFBooleanExpParser::Parse`, lines 1078-1082 -/
def parse (look : Str → Option Val) (ts : List Tok) : Res Bool := do
  let (b, _) ← parseExp look (4 * ts.length + 8) false ts
  pure b

end Verif.Bff.BoolExp
