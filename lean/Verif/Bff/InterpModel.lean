import Verif.Bff.BoolModel
import Verif.Str.TextModel
/-
Evaluation of build files: Code/Tools/FBuild/FBuildCore/BFF/BFFParser.cpp ("parser" below), BFFStackFrame.cpp,
BFFVariable.cpp, BFFUserFunctions.cpp and Functions/FunctionIf.cpp, FunctionForEach.cpp, FunctionUsing.cpp,
FunctionPrint.cpp, FunctionError.cpp, Function.cpp.

Left out: source positions, the texts of error messages, and the built-in variables (`_CURRENT_BFF_DIR_` and so on,
parser:1642-1721), which the base frame of a state may have. What a function such as `ObjectList` does with the
variables it can see (`Commit`) is an event with these variables; whether it succeeds is a parameter.

Two assertions are read as release builds behave: that a name in `$...$` does not begin with a dot
(BFFStackFrame.cpp:374, 388), and that a quoted variable name is not empty (parser:217).
-/
namespace Verif.Bff.Interp

/-- why an assertion fails (or the behaviour is undefined) -/
inductive Why
  /-- a frozen variable is written, or one that is not frozen is unfrozen -/
  | frozen
  /-- a variable is frozen more often than its counter can tell -/
  | count
  /-- no bracket where one is expected, or a closing bracket that does not match -/
  | brace
  /-- the end of a header is passed, or a header has a `^` where only `.` makes sense -/
  | header
  /-- a variable is read as something it is not -/
  | type
  /-- signed overflow -/
  | overflow
  /-- inside a condition -/
  | cond
  /-- tokens after the end of the file -/
  | eof
  /-- a dangling pointer -/
  | dangling
  deriving DecidableEq, Repr

/-- outcome of evaluation. `fuel`: the bound of the model's recursion was hit (shown not to happen). -/
inductive Out (α : Type)
  | ok (a : α)
  | err
  | assert (w : Why)
  | fuel

def Out.bind {α β : Type} : Out α → (α → Out β) → Out β
  | .ok a, f => f a
  | .err, _ => .err
  | .assert w, _ => .assert w
  | .fuel, _ => .fuel

instance : Monad Out where
  pure := .ok
  bind := .bind

@[simp] theorem Out.bind_ok {α β : Type} (a : α) (f : α → Out β) : ((Out.ok a : Out α) >>= f) = f a := rfl
@[simp] theorem Out.bind_err {α β : Type} (f : α → Out β) : ((Out.err : Out α) >>= f) = .err := rfl
@[simp] theorem Out.bind_assert {α β : Type} (w : Why) (f : α → Out β) : ((Out.assert w : Out α) >>= f) = .assert w := rfl
@[simp] theorem Out.bind_fuel {α β : Type} (f : α → Out β) : ((Out.fuel : Out α) >>= f) = .fuel := rfl
@[simp] theorem Out.pure_eq {α : Type} (a : α) : (pure a : Out α) = .ok a := rfl

theorem Out.bind_eq_ok {α β : Type} {x : Out α} {f : α → Out β} {b : β} :
    (x >>= f) = .ok b ↔ ∃ a, x = .ok a ∧ f a = .ok b := by
  cases x <;> simp

/-! ### variables and frames -/

/-- `BFFVariable`, BFFVariable.h:30-150 -/
structure Var where
  name : Str
  val : Val
  /-- `m_FreezeCount` -/
  frozen : Nat

/-- `BFFStackFrame`, BFFStackFrame.h:19-115 -/
structure Frame where
  vars : List Var
  /-- `m_LastVariableSeen`, and `m_LastVariableSeenFrame` as the distance from this frame, none for a null pointer -/
  last : Option (Str × Option Nat)
  /-- whether `m_Next` is the frame below (else it is null) -/
  linked : Bool

/-- a variable of this frame, BFFStackFrame.cpp:421-452 -/
def Frame.find (f : Frame) (n : Str) : Option Var := f.vars.find? (fun v => v.name = n)

/-- `GetVariableRecurse( name )`, BFFStackFrame.cpp:309-328: position of the frame, and the variable -/
def lookup (n : Str) : List Frame → Option (Nat × Var)
  | [] => none
  | f :: fs =>
    match f.find n with
    | some v => some (0, v)
    | none => if f.linked then (lookup n fs).map fun p => (p.1 + 1, p.2) else none

/-- `GetVarAny`, BFFStackFrame.cpp:372-417: the first character of the variable's name is not compared -/
def lookupAny (n : Str) : List Frame → Option Var
  | [] => none
  | f :: fs =>
    match f.vars.find? (fun v => v.name.length = n.length + 1 ∧ v.name.drop 1 = n) with
    | some v => some v
    | none => if f.linked then lookupAny n fs else none

/-- `GetParentDeclaration( name, nullptr, variable )`, BFFStackFrame.cpp:348-368 -/
def parentDecl (n : Str) : List Frame → Option (Nat × Var)
  | [] => none
  | f :: fs => if f.linked then (lookup n fs).map fun p => (p.1 + 1, p.2) else none

/-- `GetParentDeclaration( name, GetCurrent()->GetParent(), variable )`, BFFStackFrame.cpp:348-368 -/
def parentDecl2 (n : Str) : List Frame → Option (Nat × Var)
  | [] => none
  | f :: fs => if f.linked then (parentDecl n fs).map fun p => (p.1 + 1, p.2) else none

/-- `GetVar( name, frame )`, BFFStackFrame.cpp:290-305 -/
def getVar (n : Str) (frame : Option Nat) (s : List Frame) : Option (Nat × Var) :=
  match frame with
  | none => lookup n s
  | some i => ((s[i]?).bind (·.find n)).map fun v => (i, v)

/-- the loop of `SetVar...`: the value of an existing variable is replaced, a new one is appended,
BFFStackFrame.cpp:70-218; `SetValue...` asserts that the variable is not frozen, BFFVariable.cpp:161-266 -/
def setIn (n : Str) (x : Val) : List Var → Out (List Var)
  | [] => .ok [⟨n, x, 0⟩]
  | v :: vs =>
    if v.name = n then
      if v.frozen = 0 then .ok ({ v with val := x } :: vs) else .assert .frozen
    else do
      let vs ← setIn n x vs
      pure (v :: vs)

/-- `SetVar...( name, value, frame )` for the frame at a position of the stack, BFFStackFrame.cpp:70-253.
`ConcatVars`, lines 258-278, puts a new variable in the place of the old one and does not assert that this one is not
frozen; it is called for structs only, which never are. -/
def setAt (n : Str) (x : Val) : Nat → List Frame → Out (List Frame)
  | _, [] => .assert .dangling
  | 0, f :: fs => do
    let vs ← setIn n x f.vars
    pure ({ f with vars := vs } :: fs)
  | i + 1, f :: fs => do
    let fs ← setAt n x i fs
    pure (f :: fs)

/-- `Freeze`, BFFVariable.h:80 (the counter is an `uint8_t`) -/
def freezeIn (n : Str) : List Var → Out (List Var)
  | [] => .assert .dangling
  | v :: vs =>
    if v.name = n then
      if v.frozen < 255 then .ok ({ v with frozen := v.frozen + 1 } :: vs) else .assert .count
    else do
      let vs ← freezeIn n vs
      pure (v :: vs)

/-- `Unfreeze`, BFFVariable.h:81-85 -/
def unfreezeIn (n : Str) : List Var → Out (List Var)
  | [] => .assert .dangling
  | v :: vs =>
    if v.name = n then
      if v.frozen ≠ 0 then .ok ({ v with frozen := v.frozen - 1 } :: vs) else .assert .frozen
    else do
      let vs ← unfreezeIn n vs
      pure (v :: vs)

/-- apply one of the two to a variable of the frame at a position -/
def onVars (g : List Var → Out (List Var)) : Nat → List Frame → Out (List Frame)
  | _, [] => .assert .dangling
  | 0, f :: fs => do
    let vs ← g f.vars
    pure ({ f with vars := vs } :: fs)
  | i + 1, f :: fs => do
    let fs ← onVars g i fs
    pure (f :: fs)

/-! ### state -/

/-- `BFFUserFunction`, BFFUserFunctions.h -/
structure UFunc where
  name : Str
  args : List Str
  body : List Tok

/-- what evaluation does for the rest of the program -/
inductive Event
  /-- `Commit` of a function that makes nodes: its name, its alias and the variables it can see -/
  | commit (fn : Str) (alias : Option Str) (env : List (List (Str × Val)))
  /-- a line printed -/
  | line (s : Str)
  /-- a variable printed -/
  | dump (n : Str) (v : Val)

structure St where
  /-- the frames from `s_StackHead` on. Below a frame that is not linked are the frames of the caller. -/
  stack : List Frame
  funcs : List UFunc
  /-- functions that may be used once only and were -/
  seen : List Str
  log : List Event

/-- `FunctionX` of Functions/, Function.cpp:94-121 -/
inductive Kind | if_ | forEach | using_ | print | error | node
  deriving DecidableEq

structure FInfo where
  kind : Kind
  accepts : Bool
  needsHeader : Bool
  needsBody : Bool
  unique : Bool

/-- `Function::Find` with `AcceptsHeader`, `NeedsHeader`, `NeedsBody`, `IsUnique`, Functions/*.cpp -/
def findFn (n : Str) : Option FInfo :=
  match String.ofList n with
  | "If" => some ⟨.if_, true, true, true, false⟩
  | "ForEach" => some ⟨.forEach, true, true, true, false⟩
  | "Using" => some ⟨.using_, true, true, false, false⟩
  | "Print" => some ⟨.print, true, true, false, false⟩
  | "Error" => some ⟨.error, true, true, false, false⟩
  | "Settings" => some ⟨.node, false, false, true, true⟩
  | "Alias" | "Compiler" | "CopyDir" | "ObjectList" | "RemoveDir" | "Unity" => some ⟨.node, true, true, true, false⟩
  | "Copy" | "CSAssembly" | "DLL" | "Exec" | "Executable" | "Library" | "ListDependencies" | "Test" | "TextFile"
  | "VCXProject" | "VSProjectExternal" | "VSSolution" | "XCodeProject" => some ⟨.node, true, false, true, false⟩
  | _ => none

/-- the variables that can be seen, innermost frame first -/
def visible : List Frame → List (List (Str × Val))
  | [] => []
  | f :: fs => f.vars.map (fun v => (v.name, v.val)) :: if f.linked then visible fs else []

/-! ### names and strings -/

/-- the text of a variable in a string, parser:1606-1626 -/
def showVal : Val → Option Str
  | .bool b => some (if b then "true" else "false").toList
  | .int i => some (toString i).toList
  | .str s => some s
  | _ => none

/-- the loop of `PerformVariableSubstitutions`, parser:1567-1635. `nm`: the name since the last `$`, reversed. -/
def subst (s : List Frame) : Option Str → Str → Out Str
  | none, [] => .ok []
  | some _, [] => .err
  | none, '^' :: [] => .ok []
  | none, '^' :: c :: r => do
    let o ← subst s none r
    pure (c :: o)
  | none, '$' :: r => subst s (some []) r
  | none, c :: r => do
    let o ← subst s none r
    pure (c :: o)
  | some nm, c :: r =>
    if c = '$' then
      if nm = [] then .err
      else match lookupAny nm.reverse s with
        | none => .err
        | some v => match showVal v.val with
          | none => .err
          | some x => do
            let o ← subst s none r
            pure (x ++ o)
    else subst s (some (c :: nm)) r

/-- `ParseVariableName`, parser:199-242: the name, and whether it is one of a parent scope -/
def varName (s : List Frame) : Str → Out (Str × Bool)
  | [] => .assert .type
  | c :: r =>
    if r.head? = some '"' ∨ r.head? = some '\'' then do
      let v ← subst s none r
      pure ('.' :: (v.drop 1).dropLast, c = '^')
    else .ok ('.' :: r, c = '^')

/-! ### brackets -/

/-- `FindBracedRangeRecurse`, parser:780-811. `stk`: the closing brackets looked for, innermost first. Result: what is
inside, and what follows. -/
def scan : Br → List Br → List Tok → List Tok → Out (List Tok × List Tok)
  | _, _, _, [] => .err
  | b, stk, acc, t :: ts =>
    match t with
    | .brace c =>
      if c = b then
        match stk with
        | [] => .ok (acc.reverse, ts)
        | d :: stk => scan d stk (t :: acc) ts
      else
        match c.close with
        | some e => scan e (b :: stk) (t :: acc) ts
        | none => .assert .brace
    | _ => scan b stk (t :: acc) ts

/-- `FindBracedRange`, parser:758-776 -/
def braced : List Tok → Out (List Tok × List Tok)
  | .brace b :: ts =>
    match b.close with
    | some e => scan e [] [] ts
    | none => .assert .brace
  | _ => .assert .brace

/-! ### values -/

def Val.isStrs : Val → Bool
  | .strs _ => true
  | _ => false

/-- an empty array of either kind -/
def Val.isEmptyArr : Val → Bool
  | .strs [] => true
  | .structs [] => true
  | _ => false

/-- `int32_t` arithmetic -/
def int32 (i : Int) : Out Int := if -2147483648 ≤ i ∧ i ≤ 2147483647 then .ok i else .assert .overflow

/-- `AString::Replace( from, "" )`, all occurrences -/
def remove (frm s : Str) : Str := ((Verif.Str.replace frm [] 0 s).map (·.1)).getD s

/-- `GetMemberByName`, BFFVariable.cpp:271-285 -/
def member (n : Str) (ms : List (Str × Val)) : Option Val := (ms.find? fun m => m.1 = n).map (·.2)

/-- the second loop over members, BFFVariable.cpp:446-457 -/
def addNew (l : List (Str × Val)) : List (Str × Val) → List (Str × Val)
  | [] => l
  | m :: ms => if (member m.1 l).isSome then addNew l ms else addNew (l ++ [m]) ms

mutual
/-- `ConcatVarsRecurse`, BFFVariable.cpp:289-467 -/
def concat : Val → Val → Out Val
  | .str a, .str b => .ok (.str (a ++ b))
  | .strs a, .strs b => .ok (.strs (a ++ b))
  | .structs a, .structs b => .ok (.structs (a ++ b))
  | .int a, .int b => do
    let i ← int32 (a + b)
    pure (.int i)
  | .bool a, .bool b => .ok (.bool (a || b))
  | .struct a, .struct b => do
    let l ← concatMs a b
    pure (.struct (addNew l b))
  | .strs a, .str b => .ok (.strs (a ++ [b]))
  | .structs [], .str _ => .assert .type
  | .structs a, .struct b => .ok (.structs (a ++ [b]))
  | .strs [], .struct b => .ok (.structs [b])
  | .strs a, .structs [] => .ok (.strs a)
  | .structs a, .strs [] => .ok (.structs a)
  | .strs [], .structs b => .ok (.structs b)
  | .structs [], .strs b => .ok (.strs b)
  | _, _ => .err
/-- the first loop over members, BFFVariable.cpp:421-444 -/
def concatMs : List (Str × Val) → List (Str × Val) → Out (List (Str × Val))
  | [], _ => .ok []
  | (n, v) :: a, b =>
    match member n b with
    | some w => do
      let x ← concat v w
      let l ← concatMs a b
      pure ((n, x) :: l)
    | none => do
      let l ← concatMs a b
      pure ((n, v) :: l)
end

/-! ### assignments -/

/-- `StoreVariableString`, parser:815-921: the new value -/
def storeString (op : Op) (x : Str) : Option Val → Out Val
  | none => if op = .assign then .ok (.str x) else .err
  | some (.str s) => .ok (.str (match op with
    | .plus => s ++ x
    | .minus => remove x s
    | _ => x))
  | some (.strs l) => .ok (.strs (match op with
    | .plus => l ++ [x]
    | .minus => l.filter (· ≠ x)
    | _ => [x]))
  | some (.structs []) => if op = .assign then .ok (.strs [x]) else .assert .type
  | some _ => .err

/-- `varType` in `StoreVariableArray`: `VAR_ANY` or one of the arrays -/
inductive Ty | any | strs | structs
  deriving DecidableEq

/-- `varType`, `values`, `structValues` of `StoreVariableArray` -/
structure Acc where
  ty : Ty
  vals : List Str
  svals : List (List (Str × Val))

/-- the source of an element or argument, parser:1048-1072, 715-741 -/
def srcVar (s : List Frame) (t : Str) : Out Val := do
  let (n, parent) ← varName s t
  match (if parent then parentDecl n s else lookup n s) with
  | none => .err
  | some p => pure p.2.val

/-- one element, parser:988-1127 -/
def item (s : List Frame) (op : Op) (a : Acc) : Tok → Out Acc
  | .str x =>
    if a.ty = .structs then .err
    else if op = .minus then .err
    else do
      let x ← subst s none x
      pure { a with ty := .strs, vals := a.vals ++ [x] }
  | .var t => do
    let v ← srcVar s t
    if op = .minus then .err
    else match v with
      | .strs [] => pure a
      | .structs [] => pure a
      | .str x => if a.ty = .structs then .err else pure { a with ty := .strs, vals := a.vals ++ [x] }
      | .strs l => if a.ty = .structs then .err else pure { a with ty := .strs, vals := a.vals ++ l }
      | .struct m => if a.ty = .strs then .err else pure { a with ty := .structs, svals := a.svals ++ [m] }
      | .structs l => if a.ty = .strs then .err else pure { a with ty := .structs, svals := a.svals ++ l }
      | _ => .err
  | _ => .err

/-- the loop over elements with optional commas, parser:985-1143 -/
def items (s : List Frame) (op : Op) : Acc → List Tok → Out Acc
  | a, [] => .ok a
  | a, t :: .comma :: ts => do
    let a ← item s op a t
    items s op a ts
  | a, t :: ts => do
    let a ← item s op a t
    items s op a ts

/-- where `StoreVariableArray` starts, parser:936-978 -/
def acc0 (op : Op) : Option Val → Out Acc
  | none => if op = .assign then .ok ⟨.any, [], []⟩ else .err
  | some (.strs l) => .ok ⟨if l = [] then .any else .strs, if op = .assign then [] else l, []⟩
  | some (.structs l) => .ok ⟨if l.isEmpty then .any else .structs, [], if op = .assign then [] else l⟩
  | some _ => .err

/-- `StoreVariableArray`, parser:927-1174: the new value -/
def storeArray (s : List Frame) (op : Op) (ts : List Tok) (old : Option Val) : Out Val := do
  let a ← acc0 op old
  let a ← items s op a ts
  if a.vals ≠ [] ∧ a.svals.isEmpty = false then .assert .type
  else match a.ty with
    | .strs => pure (.strs a.vals)
    | .structs => pure (.structs a.svals)
    | .any => match old with
      | some (.structs _) => pure (.structs a.svals)
      | _ => pure (.strs a.vals)

/-- the new value of an `int` -/
def arith (op : Op) (a b : Int) : Out Int :=
  match op with
  | .plus => int32 (a + b)
  | .minus => int32 (a - b)
  | _ => .ok b

/-- an `int` on the right, parser:358-395 -/
def storeInt (op : Op) (i : Int) : Option Val → Out Val
  | none => if op = .assign then .ok (.int i) else .err
  | some (.int j) => do
    let k ← arith op j i
    pure (.int k)
  | some _ => .err

/-- a `bool` on the right, parser:396-423 -/
def storeBool (op : Op) (b : Bool) : Option Val → Out Val
  | none => if op = .assign then .ok (.bool b) else .err
  | some (.bool _) => if op = .assign then .ok (.bool b) else .err
  | some _ => .err

/-- the conversions and operations of `StoreVariableToVariable`, parser:1309-1545 -/
def combine (op : Op) : Option Val → Val → Out Val
  | none, v => if op = .assign then .ok v else .err
  | some (.strs l), .str x => .ok (.strs (match op with
    | .plus => l ++ [x]
    | .minus => l.filter (· ≠ x)
    | _ => [x]))
  | some (.structs []), .str _ => .assert .type
  | some (.structs l), .struct m => match op with
    | .minus => .err
    | .plus => .ok (.structs (l ++ [m]))
    | _ => .ok (.structs [m])
  | some (.strs []), .struct m => if op = .minus then .err else .ok (.structs [m])
  | some (.strs l), .structs [] => match op with
    | .minus => .err
    | .plus => .ok (.strs l)
    | _ => .ok (.strs [])
  | some (.structs l), .strs [] => match op with
    | .minus => .err
    | .plus => .ok (.structs l)
    | _ => .ok (.structs [])
  | some (.structs []), .strs l => if op = .minus then .err else .ok (.strs l)
  | some (.strs []), .structs l => if op = .minus then .err else .ok (.structs l)
  | some (.str a), .str b => .ok (.str (match op with
    | .plus => a ++ b
    | .minus => remove b a
    | _ => b))
  | some (.strs a), .strs b => match op with
    | .minus => .err
    | .plus => .ok (.strs (a ++ b))
    | _ => .ok (.strs b)
  | some (.structs a), .structs b => match op with
    | .minus => .err
    | .plus => .ok (.structs (a ++ b))
    | _ => .ok (.structs b)
  | some (.int a), .int b => do
    let k ← arith op a b
    pure (.int k)
  | some (.bool _), .bool b => if op = .assign then .ok (.bool b) else .err
  | some (.struct a), .struct b => match op with
    | .minus => .err
    | .plus => concat (.struct a) (.struct b)
    | _ => .ok (.struct b)
  | some _, _ => .err

/-- `varDst == varSrc`, parser:1292 -/
def sameVar (dst : Option (Nat × Var)) (j : Nat) (v : Var) : Bool :=
  match dst with
  | some (i, w) => decide (i = j ∧ w.name = v.name)
  | none => false

/-- `StoreVariableToVariable`, parser:1245-1546 -/
def storeVar (s : List Frame) (n : Str) (t : Str) (op : Op) (frame : Option Nat) : Out (List Frame) := do
  let (sn, parent) ← varName s t
  match (if parent then parentDecl sn s else lookup sn s) with
  | none => .err
  | some (j, v) =>
    let dst := getVar n frame s
    let here : Bool := ((s[frame.getD 0]?).bind (·.find n)).isSome
    if op = .assign ∧ sameVar dst j v ∧ here then pure s
    else do
      let x ← combine op (dst.map (·.2.val)) v.val
      setAt n x (frame.getD 0) s

/-! ### statements. `rec` is `Parse` for what is inside of brackets. -/

abbrev Rec := St → List Tok → Out St

def St.set (st : St) (s : List Frame) : St := { st with stack := s }

/-- the constructor of a frame, BFFStackFrame.cpp:21-30 -/
def push (st : St) : St := st.set (⟨[], none, true⟩ :: st.stack)

/-- the destructor, BFFStackFrame.cpp:34-57: linked or not, the frame below becomes the head -/
def pop (st : St) : St := st.set (st.stack.drop 1)

def cur (ts : List Tok) (e : Tok) : Tok := ts.headD e

/-- `StoreVariableStruct`, parser:1178-1222 -/
def storeStruct (rec : Rec) (st : St) (n : Str) (body : List Tok) (op : Op) (frame : Option Nat) : Out St :=
  if op ≠ .assign then .err
  else
    let old := (getVar n frame st.stack).map (·.2.val)
    match old with
    | none | some (.struct _) => do
      let st ← rec (push st) body
      match st.stack with
      | [] => .assert .dangling
      | f :: fs => do
        let s ← setAt n (.struct (f.vars.map fun v => (v.name, v.val))) (frame.getD 0) fs
        pure (st.set s)
    | _ => .err

/-- `ParseVariableDeclaration`, parser:311-429, from the operator on. `e`: the token behind the range. -/
def declare (rec : Rec) (st : St) (n : Str) (frame : Option Nat) (ts : List Tok) (e : Tok) : Out (St × List Tok) :=
  match ts with
  | .op op :: ts =>
    if op = .assign ∨ op = .plus ∨ op = .minus then
      let old := (getVar n frame st.stack).map (·.2.val)
      let store (x : Out Val) (ts : List Tok) : Out (St × List Tok) := do
        let x ← x
        let s ← setAt n x (frame.getD 0) st.stack
        pure (st.set s, ts)
      match cur ts e with
      | .str x => store (do let x ← subst st.stack none x; storeString op x old) (ts.drop 1)
      | t =>
        if t.is .cl then do
          let (body, ts) ← braced ts
          store (storeArray st.stack op body old) ts
        else if t.is .sl then do
          let (body, ts) ← braced ts
          let st ← storeStruct rec st n body op frame
          pure (st, ts)
        else match t with
          | .num i => store (storeInt op i old) (ts.drop 1)
          | .bool b => store (storeBool op b old) (ts.drop 1)
          | .var v => do
            let s ← storeVar st.stack n v op frame
            pure (st.set s, ts.drop 1)
          | _ => .err
    else .err
  | _ => .err

/-- `SetLastVariableSeen`, BFFStackFrame.h:75-79 -/
def setLast (n : Str) (frame : Option Nat) : List Frame → List Frame
  | [] => []
  | f :: fs => { f with last := some (n, frame) } :: fs

/-- `ParseNamedVariableDeclaration`, parser:265-307 -/
def named (rec : Rec) (st : St) (v : Str) (ts : List Tok) (e : Tok) : Out (St × List Tok) := do
  let (n, parent) ← varName st.stack v
  if parent then
    match parentDecl n st.stack with
    | none => .err
    | some (i, w) =>
      if w.frozen ≠ 0 then .err
      else declare rec (st.set (setLast n (some i) st.stack)) n (some i) ts e
  else declare rec (st.set (setLast n none st.stack)) n none ts e

/-- `ParseUnnamedVariableModification`, parser:246-261 -/
def unnamed (rec : Rec) (st : St) (ts : List Tok) (e : Tok) : Out (St × List Tok) :=
  match st.stack with
  | [] => .assert .dangling
  | f :: _ =>
    match f.last with
    | none => .err
    | some (n, frame) => declare rec st n frame ts e

/-- `ParseUnnamedScope`, parser:510-531 -/
def scope (rec : Rec) (st : St) (ts : List Tok) : Out (St × List Tok) := do
  let (body, ts) ← braced ts
  let st ← rec (push st) body
  pure (pop st, ts)

/-! ### functions -/

/-- `GetVar` of conditions, BFFBooleanExpParser.cpp:48-79. Errors and unknown variables are the same to the caller. -/
def condVar (s : List Frame) (t : Str) : Option Val :=
  match varName s t with
  | .ok (n, parent) => (if parent then parentDecl2 n s else lookup n s).map (·.2.val)
  | _ => none

/-- `FunctionIf::ParseFunction`, FunctionIf.cpp:35-58 -/
def fnIf (rec : Rec) (st : St) (hdr body : List Tok) : Out St :=
  match BoolExp.parse (condVar st.stack) hdr with
  | .ok true => rec st body
  | .ok false => .ok st
  | .err => .err
  | .assert => .assert .cond
  | .fuel => .fuel

/-- one loop variable: its name, the position of the frame of the array, and the name of the array -/
structure Loop where
  local_ : Str
  frame : Nat
  arr : Str

/-- number of elements of an array -/
def arrLen : Val → Option Nat
  | .strs l => some l.length
  | .structs l => some l.length
  | _ => none

/-- element `i` of an array -/
def arrElem (i : Nat) : Val → Option Val
  | .strs l => l[i]?.map .str
  | .structs l => l[i]?.map .struct
  | _ => none

/-- one loop variable and the length of its array, FunctionForEach.cpp:54-151 -/
def loopVar (s : List Frame) (a : Str) (t : Tok) (b : Str) : Out (Loop × Nat) := do
  let (an, ap) ← varName s a
  if ap then .assert .header
  else if t ≠ .kw .in_ then .err
  else do
    let (bn, bp) ← varName s b
    match (if bp then parentDecl2 bn s else lookup bn s) with
    | none => .err
    | some (i, v) =>
      match arrLen v.val with
      | none => .err
      | some k => pure (⟨an, i, bn⟩, k)

/-- a loop variable that is not followed by `in` and a variable, FunctionForEach.cpp:54-97: the end of the header is
passed if nothing follows -/
def loopBad (s : List Frame) (a : Str) (ts : List Tok) : Out (List Loop × Option Nat) := do
  let (_, ap) ← varName s a
  if ap then .assert .header
  else match ts with
    | [] => .assert .header
    | [t] => if t = .kw .in_ then .assert .header else .err
    | _ => .err

/-- the first loop of `FunctionForEach::ParseFunction`, FunctionForEach.cpp:52-159: the loop variables, and the length
that all their arrays have (none if there are no loop variables). `n`: the length of those before. -/
def loops (s : List Frame) : Option Nat → List Tok → Out (List Loop × Option Nat)
  | n, [] => .ok ([], n)
  | n, .var a :: t :: .var b :: .comma :: ts => do
    let l ← loopVar s a t b
    if n.getD l.2 ≠ l.2 then .err
    else do
      let r ← loops s (some l.2) ts
      pure (l.1 :: r.1, r.2)
  | n, .var a :: t :: .var b :: ts => do
    let l ← loopVar s a t b
    if n.getD l.2 ≠ l.2 then .err
    else do
      let r ← loops s (some l.2) ts
      pure (l.1 :: r.1, r.2)
  | _, .var a :: ts => loopBad s a ts
  | _, _ => .err

/-- freeze or unfreeze the arrays, FunctionForEach.cpp:169-173, 207-211 -/
def onArrays (g : Str → List Var → Out (List Var)) : List Loop → List Frame → Out (List Frame)
  | [], s => .ok s
  | l :: ls, s => do
    let s ← onVars (g l.arr) l.frame s
    onArrays g ls s

/-- the loop variables of iteration `i`, FunctionForEach.cpp:180-194. The frame of the iteration is the head. -/
def bindLoops (i : Nat) : List Loop → List Frame → Out (List Frame)
  | [], s => .ok s
  | l :: ls, s =>
    match (s[l.frame + 1]?).bind (·.find l.arr) with
    | none => .assert .dangling
    | some v =>
      match arrElem i v.val with
      | none => .assert .type
      | some x => do
        let s ← setAt l.local_ x 0 s
        bindLoops i ls s

/-- the iterations, FunctionForEach.cpp:177-204 -/
def iterate (rec : Rec) (ls : List Loop) (body : List Tok) : List Nat → St → Out St
  | [], st => .ok st
  | i :: is, st => do
    let s ← bindLoops i ls (push st).stack
    let st ← rec (st.set s) body
    iterate rec ls body is (pop st)

/-- `FunctionForEach::ParseFunction`, FunctionForEach.cpp:39-214 -/
def fnForEach (rec : Rec) (st : St) (hdr body : List Tok) : Out St := do
  let (ls, n) ← loops st.stack none hdr
  if n.getD 0 = 0 then pure st
  else do
    let s ← onArrays freezeIn ls st.stack
    let st ← iterate rec ls body (List.range (n.getD 0)) (st.set s)
    let s ← onArrays unfreezeIn ls st.stack
    pure (st.set s)

/-- set the variables of a struct in the frame at a position -/
def setAll (i : Nat) : List (Str × Val) → List Frame → Out (List Frame)
  | [], s => .ok s
  | m :: ms, s => do
    let s ← setAt m.1 m.2 i s
    setAll i ms s

/-- the members in the order they are set, FunctionUsing.cpp:94-110: the first one with the name of the struct last -/
def usingOrder (n : Str) (ms : List (Str × Val)) : List (Str × Val) :=
  match ms.find? (fun m => m.1 = n) with
  | none => ms
  | some m => ms.eraseP (fun m => m.1 = n) ++ [m]

/-- `FunctionUsing::ParseFunction`, FunctionUsing.cpp:42-119 -/
def fnUsing (st : St) (hdr : List Tok) : Out St :=
  match hdr with
  | .var t :: _ => do
    let (n, parent) ← varName st.stack t
    match (if parent then parentDecl2 n st.stack else lookup n st.stack) with
    | none => .err
    | some (_, v) =>
      match v.val with
      | .struct ms => do
        let s ← setAll 1 (if parent then ms else usingOrder v.name ms) st.stack
        pure (st.set s)
      | _ => .err
  | _ => .err

/-- `FunctionPrint::ParseFunction`, FunctionPrint.cpp:46-107 -/
def fnPrint (st : St) (hdr : List Tok) : Out St :=
  match hdr with
  | .str x :: _ => do
    let x ← subst st.stack none x
    pure { st with log := st.log ++ [.line x] }
  | .var t :: _ => do
    let (n, parent) ← varName st.stack t
    match (if parent then parentDecl2 n st.stack else lookup n st.stack) with
    | none => .err
    | some (_, v) => pure { st with log := st.log ++ [.dump v.name v.val] }
  | _ => .err

/-- the name in the header of a function that makes nodes, Function.cpp:203-254 -/
def aliasTok (s : List Frame) : Tok → Out Str
  | .str x => if x = [] then .err else subst s none x
  | .var v => do
    let x ← srcVar s v
    match x with
    | .str x => if x = [] then .err else pure x
    | _ => .assert .type
  | _ => .err

/-- the header of a function that makes nodes, Function.cpp:182-262 -/
def alias_ (s : List Frame) (accepts needs : Bool) (hdr : List Tok) : Out (Option Str) :=
  if accepts = false then .ok none
  else match hdr with
    | [] => if needs then .err else .ok none
    | t :: ts => do
      let a ← aliasTok s t
      if ts = [] then pure (some a) else .err

/-- `Function::ParseFunction`, Function.cpp:174-307. `commit` says whether `Commit` and what follows succeed. -/
def fnNode (commit : List Event → Event → Bool) (rec : Rec) (st : St) (fn : Str) (fi : FInfo) (hdr body : List Tok) :
    Out St := do
  let a ← alias_ st.stack fi.accepts fi.needsHeader hdr
  let st ← rec st body
  let ev := Event.commit fn a (visible st.stack)
  if commit st.log ev then pure { st with log := st.log ++ [ev] } else .err

/-- the header of a function, parser:459-485: its tokens (none if there is none) and the rest -/
def header (fi : FInfo) (ts : List Tok) (e : Tok) : Out (List Tok × List Tok) :=
  if (cur ts e).is .rl then
    if fi.accepts = false then .err
    else do
      let (hdr, ts) ← braced ts
      if fi.needsHeader ∧ hdr = [] then .err else pure (hdr, ts)
  else if fi.needsHeader then .err
  else pure ([], ts)

/-- the body of a function, parser:487-504 -/
def body (fi : FInfo) (ts : List Tok) (e : Tok) : Out (List Tok × List Tok) :=
  if fi.needsBody then
    if (cur ts e).is .cl then braced ts else .err
  else pure ([], ts)

/-- `func->ParseFunction`, parser:501-505 -/
def dispatch (commit : List Event → Event → Bool) (rec : Rec) (st : St) (fn : Str) (fi : FInfo) (hdr bd : List Tok) :
    Out St :=
  match fi.kind with
  | .if_ => fnIf rec st hdr bd
  | .forEach => fnForEach rec st hdr bd
  | .using_ => fnUsing st hdr
  | .print => fnPrint st hdr
  | .error => .err
  | .node => fnNode commit rec st fn fi hdr bd

/-- `ParseFunction`, parser:433-506 -/
def function (commit : List Event → Event → Bool) (rec : Rec) (st : St) (fn : Str) (ts : List Tok) (e : Tok) :
    Out (St × List Tok) :=
  match findFn fn with
  | none => .err
  | some fi =>
    if fi.unique ∧ fn ∈ st.seen then .err
    else do
      let (hdr, ts) ← header fi ts e
      let (bd, ts) ← body fi ts e
      let st ← dispatch commit rec (push { st with seen := if fi.unique then fn :: st.seen else st.seen }) fn fi hdr bd
      pure (pop st, ts)

/-! ### user functions -/

/-- the parameters of a declaration, parser:565-598 -/
def params : List Str → List Tok → Out (List Str)
  | acc, [] => .ok acc
  | acc, .var a :: .comma :: ts => if a ∈ acc then .err else params (acc ++ [a]) ts
  | acc, .var a :: ts => if a ∈ acc then .err else params (acc ++ [a]) ts
  | _, _ => .err

def findUser (n : Str) (l : List UFunc) : Option UFunc := l.find? (fun u => u.name = n)

/-- `ParseUserFunctionDeclaration`, parser:535-618, after the keyword -/
def declareFn (st : St) (ts : List Tok) (e : Tok) : Out (St × List Tok) :=
  match ts with
  | .ident n :: ts =>
    if (findUser n st.funcs).isSome then .err
    else if (cur ts e).is .rl then do
      let (hdr, ts) ← braced ts
      let ps ← params [] hdr
      if (cur ts e).is .cl then do
        let (bd, ts) ← braced ts
        pure ({ st with funcs := st.funcs ++ [⟨n, ps, bd⟩] }, ts)
      else .err
    else .err
  | _ => .err

/-- the arguments of a call, parser:643-672 -/
def args : List Tok → Out (List Tok)
  | [] => .ok []
  | t :: .comma :: ts =>
    match t with
    | .str _ | .bool _ | .num _ | .var _ => do
      let l ← args ts
      pure (t :: l)
    | _ => .err
  | t :: ts =>
    match t with
    | .str _ | .bool _ | .num _ | .var _ => do
      let l ← args ts
      pure (t :: l)
    | _ => .err

/-- the value of an argument, parser:693-741. The frame of the function is the head already. -/
def argVal (s : List Frame) : Tok → Out Val
  | .str x => do
    let x ← subst s none x
    pure (.str x)
  | .bool b => .ok (.bool b)
  | .num i => .ok (.int i)
  | .var v => srcVar s v
  | _ => .assert .type

/-- push the arguments, parser:687-742 -/
def bindArgs : List (Str × Tok) → List Frame → Out (List Frame)
  | [], s => .ok s
  | (n, t) :: r, s => do
    let x ← argVal s t
    let s ← setAt n x 0 s
    bindArgs r s

/-- `DisconnectStackChain`, BFFStackFrame.cpp:61-66 -/
def disconnect : List Frame → List Frame
  | [] => []
  | f :: fs => { f with linked := false } :: fs

/-- `ParseUserFunctionCall`, parser:622-754, after the name -/
def call (rec : Rec) (st : St) (u : UFunc) (ts : List Tok) (e : Tok) : Out (St × List Tok) :=
  if (cur ts e).is .rl then do
    let (hdr, ts) ← braced ts
    let as ← args hdr
    if as.length ≠ u.args.length then .err
    else do
      let s ← bindArgs (u.args.zip as) (push st).stack
      let st ← rec (st.set (disconnect s)) u.body
      pure (pop st, ts)
  else .err

/-! ### the parser -/

/-- one round of the loop of `Parse`, parser:105-190 -/
def stmt (commit : List Event → Event → Bool) (rec : Rec) (st : St) (t : Tok) (ts : List Tok) (e : Tok) :
    Out (St × List Tok) :=
  match t with
  | .var v => named rec st v ts e
  | .op .plus | .op .minus => unnamed rec st (t :: ts) e
  | _ =>
    if t.is .cl then scope rec st (t :: ts)
    else match t with
      | .func f => function commit rec st f ts e
      | .kw .function => declareFn st ts e
      | .ident n =>
        match findUser n st.funcs with
        | some u => call rec st u ts e
        | none => .err
      | .eof => if ts = [] then .ok (st, []) else .assert .eof
      | _ => .err

/-- the loop of `Parse`, parser:103-194 -/
def stmts (commit : List Event → Event → Bool) (rec : Rec) (e : Tok) : Nat → St → List Tok → Out St
  | _, st, [] => .ok st
  | 0, _, _ :: _ => .fuel
  | k + 1, st, t :: ts => do
    let (st, ts) ← stmt commit rec st t ts e
    stmts commit rec e k st ts

/-- `Parse`, parser:94-195. The depth of a stack is one more than its number of frames (BFFStackFrame.h:65,
BFFStackFrame.cpp:27-29). The token behind a range in brackets is the closing bracket; only `}` and `]` occur, and they
are treated alike wherever they are looked at. -/
def parse (commit : List Event → Event → Bool) : Nat → Tok → St → List Tok → Out St
  | 0, _, _, _ => .fuel
  | k + 1, e, st, ts =>
    if 128 ≤ st.stack.length + 1 then .err
    else stmts commit (parse commit k (.brace .cr)) e ts.length st ts

/-- a whole file, parser:43-90: the base frame is the only one -/
def run (commit : List Event → Event → Bool) (base : List Var) (ts : List Tok) : Out St :=
  parse commit 128 .eof ⟨[⟨base, none, false⟩], [], [], []⟩ ts

end Verif.Bff.Interp
