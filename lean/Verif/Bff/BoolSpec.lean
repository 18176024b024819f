import Verif.Bff.Token
/-
What a condition means, independently of the parser: a grammar with its tokens, and an evaluation.
-/
namespace Verif.Bff.BoolSpec

/-- operators between conditions -/
inductive LOp | and | or | eq | ne
  deriving DecidableEq

/-- operators between values -/
inductive COp | eq | ne | lt | le | gt | ge | in_ | notIn
  deriving DecidableEq

mutual
/-- a literal or variable, `! p`, or `( e )` -/
inductive Prim
  | lit (b : Bool)
  | var (s : Str)
  | neg (p : Prim)
  | paren (e : Exp)
/-- `op p op p ...` -/
inductive Tail
  | nil
  | cons (o : LOp) (p : Prim) (t : Tail)
/-- `p op p op p ...` or a comparison of two values -/
inductive Exp
  | chain (p : Prim) (t : Tail)
  | cmp (a : Tok) (o : COp) (b : Tok)
end

def LOp.tok : LOp → Tok
  | .and => .op .and
  | .or => .op .or
  | .eq => .op .eq
  | .ne => .op .ne

def COp.toks : COp → List Tok
  | .eq => [.op .eq]
  | .ne => [.op .ne]
  | .lt => [.op .lt]
  | .le => [.op .le]
  | .gt => [.op .gt]
  | .ge => [.op .ge]
  | .in_ => [.kw .in_]
  | .notIn => [.kw .not, .kw .in_]

mutual
def Prim.print : Prim → List Tok
  | .lit b => [.bool b]
  | .var s => [.var s]
  | .neg p => .op .not :: p.print
  | .paren e => .brace .rl :: (e.print ++ [.brace .rr])
def Tail.print : Tail → List Tok
  | .nil => []
  | .cons o p t => o.tok :: (p.print ++ t.print)
def Exp.print : Exp → List Tok
  | .chain p t => p.print ++ t.print
  | .cmp a o b => a :: (o.toks ++ [b])
end

/-- the value of a literal or variable -/
def value (look : Str → Option Val) : Tok → Option Val
  | .bool b => some (.bool b)
  | .num i => some (.int i)
  | .str s => some (.str s)
  | .var s => look s
  | _ => none

def LOp.eval : LOp → Bool → Bool → Bool
  | .and, a, b => a && b
  | .or, a, b => a || b
  | .eq, a, b => a == b
  | .ne, a, b => a != b

/-- the six comparisons of a total order -/
def COp.order {α : Type} [DecidableEq α] (lt : α → α → Prop) [DecidableRel lt] (a b : α) : COp → Option Bool
  | .eq => some (decide (a = b))
  | .ne => some (decide (a ≠ b))
  | .lt => some (decide (lt a b))
  | .le => some (decide (lt a b ∨ a = b))
  | .gt => some (decide (lt b a))
  | .ge => some (decide (lt b a ∨ a = b))
  | _ => none

/-- strings are ordered like words in a dictionary, by the codes of their characters -/
def StrLt (a b : Str) : Prop := a.map Char.toNat < b.map Char.toNat

instance : DecidableRel StrLt := fun a b => inferInstanceAs (Decidable (a.map Char.toNat < b.map Char.toNat))

/-- numbers and strings are compared with their own kind. A string is `in` an array that has it; an array of
strings is `in` another one if they have a string in common. -/
def COp.eval (o : COp) : Val → Val → Option Bool
  | .int a, .int b => o.order (· < ·) a b
  | .str a, .str b => o.order StrLt a b
  | .str a, .strs b =>
    match o with
    | .in_ => some (decide (a ∈ b))
    | .notIn => some (decide (a ∉ b))
    | _ => none
  | .strs a, .strs b =>
    match o with
    | .in_ => some (decide (∃ s ∈ a, s ∈ b))
    | .notIn => some (decide (¬ ∃ s ∈ a, s ∈ b))
    | _ => none
  | _, _ => none

/- the operators between conditions are applied from left to right -/
mutual
def Prim.eval (look : Str → Option Val) : Prim → Option Bool
  | .lit b => some b
  | .var s => match look s with
    | some (.bool b) => some b
    | _ => none
  | .neg p => (p.eval look).map (! ·)
  | .paren e => e.eval look
def Tail.eval (look : Str → Option Val) (acc : Bool) : Tail → Option Bool
  | .nil => some acc
  | .cons o p t => match p.eval look with
    | some b => t.eval look (o.eval acc b)
    | none => none
def Exp.eval (look : Str → Option Val) : Exp → Option Bool
  | .chain p t => match p.eval look with
    | some b => t.eval look b
    | none => none
  | .cmp a o b => match value look a, value look b with
    | some x, some y => o.eval x y
    | _, _ => none
end

/-- brackets match as far as one can see from the left -/
def Balanced (ts : List Tok) : Prop :=
  ∀ k, (ts.take k).count (.brace .rr) ≤ (ts.take k).count (.brace .rl)

/-- no number whose lowest byte is the code of a round bracket -/
def Clean (ts : List Tok) : Prop := ∀ i, .num i ∈ ts → i % 256 ≠ 40 ∧ i % 256 ≠ 41

end Verif.Bff.BoolSpec
