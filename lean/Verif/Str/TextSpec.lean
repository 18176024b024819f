import Verif.Str.TextModel
/-! Specifications for replacement, tokenising and path normalisation. -/
namespace Verif.Str

/-- `Subst frm to limit s out k`: going from left to right, at most `limit` (if given) non-overlapping
occurrences of `frm` in `s` are replaced by `to`, which gives `out`; `k` is the number of replacements. -/
inductive Subst (frm to : List Char) : Option Nat → List Char → List Char → Nat → Prop
  | stop (s : List Char) : Subst frm to (some 0) s s 0
  | done {l : Option Nat} : Subst frm to l [] [] 0
  | hit {l : Option Nat} {s out : List Char} {k : Nat} : l ≠ some 0 →
      Subst frm to (l.map (· - 1)) s out k → Subst frm to l (frm ++ s) (to ++ out) (k + 1)
  | skip {l : Option Nat} {c : Char} {s out : List Char} {k : Nat} : l ≠ some 0 → ¬ frm <+: c :: s →
      Subst frm to l s out k → Subst frm to l (c :: s) (c :: out) k

/-- limit given by the parameter `maxReplaces` (0: none) -/
def limitOf (max : UInt32) : Option Nat := if max = 0 then none else some max.toNat

/-- every run of `c` shortened to a single `c` -/
def squeeze (c : Char) : List Char → List Char
  | [] => []
  | a :: s => if a = c ∧ s.head? = some c then squeeze c s else a :: squeeze c s

/-- no two consecutive `c` -/
def NoDouble (c : Char) (s : List Char) : Prop := ∀ u v, s ≠ u ++ c :: c :: v

/-- the quote at position `i` is not preceded by a backslash -/
def UnescapedQuote (s : List Char) (i : Nat) : Prop :=
  s[i]? = some '"' ∧ ¬ (0 < i ∧ s[i - 1]? = some '\\')

instance (s : List Char) (i : Nat) : Decidable (UnescapedQuote s i) := by
  unfold UnescapedQuote; infer_instance

/-- unescaped quotes before position `i` -/
def quotesBefore (s : List Char) (i : Nat) : Nat := ((List.range i).filter fun j => decide (UnescapedQuote s j)).length

/-- position `i` holds a separator outside of quotes -/
def IsSep (sep : Char) (s : List Char) (i : Nat) : Prop := s[i]? = some sep ∧ quotesBefore s i % 2 = 0

/-- position `i` survives quote removal: it is neither an unescaped quote nor the backslash of an escaped
one -/
def Kept (s : List Char) (i : Nat) : Prop := ¬ UnescapedQuote s i ∧ ¬ (s[i]? = some '\\' ∧ s[i + 1]? = some '"')

instance (s : List Char) (i : Nat) : Decidable (Kept s i) := by unfold Kept; infer_instance

end Verif.Str
namespace Verif.Str

/-- either slash -/
def isSlash (c : Char) : Bool := c == '/' || c == '\\'

/-- non-empty components; `cur` is the component being read -/
def compsGo : List Char → List Char → List (List Char)
  | cur, [] => if cur = [] then [] else [cur]
  | cur, c :: s =>
    if isSlash c then (if cur = [] then compsGo [] s else cur :: compsGo [] s) else compsGo (cur ++ [c]) s

/-- the non-empty components of a path, in order -/
def comps (s : List Char) : List (List Char) := compsGo [] s

/-- a string which starts with two slashes (of either kind) -/
def startsDouble : List Char → Bool
  | a :: b :: _ => isSlash a && isSlash b
  | _ => false

end Verif.Str
