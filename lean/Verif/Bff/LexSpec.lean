import Verif.Bff.LexModel
/-
What directives mean, without reference to how they are evaluated.
-/
namespace Verif.Bff.Lex

/-! ### conditions -/

/-- a condition without operators, and its value: `NAME`, `exists( NAME )`, `file_exists( 'path' )` -/
inductive Atom (W : World) (file : Str) (macros : List Str) : List Tok → Bool → Prop
  | defined (x : Str) : Atom W file macros [.ident x] (x ∈ macros || W.builtin x)
  | exists_ (x : Str) {b c : Tok} : b.is .rl = true → c.is .rr = true →
      Atom W file macros [.kw .exists_, b, .ident x, c] (W.env x).isSome
  | fileExists (x : Str) {b c : Tok} : b.is .rl = true → c.is .rr = true →
      Atom W file macros [.kw .fileExists, b, .str x, c] (W.exists_ (W.expand file x))

/-- possibly negated -/
inductive Lit (W : World) (file : Str) (macros : List Str) : List Tok → Bool → Prop
  | pos {ts : List Tok} {v : Bool} : Atom W file macros ts v → Lit W file macros ts v
  | neg {ts : List Tok} {v : Bool} : Atom W file macros ts v → Lit W file macros (.op .not :: ts) (!v)

/-- `a && b && ...`, its value, and the number of literals -/
inductive Conj (W : World) (file : Str) (macros : List Str) : List Tok → Bool → Nat → Prop
  | one {ts : List Tok} {v : Bool} : Lit W file macros ts v → Conj W file macros ts v 1
  | and {ts us : List Tok} {v w : Bool} {n : Nat} : Conj W file macros ts v n → Lit W file macros us w →
      Conj W file macros (ts ++ .op .and :: us) (v && w) (n + 1)

/-- `a || b || ...` of such: `&&` binds tighter -/
inductive Disj (W : World) (file : Str) (macros : List Str) : List Tok → Bool → Nat → Prop
  | one {ts : List Tok} {v : Bool} {n : Nat} : Conj W file macros ts v n → Disj W file macros ts v n
  | or {ts us : List Tok} {v w : Bool} {n m : Nat} : Disj W file macros ts v n → Conj W file macros us w m →
      Disj W file macros (ts ++ .op .or :: us) (v || w) (n + m)

/-- what was recorded about files is what the file system says -/
def Recorded (W : World) (st : St) : Prop := ∀ e ∈ st.exist, e.2 = W.exists_ e.1

/-- no value of an environment variable has the hash 0, which stands for a variable that is missing -/
def NoZeroHash (W : World) : Prop := ∀ x v, W.env x = some v → W.hash v ≠ 0

/-! ### what is remembered of the world -/

/-- everything recorded in the state is as it is in the world `W` -/
structure Rec (W : World) (st : St) : Prop where
  files : ∀ f ∈ st.files, W.load f.name = some f.text
  envs : ∀ e ∈ st.envs, envHash W e.1 = e.2
  exist : ∀ e ∈ st.exist, W.exists_ e.1 = e.2

/-- two worlds on the same host: same path functions, same hash, same predefined macros -/
structure SameHost (W W' : World) : Prop where
  hash : W'.hash = W.hash
  clean : W'.clean = W.clean
  same : W'.same = W.same
  expand : W'.expand = W.expand
  builtin : W'.builtin = W.builtin

/-- no variable has two values with the same hash in the two worlds -/
def NoCollision (W W' : World) : Prop :=
  ∀ x v v', W.env x = some v → W'.env x = some v' → W.hash v = W.hash v' → v = v'

/-- later: nothing is forgotten -/
structure Ext (a b : St) : Prop where
  toks : a.toks <+: b.toks
  files : ∀ (i : Nat) (f : File), a.files[i]? = some f →
    ∃ f', b.files[i]? = some f' ∧ f'.name = f.name ∧ f'.text = f.text ∧ (f.once = true → f'.once = true)
  envs : ∀ e ∈ a.envs, e ∈ b.envs
  exist : ∀ e ∈ a.exist, e ∈ b.exist

/-! ### blocks -/

/-- one line, with its end -/
def IsLine (l : Str) : Prop := ∃ b, l = b ++ ['\n'] ∧ '\n' ∉ b

/-- a string of blanks -/
def Blank (l : Str) : Prop := ∀ c ∈ l, c = ' ' ∨ c = '\t'

/-- the line of the directive `name`: blanks, `#`, blanks, the name, and something that does not go on with the name -/
structure DirLine (name pre tail l : Str) : Prop where
  line : IsLine tail
  blanks : Blank pre
  text : ∃ mid, Blank mid ∧ l = pre ++ '#' :: (mid ++ (name ++ tail))
  ends : ∀ c, tail.head? = some c → ¬ ('a' ≤ c ∧ c ≤ 'z') ∧ c ≠ '_'

/-- a line without `#` at its beginning, or with a directive that has nothing to do with blocks -/
inductive Plain : Str → Prop
  | text {l pre r : Str} {c : Char} : IsLine l → Blank pre → l = pre ++ c :: r → c ≠ ' ' → c ≠ '\t' → c ≠ '#' → Plain l
  | dir {name pre tail l : Str} : DirLine name pre tail l → (∃ c ∈ name.head?, 'a' ≤ c ∧ c ≤ 'z') →
      (∀ c ∈ name, ('a' ≤ c ∧ c ≤ 'z') ∨ c = '_') →
      name ∉ ["if".toList, "elif".toList, "else".toList, "endif".toList] → Plain l

/-- lines in which every `#if` has its `#endif`. `mid`: whether `#elif` and `#else` of an `#if` further up may occur -/
inductive Bal : Bool → List Str → Prop
  | nil {mid : Bool} : Bal mid []
  | plain {mid : Bool} {l : Str} {ls : List Str} : Plain l → Bal mid ls → Bal mid (l :: ls)
  | mid {name pre tail l : Str} {ls : List Str} : (name = "elif".toList ∨ name = "else".toList) → DirLine name pre tail l →
      Bal true ls → Bal true (l :: ls)
  | group {mid : Bool} {pre tail l pre' tail' l' : Str} {ls ms : List Str} : DirLine "if".toList pre tail l → Bal true ls →
      DirLine "endif".toList pre' tail' l' → Bal mid ms → Bal mid (l :: (ls ++ l' :: ms))

/-- one `#elif` with its block: the tokens of its condition, the value, and the lines -/
structure Branch where
  /-- blanks before `#elif` -/
  pre : Str
  /-- the line and what follows the name -/
  line : Str
  tail : Str
  cond : List Tok
  val : Bool
  body : List Str

/-- how an `#if` ends: the blanks before the last directive of its own that follows the branches, the text from there on,
the block of `#else` and what is after the `#endif`. The rest of the line of `#else` belongs to its block. -/
inductive Last : Str → Str → Option Str → Str → Prop
  | endif {pre tail l : Str} (rest : Str) : DirLine "endif".toList pre tail l → Last pre (l ++ rest) none rest
  | else_ {pre tail l pre' tail' l' : Str} {body : List Str} (rest : Str) : DirLine "else".toList pre tail l → Bal false (tail :: body) →
      DirLine "endif".toList pre' tail' l' →
      Last pre (l ++ (body.flatten ++ (l' ++ rest))) (some (tail ++ body.flatten ++ pre')) rest

/-- the text of the branches, then `last` -/
def branchText (last : Str) : List Branch → Str
  | [] => last
  | b :: bs => b.line ++ (b.body.flatten ++ branchText last bs)

/-- the blocks with the values of their conditions: to each belong the blanks before the directive that ends it, `lastPre`
being the ones before the last directive -/
def blocks (lastPre : Str) : Bool → List Str → List Branch → List (Bool × Str)
  | v, body, [] => [(v, body.flatten ++ lastPre)]
  | v, body, b :: bs => (v, body.flatten ++ b.pre) :: blocks lastPre b.val b.body bs

/-- the text of the first block whose condition holds -/
def firstTrue (l : List (Bool × Str)) : Option Str := (l.find? (·.1)).map (·.2)

/-- branches are well formed -/
structure Branch.Ok (W : World) (file : Str) (macros : List Str) (b : Branch) : Prop where
  dir : DirLine "elif".toList b.pre b.tail b.line
  lex : lexLine b.tail.length b.tail = .ok b.cond
  cond : ∃ n, Disj W file macros b.cond b.val n ∧ n ≤ 255
  body : Bal false b.body

end Verif.Bff.Lex
