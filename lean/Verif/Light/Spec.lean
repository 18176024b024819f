import Verif.Light.Model
/-
What a C or C++ compiler reads, stated without the functions of the light cache.
-/
namespace Verif.Light
open Verif.Str

/-! ## Where a directive can be -/

/-- What a compiler may take a place in a file for. -/
inductive Lex where
  /-- outside of comments with only spaces and tabs before it on the line -/
  | start
  /-- outside of comments, strings and header names -/
  | plain
  /-- behind something which may begin a string, a character, a header name or a line comment -/
  | any
  /-- in a block comment -/
  | block
  deriving DecidableEq

/-- begins a string, a character or a header name -/
def opens (c : Char) : Bool := c == '"' || c == '\'' || c == '<'

/-- a block comment begins here -/
def blockOpens (s : List Char) : Prop := ∃ r, s = '/' :: '*' :: r

/-- a block comment ends here -/
def blockCloses (s : List Char) : Prop := ∃ r, s = '*' :: '/' :: r

/-- a line comment begins here -/
def lineOpens (s : List Char) : Prop := ∃ r, s = '/' :: '/' :: r

/-- One step of reading a file. What strings are is left open: where one may have begun, `/*` may be a part of it
or the beginning of a comment. Strings and line comments end with the line. -/
inductive Step : Lex × List Char → Lex × List Char → Prop
  | eol (st : Lex) (c s) : st ≠ .block → isEol c → Step (st, c :: s) (.start, s)
  | space (c s) : isWs c → Step (.start, c :: s) (.start, s)
  | text (st : Lex) (c s) : st = .start ∨ st = .plain → isEol c = false → (st = .start → isWs c = false) →
      opens c = false → ¬ blockOpens (c :: s) → ¬ lineOpens (c :: s) → Step (st, c :: s) (.plain, s)
  | opens (st : Lex) (c s) : st = .start ∨ st = .plain → opens c ∨ lineOpens (c :: s) → Step (st, c :: s) (.any, s)
  | any (c s) : isEol c = false → Step (.any, c :: s) (.any, s)
  | comment (st : Lex) (s) : st ≠ .block → Step (st, '/' :: '*' :: s) (.block, s)
  | inside (c s) : ¬ blockCloses (c :: s) → Step (.block, c :: s) (.block, s)
  | close (s) : Step (.block, '*' :: '/' :: s) (.plain, s)

/-- several steps -/
inductive Steps : Lex × List Char → Lex × List Char → Prop
  | refl (a) : Steps a a
  | head {a b c} : Step a b → Steps b c → Steps a c

/-- A compiler may take the `#` before `d` for the beginning of a directive. -/
def DirectiveAt (text d : List Char) : Prop := Steps (.start, text) (.start, '#' :: d)

/-- spaces, tabs and at most one comment -/
inductive Gap : List Char → Prop
  | ws (a : List Char) : (∀ c ∈ a, isWs c) → Gap a
  | comment (a u b : List Char) : (∀ c ∈ a, isWs c) → (∀ c ∈ b, isWs c) → (¬ ∃ x y, u ++ ['*'] = x ++ '*' :: '/' :: y) →
      Gap (a ++ '/' :: '*' :: u ++ '*' :: '/' :: b)

/-- the text of an include: what is read from it -/
inductive Includes : List Char → List Char → IncType → Prop
  | quote (q r : List Char) : (∀ c ∈ q, c ≠ '"' ∧ isEol c = false) → Includes ('"' :: q ++ '"' :: r) q .quote
  | angle (q r : List Char) : (∀ c ∈ q, c ≠ '>' ∧ isEol c = false) → Includes ('<' :: q ++ '>' :: r) q .angle

/-- the text of a macro name -/
inductive Names : List Char → List Char → List Char → Prop
  | mk (c : Char) (q r : List Char) : idStart c → (∀ c ∈ q, idChar c) → (∀ c, r.head? = some c → idChar c = false) →
      Names (c :: q ++ r) (c :: q) r

/-- Text without the sequences which the parser and a compiler may see in different ways. -/
structure Tame (text : List Char) : Prop where
  nul : '\x00' ∉ text
  slash : ¬ ['/', '*', '/'] <:+: text
  quote : ¬ ['"', '/', '*'] <:+: text
  angle : ¬ ['>', '/', '*'] <:+: text

/-! ## What a compiler opens -/

/-- the text may have an include of a path -/
def SeesInclude (text q : List Char) (t : IncType) : Prop :=
  ∃ w g s, DirectiveAt text (w ++ "include".toList ++ g ++ s) ∧ (∀ c ∈ w, isWs c) ∧ Gap g ∧ Includes s q t

/-- the text may have an include of a macro -/
def SeesMacro (text m : List Char) : Prop :=
  ∃ w g s r, DirectiveAt text (w ++ "include".toList ++ g ++ s) ∧ (∀ c ∈ w, isWs c) ∧ Gap g ∧ Names s m r

/-- the text may define a macro as a path -/
def Defines (text m p : List Char) (t : IncType) : Prop :=
  ∃ w g1 s1 g2 s2, DirectiveAt text (w ++ "define".toList ++ (g1 ++ s1)) ∧ (∀ c ∈ w, isWs c) ∧ Gap g1 ∧ Gap g2 ∧
    Names s1 m (g2 ++ s2) ∧ Includes s2 p t

/-- the first file which exists -/
def first (fs : List Char → Option (List Char)) (l : List (List Char)) : Option (List Char) := l.find? (fun f => (fs f).isSome)

/-- Where an include is looked for, with the files being read innermost first: a quoted one in their directories,
then along the include paths; one in angle brackets along the include paths. -/
def places (w : World) (paths stack : List (List Char)) (q : List Char) (t : IncType) : List (List Char) :=
  if isFullPath w.platform q then [q]
  else
    match t with
    | .angle => paths.map fun p => clean w (p ++ q)
    | .quote => (stack.map fun f => clean w (dirOf f ++ q)) ++ paths.map fun p => clean w (p ++ q)
    | .macro => []

/-- The files which a compiler may open, whatever it takes the conditions for, with the files being read then. -/
inductive Opens (w : World) (paths roots : List (List Char)) : List (List Char) → List Char → Prop
  | root {r f} : r ∈ roots → first w.fs (places w paths [] r .quote) = some f → Opens w paths roots [] f
  | path {S f text q t g} : Opens w paths roots S f → w.fs f = some text → SeesInclude text q t →
      first w.fs (places w paths (f :: S) q t) = some g → Opens w paths roots (f :: S) g
  | named {S f text m S' f' text' p t g} : Opens w paths roots S f → w.fs f = some text → SeesMacro text m →
      Opens w paths roots S' f' → w.fs f' = some text' → Defines text' m p t →
      first w.fs (places w paths (f :: S) p t) = some g → Opens w paths roots (f :: S) g

/-- The shared cache holds what is in the file system. -/
def Fresh (w : World) (cache : List Entry) : Prop :=
  ∀ e ∈ cache, e.exists = (w.fs e.name).isSome ∧ e.content = (w.fs e.name).getD [] ∧
    e.parsed = ((w.fs e.name).bind parse).getD {}

/-- Only the directory of the file itself matters to quoted includes: what is in the directory of some file read
is in its own directory too. -/
def Local (w : World) (files : List (List Char)) : Prop :=
  ∀ f ∈ files, ∀ g ∈ files, ∀ text r q, w.fs f = some text → parse text = some r →
    ((q, IncType.quote) ∈ r.includes ∨ ∃ m, (m, q, IncType.quote) ∈ r.incDefs) → isFullPath w.platform q = false →
    (w.fs (clean w (dirOf g ++ q))).isSome → (w.fs (clean w (dirOf f ++ q))).isSome

/-- Each macro included is defined in the same file, and has only one value in the files. -/
def OneValue (w : World) (files : List (List Char)) : Prop :=
  ∀ f ∈ files, ∀ text m, w.fs f = some text → SeesMacro text m →
    ∃ p t, Defines text m p t ∧ ∀ g ∈ files, ∀ text' r d, w.fs g = some text' → parse text' = some r → d ∈ r.incDefs →
      d.1 = m → d.2 = (p, t)

end Verif.Light
