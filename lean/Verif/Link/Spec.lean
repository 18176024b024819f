import Verif.Link.Model
/-
What the properties about linking talk about: which object files the nodes stand for, which are in a library, and what a token of
the options is to be turned into.
-/
namespace Verif.Link
open Verif.Cache (Tok)

/-! ### What nodes stand for -/

/-- the files that belong to a library or an object list with these dynamic dependencies, all the way down: objects, the object of a
precompiled header where the compiler makes one, the objects of other lists and libraries, and other files as they are -/
def Inside : Forest → Name → Prop
  | .nil, _ => False
  | .file n rest, u | .object n rest, u | .dll n _ _ rest, u | .copy n _ rest, u | .alias n _ rest, u | .unsupported n rest, u =>
    u = n ∨ Inside rest u
  | .pch _ obj ms rest, u => (ms = true ∧ u = obj) ∨ Inside rest u
  | .list _ sub rest, u | .library _ _ sub rest, u => Inside sub u ∨ Inside rest u

/-- the files that are to be linked for these nodes: for a library or an object list what belongs to it, for a DLL its import library,
for a copy what is to be linked for its source -/
def Linked : Forest → Name → Prop
  | .nil, _ => False
  | .file n rest, u | .object n rest, u | .pch n _ _ rest, u | .alias n _ rest, u | .unsupported n rest, u => u = n ∨ Linked rest u
  | .dll n f imp rest, u => u = importLib n f imp ∨ Linked rest u
  | .copy _ src rest, u => Linked src u ∨ Linked rest u
  | .list _ sub rest, u | .library _ _ sub rest, u => Inside sub u ∨ Linked rest u

/-- one of these nodes, or of the targets of an alias among them -/
def Target : Forest → Forest → Prop
  | .nil, _ => False
  | .file n rest, d => d = .file n .nil ∨ Target rest d
  | .object n rest, d => d = .object n .nil ∨ Target rest d
  | .pch n o ms rest, d => d = .pch n o ms .nil ∨ Target rest d
  | .list n sub rest, d => d = .list n sub .nil ∨ Target rest d
  | .library n ms sub rest, d => d = .library n ms sub .nil ∨ Target rest d
  | .dll n f imp rest, d => d = .dll n f imp .nil ∨ Target rest d
  | .copy n src rest, d => d = .copy n src .nil ∨ Target rest d
  | .alias _ sub rest, d => Target sub d ∨ Target rest d
  | .unsupported n rest, d => d = .unsupported n .nil ∨ Target rest d

/-- there is a library of this name among the nodes, or what they are made of -/
def HasLib : Forest → Name → Bool → Forest → Prop
  | .nil, _, _, _ => False
  | .file _ rest, m, b, s | .object _ rest, m, b, s | .pch _ _ _ rest, m, b, s | .dll _ _ _ rest, m, b, s | .unsupported _ rest, m, b, s =>
    HasLib rest m b s
  | .copy _ sub rest, m, b, s | .alias _ sub rest, m, b, s | .list _ sub rest, m, b, s => HasLib sub m b s ∨ HasLib rest m b s
  | .library n ms sub rest, m, b, s => (m = n ∧ b = ms ∧ s = sub) ∨ HasLib sub m b s ∨ HasLib rest m b s

/-- there is something else of this name -/
def Plain : Forest → Name → Prop
  | .nil, _ => False
  | .file n rest, u | .object n rest, u | .unsupported n rest, u => u = n ∨ Plain rest u
  | .pch n obj ms rest, u => u = n ∨ (ms = true ∧ u = obj) ∨ Plain rest u
  | .dll n f imp rest, u => u = n ∨ u = importLib n f imp ∨ Plain rest u
  | .copy n sub rest, u | .alias n sub rest, u => u = n ∨ Plain sub u ∨ Plain rest u
  | .list _ sub rest, u | .library _ _ sub rest, u => Plain sub u ∨ Plain rest u

/-- names mean one thing: a library of a name is always the same, and nothing else has this name -/
structure Consistent (F : Forest) : Prop where
  same : ∀ n ms sub ms' sub', HasLib F n ms sub → HasLib F n ms' sub' → ms' = ms ∧ sub' = sub
  alone : ∀ n ms sub, HasLib F n ms sub → ¬ Plain F n

/-- `u` is in the file `i`: the file itself; or `i` is a library, and the librarian was given a file that `u` is in. (Microsoft's librarian
merges libraries it is given; the others are given no libraries.) -/
inductive InFile (F : Forest) : Name → Name → Prop
  | plain {i} : (∀ ms sub, ¬ HasLib F i ms sub) → InFile F i i
  | merged {i ms sub j u} : HasLib F i ms sub → j ∈ objectInputs (! ms) sub [] → InFile F j u → InFile F i u

/-! ### Tokens -/

/-- `p` is in `t`, first between `u` and `v` -/
def At (p t u v : Tok) : Prop := t = u ++ p ++ v ∧ ∀ u' v', t = u' ++ p ++ v' → u.length ≤ u'.length

/-- `p` is not in `t` -/
def Lacks (p t : Tok) : Prop := ∀ u v, t ≠ u ++ p ++ v

/-- an option of Microsoft's linker with a value: a slash or dash, the name in any case, the value -/
def MsOption (name : String) (t : Tok) (c : Char) (value : Tok) : Prop :=
  (c = '/' ∨ c = '-') ∧ ∃ m, t = c :: m ++ value ∧ m.map Str.lower = name.toList.map Str.lower

/-- what becomes of a token of the options of a linker. `libs`, `libs2`: the files of the two lists; `both`: those of both -/
inductive Turned (clean : Name → Name) (msvc : Bool) (name : Name) (libs libs2 both assembly : List Name) : Tok → List Tok → Prop
  | first {t u v} : At "%1[0]".toList t u v → Turned clean msvc name libs libs2 both assembly t (libs.map fun i => u ++ i ++ v)
  | second {t u v} : Lacks "%1[0]".toList t → At "%1[1]".toList t u v →
      Turned clean msvc name libs libs2 both assembly t (libs2.map fun i => u ++ i ++ v)
  | all {t u v} : Lacks "%1[0]".toList t → Lacks "%1[1]".toList t → At "%1".toList t u v →
      Turned clean msvc name libs libs2 both assembly t (both.map fun i => u ++ i ++ v)
  | output {t u v} : Lacks "%1".toList t → At "%2".toList t u v → Turned clean msvc name libs libs2 both assembly t [u ++ name ++ v]
  | resources {t u v} : msvc = true → Lacks "%1".toList t → Lacks "%2".toList t → At "%3".toList t u v →
      Turned clean msvc name libs libs2 both assembly t (assembly.map fun i => u ++ i ++ v)
  | path {t c value p} : msvc = true → Lacks "%1".toList t → Lacks "%2".toList t → Lacks "%3".toList t → MsOption "LIBPATH:" t c value →
      (∃ k, clean (stripQuotes value) = p ++ List.replicate k '\\') → p.getLast? ≠ some '\\' →
      Turned clean msvc name libs libs2 both assembly t [c :: "LIBPATH:\"".toList ++ p ++ ['"']]
  | kept {t} : Lacks "%1".toList t → Lacks "%2".toList t →
      (msvc = true → Lacks "%3".toList t ∧ ∀ c value, ¬ MsOption "LIBPATH:" t c value) → Turned clean msvc name libs libs2 both assembly t [t]

/-- what becomes of a token that placeholders may end; `refs`: the word for the references of C#, `none` where `%3` means nothing -/
inductive Ended (name : Name) (inputs : List Name) (refs : Option (List Name)) : Tok → List Tok → Prop
  | inputs {u} : Ended name inputs refs (u ++ "%1".toList) (inputs.map fun i => u ++ i)
  | inputsQuoted {u} : Ended name inputs refs (u ++ "\"%1\"".toList) (inputs.map fun i => u ++ '"' :: i ++ ['"'])
  | output {u} : Ended name inputs refs (u ++ "%2".toList) [u ++ name]
  | outputQuoted {u} : Ended name inputs refs (u ++ "\"%2\"".toList) [u ++ '"' :: name ++ ['"']]
  | refs {u rs} : refs = some rs → Ended name inputs refs (u ++ "%3".toList) [u ++ [','].intercalate rs]
  | refsQuoted {u rs} : refs = some rs →
      Ended name inputs refs (u ++ "\"%3\"".toList) [u ++ [','].intercalate (rs.map fun r => '"' :: r ++ ['"'])]
  | kept {t} : (∀ u, t ≠ u ++ "%1".toList ∧ t ≠ u ++ "\"%1\"".toList ∧ t ≠ u ++ "%2".toList ∧ t ≠ u ++ "\"%2\"".toList) →
      (refs ≠ none → ∀ u, t ≠ u ++ "%3".toList ∧ t ≠ u ++ "\"%3\"".toList) → Ended name inputs refs t [t]

/-- token by token -/
inductive EachToken (R : Tok → List Tok → Prop) : List Tok → List Tok → Prop
  | nil : EachToken R [] []
  | cons {t ts ws ws'} : R t ws → EachToken R ts ws' → EachToken R (t :: ts) (ws ++ ws')

end Verif.Link
