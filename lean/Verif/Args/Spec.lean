import Verif.Args.Token
/-
What the passes of a compilation do to a command line: a table of the options each pass leaves out, the few
tokens that are replaced, and the placeholders. Nothing here refers to the loops of the model.
-/
namespace Verif.Args
open Verif.Str
open Verif.Cache (Tok)

/-! ### Options -/

/-- How an option is recognised. The names are given without the leading `/` or `-` for the rules `ms…`. -/
inductive Rule where
  /-- exactly this token -/
  | whole (o : String)
  /-- every token that begins like this -/
  | start (o : String)
  /-- every token that begins like this, also in quotes; if the token is just the name, the next token is its value -/
  | value (o : String)
  | msWhole (o : String)
  | msStart (o : String)
  | msValue (o : String)
  deriving DecidableEq

/-- `u` in `n` pairs of quotes -/
def quoted (n : Nat) (u : Tok) : Tok := List.replicate n '"' ++ u ++ List.replicate n '"'

/-- The rule applies to the token; `next`: the next token belongs to it. -/
def Taken : Rule → Tok → Bool → Prop
  | .whole o, t, next => t = o.toList ∧ next = false
  | .start o, t, next => (∃ r, t = o.toList ++ r) ∧ next = false
  | .value o, t, next => ∃ n r, t = quoted n (o.toList ++ r) ∧ (next = true ↔ r = [])
  | .msWhole o, t, next => (t = '/' :: o.toList ∨ t = '-' :: o.toList) ∧ next = false
  | .msStart o, t, next => (∃ r, t = '/' :: (o.toList ++ r) ∨ t = '-' :: (o.toList ++ r)) ∧ next = false
  | .msValue o, t, next => ∃ r, (t = '/' :: (o.toList ++ r) ∨ t = '-' :: (o.toList ++ r)) ∧ (next = true ↔ r = [])

/-- No rule of the list applies. -/
def Free (rs : List Rule) (t : Tok) : Prop := ∀ r ∈ rs, ∀ b, ¬ Taken r t b

/-- The first rule of the list that applies takes the token; `next`: and the next one. -/
def Picks (rs : List Rule) (t : Tok) (next : Bool) : Prop :=
  ∃ l r l', rs = l ++ r :: l' ∧ Free l t ∧ Taken r t next

/-- Options of the static analyzer of Clang. -/
def analyzerRules : List Rule :=
  [.whole "--analyze", .value "-Xanalyzer", .value "-analyzer-output", .value "-analyzer-config",
    .value "-analyzer-checker"]

/-- Options left out for preprocessing. -/
def preRules : Driver → List Rule
  | .cl clang => .msValue "Yc" :: if clang then analyzerRules else []
  | .gcc clang => .value "-include-pch" :: (if clang then analyzerRules else []) ++ [.value "-o", .whole "-c"]
  | .orbis | .snc | .cuda | .codeWarrior | .greenHills => [.value "-o", .whole "-c"]
  | .vbcc => [.value "-o"]
  | .qtRcc => [.value "--output", .value "-o"]
  | .generic => []

/-- Options left out for compiling what is already preprocessed. -/
def compileRules (d : Driver) (isLocal : Bool) : List Rule :=
  match d with
  | .cl _ =>
    [.msValue "Yu", .msValue "Fp"] ++ (if isLocal then [] else [.msValue "Fd"]) ++
      [.msValue "FI", .msValue "sourceDependencies"]
  | .gcc clang =>
    (if clang then [.value "-I"] else []) ++ [.value "-isysroot"] ++
      (if isLocal then [.whole "-MD", .value "-MF"] else []) ++ [.value "-include-pch", .value "-include"]
  | .orbis => [.value "-include"]
  | _ => []

/-- Options left out of the command line sent to a worker. -/
def remoteRules : Driver → List Rule
  | .cl _ => [.msValue "sourceDependencies"]
  | .gcc _ => [.whole "-MD", .value "-MF"]
  | _ => []

/-- Options left out by a pass, apart from those which every pass leaves out. -/
def passRules (d : Driver) (isLocal : Bool) : Pass → List Rule
  | .preprocess => preRules d
  | .compilePreprocessed => compileRules d isLocal
  | .compile => []
  | .prepSimple => []

/-- Options every pass leaves out. -/
def commonRules (d : Driver) (colored : Bool) : List Rule :=
  match d with
  | .cl _ => [.msStart "MP", .msWhole "Gm"]
  | .gcc _ => if colored then [.start "-fdiagnostics-color", .whole "-fno-diagnostics-color"] else []
  | _ => []

/-! ### Tokens that are replaced -/

/-- `-x` languages and their names for preprocessed files. -/
def languages : List (String × String) :=
  [("c", "cpp-output"), ("c++", "c++-cpp-output"), ("objective-c", "objective-c-cpp-output"),
    ("objective-c++", "objective-c++-cpp-output")]

/-- The language for preprocessed files; others stay as they are. -/
def Language (l l' : Tok) : Prop :=
  (∃ p ∈ languages, l = p.1.toList ∧ l' = p.2.toList) ∨ (∀ p ∈ languages, l ≠ p.1.toList) ∧ l' = l

/-- `t` is an include path option of Microsoft's compiler: `pre` is the option with an opening quote and `post` a
closing quote, if there are any. -/
def IncludeArg (t pre path post : Tok) : Prop :=
  t = pre ++ path ++ post ∧ pre ∈ ["/I".toList, "-I".toList, "/I\"".toList, "-I\"".toList] ∧ post ∈ [[], ['"']] ∧
  (pre.length = 2 → (path ++ post).head? ≠ some '"') ∧ (post = [] → t.getLast? ≠ some '"')

/-- `Replaced d c pass t next ws skip`: the token `t`, followed by `next`, is replaced by the words `ws`; `skip`: and so
is the next token. -/
inductive Replaced (c : Ctx) : Driver → Pass → Tok → Tok → List Tok → Bool → Prop
  /-- preprocessing needs a macro instead of `/ZW` -/
  | winrt {clang : Bool} {t next : Tok} : Taken (.msWhole "ZW") t false →
      Replaced c (.cl clang) .preprocess t next ["/D__cplusplus_winrt".toList] false
  | language {clang : Bool} {next l : Tok} : c.isLocal = true → c.updateX = true → next ≠ [] → Language next l →
      Replaced c (.gcc clang) .compilePreprocessed "-x".toList next ["-x".toList, l] true
  /-- a relative include path on a worker -/
  | «include» {clang : Bool} {t next pre path post : Tok} {skip : Bool} : c.isLocal = false → IncludeArg t pre path post →
      isFullPath c.plat path = false → (skip = true ↔ t = "/I".toList ∨ t = "-I".toList) →
      Replaced c (.cl clang) .compilePreprocessed t next [pre ++ c.remoteRoot ++ '\\' :: path ++ post] skip

/-- `t` has `%n`, first between `u` and `v`. -/
def Hole (n : Char) (t u v : Tok) : Prop :=
  t = u ++ '%' :: n :: v ∧ ∀ u' v', t = u' ++ '%' :: n :: v' → u.length ≤ u'.length

/-- `t` has no `%n`. -/
def NoHole (n : Char) (t : Tok) : Prop := ∀ u v, t ≠ u ++ '%' :: n :: v

/-- The driver knows `%3` and `%4`. -/
def Driver.isCL : Driver → Bool
  | .cl _ => true
  | _ => false

/-- The file to compile. -/
def Ctx.input (c : Ctx) : List Char :=
  if c.override ≠ [] then c.override
  else if c.relBase = [] then c.src
  else getRelativePath c.os c.relBase c.src

/-- The file to write. -/
def Ctx.output (c : Ctx) : List Char :=
  if c.relBase = [] then c.obj else getRelativePath c.os c.relBase c.obj

/-- `t` ends in a backslash and a quote that do not belong to the path. -/
def Slashed (d : Driver) (t : Tok) : Prop :=
  d.isCL = true ∧ ∃ m, t = "/I\"".toList ++ m ++ ['\\', '"'] ∨ t = "-I\"".toList ++ m ++ ['\\', '"']

/-- What becomes of a token that no rule applies to and that is not replaced: it is kept, with at most one placeholder
filled in. -/
inductive Filled (d : Driver) (c : Ctx) : Tok → List Tok → Prop
  | slashed {t m : Tok} : d.isCL = true → t = m ++ ['\\', '"'] → Slashed d t → Filled d c t [m ++ ['"']]
  | pch {t u v : Tok} : ¬ Slashed d t → d.isCL = true → Hole '3' t u v → c.pchObj ≠ [] → Filled d c t [u ++ c.pchObj ++ v]
  | usings {t u v : Tok} : ¬ Slashed d t → d.isCL = true → NoHole '3' t → Hole '4' t u v →
      Filled d c t (c.usings.map fun n => u ++ n ++ v)
  | input {t u v : Tok} : ¬ Slashed d t → (d.isCL = true → NoHole '3' t ∧ NoHole '4' t) → Hole '1' t u v →
      Filled d c t [u ++ c.input ++ v]
  | output {t u v : Tok} : ¬ Slashed d t → (d.isCL = true → NoHole '3' t ∧ NoHole '4' t) → NoHole '1' t → Hole '2' t u v →
      Filled d c t [u ++ c.output ++ v]
  | kept {t : Tok} : ¬ Slashed d t → (d.isCL = true → NoHole '3' t ∧ NoHole '4' t) → NoHole '1' t → NoHole '2' t →
      Filled d c t [t]

/-- A token no rule of the pass applies to: left out by every pass, or filled in. -/
inductive Becomes (d : Driver) (c : Ctx) : Tok → List Tok → Prop
  | ignored {t : Tok} {r : Rule} : r ∈ commonRules d c.colored → Taken r t false → Becomes d c t []
  | filled {t : Tok} {ws : List Tok} : Free (commonRules d c.colored) t → Filled d c t ws → Becomes d c t ws

/-- The words a pass makes of the tokens of the command line. -/
inductive Forwarded (d : Driver) (c : Ctx) (pass : Pass) : List Tok → List Tok → Prop
  | nil : Forwarded d c pass [] []
  | removed {t : Tok} {ts ws : List Tok} : Picks (passRules d c.isLocal pass) t false →
      Forwarded d c pass ts ws → Forwarded d c pass (t :: ts) ws
  | removedValue {t : Tok} {ts ws : List Tok} : Picks (passRules d c.isLocal pass) t true →
      Forwarded d c pass (ts.drop 1) ws → Forwarded d c pass (t :: ts) ws
  | replaced {t : Tok} {ts vs ws : List Tok} : Replaced c d pass t (ts.headD []) vs false →
      Forwarded d c pass ts ws → Forwarded d c pass (t :: ts) (vs ++ ws)
  | replacedValue {t : Tok} {ts vs ws : List Tok} : Replaced c d pass t (ts.headD []) vs true →
      Forwarded d c pass (ts.drop 1) ws → Forwarded d c pass (t :: ts) (vs ++ ws)
  | plain {t : Tok} {ts vs ws : List Tok} : Free (passRules d c.isLocal pass) t →
      (∀ vs b, ¬ Replaced c d pass t (ts.headD []) vs b) → Becomes d c t vs →
      Forwarded d c pass ts ws → Forwarded d c pass (t :: ts) (vs ++ ws)

/-! ### Options added -/

/-- Options added for preprocessing. -/
def preExtras (d : Driver) (c : Ctx) : List Tok :=
  match d with
  | .cl _ => "/E".toList :: if c.creatingPCH then ["/d1PP".toList] else []
  | .gcc clang =>
    "-E".toList :: (if c.creatingPCH then ["-dD".toList] else []) ++
      if clang && c.rewriteIncludes then ["-frewrite-includes".toList] else []
  | .qtRcc => ["--list".toList]
  | .generic => []
  | _ => ["-E".toList]

/-- The option for mapping source files. -/
def mapWord (c : Ctx) : Tok := "\"-fdebug-prefix-map=".toList ++ c.workingDir ++ '=' :: c.mapping ++ ['"']

/-- Options added for every pass. -/
def commonExtras (d : Driver) (c : Ctx) : List Tok :=
  match d with
  | .cl clang =>
    (if c.isLocal = false ∧ c.usingPDB = true then ["/Fd\"".toList ++ c.obj ++ ".pdb\"".toList] else []) ++
      if clang = true ∧ c.mapping ≠ [] ∧ c.isLocal = true then ["-Xclang".toList, mapWord c] else []
  | .gcc _ =>
    (if c.colored then ["-fdiagnostics-color=always".toList] else []) ++
      if c.mapping ≠ [] ∧ c.isLocal = true then [mapWord c] else []
  | _ => []

/-- All options added. -/
def extras (d : Driver) (c : Ctx) (pass : Pass) (showIncludes : Bool) : List Tok :=
  (if pass = .preprocess then preExtras d c else []) ++ commonExtras d c ++
    if showIncludes then ["/showIncludes".toList] else []

end Verif.Args
