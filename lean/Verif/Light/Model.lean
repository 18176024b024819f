import Verif.Str.CleanModel
import Verif.Str.TextModel
/-
Model of the `LightCache`, Code/Tools/FBuild/FBuildCore/Cache/LightCache.cpp: instead of running the preprocessor,
FASTBuild reads the source file and everything it might include, and uses the names and contents of these
files as the key of the cache. Their names also become the dependencies of the object.

Texts are lists of characters up to the first NUL; a pointer is what follows it.
-/
namespace Verif.Light
open Verif.Str

/-! ## Parsing one file -/

/-- `IncludeType`, LightCache.cpp:33-38 -/
inductive IncType where
  | angle
  | quote
  | «macro»
  deriving DecidableEq

/-- ` ` and tab, LightCache.cpp:1008 -/
def isWs (c : Char) : Bool := c == ' ' || c == '\t'

/-- `IsAtEndOfLine`, LightCache.cpp:1019-1023 -/
def isEol (c : Char) : Bool := c == '\r' || c == '\n'

/-- `SkipWhitespace`, LightCache.cpp:1003-1015 -/
def skipWs (s : List Char) : List Char := s.dropWhile isWs

/-- `SkipLineEnd`, LightCache.cpp:1027-1034 -/
def skipEol (s : List Char) : List Char := s.dropWhile isEol

/-- `SkipToEndOfLine`, LightCache.cpp:1038-1050 -/
def toEol (s : List Char) : List Char := s.dropWhile (fun c => !isEol c)

/-- `IsCommentBlockStart`, LightCache.cpp:559-562 -/
def commentStart : List Char → Bool
  | c :: d :: _ => c == '/' && d == '*'
  | _ => false

/-- The search for the end of a comment, LightCache.cpp:572-593 -/
def commentEnd : List Char → List Char
  | [] => []
  | [_] => []
  | c :: d :: s => if c = '*' ∧ d = '/' then s else commentEnd (d :: s)

/-- `SkipCommentBlock`, LightCache.cpp:566-593 -/
def skipComment (s : List Char) : List Char := commentEnd (s.drop 2)

/-- a comment and white space, if there is one: the idiom of LightCache.cpp:461-465, 508-512, 527-531 -/
def optComment (s : List Char) : List Char := if commentStart s then skipWs (skipComment s) else s

/-- `SkipToEndOfQuotedString`, LightCache.cpp:1054-1089, for a string ended by `e`: what is inside and what follows
the end, or where the search stopped -/
def quotedStr (e : Char) : List Char → Option (List Char) × List Char
  | [] => (none, [])
  | c :: s =>
    if c = e then (some [], s)
    else if isEol c then (none, c :: s)
    else
      match quotedStr e s with
      | (some q, r) => (some (c :: q), r)
      | (none, r) => (none, r)

/-- `ParseIncludeString`, LightCache.cpp:597-618 -/
def includeStr : List Char → Option (List Char × IncType) × List Char
  | '"' :: s =>
    match quotedStr '"' s with
    | (some q, r) => (some (q, .quote), r)
    | (none, r) => (none, r)
  | '<' :: s =>
    match quotedStr '>' s with
    | (some q, r) => (some (q, .angle), r)
    | (none, r) => (none, r)
  | s => (none, s)

/-- the first character of an identifier, LightCache.cpp:628-630 -/
def idStart (c : Char) : Bool := ('a' ≤ c && c ≤ 'z') || ('A' ≤ c && c ≤ 'Z') || c == '_'

/-- the other characters of an identifier, LightCache.cpp:641-644 -/
def idChar (c : Char) : Bool := idStart c || ('0' ≤ c && c ≤ '9')

/-- `ParseMacroName`, LightCache.cpp:622-654 -/
def macroName (s : List Char) : Option (List Char × List Char) :=
  match s with
  | [] => none
  | c :: r => if idStart c then some (c :: r.takeWhile idChar, r.dropWhile idChar) else none

/-- what a directive means -/
inductive Act where
  | nothing
  | include (path : List Char) (t : IncType)
  | incDef (name path : List Char) (t : IncType)
  | nonIncDef (name : List Char)
  | error
  deriving DecidableEq

/-- `ParseDirective_Include`, LightCache.cpp:453-496; `s` is behind `include` -/
def dirInclude (s : List Char) : Act × List Char :=
  let s := optComment (skipWs s)
  match s with
  | [] => (.error, [])
  | c :: _ =>
    if c = '"' ∨ c = '<' then
      match includeStr s with
      | (some (p, t), r) => (.include p t, r)
      | (none, r) => (.error, r)
    else
      match macroName s with
      | some (m, r) => (.include m .macro, r)
      | none => (.error, s)

/-- `ParseDirective_Define`, LightCache.cpp:500-547; `s` is behind `define` -/
def dirDefine (s : List Char) : Act × List Char :=
  match macroName (optComment (skipWs s)) with
  | none => (.error, s)
  | some (m, r) =>
    match includeStr (optComment (skipWs r)) with
    | (some (p, t), r) => (.incDef m p t, r)
    | (none, r) => (.nonIncDef m, r)

/-- `ParseDirective`, LightCache.cpp:426-449; `s` is behind the `#` -/
def directive (s : List Char) : Act × List Char :=
  let s := skipWs s
  if "include".toList.isPrefixOf s then dirInclude (s.drop 7)
  else if "define".toList.isPrefixOf s then dirDefine (s.drop 6)
  else if "import".toList.isPrefixOf s then (.error, s)
  else (.nothing, s)

/-- The members of `IncludedFile` filled by `Parse`, LightCache.cpp:62-66, and whether an error was added. Macros which
do not name a file are kept by name here, by hash in the code: a collision makes the light cache give up. -/
structure Parsed where
  includes : List (List Char × IncType) := []
  incDefs : List (List Char × List Char × IncType) := []
  nonIncDefs : List (List Char) := []
  ok : Bool := true
  deriving DecidableEq

/-- the effect of a directive -/
def Parsed.add (a : Parsed) : Act → Parsed
  | .nothing => a
  | .include p t => { a with includes := a.includes ++ [(p, t)] }
  | .incDef m p t => { a with incDefs := a.incDefs ++ [(m, p, t)] }
  | .nonIncDef m => { a with nonIncDefs := a.nonIncDefs ++ [m] }
  | .error => { a with ok := false }

/-- the directive on a line, if it is one, LightCache.cpp:402-409 -/
def lineAct (s : List Char) : Act × List Char :=
  match s with
  | '#' :: r => directive r
  | _ => (.nothing, s)

/-- `if ( IsCommentBlockStart( pos ) ) SkipCommentBlock( pos );`, LightCache.cpp:412-415 -/
def skipIfComment (s : List Char) : List Char := if commentStart s then skipComment s else s

/-- The loop of `Parse`, LightCache.cpp:382-421. One unit of fuel per iteration. -/
def parseLoop : Nat → Parsed → List Char → Option Parsed
  | 0, _, _ => none
  | fuel + 1, a, s =>
    match skipWs s with
    | [] => some a
    | c :: r =>
      if isEol c then parseLoop fuel a (skipEol (c :: r))
      else
        match lineAct (c :: r) with
        | (.error, _) => some (a.add .error)
        | (act, s) => parseLoop fuel (a.add act) (skipEol (toEol (skipIfComment s)))

/-- `Parse`, LightCache.cpp:364-422, after reading; the pointer stops at the first NUL -/
def parse (text : List Char) : Option Parsed :=
  let text := text.takeWhile (· ≠ '\x00')
  parseLoop (text.length + 1) {} text

/-! ## Looking up files -/

/-- An `IncludedFile`, LightCache.cpp:42-72. `rel` is `m_RelativePathHash` before hashing, `none` if it was not set. -/
structure Entry where
  name : List Char
  «exists» : Bool
  content : List Char
  rel : Option (List Char)
  parsed : Parsed

/-- The file system, the platform and the functions from outside. -/
structure World where
  platform : Platform
  workingDir : List Char
  fs : List Char → Option (List Char)
  /-- `PathUtils::GetRelativePath` -/
  relative : List Char → List Char → List Char

/-- the state of one `LightCache` with the shared cache of files, LightCache.h and LightCache.cpp:236 -/
structure State where
  /-- `g_AllIncludedFiles`; found by name -/
  cache : List Entry := []
  /-- `m_AllIncludedFiles` -/
  all : List Entry := []
  /-- `m_IncludeStack`, innermost first -/
  stack : List Entry := []
  /-- `m_IncludeDefines` -/
  incDefs : List (List Char × List Char × IncType) := []
  /-- `m_Errors` is not empty -/
  failed : Bool := false

/-- the settings of one `LightCache`: the include paths and the base path -/
structure Settings where
  paths : List (List Char)
  basePath : List Char

/-- a newly seen file, LightCache.cpp:934-960 -/
def newEntry (w : World) (base name : List Char) : Entry :=
  { name := name
    «exists» := (w.fs name).isSome
    content := (w.fs name).getD []
    rel := if base = [] then none else some (w.relative base name)
    parsed := ((w.fs name).bind parse).getD {} }

/-- `FileExists`, LightCache.cpp:901-963. The mutex of the bucket makes this one step for each file. An error of
parsing is added to this `LightCache` only. -/
def fileExists (w : World) (s : Settings) (st : State) (name : List Char) : Entry × State :=
  match st.cache.find? (·.name = name) with
  | some e => (e, { st with incDefs := st.incDefs ++ e.parsed.incDefs })
  | none =>
    let e := newEntry w s.basePath name
    (e, { st with
      cache := st.cache ++ [e]
      incDefs := st.incDefs ++ e.parsed.incDefs
      failed := st.failed || !e.parsed.ok })

/-- `NodeGraph::CleanPath` -/
def clean (w : World) (s : List Char) : List Char := (cleanPath w.platform w.workingDir s true).getD []

/-- the path up to its last slash, LightCache.cpp:831-838 -/
def dirOf (path : List Char) : List Char := (path.reverse.dropWhile (fun c => !isSlash c)).reverse

/-- the result of a lookup: the file found, and whether it is on the stack -/
structure Found where
  file : Option Entry
  cyclic : Bool

/-- The loops of `ProcessIncludeFromIncludeStack` and `ProcessIncludeFromIncludePath`, LightCache.cpp:828-860, 872-894,
over the candidates. The second returns no file if it is on the stack; as the caller does nothing with a
file on the stack, this makes no difference. -/
def lookup (w : World) (s : Settings) : List (List Char) → State → Found × State
  | [], st => ({ file := none, cyclic := false }, st)
  | cand :: cands, st =>
    match st.stack.find? (·.name = cand) with
    | some e => ({ file := some e, cyclic := true }, st)
    | none =>
      let (e, st) := fileExists w s st cand
      if e.exists then ({ file := some e, cyclic := false }, st) else lookup w s cands st

/-- the places where a file is looked for in directories of the include stack, innermost first -/
def stackCands (w : World) (stack : List Entry) (inc : List Char) : List (List Char) :=
  stack.map fun e => clean w (dirOf e.name ++ inc)

/-- the places where a file is looked for along the include paths -/
def pathCands (w : World) (s : Settings) (inc : List Char) : List (List Char) :=
  s.paths.map fun p => clean w (p ++ inc)

/-- where a file is looked for, LightCache.cpp:664-756; a full path is used as it is -/
def cands (w : World) (s : Settings) (stack : List Entry) (inc : List Char) (t : IncType) : List (List Char) :=
  if isFullPath w.platform inc then [inc]
  else
    match t with
    | .angle => pathCands w s inc
    | .quote => stackCands w stack inc ++ pathCands w s inc
    | .macro => []

/-- what happens with a file found, LightCache.cpp:758-799; `go` processes the includes of the file -/
def visit (go : State → List Char → IncType → Option State) (f : Found) (st : State) : Option State :=
  match f.file with
  | none => some st
  | some e =>
    if e.exists = false then some st
    else if f.cyclic then some st
    else if (st.all.find? (·.name = e.name)).isSome then some st
    else
      let st := { st with all := st.all ++ [e], stack := e :: st.stack }
      match e.parsed.includes.foldlM (fun st i => go st i.1 i.2) st with
      | none => none
      | some st => some { st with stack := st.stack.tail }

/-- `ProcessInclude`, LightCache.cpp:658-800. One unit of fuel per level of recursion. -/
def processInclude (w : World) (s : Settings) : Nat → State → List Char → IncType → Option State
  | 0, _, _, _ => none
  | fuel + 1, st, inc, t =>
    if isFullPath w.platform inc = false ∧ t = .macro then
      match st.incDefs.find? (·.1 = inc) with
      | some (_, p, t) => processInclude w s fuel st p t
      | none =>
        if st.all.any (·.parsed.nonIncDefs.contains inc) then some { st with failed := true } else some st
    else
      let (f, st) := lookup w s (cands w s st.stack inc t) st
      visit (processInclude w s fuel) f st

/-! ## The arguments -/

/-- The body of an option with one of the prefixes, ProjectGeneratorBase.cpp:578-639: `next` is the following token.
`none` means that the list ends with an incomplete option. -/
def optionBody (prefixes : List (List Char)) (token : List Char) (next : Option (List Char)) : Option (List Char) :=
  if prefixes.contains token then
    match next with
    | none => none
    | some n => some (removeQuotes n)
  else
    match prefixes.find? (·.isPrefixOf token) with
    | some p => some (token.drop p.length)
    | none => some []

/-- `ExtractIntellisenseOptions` without `escapeQuotes` and `keepFullOption`, ProjectGeneratorBase.cpp:566-640. An option
exactly equal to a prefix whose next token is empty is tried as a prefix of itself, which gives nothing. For a body
of one quote `Trim` asserts; here it is kept. -/
def extractGo (prefixes : List (List Char)) : List (List Char) → List (List Char)
  | [] => []
  | tok :: rest =>
    match optionBody prefixes (removeQuotes tok) rest.head? with
    | none => []
    | some body =>
      let body := if body.head? = some '"' ∧ body.getLast? = some '"' ∧ body.length ≥ 2 then body.tail.dropLast else body
      (if body = [] then [] else [body]) ++ extractGo prefixes rest

def extract (prefixes : List (List Char)) (args : List Char) : List (List Char) := extractGo prefixes (tokenize ' ' args)

/-- `m_IncludePrefixes`, ProjectGeneratorBase.cpp:43-75 -/
def includePrefixes : List (List (List Char)) :=
  [["/I", "-I"], ["-isystem-after", "-isystem"], ["/imsvc", "-imsvc"], ["-idirafter"], ["-iquote"], ["/external:I", "-external:I"]].map
    (·.map String.toList)

/-- `m_ForceIncludePrefixes`, ProjectGeneratorBase.cpp:79-82 -/
def forcePrefixes : List (List Char) := ["/FI".toList, "-FI".toList]

/-- a slash at the end, LightCache.cpp:300-307 -/
def withSlash (p : Platform) (path : List Char) : List Char := if path.getLast?.any isSlash then path else path ++ [native p]

/-- the include paths, LightCache.cpp:285-307; `builtIn` is from the compiler (`CompilerInfoNode`) -/
def includePaths (p : Platform) (args : List Char) (builtIn : List (List Char)) : List (List Char) :=
  (includePrefixes.flatMap (extract · args) ++ builtIn).map (withSlash p)

/-- does the string occur -/
def contains (pat : List Char) : List Char → Bool
  | [] => pat.isPrefixOf []
  | c :: s => pat.isPrefixOf (c :: s) || contains pat s

/-- the outcome of `Hash` -/
inductive Outcome where
  /-- the hash and the dependencies -/
  | hashed (key : Nat) (deps : List (List Char))
  /-- the light cache is not used -/
  | unusable
  /-- a hash which was never set is read -/
  | undefined
  deriving DecidableEq

/-- the hash functions: of a name, of a content, and of the list of both -/
structure Hashes where
  name : List Char → Nat
  content : List Char → Nat
  all : List Nat → Nat

/-- the numbers hashed in the end, LightCache.cpp:341-347 -/
def numbers (h : Hashes) (useRel : Bool) : List Entry → Option (List Nat)
  | [] => some []
  | e :: es =>
    match (if useRel then e.rel else some e.name), numbers h useRel es with
    | some n, some ns => some (h.name n :: h.content e.content :: ns)
    | _, _ => none

/-- The files processed by `Hash`, LightCache.cpp:285-316: forced includes and the source file. -/
def process (w : World) (s : Settings) (fuel : Nat) (cache : List Entry) (roots : List (List Char)) : Option State :=
  roots.foldlM (fun st r => processInclude w s fuel st r .quote) { cache := cache }

/-- `Hash`, LightCache.cpp:262-350, with the shared cache before and after -/
def hash (h : Hashes) (w : World) (fuel : Nat) (cache : List Entry) (useRel : Bool) (args : List Char) (builtIn : List (List Char))
    (root : List Char) : Option (Outcome × List Entry) :=
  if contains "-sourceDependencies".toList args || contains "/sourceDependencies".toList args then some (.unusable, cache)
  else
    let s : Settings := { paths := includePaths w.platform args builtIn,
                          basePath := if useRel then withSlash w.platform w.workingDir else [] }
    match process w s fuel cache (extract forcePrefixes args ++ [root]) with
    | none => none
    | some st =>
      if st.all = [] ∨ st.failed then some (.unusable, st.cache)
      else
        match numbers h useRel st.all with
        | none => some (.undefined, st.cache)
        | some ns => some (.hashed (h.all ns) (st.all.map (·.name)), st.cache)

end Verif.Light
