import Verif.Str.CleanModel
/-
Model of `CIncludeParser`, Code/Tools/FBuild/FBuildCore/Helpers/CIncludeParser.cpp: how the headers used by
an object are found in what the compiler or preprocessor printed. The text is the list of its characters up
to the terminating NUL; a pointer into it is what follows it, with what precedes it kept where the code
looks back. One unit of fuel per iteration of a loop.
-/
namespace Verif.Incl
open Verif.Str

/-! ## GCC and Clang: preprocessed output -/

/-- `ParseToNextLineStartingWithHash`, CIncludeParser.cpp:230-249: from a position preceded by `prev`,
what follows the next `#` which is preceded by a line end. The `strchr` and the loop around it are one pass
here. -/
def nextHash : Char → List Char → Option (List Char)
  | _, [] => none
  | prev, c :: s => if c = '#' ∧ (prev = '\n' ∨ prev = '\r') then some s else nextHash c s

/-- `( c >= '0' ) && ( c <= '9' )`, CIncludeParser.cpp:301 -/
def isDigit (c : Char) : Bool := '0' ≤ c && c ≤ '9'

/-- the outcome of one iteration: go on at `rest`, preceded by `prev`, maybe having added a name; or
`return false` -/
inductive Step where
  | cont (prev : Char) (rest : List Char) (hasFlags : Bool) (name : Option (List Char))
  | corrupt
  deriving DecidableEq

/-- What follows an opening quote, CIncludeParser.cpp:320-354; `r` is behind the quote. -/
def gccName (hasFlags : Bool) (r : List Char) : Step :=
  if r.head? = some '<' then .cont '"' r hasFlags none
  else
    let name := r.takeWhile (· ≠ '"')
    match r.dropWhile (· ≠ '"') with
    | [] => .corrupt
    | q :: after =>
      let lastChar := name.getLast?.getD '"'
      if isSlash lastChar then .cont lastChar (q :: after) hasFlags none
      else if [' ', '1'].isPrefixOf after || !hasFlags then .cont q after hasFlags (some name)
      else .cont q after hasFlags none

/-- `foundInclude`, CIncludeParser.cpp:295-321. The character before a position reached by a `continue` is
never a line end here; a space stands for it. -/
def gccFound (hasFlags : Bool) (s : List Char) : Step :=
  match s.dropWhile isDigit with
  | [] => .cont ' ' [] hasFlags none
  | c :: s1 =>
    if c ≠ ' ' then .cont ' ' (c :: s1) hasFlags none
    else
      match s1 with
      | [] => .cont ' ' [] hasFlags none
      | q :: r => if q ≠ '"' then .cont ' ' (q :: r) hasFlags none else gccName hasFlags r

/-- `possibleInclude`, CIncludeParser.cpp:281-293; `p` is behind the `#`. -/
def gccBody (hasFlags : Bool) (p : List Char) : Step :=
  if p.head? = some ' ' then gccFound hasFlags p.tail
  else if "line ".toList.isPrefixOf p then gccFound false (p.drop 5)
  else .cont '#' p hasFlags none

/-- The loop of `ParseGCC_Preprocessed`, CIncludeParser.cpp:273-355: the names given to `AddInclude`, in
order; `none` if the function returns false. -/
def gccLoop : Nat → Char → Bool → List Char → Option (List (List Char))
  | 0, _, _, _ => none
  | fuel + 1, prev, hasFlags, s =>
    match nextHash prev s with
    | none => some []
    | some p =>
      match gccBody hasFlags p with
      | .corrupt => none
      | .cont prev rest hasFlags name => (gccLoop fuel prev hasFlags rest).map (name.toList ++ ·)

/-- `ParseGCC_Preprocessed`, CIncludeParser.cpp:255-358. A `#` as the first character is treated separately;
the first character is not looked at as a candidate otherwise, so what precedes it does not matter. -/
def parseGcc (text : List Char) : Option (List (List Char)) :=
  if text.head? = some '#' then
    match gccBody true text.tail with
    | .corrupt => none
    | .cont prev rest hasFlags name => (gccLoop (text.length + 1) prev hasFlags rest).map (name.toList ++ ·)
  else gccLoop (text.length + 1) ' ' true text

/-! ## Microsoft: output of /showIncludes -/

/-- The body of the loop of `ParseMSCL_Output` for one line, CIncludeParser.cpp:61-149, without the line end.
The code also looks at the character at the line's end where the line stops early; that is `\r` or `\n`, which
is none of the characters compared with. The test for white space (line 97) never fails. -/
def showLine (line : List Char) : Option (List Char) :=
  let pre := line.takeWhile (· ≠ ':')
  match line.dropWhile (· ≠ ':') with
  | [] => none
  | _ :: r1 =>
    let mid := r1.takeWhile (· ≠ ':')
    match r1.dropWhile (· ≠ ':') with
    | [] => none
    | _ :: r2 =>
      if pre = [] ∨ mid = [] then none
      else
        let inc := r2.dropWhile (· = ' ')
        if inc = [] ∨ inc.any ("<>\"|?*".toList.contains ·) ∨ inc.countP (· = ':') > 1 then none
        else if inc.head?.any Char.isAlpha && inc[1]? == some ':' then some inc
        else none

/-- `lineEnd`, CIncludeParser.cpp:54: a `\r` before the line end is not part of the line -/
def dropCR (line : List Char) : List Char := if line.getLast? = some '\r' then line.dropLast else line

/-- The loop of `ParseMSCL_Output`, CIncludeParser.cpp:43-150: a last line without `\n` is not looked at. -/
def showGo : List Char → List Char → List (List Char)
  | _, [] => []
  | cur, c :: s =>
    if c = '\n' then (showLine (dropCR cur.reverse)).toList ++ showGo [] s
    else showGo (c :: cur) s

/-- `ParseMSCL_Output`: the names given to `AddInclude` -/
def parseShow (text : List Char) : List (List Char) := showGo [] text

/-! ## Microsoft: preprocessed output -/

/-- the string searched for, CIncludeParser.cpp:168 -/
def line1 : List Char := "#line 1 ".toList

/-- `strstr( pos, "#line 1 " )`: what precedes the occurrence, in reverse, and what follows it -/
def findLine1 : List Char → List Char → Option (List Char × List Char)
  | _, [] => none
  | before, c :: s => if line1.isPrefixOf (c :: s) then some (before, (c :: s).drop 8) else findLine1 (c :: before) s

/-- The search backwards for the start of the line, CIncludeParser.cpp:178-199 -/
def atLineStart : List Char → Bool
  | [] => true
  | c :: before => if c = ' ' ∨ c = '\t' then atLineStart before else c == '\n'

/-- The loop of `ParseMSCL_Preprocessed`, CIncludeParser.cpp:166-223 -/
def ppLoop : Nat → List Char → List Char → Option (List (List Char))
  | 0, _, _ => none
  | fuel + 1, before, s =>
    match findLine1 before s with
    | none => some []
    | some (before, r) =>
      let before := line1.reverse ++ before
      if atLineStart (before.drop 8) = false then ppLoop fuel before r
      else
        match r.dropWhile (· ≠ '"') with
        | [] => none
        | q :: r1 =>
          match r1.dropWhile (· ≠ '"') with
          | [] => none
          | q2 :: r2 =>
            let before := (r1.takeWhile (· ≠ '"')).reverse ++ q :: ((r.takeWhile (· ≠ '"')).reverse ++ before)
            (ppLoop fuel before (q2 :: r2)).map (r1.takeWhile (· ≠ '"') :: ·)

/-- `ParseMSCL_Preprocessed`, CIncludeParser.cpp:157-226 -/
def parsePP (text : List Char) : Option (List (List Char)) := ppLoop (text.length + 1) [] text

/-! ## The list of headers -/

/-- the members of `CIncludeParser`, CIncludeParser.h -/
structure Parser where
  last1 : Nat := 0
  crcs1 : List Nat := []
  last2 : Nat := 0
  crcs2 : List Nat := []
  includes : List (List Char) := []

/-- the string hashed to recognise a header again, CIncludeParser.cpp:393-401: on Windows (and OSX, not
modelled) letters are made lower case -/
def key (p : Platform) (s : List Char) : List Char := if p = .windows then s.map Char.toLower else s

/-- `NodeGraph::CleanPath( include, cleanInclude )`, CIncludeParser.cpp:392 -/
def clean (p : Platform) (wd s : List Char) : List Char := (cleanPath p wd s true).getD []

/-- `AddInclude`, CIncludeParser.cpp:370-412. `h` stands for `xxHash3::Calc32`. -/
def addInclude (h : List Char → Nat) (p : Platform) (wd : List Char) (st : Parser) (name : List Char) : Parser :=
  let crc1 := h name
  if crc1 = st.last1 then st
  else
    let st := { st with last1 := crc1 }
    if crc1 ∈ st.crcs1 then st
    else
      let st := { st with crcs1 := st.crcs1 ++ [crc1] }
      let cleanInclude := clean p wd name
      let crc2 := h (key p cleanInclude)
      if crc2 = st.last2 then st
      else
        let st := { st with last2 := crc2 }
        if crc2 ∈ st.crcs2 then st
        else { st with crcs2 := st.crcs2 ++ [crc2], includes := st.includes ++ [cleanInclude] }

/-- the names in order given to `AddInclude`, then `SwapIncludes` -/
def listOf (h : List Char → Nat) (p : Platform) (wd : List Char) (names : List (List Char)) : List (List Char) :=
  (names.foldl (addInclude h p wd) {}).includes

/-- which of the three parsers is used, ObjectNode.cpp:791-874: with `/showIncludes` the compiler's own
output, otherwise preprocessed output in the compiler's (or the dedicated preprocessor's) style -/
inductive Style where
  | showIncludes
  | msvcPreprocessed
  | gccPreprocessed
  deriving DecidableEq

/-- `ProcessIncludesMSCL` and `ProcessIncludesWithPreProcessor`, ObjectNode.cpp:791-874: the object's list of
headers, `none` if the build of the object fails. An empty output has no headers for `/showIncludes`. -/
def processIncludes (h : List Char → Nat) (p : Platform) (wd : List Char) (style : Style) (text : List Char) :
    Option (List (List Char)) :=
  match style with
  | .showIncludes => some (listOf h p wd (parseShow text))
  | .msvcPreprocessed => (parsePP text).map (listOf h p wd)
  | .gccPreprocessed => (parseGcc text).map (listOf h p wd)

end Verif.Incl
