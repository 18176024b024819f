import Verif.Str.MatchModel
/-
Model of string replacement, tokenising, quote removal (Code/Core/Strings/AString.cpp) and of the folder
path functions built on them (Code/Core/FileIO/PathUtils.cpp).

Strings are lists of characters without NUL. Loops that do not follow the structure of the string get fuel;
`none` means that it did not suffice (proved impossible).
-/
namespace Verif.Str

/-- `AString::StrNCmp( a, b, n ) == 0`, AString.cpp:1526-1548; the empty list is the terminator. -/
def strNCmp0 : Nat → List Char → List Char → Bool
  | 0, _, _ => true
  | _ + 1, [], [] => true
  | n + 1, a :: as, b :: bs => a == b && strNCmp0 n as bs
  | _ + 1, _, _ => false

/-- The loop of `AString::Replace( const char *, const char *, uint32_t )`, AString.cpp:864-897, with the
final copy. `temp` is the output so far, `s` the rest of the string. `maxReplaces--` wraps around. -/
def replaceGo (frm to : List Char) : Nat → UInt32 → Nat → List Char → List Char → Option (List Char × Nat)
  | 0, _, _, _, _ => none
  | fuel + 1, max, count, temp, s =>
    if frm.length ≤ s.length then
      if strNCmp0 frm.length s frm then
        let max := max - 1
        if max = 0 then some (temp ++ to ++ s.drop frm.length, count + 1)
        else replaceGo frm to fuel max (count + 1) (temp ++ to) (s.drop frm.length)
      else replaceGo frm to fuel max count (temp ++ s.take 1) (s.drop 1)
    else some (temp ++ s, count)

/-- `AString::Replace( const char *, const char *, uint32_t )`, AString.cpp:851-900: new string and
number of replacements. -/
def replace (frm to : List Char) (max : UInt32) (s : List Char) : Option (List Char × Nat) :=
  if frm.length = 0 then some (s, 0)
  else
    match replaceGo frm to (s.length + 1) max 0 [] s with
    | none => none
    | some (temp, count) => if count > 0 then some (temp, count) else some (s, count)

/-- `AString::Replace( char, char, uint32_t )`, AString.cpp:741-760. -/
def replaceChar (frm to : Char) (max : UInt32) : UInt32 → List Char → List Char × UInt32
  | count, [] => ([], count)
  | count, c :: s =>
    if c = frm then
      let count := count + 1
      if count = max then (to :: s, count)
      else let (r, k) := replaceChar frm to max count s; (to :: r, k)
    else let (r, k) := replaceChar frm to max count s; (c :: r, k)

/-- Target platform, for the macros of PathUtils.h:11-22. -/
inductive Platform where
  | windows | linux
  deriving DecidableEq

/-- `NATIVE_SLASH` -/
def native : Platform → Char
  | .windows => '\\'
  | .linux => '/'

/-- `OTHER_SLASH` -/
def other : Platform → Char
  | .windows => '/'
  | .linux => '\\'

/-- `while ( path.Replace( NATIVE_DOUBLE_SLASH, NATIVE_SLASH_STR ) ) {}`, PathUtils.cpp:150-152. -/
def collapseLoop (p : Platform) : Nat → List Char → Option (List Char)
  | 0, _ => none
  | fuel + 1, s =>
    match replace [native p, native p] [native p] 0 s with
    | none => none
    | some (s', count) => if count > 0 then collapseLoop p fuel s' else some s'

/-- `PathUtils::FixupFolderPath`, PathUtils.cpp:143-169. -/
def fixupFolderPath (p : Platform) (path : List Char) : Option (List Char) :=
  let path := (replaceChar (other p) (native p) 0 0 path).1
  let isUNC := p = .windows ∧ [native p, native p].isPrefixOf path = true
  match collapseLoop p (path.length + 1) path with
  | none => none
  | some path =>
    let path := if isUNC then native p :: path else path
    some (if path.getLast? = some (native p) then path else path ++ [native p])

/-- `PathUtils::FixupFilePath` without the final assertion, PathUtils.cpp:173-183. -/
def fixupFilePath (p : Platform) (path : List Char) : Option (List Char) :=
  let path := (replaceChar (other p) (native p) 0 0 path).1
  collapseLoop p (path.length + 1) path

/-- `PathUtils::EnsureTrailingSlash`, PathUtils.cpp:118-139. -/
def ensureTrailingSlash (p : Platform) (path : List Char) : List Char :=
  if path.getLast? = some (native p) then path
  else if path.getLast? = some (other p) then path.dropLast ++ [native p]
  else path ++ [native p]

/-- The loop of `AString::Tokenize( Array<TokenRange> &, char )`, AString.cpp:313-372: `i` is the index of
the head of the list, `quote` is `quoteChar != 0` and `cur` the start of the current token. Returns the
ranges found. -/
def tokenGo (sep : Char) : Nat → Bool → Option Nat → List Char → List (Nat × Nat)
  | i, _, some start, [] => [(start, i)]
  | _, _, none, [] => []
  | i, quote, cur, c :: s =>
    if cur = none ∧ c = sep then tokenGo sep (i + 1) quote cur s
    else
      let start := cur.getD i
      if c = '"' then tokenGo sep (i + 1) (!quote) (some start) s
      else if c = '\\' then
        match s with
        | '"' :: s => tokenGo sep (i + 2) quote (some start) s
        | s => tokenGo sep (i + 1) quote (some start) s
      else if c = sep then
        if quote then tokenGo sep (i + 1) quote (some start) s
        else (start, i) :: tokenGo sep (i + 1) quote none s
      else tokenGo sep (i + 1) quote (some start) s

/-- `AString::Tokenize`, AString.cpp:306-381. -/
def tokenRanges (sep : Char) (s : List Char) : List (Nat × Nat) := tokenGo sep 0 false none s

/-- `AString::Tokenize( Array<AString> &, char )`, AString.cpp:385-401. -/
def tokenize (sep : Char) (s : List Char) : List (List Char) :=
  (tokenRanges sep s).map fun (a, b) => (s.drop a).take (b - a)

/-- `AString::RemoveQuotes`, AString.cpp:415-465: the characters written to the output. -/
def removeQuotes : List Char → List Char
  | [] => []
  | c :: s =>
    if c = '"' then removeQuotes s
    else if c = '\\' then
      match s with
      | '"' :: s => '"' :: removeQuotes s
      | s => c :: removeQuotes s
    else c :: removeQuotes s

end Verif.Str
