/-
Model of `AString::Match` and `AString::MatchI`, Code/Core/Strings/AString.cpp:1362-1492.

C strings are lists of characters without the terminator (so they contain no NUL). `[]` stands for the
terminator: reading `str[ i ]` at the end gives 0 and nothing is read behind it.
-/
namespace Verif.Str

/-- ASCII lower case as in AString.cpp:1440-1442. -/
def lower (c : Char) : Char :=
  if 'A' ≤ c ∧ c ≤ 'Z' then Char.ofNat ('a'.toNat + (c.toNat - 'A'.toNat)) else c

/-- Comparison of `Match`, AString.cpp:1381-1383. -/
def eqCase (a b : Char) : Bool := a == b

/-- Comparison of `MatchI`, AString.cpp:1440-1444. -/
def eqNoCase (a b : Char) : Bool := lower a == lower b

/-- How the inner `for` loop ends. -/
inductive Scan where
  /-- `return false` because the string is too short -/
  | no
  /-- a character differs -/
  | slide
  /-- the loop reached a `*` or the end of the pattern; rest of pattern and string -/
  | seg (pat str : List Char)
  deriving DecidableEq

/-- The `for` loop, AString.cpp:1379-1401 and 1438-1462. -/
def scan (eq : Char → Char → Bool) : List Char → List Char → Scan
  | [], str => .seg [] str
  | b :: pat, str =>
    if b = '*' then .seg (b :: pat) str
    else
      match str with
      | [] => .no
      | a :: str =>
        if eq a b then scan eq pat str
        else if b = '?' ∧ a ≠ '.' then scan eq pat str
        else .slide

/-- `do { pat++; } while ( *pat == '*' )`, AString.cpp:1371-1374. -/
def skipStars : List Char → List Char
  | [] => []
  | b :: pat => if b = '*' then skipStars pat else b :: pat

/-- The code from label `test_match`, AString.cpp:1377-1424, and `new_segment` (line 1366) when the segment
ends with a `*`. Every iteration uses one unit of fuel; `none` if there was not enough. The test
`i && pat[ i - 1 ] == '*'` (line 1413) is never true, because the loop stops at the first `*`. -/
def testMatch (eq : Char → Char → Bool) : Nat → Bool → List Char → List Char → Option Bool
  | 0, _, _, _ => none
  | fuel + 1, star, pat, str =>
    match scan eq pat str with
    | .no => some false
    | .slide => if star then testMatch eq fuel star pat str.tail else some false
    | .seg [] [] => some true
    | .seg [] (_ :: _) => if star then testMatch eq fuel star pat str.tail else some false
    | .seg (b :: p) s => testMatch eq fuel true (skipStars (b :: p)) s

/-- Function start (label `new_segment`). -/
def matchStr (eq : Char → Char → Bool) (fuel : Nat) (pat str : List Char) : Option Bool :=
  match pat with
  | '*' :: _ => testMatch eq fuel true (skipStars pat) str
  | _ => testMatch eq fuel false pat str

/-- Enough iterations. -/
def steps (pat str : List Char) : Nat := pat.length + str.length + 1

/-- `AString::Match`, AString.cpp:1362. -/
def match_ (pat str : List Char) : Option Bool := matchStr eqCase (steps pat str) pat str

/-- `AString::MatchI`, AString.cpp:1430. -/
def matchI (pat str : List Char) : Option Bool := matchStr eqNoCase (steps pat str) pat str

/-- `PathUtils::IsWildcardMatch`, Code/Core/FileIO/PathUtils.cpp:58-67. -/
def isWildcardMatch (linux : Bool) (pat str : List Char) : Option Bool :=
  if linux then match_ pat str else matchI pat str

/-- Textbook meaning of a pattern: `*` is any string, `?` is any character except a dot, anything else is
itself (up to `eq`). -/
inductive Matches (eq : Char → Char → Bool) : List Char → List Char → Prop
  | nil : Matches eq [] []
  | star (u : List Char) {p t : List Char} : Matches eq p t → Matches eq ('*' :: p) (u ++ t)
  | any {a : Char} {p t : List Char} : a ≠ '.' → Matches eq p t → Matches eq ('?' :: p) (a :: t)
  | char {a b : Char} {p t : List Char} : b ≠ '*' → eq a b = true → Matches eq p t → Matches eq (b :: p) (a :: t)

end Verif.Str
