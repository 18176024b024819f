/-
Comparing and searching strings: Code/Core/Strings/AString.cpp (A) 139-205, 904-1360, 1518-1589.

A string is the bytes it shows; in memory a zero follows.  A pointer into the string is the number of bytes before it.
What is read outside of the memory of a string, and a failed `ASSERT`, is `none`.
-/
namespace Verif.StrFind

abbrev Bytes := List UInt8

/-- The memory of a string. -/
def mem (s : Bytes) : Bytes := s ++ [0]

/-- `'a' + ( c - 'A' )` for letters. -/
def low (c : UInt8) : UInt8 := if 65 ≤ c ∧ c ≤ 90 then 97 + (c - 65) else c

/-- `StrNCmp` (A:1530-1552) and, with `f = low`, `StrNCmpI` (A:1556-1588), as far as equality goes. -/
def strNCmp (f : UInt8 → UInt8) : Bytes → Bytes → Nat → Option Bool
  | _, _, 0 => some true
  | x :: a, y :: b, n + 1 =>
      if f x = f y then
        if f x = 0 then some true else strNCmp f a b n
      else some false
  | _, _, _ + 1 => none

/-- `StrLen` (A:1518-1526) of a C string in memory. -/
def strLen : Bytes → Option Nat
  | [] => none
  | x :: m => if x = 0 then some 0 else (strLen m).map (· + 1)

/-- `operator == ( const char * )` (A:139-158). -/
def eqC : Bytes → Bytes → Option Bool
  | x :: a, y :: b => if x ≠ y then some false else if x = 0 then some true else eqC a b
  | _, _ => none

/-- `operator == ( const AString & )` (A:162-170). -/
def eq (s t : Bytes) : Option Bool := if t.length ≠ s.length then some false else eqC (mem s) (mem t)

/-- `Compare` and `CompareI` (A:174-209): `strcmp` and `strcasecmp` of the C library, as the standard has them. -/
def compare (f : UInt8 → UInt8) : Bytes → Bytes → Option Ordering
  | x :: a, y :: b =>
      if f x < f y then some .lt
      else if f y < f x then some .gt
      else if f x = 0 then some .eq
      else compare f a b
  | _, _ => none

/-- The loop of `Find` and `FindI` of a character (A:918-926, 1008-1021), `n` positions from `pos` on. -/
def findCharLoop (f : UInt8 → UInt8) (m : Bytes) (c : UInt8) : Nat → Nat → Option (Option Nat)
  | _, 0 => some none
  | pos, n + 1 =>
      match m[pos]? with
      | none => none
      | some b => if f b = f c then some (some pos) else findCharLoop f m c (pos + 1) n

/-- `Find( char )` and `FindI( char )` (A:904-926, 988-1021). -/
def findChar (f : UInt8 → UInt8) (s : Bytes) (c : UInt8) (start : Option Nat) (stop : Option Nat) : Option (Option Nat) :=
  let pos := start.getD 0
  let e := stop.getD s.length
  if s.length < pos then none
  else if e < pos then none
  else if s.length < e then none
  else findCharLoop f (mem s) c pos (e - pos)

/-- The loop of A:948-955: all positions up to `e`, the last one included. -/
def findLoop (f : UInt8 → UInt8) (m sub : Bytes) (len : Nat) : Nat → Nat → Option (Option Nat)
  | _, 0 => some none
  | pos, n + 1 =>
      match strNCmp f (m.drop pos) sub len with
      | none => none
      | some true => some (some pos)
      | some false => findLoop f m sub len (pos + 1) n

/-- `Find( const AString & )` and `FindI` (A:959-984, 1054-1079). -/
def find (f : UInt8 → UInt8) (s sub : Bytes) (start : Option Nat) (stop : Option Nat) : Option (Option Nat) :=
  let pos := start.getD 0
  let e := stop.getD s.length
  if s.length < pos then none
  else if e < pos then none
  else if s.length + sub.length < e then none
  else findLoop f (mem s) (mem sub) sub.length pos (e + 1 - (pos + sub.length))

/-- `Find( const char * )` and `FindI` (A:930-955, 1025-1050): `m` is the memory of the other string. -/
def findC (f : UInt8 → UInt8) (s m : Bytes) (start : Option Nat) (stop : Option Nat) : Option (Option Nat) :=
  match strLen m with
  | none => none
  | some len =>
      let pos := start.getD 0
      let e := stop.getD s.length
      if s.length < pos then none
      else if e < pos then none
      else if s.length + len < e then none
      else findLoop f (mem s) m len pos (e + 1 - (pos + len))

/-- The loop of A:1093-1101 downwards, `n` positions, the first is `e + n - 1`. -/
def lastCharLoop (f : UInt8 → UInt8) (m : Bytes) (c : UInt8) (e : Nat) : Nat → Option (Option Nat)
  | 0 => some none
  | n + 1 =>
      match m[e + n]? with
      | none => none
      | some b => if f b = f c then some (some (e + n)) else lastCharLoop f m c e n

/-- `FindLast( char )` and `FindLastI( char )` (A:1083-1101, 1157-1187). -/
def findLastChar (f : UInt8 → UInt8) (s : Bytes) (c : UInt8) (start : Option Nat) (stop : Option Nat) : Option (Option Nat) :=
  let e := stop.getD 0
  match start with
  | none => lastCharLoop f (mem s) c e (s.length - e)
  | some p => if s.length < p then none else lastCharLoop f (mem s) c e (p + 1 - e)

def lastLoop (f : UInt8 → UInt8) (m sub : Bytes) (len e : Nat) : Nat → Option (Option Nat)
  | 0 => some none
  | n + 1 =>
      match strNCmp f (m.drop (e + n)) sub len with
      | none => none
      | some true => some (some (e + n))
      | some false => lastLoop f m sub len e n

/-- `FindLast( const AString & )` and `FindLastI` (A:1131-1153, 1217-1239).  The `ASSERT` fails if there is no position. -/
def findLast (f : UInt8 → UInt8) (s sub : Bytes) (start : Option Nat) (stop : Option Nat) : Option (Option Nat) :=
  let e := stop.getD 0
  match start with
  | none =>
      if s.length < sub.length then none
      else if s.length - sub.length < e then none
      else lastLoop f (mem s) (mem sub) sub.length e (s.length - sub.length + 1 - e)
  | some p =>
      if s.length < p then none
      else if p < e then none
      else lastLoop f (mem s) (mem sub) sub.length e (p + 1 - e)

/-- `EndsWith( const AString & )` and `EndsWithI` (A:1268-1276, 1292-1300). -/
def endsWith (f : UInt8 → UInt8) (s t : Bytes) : Option Bool :=
  if s.length < t.length then some false else strNCmp f ((mem s).drop (s.length - t.length)) (mem t) t.length

/-- `BeginsWith( const AString & )` and `BeginsWithI` (A:1327-1335, 1351-1359). -/
def beginsWith (f : UInt8 → UInt8) (s t : Bytes) : Option Bool :=
  if s.length < t.length then some false else strNCmp f (mem s) (mem t) t.length

/-- `EndsWith( char )` and `BeginsWith( char )` (A:1243-1251, 1304-1311). -/
def endsWithChar (s : Bytes) (c : UInt8) : Option Bool :=
  if s.length = 0 then some false else (mem s)[s.length - 1]?.map (· = c)

def beginsWithChar (s : Bytes) (c : UInt8) : Option Bool :=
  if s.length = 0 then some false else (mem s)[0]?.map (· = c)

end Verif.StrFind
