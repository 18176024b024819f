/-
The string class: Code/Core/Strings/AString.cpp (S), AString.h (H) and AStackString.h (K).

Memory is modelled: blocks of the heap are lists of bytes that can be freed, a stack string has its own
storage, and a string without memory points to the static empty string.  A write outside of a block or to
the static string, a read outside of a block, and freeing what is not an allocated block give `none`.
Lengths are 32 bit numbers where the code has them.  `junk a k` is what byte `k` of the block `a` is when it
is allocated.
-/
namespace Verif.AStr

abbrev Mem := List Nat
/-- Blocks by address; a freed block is `none`, and addresses are not used again. -/
abbrev Heap := List (Option Mem)

/-- Where `m_Contents` points. -/
inductive Loc
  | empty
  | storage
  | heap (a : Nat)
  deriving DecidableEq

/-- H:228-230 and K:51. -/
structure Str where
  loc : Loc
  len : Nat
  reserved : Nat
  mustFree : Bool
  storage : Mem
  deriving DecidableEq

/-- Arithmetic of 32 bit. -/
def wrap (n : Nat) : Nat := n % 2 ^ 32
/-- `Math::RoundUp( n, 2 )`. -/
def roundUp (n : Nat) : Nat := wrap (n + 1) / 2 * 2

/-- What `m_Contents` points to. -/
def buf (h : Heap) (s : Str) : Option Mem :=
  match s.loc with
  | .empty => some [0]
  | .storage => some s.storage
  | .heap a => (h[a]?).join

/-- `len` bytes of memory from `k`. -/
def read (m : Mem) (k len : Nat) : Option Mem := if k + len ≤ m.length then some ((m.drop k).take len) else none

def writeMem (m : Mem) (k : Nat) (bs : Mem) : Option Mem :=
  if k + bs.length ≤ m.length then some (m.take k ++ bs ++ m.drop (k + bs.length)) else none

/-- Writing to where `m_Contents` points. -/
def write (h : Heap) (s : Str) (k : Nat) (bs : Mem) : Option (Heap × Str) :=
  match s.loc with
  | .empty => none
  | .storage => (writeMem s.storage k bs).map fun m => (h, { s with storage := m })
  | .heap a =>
      match (h[a]?).join with
      | none => none
      | some m => (writeMem m k bs).map fun m => (h.set a (some m), s)

/-- `Copy( src, dst, len )` (S:1510-1514) to position `k`, for the `len` bytes `bs` that were read. -/
def copy (h : Heap) (s : Str) (k : Nat) (bs : Mem) : Option (Heap × Str) := write h s k (bs ++ [0])

/-- `ALLOC`: the address is the length of the heap. -/
def alloc (junk : Nat → Nat → Nat) (h : Heap) (size : Nat) : Heap :=
  h ++ [some ((List.range size).map (junk h.length))]

/-- `if ( MemoryMustBeFreed() ) FREE( m_Contents )`. -/
def release (h : Heap) (s : Str) : Option Heap :=
  if s.mustFree then
    match s.loc with
    | .heap a =>
        match (h[a]?).join with
        | none => none
        | some _ => some (h.set a none)
    | _ => none
  else some h

/-- `Grow` (S:1592-1609). -/
def grow (junk : Nat → Nat → Nat) (h : Heap) (s : Str) (newLength : Nat) : Option (Heap × Str) := do
  let reserve := roundUp (max (wrap (s.reserved * 2)) newLength)
  let m ← buf h s
  let bs ← read m 0 s.len
  let s' : Str := { s with loc := .heap h.length, reserved := reserve, mustFree := true }
  let (h1, s1) ← copy (alloc junk h (wrap (reserve + 1))) s' 0 bs
  let h2 ← release h1 s
  pure (h2, s1)

/-- `GrowNoCopy` (S:1613-1624). -/
def growNoCopy (junk : Nat → Nat → Nat) (h : Heap) (s : Str) (newLength : Nat) : Option (Heap × Str) := do
  let h ← release h s
  let reserve := roundUp newLength
  pure (alloc junk h (wrap (reserve + 1)), { s with loc := .heap h.length, reserved := reserve, mustFree := true })

/-- Growing when there is too little room for `newLength`. -/
def room (junk : Nat → Nat → Nat) (h : Heap) (s : Str) (newLength : Nat) : Option (Heap × Str) :=
  if s.reserved < newLength then grow junk h s newLength else some (h, s)

/-! ### Construction and destruction -/

/-- `AString()` (S:22-27). -/
def newEmpty : Str := ⟨.empty, 0, 0, false, []⟩

/-- `AString( uint32_t )` (S:31-43). -/
def newReserve (junk : Nat → Nat → Nat) (h : Heap) (reserve : Nat) : Option (Heap × Str) :=
  if 0 < reserve then do
    let r := roundUp reserve
    let s : Str := ⟨.heap h.length, 0, r, true, []⟩
    write (alloc junk h (wrap (r + 1))) s 0 [0]
  else some (h, ⟨.empty, 0, 0, true, []⟩)

/-- The constructors that copy bytes (S:47-55, 86-95, 99-109). -/
def newCopy (junk : Nat → Nat → Nat) (h : Heap) (bs : Mem) : Option (Heap × Str) :=
  let r := roundUp bs.length
  copy (alloc junk h (wrap (r + 1))) ⟨.heap h.length, bs.length, r, true, []⟩ 0 bs

/-- `AStackString()` (K:63-69); `junk` is what is on the stack. -/
def newStack (junk : Nat → Nat) (reserved : Nat) : Str :=
  ⟨.storage, 0, reserved, false, 0 :: (List.range reserved).map junk⟩

/-- `~AString` (S:113-135). -/
def destroy (h : Heap) (s : Str) : Option Heap := release h s

/-! ### Changing a string -/

/-- `Assign( const char *, const char * )` (S:476-493), for bytes outside of the string. -/
def assign (junk : Nat → Nat → Nat) (h : Heap) (s : Str) (bs : Mem) : Option (Heap × Str) :=
  if s.reserved < bs.length then do
    let (h, s) ← growNoCopy junk h s bs.length
    let (h, s) ← copy h s 0 bs
    pure (h, { s with len := bs.length })
  else if s.loc = .empty then some (h, s)
  else do
    let (h, s) ← copy h s 0 bs
    pure (h, { s with len := bs.length })

/-- `Assign( Get() + k, Get() + k + n )`: bytes of the string itself, read after it may have grown. -/
def assignOwn (junk : Nat → Nat → Nat) (h : Heap) (s : Str) (k n : Nat) : Option (Heap × Str) :=
  if s.reserved < n then do
    -- the old memory has been freed when it is read
    let (h, s') ← growNoCopy junk h s n
    let m ← buf h s
    let bs ← read m k n
    let (h, s') ← copy h s' 0 bs
    pure (h, { s' with len := n })
  else if s.loc = .empty then some (h, s)
  else do
    let m ← buf h s
    let bs ← read m k n
    let (h, s) ← copy h s 0 bs
    pure (h, { s with len := n })

/-- `Clear` (S:543-554). -/
def clear (h : Heap) (s : Str) : Option (Heap × Str) :=
  if s.loc = .empty then some (h, s)
  else do
    let (h, s) ← write h s 0 [0]
    pure (h, { s with len := 0 })

/-- `ClearAndFreeMemory` (S:558-579). -/
def clearFree (h : Heap) (s : Str) : Option (Heap × Str) :=
  if s.mustFree then do
    let h ← release h s
    pure (h, { s with loc := .empty, len := 0, reserved := 0, mustFree := false })
  else if s.loc ≠ .empty then do
    let (h, s) ← write h s 0 [0]
    pure (h, { s with len := 0 })
  else some (h, { s with len := 0 })

/-- `SetLength` (S:606-623). -/
def setLength (junk : Nat → Nat → Nat) (h : Heap) (s : Str) (n : Nat) : Option (Heap × Str) := do
  let (h, s) ← room junk h s n
  if s.loc ≠ .empty then
    let (h, s) ← write h s n [0]
    pure (h, { s with len := n })
  else pure (h, { s with len := n })

/-- `SetReserved( size_t )` (S:583-602). -/
def setReserved (junk : Nat → Nat → Nat) (h : Heap) (s : Str) (n : Nat) : Option (Heap × Str) :=
  if n < s.len then setLength junk h s (wrap n)
  else if n ≤ s.reserved then some (h, s)
  else grow junk h s (wrap n)

/-- S:630-633. -/
def roomChar (junk : Nat → Nat → Nat) (h : Heap) (s : Str) : Option (Heap × Str) :=
  if s.reserved ≤ s.len then grow junk h s (wrap (s.len + 1)) else some (h, s)

/-- `operator += ( char )` (S:627-638). -/
def appendChar (junk : Nat → Nat → Nat) (h : Heap) (s : Str) (c : Nat) : Option (Heap × Str) := do
  let (h, s) ← roomChar junk h s
  let (h, s) ← write h s s.len [c]
  let s := { s with len := wrap (s.len + 1) }
  write h s s.len [0]

/-- `Append( const char *, size_t )` and `operator += ( const char * )` (S:642-657, 680-695), for bytes
outside of the string. -/
def append (junk : Nat → Nat → Nat) (h : Heap) (s : Str) (bs : Mem) : Option (Heap × Str) :=
  if bs.length = 0 then some (h, s)
  else do
    let n := wrap (s.len + bs.length)
    let (h, s) ← room junk h s n
    let (h, s) ← copy h s s.len bs
    pure (h, { s with len := n })

/-- `Append( Get() + k, n )`: the pointer was computed before the string grew. -/
def appendOwn (junk : Nat → Nat → Nat) (h : Heap) (s : Str) (k n : Nat) : Option (Heap × Str) :=
  if n = 0 then some (h, s)
  else do
    let l := wrap (s.len + n)
    let (h1, s1) ← room junk h s l
    let m ← buf h1 s
    let bs ← read m k n
    let (h2, s2) ← copy h1 s1 s1.len bs
    pure (h2, { s2 with len := l })

/-- `operator += ( const AString & )` (S:661-676) with itself: `Get()` is called after it has grown. -/
def appendSelf (junk : Nat → Nat → Nat) (h : Heap) (s : Str) : Option (Heap × Str) :=
  if s.len = 0 then some (h, s)
  else do
    let n := s.len
    let l := wrap (s.len + n)
    let (h, s) ← room junk h s l
    let m ← buf h s
    let bs ← read m 0 n
    let (h, s) ← copy h s s.len bs
    pure (h, { s with len := l })

/-- S:772-776. -/
def lower (c : Nat) : Nat := if 65 ≤ c ∧ c ≤ 90 then 97 + (c - 65) else c
/-- S:789-793. -/
def upper (c : Nat) : Nat := if 97 ≤ c ∧ c ≤ 122 then 65 + (c - 97) else c

/-- The loop of `Replace( char, char )` (S:741-760): the new bytes and how many were replaced. -/
def replaceLoop (a b limit : Nat) : Nat → Mem → Mem × Nat
  | count, [] => ([], count)
  | count, c :: cs =>
      if c = a then
        if count + 1 = limit then (b :: cs, count + 1)
        else
          let r := replaceLoop a b limit (count + 1) cs
          (b :: r.1, r.2)
      else
        let r := replaceLoop a b limit count cs
        (c :: r.1, r.2)

/-- Bytes are changed where they are: `ToLower`, `ToUpper` (S:764-796) and `Replace( char, char )`. -/
def inPlace (f : Mem → Mem) (h : Heap) (s : Str) : Option (Heap × Str) :=
  if s.len = 0 then some (h, s)
  else do
    let m ← buf h s
    let bs ← read m 0 s.len
    write h s 0 (f bs)

/-- `s[ k ] = c` (H:45-49); the assertion is a failure. -/
def setChar (h : Heap) (s : Str) (k c : Nat) : Option (Heap × Str) :=
  if k < s.len then write h s k [c] else none

/-- `Trim` (S:800-819). -/
def trim (junk : Nat → Nat → Nat) (h : Heap) (s : Str) (a b : Nat) : Option (Heap × Str) :=
  if s.len < wrap (a + b) then none
  else if a = 0 then
    if b = 0 then some (h, s) else setLength junk h s (s.len - b)
  else assignOwn junk h s a (s.len - b - a)

/-- How often a byte is repeated at the start. -/
def leading (c : Nat) : Mem → Nat
  | [] => 0
  | d :: ds => if d = c then leading c ds + 1 else 0

/-- The bytes of a string, as they are read by `Copy( string.Get(), …, string.GetLength() )`. -/
def bytes (h : Heap) (s : Str) : Option Mem := (buf h s).bind fun m => read m 0 s.len

/-- `TrimStart` (S:823-833). -/
def trimStart (junk : Nat → Nat → Nat) (h : Heap) (s : Str) (c : Nat) : Option (Heap × Str) := do
  let bs ← bytes h s
  trim junk h s (leading c bs) 0

/-- `TrimEnd` (S:837-847). -/
def trimEnd (junk : Nat → Nat → Nat) (h : Heap) (s : Str) (c : Nat) : Option (Heap × Str) := do
  let bs ← bytes h s
  trim junk h s 0 (leading c bs.reverse)

/-- `AppendList` (S:714-737), for strings other than this one. -/
def appendList (junk : Nat → Nat → Nat) (sep : Nat) : Heap → Str → List Mem → Option (Heap × Str)
  | h, s, [] => some (h, s)
  | h, s, [bs] => append junk h s bs
  | h, s, bs :: rest => do
      let (h, s) ← append junk h s bs
      let (h, s) ← appendChar junk h s sep
      appendList junk sep h s rest

/-! ### Strings together -/

structure St where
  heap : Heap
  /-- strings by number; one that was destroyed is `none` -/
  strs : List (Option Str)

inductive Op
  | newEmpty
  | newReserve (n : Nat)
  | newCopy (bs : Mem)
  | newStack (junk : Nat → Nat) (reserved : Nat)
  /-- copy and move construction from another string -/
  | newFrom (j : Nat)
  | newMove (j : Nat)
  | destroy (i : Nat)
  | assign (i : Nat) (bs : Mem)
  | assignFrom (i j : Nat)
  | assignMove (i j : Nat)
  | clear (i : Nat)
  | clearFree (i : Nat)
  | setLength (i n : Nat)
  | setReserved (i n : Nat)
  | appendChar (i c : Nat)
  | append (i : Nat) (bs : Mem)
  | appendFrom (i j : Nat)
  | appendList (i : Nat) (items : List Mem) (sep : Nat)
  | toLower (i : Nat)
  | toUpper (i : Nat)
  | replaceChar (i a b limit : Nat)
  | setChar (i k c : Nat)
  | trim (i a b : Nat)
  | trimStart (i c : Nat)
  | trimEnd (i c : Nat)

def get (st : St) (i : Nat) : Option Str := (st.strs[i]?).join

/-- A change of one string. -/
def change (st : St) (i : Nat) (f : Heap → Str → Option (Heap × Str)) : Option St :=
  match get st i with
  | none => none
  | some s => (f st.heap s).map fun r => ⟨r.1, st.strs.set i (some r.2)⟩

def add (st : St) (r : Option (Heap × Str)) : Option St := r.map fun r => ⟨r.1, st.strs ++ [some r.2]⟩

/-- What a string is after it was moved (S:79-81, 536-538). -/
def emptied (s : Str) : Str := { s with loc := .empty, len := 0, reserved := 0, mustFree := false }

/-- `AString( AString && )` (S:59-82). -/
def moveNew (junk : Nat → Nat → Nat) (st : St) (j : Nat) : Option St :=
  match get st j with
  | none => none
  | some t =>
      if t.mustFree then
        some ⟨st.heap, st.strs.set j (some (emptied t)) ++ [some { t with storage := [] }]⟩
      else
        match bytes st.heap t with
        | none => none
        | some bs => (assign junk st.heap newEmpty bs).map fun r =>
            ⟨r.1, st.strs.set j (some (emptied t)) ++ [some r.2]⟩

/-- `Assign( const AString & )` (S:497-512); the same string is read after it may have grown. -/
def assignFrom (junk : Nat → Nat → Nat) (st : St) (i j : Nat) : Option St :=
  if i = j then
    match get st i with
    | none => none
    | some s => change st i fun h s' => assignOwn junk h s' 0 s.len
  else
    match get st j with
    | none => none
    | some t =>
        match bytes st.heap t with
        | none => none
        | some bs => change st i fun h s => assign junk h s bs

/-- `Assign( AString && )` (S:516-539). -/
def assignMove (junk : Nat → Nat → Nat) (st : St) (i j : Nat) : Option St :=
  match get st i, get st j with
  | some s, some t =>
      if t.mustFree then
        match release st.heap s with
        | none => none
        | some h =>
            let s' : Str := { s with loc := t.loc, len := t.len, reserved := t.reserved, mustFree := t.mustFree }
            -- then the other string is emptied, which may be the same one
            some ⟨h, (st.strs.set i (some s')).set j (some (emptied t))⟩
      else
        (assignFrom junk st i j).bind fun st' =>
          match get st' j with
          | none => none
          | some t => some ⟨st'.heap, st'.strs.set j (some (emptied t))⟩
  | _, _ => none

/-- `operator += ( const AString & )` (S:661-676). -/
def appendFrom (junk : Nat → Nat → Nat) (st : St) (i j : Nat) : Option St :=
  if i = j then change st i (appendSelf junk)
  else
    match get st j with
    | none => none
    | some t =>
        match bytes st.heap t with
        | none => none
        | some bs => change st i fun h s => append junk h s bs

def step (junk : Nat → Nat → Nat) (st : St) : Op → Option St
  | .newEmpty => add st (some (st.heap, newEmpty))
  | .newReserve n => add st (newReserve junk st.heap n)
  | .newCopy bs => add st (newCopy junk st.heap bs)
  | .newStack j r => add st (some (st.heap, newStack j r))
  | .newFrom j =>
      match get st j with
      | none => none
      | some t => (bytes st.heap t).bind fun bs => add st (newCopy junk st.heap bs)
  | .newMove j => moveNew junk st j
  | .destroy i =>
      match get st i with
      | none => none
      | some s => (destroy st.heap s).map fun h => ⟨h, st.strs.set i none⟩
  | .assign i bs => change st i fun h s => assign junk h s bs
  | .assignFrom i j => assignFrom junk st i j
  | .assignMove i j => assignMove junk st i j
  | .clear i => change st i clear
  | .clearFree i => change st i clearFree
  | .setLength i n => change st i fun h s => setLength junk h s n
  | .setReserved i n => change st i fun h s => setReserved junk h s n
  | .appendChar i c => change st i fun h s => appendChar junk h s c
  | .append i bs => change st i fun h s => append junk h s bs
  | .appendFrom i j => appendFrom junk st i j
  | .appendList i items sep => change st i fun h s => appendList junk sep h s items
  | .toLower i => change st i (inPlace fun bs => bs.map lower)
  | .toUpper i => change st i (inPlace fun bs => bs.map upper)
  | .replaceChar i a b limit => change st i (inPlace fun bs => (replaceLoop a b limit 0 bs).1)
  | .setChar i k c => change st i fun h s => setChar h s k c
  | .trim i a b => change st i fun h s => trim junk h s a b
  | .trimStart i c => change st i fun h s => trimStart junk h s c
  | .trimEnd i c => change st i fun h s => trimEnd junk h s c

def run (junk : Nat → Nat → Nat) : St → List Op → Option St
  | st, [] => some st
  | st, o :: os => (step junk st o).bind fun st => run junk st os

def start : St := ⟨[], []⟩

end Verif.AStr
