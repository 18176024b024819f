import Verif.Mem.PoolModel
/-
Streams, Code/Core/FileIO: IOStream.h/.cpp, ChainedMemoryStream.cpp, MemoryStream.cpp,
ConstMemoryStream.cpp. Bytes are `BitVec 8`; machine words are stored little endian (all supported
platforms). Uninitialised memory is `none`. Copying outside a block and failing assertions are errors.
Sizes are natural numbers; sums of sizes and pointers are assumed to stay below 2^64, but the 32-bit
arithmetic of `ChainedMemoryStream` is modelled.
-/
namespace Verif.IO

abbrev Byte := BitVec 8
/-- memory that may be uninitialised -/
abbrev Block := List (Option Byte)

inductive Err where
  | bounds
  | assert
deriving Repr, DecidableEq

/-- `memcpy` of `data` to offset `pos` of a block -/
def copyTo (b : Block) (pos : Nat) (data : List Byte) : Except Err Block :=
  if pos + data.length ≤ b.length then .ok (b.take pos ++ data.map some ++ b.drop (pos + data.length))
  else .error .bounds

/-! ## ChainedMemoryStream -/

/-- members, ChainedMemoryStream.h:39-43; the pages in order -/
structure Chained where
  pageSize : Nat
  cur : Nat
  pos : Nat
  pages : List Block

/-- constructor, ChainedMemoryStream.cpp:15-18: the page size is cast to 32 bits -/
def Chained.new (pageSize : Nat) : Chained := ⟨pageSize % 2 ^ 32, 0, 0, []⟩

/-- lines 56-70 of `WriteBuffer`: get a new page if the current one is full; `bytesAvailableInPage` is
returned too -/
def Chained.ensure (s : Chained) : Chained × Nat :=
  let avail := if s.pages = [] then 0 else s.pageSize - s.pos
  if avail = 0 then
    let pages := s.pages ++ [List.replicate s.pageSize none]
    (⟨s.pageSize, pages.length - 1, 0, pages⟩, s.pageSize)
  else (s, avail)

/-- `WriteBuffer`, ChainedMemoryStream.cpp:48-85 -/
def Chained.write (s : Chained) (data : List Byte) : Except Err Chained :=
  if h : data = [] then .ok s
  else
    let (s, avail) := s.ensure
    if h0 : avail = 0 then .error .assert
    else
      let n := min avail data.length
      match s.pages[s.cur]? with
      | none => .error .bounds
      | some page =>
        match copyTo page s.pos (data.take n) with
        | .error e => .error e
        | .ok page =>
          if s.pos + n ≤ s.pageSize then
            Chained.write ⟨s.pageSize, s.cur, s.pos + n, s.pages.set s.cur page⟩ (data.drop n)
          else .error .assert
termination_by data.length
decreasing_by
  have : data.length ≠ 0 := fun e => h (List.length_eq_zero_iff.1 e)
  simp only [List.length_drop]
  omega

/-- `GetFileSize` and `Tell`, ChainedMemoryStream.cpp:111-125: the product is computed in 32 bits -/
def Chained.size (s : Chained) : Nat :=
  (if s.pages.length > 1 then ((s.pages.length - 1) * s.pageSize) % 2 ^ 32 else 0) + s.pos

/-- `GetPage`, ChainedMemoryStream.cpp:31-38: page and `outSize` -/
def Chained.getPage (s : Chained) (index : Nat) : Except Err (Block × Nat) :=
  match s.pages[index]? with
  | none => .error .bounds
  | some p => .ok (p, if index = s.pages.length - 1 then s.pos else s.pageSize)

/-! ## MemoryStream -/

/-- `m_Begin` .. `m_MaxEnd` as a block, `m_End` as an offset; an empty block also stands for the null pointer -/
structure MemStream where
  mem : Block
  fin : Nat
  minGrowth : Nat

/-- default constructor (MemoryStream.h) and the one with an initial buffer size, MemoryStream.cpp:19-25 -/
def MemStream.new (initial minGrowth : Nat) : MemStream := ⟨List.replicate initial none, 0, minGrowth⟩

/-- `GrowToAccommodate`, MemoryStream.cpp:159-172 -/
def MemStream.grow (s : MemStream) (n : Nat) : Except Err MemStream :=
  let newCapacity := s.mem.length + max n s.minGrowth
  let new : Block := List.replicate newCapacity none
  if s.fin ≤ s.mem.length ∧ s.fin ≤ newCapacity then .ok ⟨s.mem.take s.fin ++ new.drop s.fin, s.fin, s.minGrowth⟩
  else .error .bounds

/-- `WriteBuffer`, MemoryStream.cpp:115-126 -/
def MemStream.write (s : MemStream) (data : List Byte) : Except Err MemStream :=
  match (if s.fin + data.length > s.mem.length then s.grow data.length else .ok s) with
  | .error e => .error e
  | .ok s =>
    match copyTo s.mem s.fin data with
    | .error e => .error e
    | .ok mem => .ok ⟨mem, s.fin + data.length, s.minGrowth⟩

/-- `GetSize`, `Tell`, `GetFileSize` -/
def MemStream.size (s : MemStream) : Nat := s.fin

/-- `Reset`, MemoryStream.cpp:60-63 -/
def MemStream.reset (s : MemStream) : MemStream := { s with fin := 0 }

/-! ## ConstMemoryStream -/

/-- `m_Buffer` with `m_Size`, and `m_CurrentPos` -/
structure Reader where
  data : List Byte
  pos : Nat

/-- `ReadBuffer`, ConstMemoryStream.cpp:86-93: the bytes read and the new state. `m_Size - m_CurrentPos` is
unsigned, but the position never exceeds the size. -/
def Reader.readBuffer (r : Reader) (n : Nat) : List Byte × Reader :=
  let avail := r.data.length - r.pos
  let actual := min avail n
  ((r.data.drop r.pos).take actual, ⟨r.data, r.pos + actual⟩)

/-- `Seek`, ConstMemoryStream.cpp:118-126 -/
def Reader.seek (r : Reader) (pos : Nat) : Bool × Reader :=
  if pos > r.data.length then (false, r) else (true, ⟨r.data, pos⟩)

/-! ## typed reading: `none` when the function returns false -/

abbrev Parser (α : Type) := Reader → Option (α × Reader)

def Parser.pure {α : Type} (a : α) : Parser α := fun r => some (a, r)
def Parser.bind {α β : Type} (p : Parser α) (f : α → Parser β) : Parser β := fun r =>
  match p r with
  | none => none
  | some (a, r) => f a r
instance : Monad Parser where
  pure := Parser.pure
  bind := Parser.bind
/-- return false -/
def Parser.fail {α : Type} : Parser α := fun _ => none

/-- `Read( void *, size_t ) == size` -/
def rdBytes (n : Nat) : Parser (List Byte) := fun r =>
  let (b, r) := r.readBuffer n
  if b.length = n then some (b, r) else none

/-- bytes of a word, lowest first -/
def leBytes : Nat → Nat → List Byte
  | 0, _ => []
  | n + 1, x => BitVec.ofNat 8 x :: leBytes n (x / 256)

def ofLE : List Byte → Nat
  | [] => 0
  | b :: bs => b.toNat + 256 * ofLE bs

/-- `Read` of an integer of `k` bytes, IOStream.h:33-42 -/
def rdWord (k : Nat) : Parser (BitVec (8 * k)) := do
  let b ← rdBytes k
  return BitVec.ofNat (8 * k) (ofLE b)

/-- `Write` of an integer of `k` bytes, IOStream.h:47-56 -/
def wrWord (k : Nat) (x : BitVec (8 * k)) : List Byte := leBytes k x.toNat

def rdU8 : Parser (BitVec 8) := rdWord 1
def rdU32 : Parser (BitVec 32) := rdWord 4
def rdU64 : Parser (BitVec 64) := rdWord 8
def wrU8 (x : BitVec 8) : List Byte := wrWord 1 x
def wrU32 (x : BitVec 32) : List Byte := wrWord 4 x
def wrU64 (x : BitVec 64) : List Byte := wrWord 8 x

/-- `Read( bool & )`, IOStream.h:32 -/
def rdBool : Parser Bool := do
  let b ← rdU8
  return b != 0

/-- `Write( const bool & )`, IOStream.h:46 -/
def wrBool (b : Bool) : List Byte := wrU8 (if b then 1 else 0)

/-- `Read( AString & )`, IOStream.cpp:12-21 -/
def rdStr : Parser (List Byte) := do
  let len ← rdU32
  rdBytes len.toNat

/-- `Write( const AString & )`, IOStream.cpp:25-31 -/
def wrStr (s : List Byte) : List Byte := wrU32 (BitVec.ofNat 32 s.length) ++ s

/-- element loop of `Read( Array )`, IOStream.h:76-82 -/
def rdMany {α : Type} (p : Parser α) : Nat → Parser (List α)
  | 0 => return []
  | n + 1 => do
    let a ← p
    let as ← rdMany p n
    return a :: as

/-- `Read( Array<T> & )`, IOStream.h:66-84 -/
def rdArr {α : Type} (p : Parser α) : Parser (List α) := do
  let num ← rdU32
  rdMany p num.toNat

/-- `Write( const Array<T> & )`, IOStream.h:88-105 -/
def wrArr {α : Type} (w : α → List Byte) (as : List α) : List Byte := wrU32 (BitVec.ofNat 32 as.length) ++ as.flatMap w

/-- `AlignRead`, IOStream.cpp:35-45; failing reads in it are ignored, but the assertion then fails -/
def rdAlign (alignment : Nat) : Parser Unit := fun r =>
  let toSkip := (Mem.roundUp (BitVec.ofNat 64 r.pos) (BitVec.ofNat 64 alignment) - BitVec.ofNat 64 r.pos).toNat
  let (_, r) := r.readBuffer toSkip
  if r.pos % alignment = 0 then some ((), r) else none

/-- the padding of `AlignWrite`, IOStream.cpp:49-59 -/
def wrAlign (tell alignment : Nat) : List Byte :=
  List.replicate (Mem.roundUp (BitVec.ofNat 64 tell) (BitVec.ofNat 64 alignment) - BitVec.ofNat 64 tell).toNat 0

end Verif.IO
