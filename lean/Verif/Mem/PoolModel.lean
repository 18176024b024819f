/-
Memory pool of equal blocks, Code/Core/Mem/MemPoolBlock.cpp, and the small block allocator built from it,
Code/Core/Mem/SmallBlockAllocator.cpp.

Memory is a function from addresses to bytes (values are used modulo 256), so the free list really lives
inside the free blocks and user code really overwrites the blocks it owns. Addresses are natural numbers
below 2^64; pointers take 8 bytes. Failing assertions are the outcome `Err.assert`. The memory handed out by
the system for a page is a parameter. `m_NumLifetimeAllocations`, `m_PeakActiveAllocations` and the debug
fill patterns are not modelled.
-/
namespace Verif.Mem

inductive Err where
  | assert
deriving Repr, DecidableEq

abbrev Heap := Nat → Nat

/-- read a pointer of `n` bytes (little endian) -/
def load (h : Heap) (p : Nat) : Nat → Nat
  | 0 => 0
  | n + 1 => h p % 256 + 256 * load h (p + 1) n

/-- write a pointer of `n` bytes -/
def store (h : Heap) (p v : Nat) : Nat → Heap
  | 0 => h
  | n + 1 => store (fun a => if a = p then v % 256 else h a) (p + 1) (v / 256) n

/-- `block->m_Next`, MemPoolBlock.h:29-32 -/
def getNext (h : Heap) (b : Nat) : Nat := load h b 8
def setNext (h : Heap) (b v : Nat) : Heap := store h b v 8

/-- `Math::RoundUp`, Code/Core/Math/Conversions.h:13-17, on `size_t` -/
def roundUp (value alignment : BitVec 64) : BitVec 64 := (value + alignment - 1) &&& ~~~(alignment - 1)

/-- `kMemPoolBlockPageSize`, MemPoolBlock.h:21 -/
def pageSize : Nat := 64 * 1024

/-- `m_BlockSize`, `m_BlockAlignment`, MemPoolBlock.h:44-46 -/
structure Config where
  blockSize : Nat
  alignment : Nat

/-- constructor assertions, MemPoolBlock.cpp:15-18 -/
def Config.check (c : Config) : Bool :=
  decide (8 ≤ c.blockSize) && decide (c.blockSize ≤ pageSize) && decide (4 ≤ c.alignment) && decide (c.alignment ≤ pageSize)

/-- `alignedSize`, MemPoolBlock.cpp:96 -/
def Config.alignedSize (c : Config) : Nat := (roundUp (BitVec.ofNat 64 c.blockSize) (BitVec.ofNat 64 c.alignment)).toNat

/-- `numBlocksInPage`, MemPoolBlock.cpp:97 -/
def Config.numBlocks (c : Config) : Nat := pageSize / c.alignedSize

/-- `m_FreeBlockChain` and `m_NumActiveAllocations`, MemPoolBlock.h:34-42 -/
structure Pool where
  chain : Nat
  active : Nat

def Pool.init : Pool := ⟨0, 0⟩

/-- loop of `AllocPage`, MemPoolBlock.cpp:102-107: `n` more links, `b` is `block` -/
def buildChain (size : Nat) : Nat → Heap → Nat → Heap × Nat
  | 0, h, b => (h, b)
  | n + 1, h, b => buildChain size n (setNext h b (b + size)) (b + size)

/-- `MemPoolBlock::AllocPage`, MemPoolBlock.cpp:82-114; `page` is what `AllocateMemoryForPage` returns. -/
def Pool.allocPage (c : Config) (h : Heap) (s : Pool) (page : Option Nat) : Except Err (Heap × Pool × Bool) :=
  match page with
  | none => .ok (h, s, false)
  | some newPage =>
    if newPage % c.alignment ≠ 0 then .error .assert
    else
      let (h, last) := buildChain c.alignedSize (c.numBlocks - 1) h newPage
      let h := setNext h last s.chain
      .ok (h, ⟨newPage, s.active⟩, true)

/-- lines 45-65 of `Alloc` -/
def Pool.take (h : Heap) (s : Pool) : Pool × Nat := (⟨getNext h s.chain, s.active + 1⟩, s.chain)

/-- `MemPoolBlock::Alloc`, MemPoolBlock.cpp:37-66: memory, pool and the pointer returned -/
def Pool.alloc (c : Config) (h : Heap) (s : Pool) (page : Option Nat) : Except Err (Heap × Pool × Nat) :=
  if s.chain = 0 then
    match s.allocPage c h page with
    | .error e => .error e
    | .ok (h, s, false) => .ok (h, s, 0)
    | .ok (h, s, true) =>
      if s.chain = 0 then .error .assert
      else .ok (h, (s.take h).1, (s.take h).2)
  else .ok (h, (s.take h).1, (s.take h).2)

/-- `MemPoolBlock::Free`, MemPoolBlock.cpp:70-82 -/
def Pool.free (h : Heap) (s : Pool) (ptr : Nat) : Except Err (Heap × Pool) :=
  if s.active = 0 then .error .assert
  else .ok (setNext h ptr s.chain, ⟨ptr, s.active - 1⟩)

/-! ## SmallBlockAllocator -/

/-- `BUCKET_NUM_PAGES`, SmallBlockAllocator.h:50-53 -/
def numPages : Nat := 200 * 1024 * 1024 / pageSize

/-- static members, SmallBlockAllocator.cpp:37-41 -/
structure Small where
  start : Nat
  nextPage : Nat
  buckets : Nat → Pool
  table : Nat → Nat

/-- `MEM_BUCKETS_NOT_INITIALIZED`, SmallBlockAllocator.cpp:33 -/
def notInit : Nat := 2 ^ 63

def Small.init : Small := ⟨notInit, 0, fun _ => Pool.init, fun _ => 0⟩

/-- bucket `i`, SmallBlockAllocator.cpp:71-76 -/
def bucketConfig (i : Nat) : Config := ⟨16 * (i + 1), 16⟩

/-- `InitBuckets`, SmallBlockAllocator.cpp:45-77; `base` is the reserved address space -/
def Small.initBuckets (s : Small) (base : Nat) : Small := { s with start := base, buckets := fun _ => Pool.init }

/-- `MemBucket::AllocateMemoryForPage`, SmallBlockAllocator.cpp:216-249, for bucket `b` -/
def Small.allocateMemoryForPage (s : Small) (b : Nat) : Except Err (Small × Option Nat) :=
  if s.nextPage ≥ numPages then .ok (s, none)
  else
    let pageIndex := s.nextPage
    let s := { s with nextPage := pageIndex + 1 }
    if s.table pageIndex ≠ 0 then .error .assert
    else if b > 255 then .error .assert
    else .ok ({ s with table := fun i => if i = pageIndex then b else s.table i }, some (s.start + pageIndex * pageSize))

/-- `SmallBlockAllocator::Alloc`, SmallBlockAllocator.cpp:128-177; `base` is what the system reserves if the
buckets have to be initialised. The page is only requested when the bucket has no free block. -/
def Small.alloc (h : Heap) (s : Small) (base size align : Nat) : Except Err (Heap × Small × Nat) :=
  if size > 256 then .ok (h, s, 0)
  else
    let s := if s.start = notInit then s.initBuckets base else s
    let size := max size 16
    let alignedSize := (roundUp (BitVec.ofNat 64 size) 16).toNat
    let b := alignedSize / 16 - 1
    if (bucketConfig b).blockSize < size then .error .assert
    else if (bucketConfig b).alignment < align then .ok (h, s, 0)
    else
      match (if (s.buckets b).chain = 0 then s.allocateMemoryForPage b else .ok (s, none)) with
      | .error e => .error e
      | .ok (s, page) =>
        match (s.buckets b).alloc (bucketConfig b) h page with
        | .error e => .error e
        | .ok (h, pool, ptr) => .ok (h, { s with buckets := fun i => if i = b then pool else s.buckets i }, ptr)

/-- `SmallBlockAllocator::Free`, SmallBlockAllocator.cpp:181-212 -/
def Small.free (h : Heap) (s : Small) (ptr : Nat) : Except Err (Heap × Small × Bool) :=
  let pageIndex := (BitVec.ofNat 64 ptr - BitVec.ofNat 64 s.start).toNat / pageSize
  if pageIndex ≥ numPages then .ok (h, s, false)
  else
    let b := s.table pageIndex
    match (s.buckets b).free h ptr with
    | .error e => .error e
    | .ok (h, pool) => .ok (h, { s with buckets := fun i => if i = b then pool else s.buckets i }, true)

end Verif.Mem
