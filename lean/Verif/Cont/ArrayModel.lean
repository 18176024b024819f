/-
Model of `Array`, Code/Core/Containers/Array.h. A block of memory is a list of cells; a cell holds no
object (`raw`), an object or an object that was moved from. Constructing over an object, destroying or
reading something that is not there, leaving the block and freeing a block with objects in it are errors
(`ub`), as are failed assertions other than those on the largest capacity (`limit`).
-/
namespace Verif.Cont

inductive Cell (T : Type) where
  | raw
  | val (x : T)
  | moved
  deriving DecidableEq

inductive Err where
  | ub
  | limit
  deriving DecidableEq

abbrev Mem (T : Type) := List (Cell T)

section
variable {T : Type}

/-- `INPLACE_NEW( mem + i ) T( x )` -/
def construct (mem : Mem T) (i : Nat) (x : T) : Except Err (Mem T) :=
  match mem[i]? with
  | some .raw => .ok (mem.set i (.val x))
  | _ => .error .ub

/-- `mem[ i ].~T()` -/
def destroy (mem : Mem T) (i : Nat) : Except Err (Mem T) :=
  match mem[i]? with
  | some (.val _) => .ok (mem.set i .raw)
  | some .moved => .ok (mem.set i .raw)
  | _ => .error .ub

/-- `Move( mem[ i ] )` used as a source -/
def moveOut (mem : Mem T) (i : Nat) : Except Err (T × Mem T) :=
  match mem[i]? with
  | some (.val x) => .ok (x, mem.set i .moved)
  | _ => .error .ub

/-- `mem[ i ] = x` -/
def assign (mem : Mem T) (i : Nat) (x : T) : Except Err (Mem T) :=
  match mem[i]? with
  | some (.val _) => .ok (mem.set i (.val x))
  | some .moved => .ok (mem.set i (.val x))
  | _ => .error .ub

/-- reading `mem[ i ]` -/
def readCell (mem : Mem T) (i : Nat) : Except Err T :=
  match mem[i]? with
  | some (.val x) => .ok x
  | _ => .error .ub

/-- `m_Begin`, `m_Size`, `m_CapacityAndFlags`, Array.h:128-130; the capacity is the length of the block,
`stack` is `DO_NOT_FREE_MEMORY_FLAG`. -/
structure Arr (T : Type) where
  mem : Mem T
  size : Nat
  stack : Bool

/-- `CAPACITY_MASK`, Array.h:125 -/
def capacityMask : Nat := 0x7FFFFFFF

/-- `GetCapacity` -/
def Arr.cap (a : Arr T) : Nat := a.mem.length

/-- default constructor, Array.h:136-141 -/
def Arr.empty : Arr T := ⟨[], 0, false⟩

/-- `StackArray` constructor, Array.h:696-700 -/
def Arr.onStack (reserved : Nat) : Arr T := ⟨List.replicate reserved .raw, 0, true⟩

/-- `Allocate`, Array.h:671-677 -/
def allocate (n : Nat) : Except Err (Mem T) :=
  if n ≤ capacityMask then .ok (List.replicate n .raw) else .error .limit

/-- `Deallocate`, Array.h:681-688; objects left in the block are lost. -/
def deallocate (mem : Mem T) : Except Err Unit :=
  if mem.all (fun c => match c with | .raw => true | _ => false) then .ok () else .error .ub

/-- loop of `SetCapacity` and `Grow`, Array.h:249-262 and 653-662: `n` objects are left, `i` are done -/
def transfer : Nat → Nat → Mem T → Mem T → Except Err (Mem T × Mem T)
  | 0, _, src, dst => .ok (src, dst)
  | n + 1, i, src, dst => do
    let (x, src) ← moveOut src i
    let dst ← construct dst i x
    let src ← destroy src i
    transfer n (i + 1) src dst

/-- loops that destroy `n` objects from position `i` -/
def destroyRange : Nat → Nat → Mem T → Except Err (Mem T)
  | 0, _, mem => .ok mem
  | n + 1, i, mem => do
    let mem ← destroy mem i
    destroyRange n (i + 1) mem

/-- `SetCapacity`, Array.h:239-269 -/
def Arr.setCapacity (a : Arr T) (capacity : Nat) : Except Err (Arr T) :=
  if capacity ≤ a.cap then .ok a
  else do
    let newMem ← allocate capacity
    let (old, new) ← transfer a.size 0 a.mem newMem
    deallocate old
    .ok ⟨new, a.size, false⟩

/-- `Grow`, Array.h:643-667 -/
def Arr.grow (a : Arr T) : Except Err (Arr T) := do
  let newCapacity := a.cap + a.cap / 2 + 1
  let newMem ← allocate newCapacity
  let (old, new) ← transfer a.size 0 a.mem newMem
  deallocate old
  .ok ⟨new, a.size, false⟩

/-- loop creating new items, Array.h:309-315; `d` is what the default constructor makes -/
def fill (d : T) : Nat → Nat → Mem T → Except Err (Mem T)
  | 0, _, mem => .ok mem
  | n + 1, i, mem => do
    let mem ← construct mem i d
    fill d n (i + 1) mem

/-- `SetSize`, Array.h:273-316 -/
def Arr.setSize (d : T) (a : Arr T) (size : Nat) : Except Err (Arr T) :=
  if a.size = size then .ok a
  else if size < a.size then do
    let mem ← destroyRange (a.size - size) size a.mem
    .ok ⟨mem, size, a.stack⟩
  else do
    let a ← if size > a.cap then a.setCapacity size else .ok a
    let mem ← fill d (size - a.size) a.size a.mem
    .ok ⟨mem, size, a.stack⟩

/-- `Clear`, Array.h:320-334 -/
def Arr.clear (a : Arr T) : Except Err (Arr T) := do
  let mem ← destroyRange a.size 0 a.mem
  .ok ⟨mem, 0, a.stack⟩

/-- the argument of `Append( const T & )`: an object outside or one of the array's own -/
inductive Arg (T : Type) where
  | ext (x : T)
  | own (i : Nat)

/-- `Append`, Array.h:426-436 (and 440-450, `EmplaceBack` 535-546). If the array grows, its own objects are
destroyed before the argument is read. -/
def Arr.append (a : Arr T) (item : Arg T) : Except Err (Arr T) := do
  let grows := decide (a.size = a.cap)
  let b ← if grows then a.grow else .ok a
  let x ← match item with
    | .ext x => .ok x
    | .own i => if grows then .error .ub else readCell b.mem i
  let mem ← construct b.mem b.size x
  .ok ⟨mem, b.size + 1, b.stack⟩

/-- `Append` of a range or another array, Array.h:454-475 -/
def Arr.appendAll (a : Arr T) : List T → Except Err (Arr T)
  | [] => .ok a
  | x :: xs => do
    let a ← a.append (.ext x)
    a.appendAll xs

/-- `Pop`, Array.h:479-488 -/
def Arr.pop (a : Arr T) : Except Err (Arr T) :=
  if a.size = 0 then .error .ub
  else do
    let mem ← destroy a.mem (a.size - 1)
    .ok ⟨mem, a.size - 1, a.stack⟩

/-- loops of `PopFront` and `Erase`, Array.h:498-506 and 521-528: `n` objects are left to be moved down, the
next to position `i` -/
def shiftDown : Nat → Nat → Mem T → Except Err (Nat × Mem T)
  | 0, i, mem => .ok (i, mem)
  | n + 1, i, mem => do
    let (x, mem) ← moveOut mem (i + 1)
    let mem ← assign mem i x
    shiftDown n (i + 1) mem

/-- `PopFront`, Array.h:492-512 -/
def Arr.popFront (a : Arr T) : Except Err (Arr T) :=
  if a.size = 0 then .error .ub
  else do
    let (i, mem) ← shiftDown (a.size - 1) 0 a.mem
    let mem ← destroy mem i
    .ok ⟨mem, a.size - 1, a.stack⟩

/-- `Erase` and `EraseIndex`, Array.h:516-531 and 102 -/
def Arr.eraseIndex (a : Arr T) (index : Nat) : Except Err (Arr T) :=
  if index < a.size then do
    let (i, mem) ← shiftDown (a.size - 1 - index) index a.mem
    let mem ← destroy mem i
    .ok ⟨mem, a.size - 1, a.stack⟩
  else .error .ub

/-- loop of `Find`, Array.h:360-373: the index found -/
def findFrom [DecidableEq T] (mem : Mem T) (obj : T) : Nat → Nat → Except Err (Option Nat)
  | 0, _ => .ok none
  | n + 1, i => do
    let x ← readCell mem i
    if x = obj then .ok (some i) else findFrom mem obj n (i + 1)

/-- `Find` -/
def Arr.find [DecidableEq T] (a : Arr T) (obj : T) : Except Err (Option Nat) := findFrom a.mem obj a.size 0

/-- `FindAndErase`, Array.h:396-407 -/
def Arr.findAndErase [DecidableEq T] (a : Arr T) (obj : T) : Except Err (Bool × Arr T) := do
  match ← a.find obj with
  | some i => do
    let a ← a.eraseIndex i
    .ok (true, a)
  | none => .ok (false, a)

/-- copy loop of `operator =`, Array.h:567-577 -/
def copyLoop (src : Mem T) : Nat → Nat → Mem T → Except Err (Mem T)
  | 0, _, dst => .ok dst
  | n + 1, i, dst => do
    let x ← readCell src i
    let dst ← construct dst i x
    copyLoop src n (i + 1) dst

/-- reallocation of a cleared array, Array.h:558-565 and 597-603 -/
def Arr.makeRoom (a : Arr T) (n : Nat) : Except Err (Arr T) :=
  if a.cap < n then do
    deallocate a.mem
    let mem ← allocate n
    .ok ⟨mem, 0, false⟩
  else .ok a

/-- `operator = ( const Array & )`, Array.h:551-580 -/
def Arr.copyAssign (a other : Arr T) : Except Err (Arr T) := do
  let a ← a.clear
  let a ← a.makeRoom other.size
  let mem ← copyLoop other.mem other.size 0 a.mem
  .ok ⟨mem, other.size, a.stack⟩

/-- `Destruct`, Array.h:211-225 -/
def Arr.destruct (a : Arr T) : Except Err (Arr T) := do
  let mem ← destroyRange a.size 0 a.mem
  deallocate mem
  .ok Arr.empty

/-- move loop, Array.h:605-615 -/
def moveLoop : Nat → Nat → Mem T → Mem T → Except Err (Mem T × Mem T)
  | 0, _, src, dst => .ok (src, dst)
  | n + 1, i, src, dst => do
    let (x, src) ← moveOut src i
    let dst ← construct dst i x
    moveLoop n (i + 1) src dst

/-- `operator = ( Array && )`, Array.h:583-639: the new values of both arrays -/
def Arr.moveAssign (a other : Arr T) : Except Err (Arr T × Arr T) := do
  let a ← a.clear
  if other.stack then
    let a ← a.makeRoom other.size
    let (src, dst) ← moveLoop other.size 0 other.mem a.mem
    let other' ← (Arr.mk src other.size other.stack).destruct
    .ok (⟨dst, other.size, a.stack⟩, other')
  else
    if a.stack = false then
      let _ ← a.destruct
      .ok (other, Arr.empty)
    else .ok (other, Arr.empty)

/-- `Swap`, Array.h:338-354 -/
def Arr.swap (a other : Arr T) : Except Err (Arr T × Arr T) :=
  if a.stack then .error .ub
  else if other.stack then .error .ub
  else .ok (other, a)

end

end Verif.Cont
