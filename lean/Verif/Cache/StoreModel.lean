/-
Model of the cache directory shared by several builds.

Sources:
  FBuildCore/Cache/Cache.cpp   Publish (95), Retrieve (142), Trim (244)
  Core/FileIO/FileStream.cpp   Open, ReadBuffer, WriteBuffer (POSIX branch)
  Core/FileIO/FileIO.cpp       FileDelete, FileMove

The file system is the one of POSIX: names point to files, a file stays readable for those who opened it after its
name is gone, `open` with `O_TRUNC` empties an existing file, `rename` replaces its target in one step, a write past
the end of a file leaves zeros in between. Every system call may fail. `read` and `write` may transfer any part of
what was asked. A process may be killed between any two calls.
-/
namespace Verif.Cache

abbrev Byte := Nat
abbrev Data := List Byte
/-- Identifier of an entry; that different identifiers are different files is C63. -/
abbrev Key := List Char

/-- The two files of an identifier (Cache.cpp:98, 105). -/
inductive Loc where
  | entry (k : Key)
  | tmp (k : Key)
  deriving DecidableEq

/-- The cache directory: names, contents of files, number of files ever created. -/
structure FS where
  dir : Loc → Option Nat
  ino : Nat → Data
  next : Nat

/-- Write `b` at the offset `off` of `d` (`pwrite`). -/
def writeAt (d : Data) (off : Nat) (b : Data) : Data :=
  d.take off ++ List.replicate (off - d.length) 0 ++ b ++ d.drop (off + b.length)

/-- What a process is about to do. -/
inductive Proc where
  | idle
  /-- `Publish`: about to open the temporary file, Cache.cpp:108. -/
  | pubOpen (k : Key) (d : Data)
  /-- Writing; `off` bytes of `d` are written. Cache.cpp:114. -/
  | pubWrite (k : Key) (d : Data) (i : Nat) (off : Nat)
  /-- Writing failed: about to delete the temporary file, Cache.cpp:120. -/
  | pubFailed (k : Key) (d : Data)
  /-- About to rename, Cache.cpp:125. -/
  | pubMove (k : Key) (d : Data)
  /-- About to delete an existing entry, Cache.cpp:128. -/
  | pubClear (k : Key) (d : Data)
  /-- About to rename again, Cache.cpp:131. -/
  | pubMove2 (k : Key) (d : Data)
  /-- About to delete the temporary file, Cache.cpp:134. -/
  | pubCleanup (k : Key) (d : Data)
  /-- `Retrieve`: about to open the entry, Cache.cpp:151. -/
  | getOpen (k : Key)
  /-- About to ask for the size, Cache.cpp:153. -/
  | getSize (k : Key) (i : Nat)
  /-- Reading; `got` was read so far. Cache.cpp:155. -/
  | getRead (k : Key) (i : Nat) (size : Nat) (got : Data)
  deriving DecidableEq

/-- What callers see. -/
inductive Ev where
  | published (k : Key) (d : Data) (ok : Bool)
  | got (k : Key) (d : Data)
  | missed (k : Key)
  deriving DecidableEq

/-- The outcome of a system call. -/
inductive Res where
  | ok
  | fail
  | some (n : Nat)

/-- All processes using the cache directory. -/
structure Sys where
  fs : FS
  proc : Nat → Proc
  log : List Ev

/-- What can happen. -/
inductive Act where
  | publish (p : Nat) (k : Key) (d : Data)
  | retrieve (p : Nat) (k : Key)
  | step (p : Nat) (r : Res)
  | kill (p : Nat)
  /-- Somebody removes a file (`Cache::Trim`, Cache.cpp:276, or the user). -/
  | remove (l : Loc)

def setDir (fs : FS) (l : Loc) (v : Option Nat) : FS :=
  { fs with dir := fun x => if x = l then v else fs.dir x }

def setIno (fs : FS) (i : Nat) (d : Data) : FS :=
  { fs with ino := fun x => if x = i then d else fs.ino x }

/-- `open( path, O_WRONLY | O_CREAT | O_TRUNC )`: the file and the new state. -/
def openTrunc (fs : FS) (l : Loc) : Nat × FS :=
  match fs.dir l with
  | some i => (i, setIno fs i [])
  | none => (fs.next, { setIno (setDir fs l (some fs.next)) fs.next [] with next := fs.next + 1 })

/-- `rename( tmp, entry )`. -/
def move (fs : FS) (k : Key) : Option FS :=
  match fs.dir (.tmp k) with
  | some i => some (setDir (setDir fs (.tmp k) none) (.entry k) (some i))
  | none => none

def Sys.set (s : Sys) (p : Nat) (pr : Proc) (fs : FS) : Sys :=
  { s with fs := fs, proc := fun q => if q = p then pr else s.proc q }

def Sys.done (s : Sys) (p : Nat) (fs : FS) (e : Ev) : Sys :=
  { s with fs := fs, proc := fun q => if q = p then .idle else s.proc q, log := e :: s.log }

/-- The next system call of a process, with the given outcome. -/
def call (s : Sys) (p : Nat) (pr : Proc) (r : Res) : Option Sys :=
  match pr, r with
  | .pubOpen k d, .ok => some (s.set p (.pubWrite k d (openTrunc s.fs (.tmp k)).1 0) (openTrunc s.fs (.tmp k)).2)
  | .pubOpen k d, .fail => some (s.done p s.fs (.published k d false))
  | .pubWrite k d i off, .some n =>
    if off + n ≤ d.length then
      some (s.set p (.pubWrite k d i (off + n)) (setIno s.fs i (writeAt (s.fs.ino i) off ((d.drop off).take n))))
    else none
  | .pubWrite k d _ off, .ok => if off = d.length then some (s.set p (.pubMove k d) s.fs) else none
  | .pubWrite k d _ _, .fail => some (s.set p (.pubFailed k d) s.fs)
  | .pubFailed k d, .ok => some (s.done p (setDir s.fs (.tmp k) none) (.published k d false))
  | .pubFailed k d, .fail => some (s.done p s.fs (.published k d false))
  | .pubMove k d, .ok => (move s.fs k).map fun fs => s.done p fs (.published k d true)
  | .pubMove k d, .fail => some (s.set p (.pubClear k d) s.fs)
  | .pubClear k d, .ok => some (s.set p (.pubMove2 k d) (setDir s.fs (.entry k) none))
  | .pubClear k d, .fail => some (s.set p (.pubMove2 k d) s.fs)
  | .pubMove2 k d, .ok => (move s.fs k).map fun fs => s.done p fs (.published k d true)
  | .pubMove2 k d, .fail => some (s.set p (.pubCleanup k d) s.fs)
  | .pubCleanup k d, .ok => some (s.done p (setDir s.fs (.tmp k) none) (.published k d false))
  | .pubCleanup k d, .fail => some (s.done p s.fs (.published k d false))
  | .getOpen k, .ok => (s.fs.dir (.entry k)).map fun i => s.set p (.getSize k i) s.fs
  | .getOpen k, .fail => some (s.done p s.fs (.missed k))
  | .getSize k i, .ok => some (s.set p (.getRead k i (s.fs.ino i).length []) s.fs)
  | .getRead k i size g, .some n =>
    let b := ((s.fs.ino i).drop g.length).take (min n (size - g.length))
    if b = [] then some (s.done p s.fs (.missed k)) else some (s.set p (.getRead k i size (g ++ b)) s.fs)
  | .getRead k _ size g, .ok => if g.length = size then some (s.done p s.fs (.got k g)) else none
  | .getRead k _ _ _, .fail => some (s.done p s.fs (.missed k))
  | _, _ => none

/-- One action; `none`: it is not possible in this state. -/
def step (s : Sys) : Act → Option Sys
  | .publish p k d => if s.proc p = .idle then some (s.set p (.pubOpen k d) s.fs) else none
  | .retrieve p k => if s.proc p = .idle then some (s.set p (.getOpen k) s.fs) else none
  | .step p r => call s p (s.proc p) r
  | .kill p => some (s.set p .idle s.fs)
  | .remove l => some { s with fs := setDir s.fs l none }

/-- An empty cache directory and no activity. -/
def init : Sys where
  fs := { dir := fun _ => none, ino := fun _ => [], next := 0 }
  proc := fun _ => .idle
  log := []

/-- A sequence of actions. -/
def run : Sys → List Act → Option Sys
  | s, [] => some s
  | s, a :: l => (step s a).bind fun s' => run s' l

/-! ### Trimming -/

/-- `FileIO::FileInfo`, as far as it is used. -/
structure Info where
  name : Nat
  size : Nat
  time : Nat
  deriving DecidableEq

/-- The loop of `Cache::Trim`, Cache.cpp:273-302: `del` tells which deletions succeed. The files deleted, and the
total size at the end. -/
def trimLoop (del : Info → Bool) (limit : Nat) : List Info → Nat → List Info × Nat
  | [], total => ([], total)
  | f :: l, total =>
    if del f then
      if total - f.size ≤ limit then ([f], total - f.size)
      else
        let r := trimLoop del limit l (total - f.size)
        (f :: r.1, r.2)
    else trimLoop del limit l total

/-- Total size of files. -/
def total (l : List Info) : Nat := (l.map (·.size)).sum

/-- `Cache::Trim`, Cache.cpp:244-312, for the files `l` sorted by `Array::Sort` (C35). Sizes are `uint64_t`; their
sum is assumed to fit. -/
def trim (del : Info → Bool) (limit : Nat) (l : List Info) : List Info × Nat :=
  if limit < total l then trimLoop del limit l (total l) else ([], total l)

end Verif.Cache
