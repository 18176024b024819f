/-
Copying files, writing text files and listing dependencies.

* BFF/Functions/FunctionCopy.cpp (F), Graph/CopyFileNode.cpp (N), Graph/TextFileNode.cpp (T) and
  Graph/ListDependenciesNode.cpp (L) of Code/Tools/FBuild/FBuildCore,
* Code/Core/FileIO/FileIO.cpp (I): `FileCopy` on Linux.

Strings are lists of characters without NUL.  Cleaning a path is a parameter (C17).  Left out:
pre-build dependencies, the alias of the function, messages, extended attributes.
-/
import Verif.Dirs.Model

namespace Verif.Copy
open Unity (Name)

/-! ### The function `Copy` -/

/-- What a node is.  Nodes are numbered as they are created; an alias has the nodes it stands for. -/
inductive Kind
  | file
  | copy (src : Nat)
  | alias (of : List Nat)
  | other (isFile : Bool)
  deriving DecidableEq

/-- `Node::IsAFile`. -/
def Kind.isAFile : Kind → Bool
  | .alias _ => false
  | .other b => b
  | _ => true

abbrev Graph := List (Name × Kind)

/-- `FindNodeInternal` (NodeGraph.cpp:1411-1433): names in either case are the same. -/
def lookup (g : Graph) (n : Name) : Option Nat := g.findIdx? fun e => Dirs.key e.1 == Dirs.key n

/-- `FindNode` (NodeGraph.cpp:776-789). -/
def find (clean : Name → Name) (g : Graph) (n : Name) : Option Nat := (lookup g n).or (lookup g (clean n))

inductive Err
  | path | unsupported | slash | defined | loop
  deriving DecidableEq

/-- Results of a list of calls, one after the other. -/
def concat {α : Type} (f : α → Except Err (List Nat)) : List α → Except Err (List Nat)
  | [] => .ok []
  | x :: xs =>
      match f x with
      | .error e => .error e
      | .ok a =>
          match concat f xs with
          | .error e => .error e
          | .ok b => .ok (a ++ b)

/-- `GetSourceNodes` (F:171-198).  `fuel` bounds the depth of aliases of aliases; it is enough
(`resolve_enough`), since an alias is made of nodes made before. -/
def resolve (g : Graph) : Nat → Nat → Except Err (List Nat)
  | 0, _ => .error .loop
  | fuel + 1, i =>
      match g[i]? with
      | some (_, .alias ts) => concat (resolve g fuel) ts
      | some (_, k) => if k.isAFile then .ok [i] else .error .unsupported
      | none => .error .loop

/-- F:87-107: the graph with new file nodes, and the sources. -/
def sources (clean : Name → Name) : Graph → List Name → Except Err (Graph × List Nat)
  | g, [] => .ok (g, [])
  | g, s :: ss =>
      match find clean g s with
      | some i =>
          match resolve g g.length i with
          | .error e => .error e
          | .ok a =>
              match sources clean g ss with
              | .error e => .error e
              | .ok (g, b) => .ok (g, a ++ b)
      | none =>
          match sources clean (g ++ [(clean s, .file)]) ss with
          | .error e => .error e
          | .ok (g', b) => .ok (g', g.length :: b)

/-- `PathUtils::IsFolderPath`, PathUtils.cpp:11-27. -/
def isFolder (p : Name) : Bool :=
  match p.getLast? with
  | some c => c == '/' || c == '\\'
  | none => false

/-- What is appended to the destination folder (F:127-145). -/
def tailName (linux : Bool) (sl : Char) (base src : Name) : Name :=
  if !base.isEmpty && Dirs.beginsWith linux src base then src.drop base.length
  else (src.reverse.takeWhile (· ≠ sl)).reverse

/-- The destination of a source (F:111, 124-145). -/
def destOf (linux : Bool) (sl : Char) (dest base src : Name) : Name :=
  if isFolder dest then dest ++ tailName linux sl base src else dest

/-- One copy after the other (F:120-165); new nodes are at the end. -/
def copies (clean : Name → Name) (linux : Bool) (sl : Char) (dest base : Name) :
    Graph → List Nat → Except Err (Graph × List Nat)
  | g, [] => .ok (g, [])
  | g, i :: is =>
      match g[i]? with
      | none => .error .loop
      | some (src, _) =>
          let dst := destOf linux sl dest base src
          match find clean g dst with
          | some _ => .error .defined
          | none =>
              match copies clean linux sl dest base (g ++ [(clean dst, .copy i)]) is with
              | .error e => .error e
              | .ok (g', b) => .ok (g', g.length :: b)

/-- `Commit` (F:36-169), for `dest` and `base` that were cleaned (F:54-61, 109-110). -/
def commit (clean : Name → Name) (linux : Bool) (sl : Char) (dest base : Name) (g : Graph)
    (srcs : List Name) : Except Err (Graph × List Nat × List Nat) :=
  if srcs.any isFolder then .error .path
  else
    match sources clean g srcs with
    | .error e => .error e
    | .ok (g, ns) =>
        if 1 < ns.length ∧ isFolder dest = false then .error .slash
        else
          match copies clean linux sl dest base g ns with
          | .error e => .error e
          | .ok (g, cs) => .ok (g, ns, cs)

/-! ### Copying a file on Linux -/

abbrev Bytes := List Nat

/-- What a call of `sendfile` returns. -/
inductive Send
  | sent (n : Nat)
  /-- an error, and whether it says that `sendfile` cannot be used here -/
  | fail (unavailable : Bool)

/-- The loop of I:259-282: what has been written, how much and whether `sendfile` is unavailable.
`none`: the system does not behave so. -/
def sendLoop (src : Bytes) : List Send → Nat → Bytes → Option (Bytes × Nat × Bool)
  | [], off, dst => if src.length ≤ off then some (dst, off, false) else none
  | o :: os, off, dst =>
      if src.length ≤ off then some (dst, off, false)
      else
        match o with
        | .fail u => some (dst, off, u)
        | .sent n =>
            if 0 < n ∧ n ≤ min (src.length - off) 0x7ffff000 then
              sendLoop src os (off + n) (dst ++ (src.drop off).take n)
            else none

/-- What `read` and `write` return. -/
inductive Chunk
  | both (read written : Nat)
  | fail

/-- The loop of I:284-311; `pos` is the position in the source, which `sendfile` has not moved. -/
def readLoop (src : Bytes) : List Chunk → Nat → Nat → Bytes → Option (Bytes × Nat)
  | [], _, copied, dst => if src.length ≤ copied then some (dst, copied) else none
  | o :: os, pos, copied, dst =>
      if src.length ≤ copied then some (dst, copied)
      else
        match o with
        | .fail => some (dst, copied)
        | .both r w =>
            if r ≤ min (src.length - pos) 4096 ∧ w ≤ r then
              if r = 0 then some (dst, copied)
              else if w ≠ r then some (dst ++ (src.drop pos).take w, copied)
              else readLoop src os (pos + r) (copied + w) (dst ++ (src.drop pos).take r)
            else none

/-- I:259-316, for a source that is no symbolic link and does not change: what is in the
destination and whether the copy succeeded. -/
def copyBytes (src : Bytes) (sends : List Send) (chunks : List Chunk) : Option (Bytes × Bool) :=
  match sendLoop src sends 0 [] with
  | none => none
  | some (dst, n, false) => some (dst, n == src.length)
  | some (dst, n, true) =>
      match readLoop src chunks 0 n dst with
      | none => none
      | some (dst, n) => some (dst, n == src.length)

/-- What a path may be. -/
inductive Entry
  | regular (content : Bytes) (time : Nat) (readOnly : Bool)
  | link (target : Name)

abbrev Disk := Name → Option Entry

def Disk.put (d : Disk) (n : Name) (e : Entry) : Disk := fun m => if m = n then some e else d m

/-- What the system does in one copy: see `Send` and `Chunk`; the time of the file that was
written; whether the file may be opened, its attributes and its time changed. -/
structure Sys where
  sends : List Send
  chunks : List Chunk
  now : Nat
  opens : Bool := true
  chmods : Bool := true
  unlocks : Bool := true
  touches : Bool := true

/-- `FileCopy` on Linux (I:209-316), for two paths and a source that exists.  A file that is copied
over a symbolic link is left out, and so are the attributes of a file that cannot be opened (I:241). -/
def fileCopy (sys : Sys) (d : Disk) (src dst : Name) : Option (Disk × Bool) :=
  match d src, d dst with
  | none, _ => none
  | some (.link _), some _ => some (d, false)
  | some (.link t), none => some (d.put dst (.link t), true)
  | some (.regular ..), some (.link _) => none
  | some (.regular content _ ro), _ =>
      if src = dst then none
      else if !sys.opens then some (d, false)
      else if !sys.chmods then some (d.put dst (.regular [] sys.now false), false)
      else (copyBytes content sys.sends sys.chunks).map fun r => (d.put dst (.regular r.1 sys.now ro), r.2)

/-- The rest of `DoBuild` of a copy (N:68-90), for regular files: the stamp, none if it failed. -/
def finish (sys : Sys) (d : Disk) (src dst : Name) : Option (Disk × Option Nat) :=
  match d src, d dst with
  | some (.regular _ ts _), some (.regular c td ro) =>
      if !sys.unlocks then some (d, none)
      else
        let d := d.put dst (.regular c td false)
        if td < ts then
          if !sys.touches then some (d, none)
          else some (d.put dst (.regular c ts false), some ts)
        else some (d, some td)
  | _, _ => none

/-- `DoBuild` of a copy (N:57-91). -/
def buildCopy (sys : Sys) (d : Disk) (src dst : Name) : Option (Disk × Option Nat) :=
  match fileCopy sys d src dst with
  | none => none
  | some (d, false) => some (d, none)
  | some (d, true) => finish sys d src dst

/-! ### Text files -/

def newline (win : Bool) : Name := if win then ['\r', '\n'] else ['\n']

/-- What `TextFileNode::DoBuild` writes (T:74-86). -/
def textFile (win : Bool) : List Name → Name
  | [] => []
  | s :: ss => s ++ newline win ++ textFile win ss

/-! ### Lists of dependencies -/

/-- A dependency: a node, and whether it is weak. -/
structure Dep where
  node : Nat
  weak : Bool

structure Node where
  name : Name
  isFile : Bool
  static : List Dep := []
  dynamic : List Dep := []

/-- `FilterFileDependencies` (L:34-73). -/
def filterDeps (g : Nat → Node) (wanted : Name → Bool) : List Nat → List Dep → List Nat
  | l, [] => l
  | l, d :: ds =>
      filterDeps g wanted
        (if d.weak || !(g d.node).isFile || l.contains d.node then l
          else if wanted (g d.node).name then l ++ [d.node] else l) ds

/-- The loops over the dependencies of one source (L:134-150). -/
def ofDeps (g : Nat → Node) (wanted : Name → Bool) : List Nat → List Dep → List Nat
  | l, [] => l
  | l, d :: ds =>
      ofDeps g wanted
        (if d.weak then l
          else filterDeps g wanted (filterDeps g wanted l (g d.node).static) (g d.node).dynamic) ds

/-- The loop over sources (L:127-151). -/
def ofSources (g : Nat → Node) (wanted : Name → Bool) : List Nat → List Dep → List Nat
  | l, [] => l
  | l, s :: ss =>
      ofSources g wanted
        (if s.weak then l
          else ofDeps g wanted (ofDeps g wanted l (g s.node).static) (g s.node).dynamic) ss

/-- Entries that are the same as the one before are left out (L:159-168). -/
def unrepeat : Option Name → List Name → List Name
  | _, [] => []
  | prev, n :: ns => if prev = some n then unrepeat prev ns else n :: unrepeat (some n) ns

/-- Whether a pattern matches, or there is none (L:56-70). -/
def matchesAny (linux : Bool) (patterns : List Name) (n : Name) : Bool :=
  patterns.isEmpty || patterns.any fun p => Dirs.wildcard linux p n

/-- The lines of the file (L:124-175), which is then `textFile`; `sort` is `Array::Sort` (C35). -/
def listLines (sort : List Name → List Name) (linux : Bool) (patterns : List Name) (g : Nat → Node)
    (srcs : List Dep) : List Name :=
  unrepeat none (sort ((ofSources g (matchesAny linux patterns) [] srcs).map fun i => (g i).name))

end Verif.Copy
