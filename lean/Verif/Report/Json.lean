import Verif.Compdb.Model
/-!
The report of a build in JSON (`-report=json`): `JSONReport`, Helpers/Report/JSONReport.cpp. The text is a list of tokens: white space between them
is left out, a string is what stands between its quotes, numbers with decimals (times, percentages) are left open. The statistics of libraries
(`Report::GetLibraryStats`, sorted) and the files they include (`GetIncludeFilesRecurse`, flattened and sorted) are given. The replacement of the
place holder of the time taken and the limit of memory are left out.
-/
namespace Verif.Report
open Verif.Compdb (escape)

abbrev Text := List Char

inductive Tok
  | lb | rb | ls | rs | colon | comma
  /-- what stands between two quotes -/
  | str (inside : Text)
  /-- `%u` -/
  | num (n : Nat)
  /-- `%.1f`, `%.3f` -/
  | dec
deriving DecidableEq

def S (s : String) : Tok := .str s.toList

/-- `IncludeStats`, Report.h: a file included -/
structure Inc where
  name : Text
  count : Nat
  pch : Bool

/-- `LibraryStats`, Report.h, with the label of its type (JSONReport.cpp:424-432) and its includes -/
structure Lib where
  name : Text
  kind : Text
  time : Nat
  objects : Nat
  outOfDate : Nat
  cacheable : Nat
  hits : Nat
  stores : Nat
  incs : List Inc

/-- a type of node that was processed, with its `FBuildStats::Stats` -/
structure TypeRow where
  label : Text
  processed : Nat
  built : Nat
  hits : Nat
  isObject : Bool

/-- a node of `FBuildStats::GetNodesByTime` -/
structure Item where
  kind : Text
  name : Text
  /-- its time, `%2.3fs` -/
  secs : Text
  hit : Bool
  store : Bool

structure In where
  /-- are characters signed -/
  signed : Bool
  cmd : Text
  targets : List Text
  ok : Bool
  time : Text
  cpu : Text
  remote : Text
  version : Text
  generated : Text
  types : List TypeRow
  /-- is the cache read or written -/
  cache : Bool
  libs : List Lib
  items : List Item

/-- the names of targets, JSONReport.cpp:94-113 -/
def targetsOf : List Text → Text
  | [] => []
  | [t] => t
  | t :: l => t ++ [',', ' '] ++ targetsOf l

/-- `JSONReport::CreateOverview`, JSONReport.cpp:72-148 -/
def overview (r : In) : List Tok :=
  [S "Overview", .colon, .lb,
   S "cmd line options", .colon, .str (escape r.signed r.cmd), .comma,
   S "Target(s)", .colon, .str (targetsOf r.targets), .comma,
   S "Result", .colon, (if r.ok then S "OK" else S "FAILED"), .comma,
   S "Time", .colon, .str r.time, .comma,
   S "CPU Time", .colon, .str r.cpu, .comma,
   S "Remote CPU Time", .colon, .str r.remote, .comma,
   S "Version", .colon, .str r.version, .comma,
   S "Report Generated", .colon, .str r.generated, .rb]

/-- one type, JSONReport.cpp:199-222 -/
def typeRow (t : TypeRow) : List Tok :=
  [.str t.label, .colon, .lb,
   S "Time (s)", .colon, .dec, .comma,
   S "Processed", .colon, .num t.processed, .comma,
   S "Built", .colon, .num t.built, .comma,
   S "Cache Hits", .colon, (if t.isObject then .num t.hits else S "-"), .comma,
   S "Percentage", .colon, .dec, .rb]

/-- the loop over types, JSONReport.cpp:184-228: `n` types, `i` were written -/
def typeRows (n : Nat) : Nat → List TypeRow → List Tok
  | _, [] => []
  | i, t :: l => typeRow t ++ (if i < n - 1 then [.comma] else []) ++ typeRows n (i + 1) l

/-- `JSONReport::DoCPUTimeByType`, JSONReport.cpp:152-231 -/
def byType (r : In) : List Tok :=
  [S "CPU Time by Node Type", .colon, .lb] ++ typeRows r.types.length 0 r.types ++ [.rb]

/-- difference of 32 bit numbers -/
def sub32 (a b : Nat) : Nat := (a + 2 ^ 32 - b) % 2 ^ 32

/-- `"name": { "Count": n, "Percentage": p }`, JSONReport.cpp:337-371 -/
def share (name : String) (n : Nat) : List Tok :=
  [S name, .colon, .lb, S "Count", .colon, .num n, .comma, S "Percentage", .colon, .dec, .rb]

/-- one library, JSONReport.cpp:332-376 -/
def detail (l : Lib) : List Tok :=
  [.lb, S "Library", .colon, .str l.name, .comma, S "Items", .colon, .num l.objects, .comma] ++
  share "Out-of-Date" l.outOfDate ++ [.comma] ++ share "Cacheable" l.cacheable ++ [.comma] ++
  share "Hits" l.hits ++ [.comma] ++ share "Misses" (sub32 l.cacheable l.hits) ++ [.comma] ++
  [S "Stores", .colon, .num l.stores, .comma, S "Store Time (s)", .colon, .dec, .rb]

/-- the loop over libraries, JSONReport.cpp:296-379: `k` were written -/
def details : Nat → List Lib → List Tok
  | _, [] => []
  | k, l :: ls =>
    if l.outOfDate = 0 then details k ls
    else (if k > 0 then [.comma] else []) ++ detail l ++ details (k + 1) ls

/-- one part of the summary, JSONReport.cpp:272-278 -/
def summary (name : String) : List Tok :=
  [S name, .colon, .lb, S "Time (s)", .colon, .dec, .comma, S "Percentage", .colon, .dec, .rb]

/-- `JSONReport::DoCacheStats`, JSONReport.cpp:235-389 -/
def cacheStats (r : In) : List Tok :=
  if r.cache then
    if (r.libs.map (·.outOfDate)).sum % 2 ^ 32 = 0 then [S "Cache Stats", .colon, .lb, .rb]
    else [S "Cache Stats", .colon, .lb, S "summary", .colon, .lb] ++
      summary "Uncacheable" ++ [.comma] ++ summary "Cache Miss" ++ [.comma] ++ summary "Cache Hit" ++
      [.rb, .comma, S "details", .colon, .ls] ++ details 0 r.libs ++ [.rs, .rb]
  else [S "Cache Stats", .colon, .lb, .rb]

/-- one library, JSONReport.cpp:435-447 -/
def libRow (signed : Bool) (l : Lib) : List Tok :=
  [.lb, S "Time (s)", .colon, .dec, .comma, S "Percentage", .colon, .dec, .comma,
   S "Obj Built", .colon, .num l.outOfDate, .comma, S "Type", .colon, .str l.kind, .comma,
   S "Name", .colon, .str (escape signed l.name), .rb]

/-- the loop over libraries, JSONReport.cpp:414-455: `n` libraries, `k` were written -/
def libRows (signed : Bool) (n : Nat) : Nat → List Lib → List Tok
  | _, [] => []
  | k, l :: ls =>
    if l.time = 0 then libRows signed n k ls
    else libRow signed l ++ (if k < n - 1 then [.comma] else []) ++ libRows signed n (k + 1) ls

/-- `JSONReport::DoCPUTimeByLibrary`, JSONReport.cpp:393-459 -/
def byLibrary (r : In) : List Tok :=
  if (r.libs.map (·.time)).sum % 2 ^ 32 = 0 then [S "CPU Time by Library", .colon, .ls, .rs]
  else [S "CPU Time by Library", .colon, .ls] ++ libRows r.signed r.libs.length 0 r.libs ++ [.rs]

/-- one node, JSONReport.cpp:481-512 -/
def itemRow (signed cache : Bool) (i : Item) : List Tok :=
  if cache then
    [.lb, S "Time (s)", .colon, .dec, .comma, S "Type", .colon, .str i.kind, .comma,
     S "Cache", .colon, (if i.hit then S "HIT" else if i.store then S "STORE" else S "N/A"), .comma,
     S "Name", .colon, .str (escape signed i.name), .rb]
  else
    [.lb, S "Time", .colon, .str i.secs, .comma, S "Type", .colon, .str i.kind, .comma,
     S "Name", .colon, .str (escape signed i.name), .rb]

/-- the loop over nodes, JSONReport.cpp:475-520 -/
def itemRows (signed cache : Bool) (n : Nat) : Nat → List Item → List Tok
  | _, [] => []
  | k, i :: l => itemRow signed cache i ++ (if k < n - 1 then [.comma] else []) ++ itemRows signed cache n (k + 1) l

/-- `JSONReport::DoCPUTimeByItem`, JSONReport.cpp:463-523 -/
def byItem (r : In) : List Tok :=
  [S "CPU Time by Item", .colon, .ls] ++ itemRows r.signed r.cache r.items.length 0 r.items ++ [.rs]

/-- one file, JSONReport.cpp:586-598 -/
def incRow (signed : Bool) (objects : Nat) (i : Inc) : List Tok :=
  [.lb, S "Objects", .colon, .num objects, .comma, S "Included", .colon, .num i.count, .comma,
   S "PCH", .colon, (if i.pch then S "YES" else S "no"), .comma,
   S "Name", .colon, .str (escape signed i.name), .rb]

/-- the loop over files, JSONReport.cpp:579-606 -/
def incRows (signed : Bool) (objects n : Nat) : Nat → List Inc → List Tok
  | _, [] => []
  | k, i :: l => incRow signed objects i ++ (if k < n - 1 then [.comma] else []) ++ incRows signed objects n (k + 1) l

/-- the loop over libraries, JSONReport.cpp:536-618: `n` libraries, `c` is `numLibsOutput` -/
def incLibs (signed : Bool) (n : Nat) : Nat → List Lib → List Tok
  | _, [] => []
  | c, l :: ls =>
    if l.outOfDate = 0 then incLibs signed n c ls
    else if l.incs.isEmpty then
      [.lb, S "Library name", .colon, .str l.name, .comma, S "Includes", .colon, .ls, .rs, .rb] ++
        (if c < n - 1 then [.comma] else []) ++ incLibs signed n c ls
    else
      [.lb, S "Library name", .colon, .str l.name, .comma, S "Includes", .colon, .ls] ++
        incRows signed l.objects l.incs.length 0 l.incs ++ [.rs, .rb] ++
        (if c < n - 1 then [.comma] else []) ++ incLibs signed n (c + 1) ls

/-- `JSONReport::DoIncludes`, JSONReport.cpp:528-628 -/
def includes (r : In) : List Tok :=
  [S "Includes", .colon, .ls] ++ incLibs r.signed r.libs.length 0 r.libs ++ [.rs]

/-- `JSONReport::Generate`, JSONReport.cpp:30-57 -/
def json (r : In) : List Tok :=
  [.lb] ++ overview r ++ [.comma] ++ byType r ++ [.comma] ++ cacheStats r ++ [.comma] ++ byLibrary r ++ [.comma] ++
  byItem r ++ [.comma] ++ includes r ++ [.rb]

end Verif.Report
