import Verif.Report.Json
import Verif.Profile.Spec
/-!
JSON over tokens, and what is to be found in a report.
-/
namespace Verif.Report.Spec
open Verif.Compdb (Plain)
open Verif.Profile.Spec (IsStr Clean)

inductive J
  | str (s : Text)
  | num (n : Nat)
  /-- a number with decimals, left open -/
  | dec
  | arr (l : List J)
  | obj (l : List (Text × J))

mutual
/-- the tokens of a value -/
inductive Den : J → List Tok → Prop
  | str {s t} : IsStr s t → Den (.str s) [.str t]
  | num {n} : Den (.num n) [.num n]
  | dec : Den .dec [.dec]
  | arr0 : Den (.arr []) [.ls, .rs]
  | arr {l t} : Elems l t → Den (.arr l) (.ls :: t ++ [.rs])
  | obj0 : Den (.obj []) [.lb, .rb]
  | obj {l t} : Members l t → Den (.obj l) (.lb :: t ++ [.rb])
inductive Elems : List J → List Tok → Prop
  | one {v t} : Den v t → Elems [v] t
  | more {v t l t'} : Den v t → Elems l t' → Elems (v :: l) (t ++ .comma :: t')
inductive Members : List (Text × J) → List Tok → Prop
  | one {k kt v t} : IsStr k kt → Den v t → Members [(k, v)] (.str kt :: .colon :: t)
  | more {k kt v t l t'} : IsStr k kt → Den v t → Members l t' → Members ((k, v) :: l) (.str kt :: .colon :: t ++ .comma :: t')
end

/-- it is JSON -/
def IsJson (t : List Tok) : Prop := ∃ v, Den v t

def s (x : String) : J := .str x.toList
def m (k : String) (v : J) : Text × J := (k.toList, v)

def overviewOf (r : In) : J := .obj [
  m "cmd line options" (.str r.cmd),
  m "Target(s)" (.str (List.intercalate [',', ' '] r.targets)),
  m "Result" (s (if r.ok then "OK" else "FAILED")),
  m "Time" (.str r.time), m "CPU Time" (.str r.cpu), m "Remote CPU Time" (.str r.remote),
  m "Version" (.str r.version), m "Report Generated" (.str r.generated)]

def typeOf (t : TypeRow) : Text × J := (t.label, .obj [
  m "Time (s)" .dec, m "Processed" (.num t.processed), m "Built" (.num t.built),
  m "Cache Hits" (if t.isObject then .num t.hits else s "-"), m "Percentage" .dec])

def shareOf (n : Nat) : J := .obj [m "Count" (.num n), m "Percentage" .dec]
def summaryOf : J := .obj [m "Time (s)" .dec, m "Percentage" .dec]

def detailOf (l : Lib) : J := .obj [
  m "Library" (.str l.name), m "Items" (.num l.objects), m "Out-of-Date" (shareOf l.outOfDate), m "Cacheable" (shareOf l.cacheable),
  m "Hits" (shareOf l.hits), m "Misses" (shareOf (l.cacheable - l.hits)), m "Stores" (.num l.stores), m "Store Time (s)" .dec]

/-- libraries with objects that were out of date -/
def worked (libs : List Lib) : List Lib := libs.filter fun l => l.outOfDate ≠ 0

def cacheOf (r : In) : J :=
  if r.cache ∧ worked r.libs ≠ [] then
    .obj [m "summary" (.obj [m "Uncacheable" summaryOf, m "Cache Miss" summaryOf, m "Cache Hit" summaryOf]),
      m "details" (.arr ((worked r.libs).map detailOf))]
  else .obj []

def libOf (l : Lib) : J := .obj [
  m "Time (s)" .dec, m "Percentage" .dec, m "Obj Built" (.num l.outOfDate), m "Type" (.str l.kind), m "Name" (.str l.name)]

def itemOf (cache : Bool) (i : Item) : J :=
  if cache then .obj [m "Time (s)" .dec, m "Type" (.str i.kind), m "Cache" (s (if i.hit then "HIT" else if i.store then "STORE" else "N/A")),
    m "Name" (.str i.name)]
  else .obj [m "Time" (.str i.secs), m "Type" (.str i.kind), m "Name" (.str i.name)]

def incOf (objects : Nat) (i : Inc) : J := .obj [
  m "Objects" (.num objects), m "Included" (.num i.count), m "PCH" (s (if i.pch then "YES" else "no")), m "Name" (.str i.name)]

def incLibOf (l : Lib) : J := .obj [m "Library name" (.str l.name), m "Includes" (.arr (l.incs.map (incOf l.objects)))]

/-- what a report says -/
def value (r : In) : J := .obj [
  m "Overview" (overviewOf r),
  m "CPU Time by Node Type" (.obj (r.types.map typeOf)),
  m "Cache Stats" (cacheOf r),
  m "CPU Time by Library" (.arr ((r.libs.filter fun l => l.time ≠ 0).map libOf)),
  m "CPU Time by Item" (.arr (r.items.map (itemOf r.cache))),
  m "Includes" (.arr ((worked r.libs).map incLibOf))]

/-- texts: names of targets and libraries, labels and times need no escapes; the command line, names of nodes and included files are bytes other than
zero (below 128 where characters are signed) -/
structure Texts (r : In) : Prop where
  cmd : Plain r.signed r.cmd
  targets : ∀ t ∈ r.targets, Clean t
  times : Clean r.time ∧ Clean r.cpu ∧ Clean r.remote ∧ Clean r.version ∧ Clean r.generated
  types : ∀ t ∈ r.types, Clean t.label
  libs : ∀ l ∈ r.libs, Clean l.name ∧ Clean l.kind ∧ Plain r.signed l.name
  incs : ∀ l ∈ r.libs, ∀ i ∈ l.incs, Plain r.signed i.name
  items : ∀ i ∈ r.items, Clean i.kind ∧ Clean i.secs ∧ Plain r.signed i.name

/-- numbers: the sums are below 2^32, and hits are among the cacheable (C122) -/
structure Numbers (r : In) : Prop where
  time : (r.libs.map (·.time)).sum < 2 ^ 32
  outOfDate : (r.libs.map (·.outOfDate)).sum < 2 ^ 32
  hits : ∀ l ∈ r.libs, l.hits ≤ l.cacheable ∧ l.cacheable < 2 ^ 32

/-- when the commas are right -/
structure Commas (r : In) : Prop where
  /-- all libraries took time, or none -/
  time : (∀ l ∈ r.libs, l.time ≠ 0) ∨ (∀ l ∈ r.libs, l.time = 0)
  /-- no library had work, or all did, and all but the last have includes -/
  incs : (∀ l ∈ r.libs, l.outOfDate = 0) ∨ ((∀ l ∈ r.libs, l.outOfDate ≠ 0) ∧ ∀ l ∈ r.libs.dropLast, l.incs ≠ [])

end Verif.Report.Spec
