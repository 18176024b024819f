import Verif.Profile.Model
import Verif.Compdb.Spec
/-!
JSON with numbers as a relation between values and texts (RFC 8259), and what is to be found in a profile.
Strings are read by `Compdb.pstr`, the reader of strings in the specification of C96.
-/
namespace Verif.Profile.Spec
open Verif.Compdb (pstr Plain)

inductive J
  | str (s : Text)
  | num (n : Int)
  /-- a number with one digit after the point -/
  | dec (tenths : Nat)
  | arr (l : List J)
  | obj (l : List (Text × J))

/-- the value of decimal digits -/
def value (t : Text) : Nat := t.foldl (fun a c => 10 * a + (c.toNat - 48)) 0

/-- a natural number: digits without leading zeros -/
def IsNat (n : Nat) (t : Text) : Prop :=
  t ≠ [] ∧ (∀ c ∈ t, '0' ≤ c ∧ c ≤ '9') ∧ value t = n ∧ (t.head? = some '0' → t = ['0'])

/-- an integer -/
inductive IsInt : Int → Text → Prop
  | pos {n t} : IsNat n t → IsInt (n : Int) t
  | neg {n t} : IsNat n t → IsInt (-(n : Int)) ('-' :: t)

/-- the inside of a string -/
def IsStr (s t : Text) : Prop := pstr (t ++ ['"']) = some (s, [])

mutual
/-- `t` is a text of the value -/
inductive Den : J → Text → Prop
  | str {s t} : IsStr s t → Den (.str s) ('"' :: t ++ ['"'])
  | num {n t} : IsInt n t → Den (.num n) t
  | dec {n i t c} : IsNat i t → '0' ≤ c → c ≤ '9' → n = 10 * i + (c.toNat - 48) → Den (.dec n) (t ++ ['.', c])
  | arr {l t} : Elems l t → Den (.arr l) ('[' :: t ++ [']'])
  | obj {l t} : Members l t → Den (.obj l) ('{' :: t ++ ['}'])
inductive Elems : List J → Text → Prop
  | one {v t} : Den v t → Elems [v] t
  | more {v t l t'} : Den v t → Elems l t' → Elems (v :: l) (t ++ ',' :: t')
inductive Members : List (Text × J) → Text → Prop
  | one {k kt v t} : IsStr k kt → Den v t → Members [(k, v)] ('"' :: kt ++ '"' :: ':' :: t)
  | more {k kt v t l t'} : IsStr k kt → Den v t → Members l t' → Members ((k, v) :: l) ('"' :: kt ++ '"' :: ':' :: t ++ ',' :: t')
end

/-- text that needs no escapes -/
def Clean (s : Text) : Prop := ∀ c ∈ s, 32 ≤ c.toNat ∧ c ≠ '"' ∧ c ≠ '\\'

/-- the name of a process or thread -/
def naming (kind : Text) (pid : Int) (tid : Nat) (name : Text) : J :=
  .obj [("name".toList, .str kind), ("ph".toList, .str "M".toList), ("pid".toList, .num pid), ("tid".toList, .num tid),
    ("args".toList, .obj [("name".toList, .str name)])]

/-- a duration -/
def duration (name : Text) (ts dur : Nat) (pid : Int) (tid : Nat) (target : Option Text) : J :=
  .obj ([("name".toList, .str name), ("ph".toList, .str "X".toList), ("ts".toList, .num ts), ("dur".toList, .num dur), ("pid".toList, .num pid),
    ("tid".toList, .num tid)] ++ target.toList.map fun t => ("args".toList, .obj [("name".toList, .str t)]))

/-- a number at a time -/
def counter (name unit : Text) (pid : Int) (ts : Nat) (v : J) : J :=
  .obj [("name".toList, .str name), ("ph".toList, .str "C".toList), ("ts".toList, .num ts), ("pid".toList, .num pid), ("args".toList, .obj [(unit, v)])]

def jobs (ts v : Nat) : J := counter "Process - Job (MiB)".toList "MiB".toList (-2) ts (.num v)
def process (ts v : Nat) : J := counter "Process - Total (MiB)".toList "MiB".toList (-2) ts (.num v)
def system (ts tenths : Nat) : J := counter "System - Total (GiB)".toList "GiB".toList (-2) ts (.dec tenths)
def connections (ts v : Nat) : J := counter "Connections".toList "Num".toList (-3) ts (.num v)

/-- an empty entry for the processor -/
def cpuMark (ts : Nat) : J := .obj [("ts".toList, .num ts), ("name".toList, .str []), ("ph".toList, .str "C".toList), ("pid".toList, .num (-4))]

/-- numbers of threads have two digits at least -/
def ThreadName (n : Nat) (s : Text) : Prop := ∃ d, IsNat n d ∧ s = "Thread ".toList ++ (if n < 10 then ['0'] else []) ++ d

/-- the headings -/
def headings (o : Setup) (tn : Nat → Text) : List J :=
  [naming "process_name".toList (-2) 0 "Memory Usage".toList,
   naming "process_name".toList (-3) 0 "Network Usage".toList,
   naming "process_name".toList (-4) 0 ("CPU: ".toList ++ o.cpu),
   naming "process_name".toList (-1) 0 (o.program ++ ' ' :: o.args),
   naming "thread_name".toList (-1) 0 "Phase".toList] ++
  (List.range o.threads).map fun i => naming "thread_name".toList (-1) (i + 1) (tn (i + 1))

/-- a worker and its threads: they count from 1000 -/
def worker (tn : Nat → Text) (pid : Nat) (w : Worker) : List J :=
  naming "process_name".toList pid 0 ("Worker: ".toList ++ w.name) ::
    (List.range (w.maxThread + 1 - 1000)).map fun i => naming "thread_name".toList pid (1000 + i) (tn i)

/-- the workers -/
def workers (tn : Nat → Text) (ws : List Worker) : List J := ws.zipIdx.flatMap fun (w, pid) => worker tn pid w

/-- an event -/
def event (us : Int → Nat) (e : Event) : J := duration e.step (us e.start) (us (e.stop - e.start)) e.machine e.thread e.target

/-- what is recorded at the very end -/
def finals (us : Int → Nat) (e : Ends) : List J :=
  [duration "CaptureProfileJSON".toList (us e.captureStart) (us (e.captureEnd - e.captureStart)) (-1) 0 none,
   duration "Shutdown".toList (us e.captureEnd) (us (e.saveStart - e.captureEnd)) (-1) 0 none,
   duration "WriteProfileJSON".toList (us e.saveStart) (us (e.saveEnd - e.saveStart)) (-1) 0 none]

/-- what a reader takes for the value of a number: the last one written, or zero -/
def Latest (l : List J) (kind : Nat → Nat → J) (v : Nat) (zero : Prop) : Prop :=
  (∃ pre ts post, l = pre ++ kind ts v :: post ∧ ∀ ts' v', kind ts' v' ∉ post) ∨ (zero ∧ ∀ ts' v', kind ts' v' ∉ l)

/-- The entries `l` show the metrics: to each sample belong some of the entries, with its time and values; once these are read, the reader has
the values of the sample, and the last sample has all entries. -/
def Counters (us : Int → Nat) (gib : Nat → Nat) (distributed : Bool) (ms : List Metrics) (l : List J) : Prop :=
  ∃ gs : List (List J), gs.length = ms.length ∧ l = gs.flatten ∧ ∀ (i : Nat) (m : Metrics) (g : List J), ms[i]? = some m → gs[i]? = some g →
    (∀ x ∈ g, x = jobs (us m.time) m.job ∨ x = process (us m.time) m.process ∨ x = system (us m.time) (gib m.system) ∨
      (distributed = true ∧ x = connections (us m.time) m.connections)) ∧
    Latest (gs.take (i + 1)).flatten jobs m.job (m.job = 0) ∧
    Latest (gs.take (i + 1)).flatten process m.process (m.process = 0) ∧
    Latest (gs.take (i + 1)).flatten system (gib m.system) (m.system = 0) ∧
    (distributed = true → Latest (gs.take (i + 1)).flatten connections m.connections (m.connections = 0)) ∧
    (i + 1 = ms.length → jobs (us m.time) m.job ∈ g ∧ process (us m.time) m.process ∈ g ∧ system (us m.time) (gib m.system) ∈ g ∧
      (distributed = true → connections (us m.time) m.connections ∈ g))

/-- what is recorded -/
inductive Op
  | local (thread : Nat) (start stop : Int) (step : Text) (target : Option Text)
  | remote (id : Nat) (name : Text) (thread : Nat) (start stop : Int) (step target : Text)

/-- as an event -/
def Op.event : Op → Event
  | .local thread start stop step target => ⟨-1, thread, start, stop, step, target⟩
  | .remote id _ thread start stop step target => ⟨id, thread, start, stop, step, some target⟩

end Verif.Profile.Spec
