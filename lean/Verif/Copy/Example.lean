/- Concrete cases for C107, and what does not hold. -/
import Verif.Copy.Props

namespace Verif.Copy
open Unity (Name)

/-- Relative paths are below `/w/`. -/
def exClean (n : Name) : Name := if n.head? = some '/' then n else "/w/".toList ++ n

/-- Two files, an alias of both, an alias of an alias and a file, and a node that is no file. -/
def exGraph : Graph :=
  [("/w/s/a/x.h".toList, .file), ("/w/s/b/y.h".toList, .other true), ("both".toList, .alias [0, 1]),
   ("more".toList, .alias [2, 0]), ("run".toList, .other false)]

def exDest : Name := "/w/out/".toList
def exBase : Name := "/w/s/".toList
def exSrcs : List Name := ["BOTH".toList, "z.txt".toList]

def exBefore (i : Nat) : Kind → Bool
  | .alias ts => ts.all (decide <| · < i)
  | _ => true

theorem ex_wf : WF exGraph := by
  refine ⟨fun i j n hi hj => ?_, fun i n ts hi t ht => ?_⟩
  · have hi' := hi.lt
    have hj' := hj.lt
    obtain ⟨a, k, hi, si⟩ := hi
    obtain ⟨b, k', hj, sj⟩ := hj
    have hs : Dirs.Same false a b := Same.trans si (Same.symm sj)
    rw [← key_iff] at hs
    have hall : ∀ i < 5, ∀ j < 5, ((exGraph[i]?).map fun e => Dirs.key e.1) = (exGraph[j]?).map (fun e => Dirs.key e.1) →
        i = j := by decide +kernel
    exact hall i hi' j hj' (by rw [hi, hj]; simp [hs])
  · have hi' : i < 5 := (List.getElem?_eq_some_iff.1 hi).1
    have hall : ∀ i < 5, ((exGraph[i]?).map fun e => exBefore i e.2) = some true := by decide +kernel
    have := hall i hi'
    rw [hi] at this
    simp [exBefore] at this
    exact this t ht

/-- What is made: a file for `z.txt`, and three copies, two of them with folders. -/
def exResult : Graph := exGraph ++
  [("/w/z.txt".toList, .file), ("/w/out/a/x.h".toList, .copy 0), ("/w/out/b/y.h".toList, .copy 1),
   ("/w/out/z.txt".toList, .copy 5)]

def exNodes (r : Except Err (Graph × List Nat × List Nat)) : Option (Graph × List Nat × List Nat) :=
  match r with
  | .ok x => some x
  | .error _ => none

def exErr (r : Except Err (Graph × List Nat × List Nat)) : Option Err :=
  match r with
  | .ok _ => none
  | .error e => some e

theorem ex_commit : exNodes (commit exClean true '/' exDest exBase exGraph exSrcs) =
    some (exResult, [0, 1, 5], [6, 7, 8]) := by decide +kernel

/-- The hypotheses of `C107_copies` and `C107_apart` are met. -/
example : WF exGraph ∧ ∃ g' ns cs, commit exClean true '/' exDest exBase exGraph exSrcs = .ok (g', ns, cs) := by
  refine ⟨ex_wf, ?_⟩
  have h := ex_commit
  unfold exNodes at h
  split at h
  · rename_i x hx; exact ⟨x.1, x.2.1, x.2.2, hx⟩
  · exact nomatch h

-- the errors of `C107_refused`
example : exErr (commit exClean true '/' exDest exBase exGraph ["s/".toList]) = some .path := by decide +kernel
example : exErr (commit exClean true '/' exDest exBase exGraph ["run".toList]) = some .unsupported := by decide +kernel
example : exErr (commit exClean true '/' "/w/out".toList exBase exGraph exSrcs) = some .slash := by decide +kernel
example : exErr (commit exClean true '/' exDest exBase exGraph ["more".toList]) = some .defined := by decide +kernel
example : exErr (commit exClean true '/' "/w/s/".toList exBase exGraph ["both".toList]) = some .defined := by
  decide +kernel
-- without a base path files of one name in two folders cannot be copied at once
example : exErr (commit exClean true '/' exDest [] exGraph ["p/x.h".toList, "both".toList]) = some .defined := by
  decide +kernel

/-! ### Bytes -/

def exDisk : Disk := fun n =>
  if n = "/a".toList then some (.regular [1, 2, 3] 50 true)
  else if n = "/l".toList then some (.link "/a".toList) else none

/-- A copy in two parts. -/
def exSys : Sys := ⟨[.sent 2, .sent 1], [], 40, true, true, true, true⟩
/-- A copy without `sendfile`. -/
def exSys2 : Sys := ⟨[.fail true], [.both 2 2, .both 1 1], 60, true, true, true, true⟩

example : (∀ pre rest, exSys.sends = pre ++ Send.fail true :: rest → pre = []) ∧
    (∀ pre rest, exSys2.sends = pre ++ Send.fail true :: rest → pre = []) ∧
    (∃ d', buildCopy exSys exDisk "/a".toList "/b".toList = some (d', some 50)) ∧
    (∃ d', buildCopy exSys2 exDisk "/a".toList "/b".toList = some (d', some 60)) := by
  refine ⟨fun pre rest h => ?_, fun pre rest h => ?_, ⟨_, rfl⟩, ⟨_, rfl⟩⟩
  · match pre, h with
    | [], _ => rfl
    | [a], h => simp [exSys] at h
    | [a, b], h => simp [exSys] at h
    | a :: b :: c :: l, h => simp [exSys] at h
  · match pre, h with
    | [], _ => rfl
    | a :: l, h => simp [exSys2] at h

/-- `m` bytes by `sendfile`, then `m` bytes by reading: the first ones twice. -/
theorem exAgain (a b : Bytes) {m : Nat} (h0 : 0 < m) (hm : m ≤ 4096) (ha : a.length = m) (hb : b.length = m) :
    copyBytes (a ++ b) [.sent m, .fail true] [.both m m] = some (a ++ a, true) := by
  have h1 : ¬ m + m = 0 := by omega
  have h2 : ¬ m = 0 := by omega
  have h3 : ¬ m + m ≤ m := by omega
  have h4 : m ≤ min (m + m) 2147479552 := by omega
  have h5 : m ≤ min (m + m) 4096 := by omega
  have h6 : (a ++ b).take m = a := List.take_left' ha
  simp [copyBytes, sendLoop, readLoop, ha, hb, h0, h1, h2, h3, h4, h5, h6]

/-- C107_copied without its hypothesis is false: if `sendfile` has copied 4096 bytes and then cannot be used any
more, the first bytes are copied again, and the copy of 8192 bytes is said to have succeeded. -/
theorem C107_copied_false : ¬ ∀ (src d : Bytes) (sends : List Send) (chunks : List Chunk),
    copyBytes src sends chunks = some (d, true) → d = src := by
  intro h
  have hl : ∀ x : Nat, (List.replicate 4096 x).length = 4096 := fun x => List.length_replicate
  have h := List.append_cancel_left (h _ _ _ _ (exAgain _ _ (m := 4096) (by omega) (by omega) (hl 0) (hl 1)))
  have h := List.replicate_inj.1 h
  exact absurd (h.2.resolve_left (by omega)) (by omega)

/-- A symbolic link that has been copied cannot be copied again. -/
theorem C107_link_again_false : ¬ ∀ (sys : Sys) (d d' : Disk) (src dst : Name),
    fileCopy sys d src dst = some (d', true) →
    ∀ d'' ok', fileCopy sys d' src dst = some (d'', ok') → ok' = true := by
  intro h
  have := h exSys exDisk (exDisk.put "/m".toList (.link "/a".toList)) "/l".toList "/m".toList rfl
    (exDisk.put "/m".toList (.link "/a".toList)) false rfl
  exact nomatch this

/-! ### Text -/

example : (∀ s ∈ ["ab".toList, [], "c".toList], '\n' ∉ s) ∧
    textFile true ["ab".toList, [], "c".toList] = "ab\r\n\r\nc\r\n".toList := by decide +kernel

/-! ### Dependencies -/

/-- Node 0 is an object list of node 1, an object of `a.cpp` with headers. -/
def exNode : Nat → Node
  | 0 => ⟨"list".toList, false, [], [⟨1, false⟩]⟩
  | 1 => ⟨"/o/a.o".toList, true, [⟨2, false⟩], [⟨3, false⟩, ⟨4, false⟩, ⟨3, false⟩]⟩
  | 2 => ⟨"/s/a.cpp".toList, true, [], []⟩
  | 3 => ⟨"/s/b.h".toList, true, [], []⟩
  | _ => ⟨"/s/a.h".toList, true, [], []⟩

def exLe (a b : Name) : Bool := decide (¬ b < a)

def exInsert (a : Name) : List Name → List Name
  | [] => [a]
  | b :: l => if exLe a b then a :: b :: l else b :: exInsert a l

def exSort : List Name → List Name
  | [] => []
  | a :: l => exInsert a (exSort l)

example : listLines exSort true ["*.h".toList] exNode [⟨0, false⟩] = ["/s/a.h".toList, "/s/b.h".toList] := by
  decide +kernel

theorem exLe_trans {a b c : Name} (h1 : exLe a b = true) (h2 : exLe b c = true) : exLe a c = true := by
  simp only [exLe, decide_eq_true_eq, List.not_lt] at *
  exact List.le_trans h1 h2

theorem exLe_total {a b : Name} (h : ¬ exLe a b = true) : exLe b a = true := by
  simp only [exLe, decide_eq_true_eq, List.not_lt] at *
  exact (List.le_total a b).resolve_left h

theorem exInsert_perm (a : Name) : ∀ l, (exInsert a l).Perm (a :: l)
  | [] => .refl _
  | b :: l => by
      unfold exInsert
      split
      · exact .refl _
      · exact ((exInsert_perm a l).cons b).trans (.swap a b l)

theorem exSort_perm : ∀ l, (exSort l).Perm l
  | [] => .refl _
  | a :: l => (exInsert_perm a _).trans ((exSort_perm l).cons a)

theorem exInsert_sorted (a : Name) : ∀ l, l.Pairwise (fun a b => exLe a b = true) →
    (exInsert a l).Pairwise fun a b => exLe a b = true
  | [], _ => by simp [exInsert]
  | b :: l, h => by
      have h' := List.pairwise_cons.1 h
      unfold exInsert
      split
      · rename_i hab
        refine List.pairwise_cons.2 ⟨fun c hc => ?_, h⟩
        rcases List.mem_cons.1 hc with rfl | hc
        · exact hab
        · exact exLe_trans hab (h'.1 c hc)
      · rename_i hab
        refine List.pairwise_cons.2 ⟨fun c hc => ?_, exInsert_sorted a l h'.2⟩
        rcases List.mem_cons.1 ((exInsert_perm a l).mem_iff.1 hc) with rfl | hc
        · exact exLe_total hab
        · exact h'.1 c hc

theorem exSort_sorted : ∀ l, (exSort l).Pairwise fun a b => exLe a b = true
  | [] => .nil
  | a :: l => exInsert_sorted a _ (exSort_sorted l)

/-- The hypotheses of `C107_listed` and `C107_in_order` are met. -/
example : (∀ l, (exSort l).Perm l) ∧ (∀ l, (exSort l).Pairwise fun a b => exLe a b = true) ∧
    ∀ a b : Name, exLe a b = true → exLe b a = true → a = b := by
  refine ⟨exSort_perm, exSort_sorted, fun a b h1 h2 => ?_⟩
  simp only [exLe, decide_eq_true_eq, List.not_lt] at h1 h2
  exact List.le_antisymm h1 h2

/-- "List only direct dependencies of the source" does not hold: of an object neither its source file nor its
headers are listed, which are its direct dependencies. -/
theorem C107_direct_false : ¬ ∀ (g : Nat → Node) (s : Nat) (d : Dep),
    d ∈ (g s).static ++ (g s).dynamic → d.weak = false → (g d.node).isFile = true →
    (g d.node).name ∈ listLines exSort true [] g [⟨s, false⟩] := by
  intro h
  exact absurd (h exNode 1 ⟨2, false⟩ (.head _) rfl rfl) (by decide +kernel)

end Verif.Copy
