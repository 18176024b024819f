/-
Strings as sequences of bytes, without memory.  A byte that nobody has written is `none`.
-/
import Verif.AStr.Model
namespace Verif.AStr

/-- The longest string there can be. -/
abbrev Max : Nat := 2 ^ 32 - 2

abbrev Seq := List (Option Nat)
/-- Strings by number; `none` is one that was destroyed. -/
abbrev Abs := List (Option Seq)

def Abs.get (a : Abs) (i : Nat) : Option Seq := (a[i]?).join

/-- Bytes that were written. -/
def known (bs : Mem) : Seq := bs.map some

/-- The bytes, when all of them were written. -/
def written : Seq → Option Mem
  | [] => some []
  | none :: _ => none
  | some b :: s => (written s).map (b :: ·)

/-- Letters of ASCII in the other case. -/
def lowercase (c : Nat) : Nat := if 'A'.toNat ≤ c ∧ c ≤ 'Z'.toNat then c + 32 else c
def uppercase (c : Nat) : Nat := if 'a'.toNat ≤ c ∧ c ≤ 'z'.toNat then c - 32 else c

/-- Replace the first `n` of them. -/
def replaceFirst (a b : Nat) : Nat → Mem → Mem
  | 0, m => m
  | _ + 1, [] => []
  | n + 1, c :: cs => if c = a then b :: replaceFirst a b n cs else c :: replaceFirst a b (n + 1) cs

def replaced (a b limit : Nat) (m : Mem) : Mem :=
  if limit = 0 then m.map fun c => if c = a then b else c else replaceFirst a b limit m

/-- A string of that length, with unwritten bytes at the end if it becomes longer. -/
def resized (s : Seq) (n : Nat) : Seq := s.take n ++ List.replicate (n - s.length) none

/-- What a change makes of one sequence, if it is allowed. -/
def Abs.change (a : Abs) (i : Nat) (f : Seq → Option Seq) : Option Abs :=
  match a.get i with
  | none => none
  | some s =>
      match f s with
      | none => none
      | some t => if t.length ≤ Max then some (a.set i (some t)) else none

def Abs.add (a : Abs) (s : Seq) : Option Abs := if s.length ≤ Max then some (a ++ [some s]) else none

/-- What each operation does to sequences of bytes, and when it is allowed. -/
def Abs.step (a : Abs) : Op → Option Abs
  | .newEmpty => a.add []
  | .newReserve n => if 0 < n ∧ n ≤ Max then a.add [] else none
  | .newCopy bs => a.add (known bs)
  | .newStack _ r => if r % 2 = 0 ∧ r ≤ Max then a.add [] else none
  | .newFrom j => (a.get j).bind fun s => a.add s
  | .newMove j => (a.get j).bind fun s => Abs.add (a.set j (some [])) s
  | .destroy i => (a.get i).map fun _ => a.set i none
  | .assign i bs => a.change i fun _ => some (known bs)
  | .assignFrom i j => (a.get j).bind fun t => a.change i fun _ => some t
  | .assignMove i j =>
      (a.get j).bind fun t => (a.change i fun _ => some t).map fun a => a.set j (some [])
  | .clear i => a.change i fun _ => some []
  | .clearFree i => a.change i fun _ => some []
  | .setLength i n => a.change i fun s => some (resized s n)
  | .setReserved i n => if n ≤ Max then a.change i fun s => some (s.take n) else none
  | .appendChar i c => a.change i fun s => some (s ++ [some c])
  | .append i bs => a.change i fun s => some (s ++ known bs)
  | .appendFrom i j => (a.get j).bind fun t => a.change i fun s => some (s ++ t)
  | .appendList i items sep => a.change i fun s => some (s ++ known (List.intercalate [sep] items))
  | .toLower i => a.change i fun s => some (s.map (Option.map lowercase))
  | .toUpper i => a.change i fun s => some (s.map (Option.map uppercase))
  | .replaceChar i x y limit => a.change i fun s => (written s).map fun m => known (replaced x y limit m)
  | .setChar i k c => a.change i fun s => if k < s.length then some (s.set k (some c)) else none
  | .trim i x y => a.change i fun s => if x + y ≤ s.length then some ((s.drop x).take (s.length - x - y)) else none
  | .trimStart i c => a.change i fun s => (written s).map fun m => known (m.dropWhile (· == c))
  | .trimEnd i c => a.change i fun s => (written s).map fun m => known (m.reverse.dropWhile (· == c)).reverse

def Abs.run : Abs → List Op → Option Abs
  | a, [] => some a
  | a, o :: os => (a.step o).bind fun a => Abs.run a os

/-- The bytes are as the sequence says. -/
def Fits : Mem → Seq → Prop
  | [], [] => True
  | b :: bs, x :: xs => (∀ c, x = some c → b = c) ∧ Fits bs xs
  | _, _ => False

/-- Each string of the memory has the bytes of its sequence, and a terminator behind them. -/
def Shows (st : St) (a : Abs) : Prop :=
  st.strs.length = a.length ∧
  ∀ i, match get st i, a.get i with
    | none, none => True
    | some s, some x => ∃ m bs, buf st.heap s = some m ∧ m.take s.len = bs ∧ m[s.len]? = some 0 ∧
        s.len ≤ s.reserved ∧ s.reserved < m.length ∧ Fits bs x
    | _, _ => False

end Verif.AStr
