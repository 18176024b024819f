import Verif.AStr.Props
namespace Verif.AStr

def exJunk : Nat → Nat → Nat := fun a k => 7 + a + k

/-- Two strings on the heap and one on the stack: "ab" appended to itself, copied over the stack string, which
grows, moved, trimmed, made longer and cleared. -/
def exOps : List Op :=
  [.newCopy [97, 98], .newStack (fun _ => 9) 2, .newEmpty, .appendFrom 0 0, .assignFrom 1 0, .appendChar 1 67,
   .assignMove 2 1, .trim 2 1 1, .toUpper 2, .setLength 1 2, .setChar 1 0 65, .newMove 0, .appendList 0 [[1], [2, 3]] 0,
   .replaceChar 2 65 90 1, .newReserve 5, .setReserved 3 3]

/-- The hypotheses of the theorems hold for them. -/
theorem ex_abs : Abs.run [] exOps =
    some [some [some 1, some 0, some 2, some 3], some [some 65, none], some [some 66, some 90, some 66],
      some [some 97, some 98, some 97], some []] := by decide +kernel

example : ∃ st, run exJunk start exOps = some st ∧ Shows st
    [some [some 1, some 0, some 2, some 3], some [some 65, none], some [some 66, some 90, some 66],
      some [some 97, some 98, some 97], some []] := C108_strings exJunk exOps ex_abs

/-- All of them destroyed. -/
theorem ex_abs_end : Abs.run [] (exOps ++ [.destroy 0, .destroy 1, .destroy 2, .destroy 3, .destroy 4]) =
    some [none, none, none, none, none] := by decide +kernel

example : ∃ st, run exJunk start (exOps ++ [.destroy 0, .destroy 1, .destroy 2, .destroy 3, .destroy 4]) = some st ∧
    ∀ b ∈ st.heap, b = none := by
  obtain ⟨st, e, -⟩ := C108_strings exJunk _ ex_abs_end
  refine ⟨st, e, C108_no_leak exJunk _ ex_abs_end ?_ e⟩
  intro i
  rcases i with _ | _ | _ | _ | _ | i <;> simp [Abs.get]

example : (run exJunk start exOps).map (fun st => (st.heap.length, (st.heap.filter Option.isSome).length)) =
    some (8, 5) := by decide +kernel

/-- Five characters need three allocations. -/
example : (run exJunk start (.newEmpty :: [1, 2, 3, 4, 5].map (.appendChar 0))).map (fun st => st.heap.length) =
    some 3 := by decide +kernel

/-- A string that is moved to itself is empty. -/
theorem C108_self_move : Abs.run [] [.newCopy [97], .assignMove 0 0] = some [some []] := by decide +kernel

/-! ### Not always -/

/-- A string for which no bytes are reserved is destroyed by freeing memory that was never allocated. -/
theorem C108_reserve_zero_false : ∃ os, ∀ junk, run junk start os = none ∧ os = [.newReserve 0, .destroy 0] :=
  ⟨_, fun _ => ⟨rfl, rfl⟩⟩

/-- Appending bytes of the string itself reads freed memory whenever the string has to grow. -/
theorem C108_append_own_false (junk : Nat → Nat → Nat) {h : Heap} {s : Str} {b : Mem} (o : Own h s b) {k n : Nat}
    (h0 : 0 < n) (hM : b.length + n ≤ Max) (hr : s.reserved < s.len + n) (hf : s.mustFree = true) :
    appendOwn junk h s k n = none := by
  have hbl := o.bytes.2
  have hw : wrap (s.len + n) = s.len + n := by simp only [wrap, Max] at *; omega
  obtain ⟨h1, s1, e1, o1, f1, r1, l1, n1⟩ := room_ok junk o (n := s.len + n) (by omega)
  obtain ⟨⟨m, hm, -⟩, -⟩ := o
  obtain ⟨a, ha⟩ := hm.free.1 hf
  have hs1 : s1.loc ≠ .heap a := by
    intro h1a
    rcases s1 with ⟨l, _⟩
    unfold room at e1
    rw [if_pos hr] at e1
    simp only [grow, Option.bind_eq_bind] at e1
    obtain ⟨m1, -, e⟩ := Option.bind_eq_some_iff.1 e1
    obtain ⟨bs, -, e⟩ := Option.bind_eq_some_iff.1 e
    obtain ⟨⟨h2, s2⟩, e2, e⟩ := Option.bind_eq_some_iff.1 e
    obtain ⟨h3, -, e⟩ := Option.bind_eq_some_iff.1 e
    cases e
    simp only [copy, write] at e2
    split at e2
    · exact nomatch e2
    · obtain ⟨x, -, e2⟩ := Option.map_eq_some_iff.1 e2
      cases e2
      have := hm.lt a ha
      cases h1a
      omega
  have hb : buf h1 s = none := by
    simp only [buf, ha]
    rcases hh : h1[a]? with _ | _ | x
    · rfl
    · rfl
    · rcases f1.live a x hh with ⟨t, e, ht⟩ | ⟨-, h'⟩
      · cases e; exact absurd ht hs1
      · exact absurd ⟨s, rfl, ha⟩ h'
  unfold appendOwn
  rw [if_neg (by omega)]
  simp only [hw, e1, Option.bind_eq_bind, Option.bind_some, hb, Option.bind_none]

example : Own [some [97, 98, 0]] ⟨.heap 0, 2, 2, true, []⟩ [97, 98] :=
  ⟨⟨_, ⟨rfl, rfl, rfl, by decide, by simp⟩, rfl, rfl⟩, by decide⟩

/-- `s.Append( s.Get(), 1 )` for "ab", which is what `s += s.Get()` does as well. -/
example (junk : Nat → Nat → Nat) : appendOwn junk [some [97, 98, 0]] ⟨.heap 0, 2, 2, true, []⟩ 0 1 = none :=
  C108_append_own_false junk (b := [97, 98]) ⟨⟨_, ⟨rfl, rfl, rfl, by decide, by simp⟩, rfl, rfl⟩, by decide⟩
    (by decide) (by decide) (by decide) rfl

/-- With room it is fine. -/
example : (appendOwn exJunk [some [97, 98, 0, 0, 0]] ⟨.heap 0, 2, 4, true, []⟩ 1 1).map (fun r => bytes r.1 r.2) =
    some (some [97, 98, 98]) := by decide +kernel

/-- Of the longest string whose length is a number of 32 bits, only one byte is allocated. -/
theorem C108_longest_false (junk : Nat → Nat → Nat) (h : Heap) (bs : Mem) (hb : bs.length = 2 ^ 32 - 1) :
    newCopy junk h bs = none := by
  have e : roundUp bs.length = 0 := by rw [hb]; rfl
  simp only [newCopy, copy, write, e]
  have : wrap (0 + 1) = 1 := rfl
  rw [this]
  simp only [alloc, List.getElem?_append_right (Nat.le_refl _), Nat.sub_self, List.getElem?_cons_zero, Option.join_some]
  simp only [writeMem, List.length_append, hb]
  rw [if_neg (by simp)]
  rfl

example : ∃ bs : Mem, bs.length = 2 ^ 32 - 1 := ⟨List.replicate (2 ^ 32 - 1) 0, List.length_replicate⟩

end Verif.AStr
