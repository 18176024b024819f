/-
C108: strings behave like sequences of bytes and own their memory.
-/
import Verif.AStr.Refine
namespace Verif.AStr

/-- Whatever is done with strings, in any order and with any of them, is never a wrong use of memory, and each
string then has the bytes that the sequence has, and a terminator behind them inside of its memory.  What fresh
memory holds does not matter. -/
theorem C108_strings (junk : Nat → Nat → Nat) (os : List Op) {a : Abs} (h : Abs.run [] os = some a) :
    ∃ st, run junk start os = some st ∧ Shows st a := by
  obtain ⟨st, bs, e, r⟩ := run_sim junk os start_rel h
  exact ⟨st, e, r.shows⟩

/-- No two strings share memory, and all memory belongs to a string that has not been destroyed. -/
theorem C108_own (junk : Nat → Nat → Nat) (os : List Op) {a : Abs} (h : Abs.run [] os = some a) {st : St}
    (hst : run junk start os = some st) :
    (∀ i j s t p, get st i = some s → get st j = some t → s.loc = .heap p → t.loc = .heap p → i = j) ∧
    (∀ p m, st.heap[p]? = some (some m) → ∃ i s x, get st i = some s ∧ s.loc = .heap p ∧ a.get i = some x) ∧
    ∀ i s, get st i = some s → (s.mustFree = true ↔ ∃ p, s.loc = .heap p) := by
  obtain ⟨st', bs, e, r⟩ := run_sim junk os start_rel h
  rw [hst] at e; cases e
  refine ⟨r.inv.apart, fun p m hp => ?_, fun i s hg => ?_⟩
  · obtain ⟨i, s, hg, hl⟩ := r.inv.owned p m hp
    have hf := r.fits i
    obtain ⟨b, hb, -⟩ := r.inv.has i s hg
    rcases hx : a.get i with _ | x
    · rw [hb, hx] at hf; exact hf.elim
    · exact ⟨i, s, x, hg, hl, hx⟩
  · obtain ⟨b, -, ⟨⟨m, hm, -⟩, -⟩⟩ := r.inv.has i s hg
    exact hm.free

/-- When all strings have been destroyed, all memory has been freed. -/
theorem C108_no_leak (junk : Nat → Nat → Nat) (os : List Op) {a : Abs} (h : Abs.run [] os = some a)
    (hd : ∀ i, a.get i = none) {st : St} (hst : run junk start os = some st) : ∀ b ∈ st.heap, b = none := by
  intro b hb
  obtain ⟨p, hp, rfl⟩ := List.getElem_of_mem hb
  rcases hm : st.heap[p] with _ | m
  · rfl
  · obtain ⟨-, h2, -⟩ := C108_own junk os h hst
    obtain ⟨i, s, x, -, -, hx⟩ := h2 p m (by rw [List.getElem?_eq_getElem hp, hm])
    rw [hd i] at hx; exact nomatch hx

/-- Bytes of the string itself can be appended when it does not have to grow, and a string on the stack that
still has its own storage even then. -/
theorem C108_append_own_partial (junk : Nat → Nat → Nat) {h : Heap} {s : Str} {b : Mem} (o : Own h s b) {k n : Nat}
    (hk : k + n ≤ b.length) (hM : b.length + n ≤ Max) (hr : s.len + n ≤ s.reserved ∨ s.mustFree = false) :
    ∃ h' s', appendOwn junk h s k n = some (h', s') ∧ bytes h' s' = some (b ++ (b.drop k).take n) := by
  have hbl := o.bytes.2
  unfold appendOwn
  split
  · rename_i hz
    subst hz
    exact ⟨h, s, rfl, by simpa using o.bytes.1⟩
  · rename_i hz
    have hw : wrap (s.len + n) = s.len + n := by simp only [wrap, Max] at *; omega
    obtain ⟨h1, s1, e1, o1, f1, r1, l1, n1⟩ := room_ok junk o (n := s.len + n) (by omega)
    obtain ⟨⟨m, hm, hmt, h0⟩, hle⟩ := o
    have hb1 : buf h1 s = some m := by
      rcases hr with hr | hr
      · unfold room at e1
        rw [if_neg (by omega)] at e1
        cases e1; exact hm.buf
      · exact (hm.keep f1 fun a ha => absurd (hm.free.2 ⟨a, ha⟩) (by simp [hr])).buf
    have hml := hm.len
    have hrd : read m k n = some ((b.drop k).take n) := by
      simp only [read]
      rw [if_pos (by omega), ← hmt, List.drop_take, List.take_take, Nat.min_eq_left (by omega)]
    have hln : ((b.drop k).take n).length = n := by simp; omega
    generalize hds : (b.drop k).take n = ds at hrd hln
    subst hln
    obtain ⟨h2, x, e2, o2, f2⟩ := append_room o1 (n1 (by omega)) (ds := ds) l1 (by omega)
    refine ⟨h2, _, ?_, o2.bytes.1⟩
    simp only [hw, e1, Option.bind_eq_bind, Option.bind_some, hb1, hrd, l1, e2, Option.pure_def]

/-! ### Few allocations -/

theorem write_length {h h' : Heap} {s s' : Str} {k : Nat} {bs : Mem} (e : write h s k bs = some (h', s')) :
    h'.length = h.length ∧ s'.reserved = s.reserved ∧ s'.len = s.len := by
  unfold write at e
  split at e
  · exact nomatch e
  · obtain ⟨m, hm, e⟩ := Option.map_eq_some_iff.1 e
    cases e; exact ⟨rfl, rfl, rfl⟩
  · split at e
    · exact nomatch e
    · obtain ⟨m, hm, e⟩ := Option.map_eq_some_iff.1 e
      cases e; exact ⟨by simp, rfl, rfl⟩

theorem release_length {h h' : Heap} {s : Str} (e : release h s = some h') : h'.length = h.length := by
  unfold release at e
  split at e
  · split at e
    · split at e
      · exact nomatch e
      · cases e; simp
    · exact nomatch e
  · cases e; rfl

theorem grow_length {junk : Nat → Nat → Nat} {h h' : Heap} {s s' : Str} {n : Nat} (e : grow junk h s n = some (h', s')) :
    h'.length = h.length + 1 ∧ s'.reserved = roundUp (max (wrap (s.reserved * 2)) n) ∧ s'.len = s.len := by
  simp only [grow, Option.bind_eq_bind] at e
  obtain ⟨m, -, e⟩ := Option.bind_eq_some_iff.1 e
  obtain ⟨bs, -, e⟩ := Option.bind_eq_some_iff.1 e
  obtain ⟨⟨h1, s1⟩, e1, e⟩ := Option.bind_eq_some_iff.1 e
  obtain ⟨h2, e2, e⟩ := Option.bind_eq_some_iff.1 e
  cases e
  obtain ⟨l1, l2, l3⟩ := write_length e1
  rw [release_length e2, l1, l2, l3]
  simp [alloc]

/-- What appending one character allocates. -/
theorem appendChar_length {junk : Nat → Nat → Nat} {h h' : Heap} {s s' : Str} {c : Nat} (e : appendChar junk h s c = some (h', s'))
    (hl : s.len + 1 < 2 ^ 32) :
    s'.len = s.len + 1 ∧
    ((s.len < s.reserved ∧ h'.length = h.length ∧ s'.reserved = s.reserved) ∨
     (s.reserved ≤ s.len ∧ h'.length = h.length + 1 ∧ s'.reserved = roundUp (max (wrap (s.reserved * 2)) (s.len + 1)))) := by
  have hw : wrap (s.len + 1) = s.len + 1 := by simp only [wrap]; omega
  simp only [appendChar, Option.bind_eq_bind] at e
  obtain ⟨⟨h1, s1⟩, e1, e⟩ := Option.bind_eq_some_iff.1 e
  obtain ⟨⟨h2, s2⟩, e2, e⟩ := Option.bind_eq_some_iff.1 e
  obtain ⟨a1, a2, a3⟩ := write_length e2
  simp only at a1 a2 a3
  obtain ⟨b1, b2, b3⟩ := write_length e
  simp only at b1 b2 b3
  unfold roomChar at e1
  split at e1
  · rename_i hc
    obtain ⟨c1, c2, c3⟩ := grow_length e1
    rw [hw] at c2
    rw [a3, c3, hw] at b3
    exact ⟨b3, Or.inr ⟨hc, by omega, by rw [b2, a2, c2]⟩⟩
  · rename_i hc
    cases e1
    rw [a3, hw] at b3
    exact ⟨b3, Or.inl ⟨by omega, by omega, by omega⟩⟩

theorem run_append (junk : Nat → Nat → Nat) : ∀ (os : List Op) (st : St) (o : Op),
    run junk st (os ++ [o]) = (run junk st os).bind fun st => step junk st o
  | [], st, o => by
    simp only [List.nil_append, run, Option.bind_some]
    cases step junk st o <;> rfl
  | p :: os, st, o => by
    simp only [List.cons_append, run]
    rcases step junk st p with _ | st1
    · rfl
    · exact run_append junk os st1 o

/-- The state after characters were appended one by one, by induction on their number. -/
theorem chars_inv (junk : Nat → Nat → Nat) (n : Nat) : ∀ bs : Mem, bs.length = n → n ≤ 2 ^ 31 → ∀ st : St,
    run junk start (.newEmpty :: bs.map (.appendChar 0)) = some st →
    ∃ s, st.strs = [some s] ∧ s.len = n ∧ n ≤ s.reserved ∧
      ((st.heap.length = 0 ∧ s.reserved = 0) ∨
        (s.reserved = 2 ^ st.heap.length ∧ 2 ^ st.heap.length ≤ 2 * n ∧ 0 < st.heap.length)) := by
  induction n with
  | zero =>
    intro bs hb _ st h
    have : bs = [] := List.eq_nil_of_length_eq_zero hb
    subst this
    simp only [List.map_nil, run, step, add, Option.map_some, Option.bind_some, Option.some.injEq, start] at h
    subst h
    exact ⟨newEmpty, rfl, rfl, Nat.le_refl _, Or.inl ⟨rfl, rfl⟩⟩
  | succ n ih =>
    intro bs hb hn st h
    obtain ⟨cs, c, rfl⟩ : ∃ cs c, bs = cs ++ [c] := by
      rcases List.eq_nil_or_concat bs with rfl | ⟨cs, c, rfl⟩
      · simp at hb
      · exact ⟨cs, c, by simp⟩
    rw [List.map_append, ← List.cons_append, List.map_singleton, run_append] at h
    obtain ⟨st1, h1, h2⟩ := Option.bind_eq_some_iff.1 h
    obtain ⟨s, hs, hlen, hres, hcase⟩ := ih cs (by simpa using hb) (by omega) st1 h1
    have hg : get st1 0 = some s := by simp [get, hs]
    simp only [step, AStr.change, hg] at h2
    obtain ⟨⟨h', s'⟩, e, rfl⟩ := Option.map_eq_some_iff.1 h2
    obtain ⟨l1, l2⟩ := appendChar_length e (by omega)
    refine ⟨s', by simp [hs], by omega, ?_⟩
    rcases l2 with ⟨g1, g2, g3⟩ | ⟨g1, g2, g3⟩
    · refine ⟨by omega, ?_⟩
      rcases hcase with ⟨q1, q2⟩ | ⟨q1, q2, q3⟩
      · omega
      · exact Or.inr ⟨by simp only [g2]; rw [g3, q1], by simp only [g2]; omega, by simp only [g2]; exact q3⟩
    · rcases hcase with ⟨q1, q2⟩ | ⟨q1, q2, q3⟩
      · have : n = 0 := by omega
        subst this
        simp only [q1, q2, hlen] at g2 g3
        refine ⟨by rw [g3]; decide, Or.inr ⟨by simp only [g2, g3]; decide, by simp only [g2]; decide, by simp only [g2]; decide⟩⟩
      · have hr : s.reserved = n := by omega
        have hev : s.reserved % 2 = 0 := by
          obtain ⟨k, hk⟩ : ∃ k, st1.heap.length = k + 1 := ⟨st1.heap.length - 1, by omega⟩
          rw [q1, hk, Nat.pow_succ]; omega
        have hpos : 0 < s.reserved := by rw [q1]; exact Nat.pow_pos (by decide)
        have hr' : s'.reserved = 2 * n := by
          rw [g3, hlen, hr]
          simp only [roundUp, wrap]
          omega
        refine ⟨by omega, Or.inr ⟨?_, ?_, by simp only [g2]; omega⟩⟩
        · simp only [g2, Nat.pow_succ]; omega
        · simp only [g2, Nat.pow_succ]; omega

/-- Appending characters one by one to an empty string allocates only about as often as the length has bits. -/
theorem C108_few_allocations (junk : Nat → Nat → Nat) (bs : Mem) (h0 : bs ≠ []) (hM : bs.length ≤ 2 ^ 31) {st : St}
    (h : run junk start (.newEmpty :: bs.map (.appendChar 0)) = some st) :
    2 ^ st.heap.length ≤ 2 * bs.length := by
  obtain ⟨s, -, h1, h2, h3⟩ := chars_inv junk bs.length bs rfl hM st h
  have : 0 < bs.length := by
    rcases bs with _ | ⟨c, cs⟩
    · exact absurd rfl h0
    · simp
  rcases h3 with ⟨h3, h4⟩ | ⟨h3, h4, -⟩
  · omega
  · exact h4

end Verif.AStr
