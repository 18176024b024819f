import Verif.AStr.Spec
namespace Verif.AStr

def Owns (s : Option Str) (a : Nat) : Prop := ∃ t, s = some t ∧ t.loc = .heap a

/-- The string points to the memory `m`, which is as large as it thinks. -/
structure Has (h : Heap) (s : Str) (m : Mem) : Prop where
  buf : buf h s = some m
  len : m.length = s.reserved + 1
  even : s.reserved % 2 = 0
  max : s.reserved ≤ Max
  free : s.mustFree = true ↔ ∃ a, s.loc = .heap a

structure Own (h : Heap) (s : Str) (bs : Mem) : Prop where
  has : ∃ m, Has h s m ∧ m.take s.len = bs ∧ m[s.len]? = some 0
  le : s.len ≤ s.reserved

/-- A change of the string `s` into `s'` leaves the memory of others alone and nothing behind. -/
structure Frame (h : Heap) (s : Option Str) (h' : Heap) (s' : Option Str) : Prop where
  keep : ∀ a, a < h.length → ¬ Owns s a → h'[a]? = h[a]?
  le : h.length ≤ h'.length
  own : ∀ a, Owns s' a → Owns s a ∨ h.length ≤ a
  live : ∀ a m, h'[a]? = some (some m) → Owns s' a ∨ (a < h.length ∧ ¬ Owns s a)

theorem Frame.trans {h h1 h2 : Heap} {s s1 s2 : Option Str} (f : Frame h s h1 s1) (g : Frame h1 s1 h2 s2) :
    Frame h s h2 s2 := by
  have hl := f.le
  have hl' := g.le
  refine ⟨fun a ha hn => ?_, by omega, fun a ha => ?_, fun a m ha => ?_⟩
  · have : ¬ Owns s1 a := fun ho => (f.own a ho).elim hn (by omega)
    rw [g.keep a (by omega) this, f.keep a ha hn]
  · rcases g.own a ha with h' | h'
    · exact f.own a h'
    · exact Or.inr (by omega)
  · rcases g.live a m ha with h' | ⟨h1', h2'⟩
    · exact Or.inl h'
    · rw [g.keep a h1' h2'] at ha
      rcases f.live a m ha with h' | h'
      · exact absurd h' h2'
      · exact Or.inr h'

/-- Every live block of memory that is not the string's own is somebody else's already. -/
theorem Frame.refl {h : Heap} {s s' : Str} (hl : s.loc = s'.loc) (ho : ∀ a, s.loc = .heap a → a < h.length) :
    Frame h (some s) h (some s') := by
  refine ⟨fun _ _ _ => rfl, Nat.le_refl _, fun a ⟨t, e, ht⟩ => ?_, fun a m ha => ?_⟩
  · cases e; exact Or.inl ⟨s, rfl, hl.trans ht⟩
  · by_cases h' : s.loc = .heap a
    · exact Or.inl ⟨s', rfl, hl ▸ h'⟩
    · refine Or.inr ⟨(List.getElem?_eq_some_iff.1 ha).1, fun ⟨t, e, ht⟩ => ?_⟩
      cases e; exact h' ht

theorem Has.lt {h : Heap} {s : Str} {m : Mem} (o : Has h s m) : ∀ a, s.loc = .heap a → a < h.length := by
  intro a ha
  have := o.buf
  simp only [AStr.buf, ha] at this
  rcases hh : h[a]? with _ | x
  · simp [hh] at this
  · exact (List.getElem?_eq_some_iff.1 hh).1

theorem Has.frame {h : Heap} {s s' : Str} {m : Mem} (o : Has h s m) (hl : s.loc = s'.loc) :
    Frame h (some s) h (some s') := .refl hl o.lt

theorem Has.with_len {h : Heap} {s : Str} {m : Mem} (o : Has h s m) (n : Nat) : Has h { s with len := n } m :=
  ⟨o.buf, o.len, o.even, o.max, o.free⟩

theorem write_ok {h : Heap} {s : Str} {m : Mem} (o : Has h s m) (hl : s.loc ≠ .empty) {k : Nat} {bs : Mem}
    (hk : k + bs.length ≤ m.length) :
    ∃ h' x, write h s k bs = some (h', { s with storage := x }) ∧
      Has h' { s with storage := x } (m.take k ++ bs ++ m.drop (k + bs.length)) ∧
      Frame h (some s) h' (some { s with storage := x }) := by
  have hml : (m.take k ++ bs ++ m.drop (k + bs.length)).length = m.length := by
    simp; omega
  rcases s with ⟨_ | _ | a, len, r, mf, sto⟩
  · exact absurd rfl hl
  · have hb := o.buf
    simp only [AStr.buf, Option.some.injEq] at hb
    subst hb
    refine ⟨h, sto.take k ++ bs ++ sto.drop (k + bs.length), by simp [write, writeMem, hk],
      ⟨rfl, by rw [hml, o.len], o.even, o.max, o.free⟩, Has.frame o rfl⟩
  · have ha := o.lt a rfl
    have hb := o.buf
    simp only [AStr.buf] at hb
    have hg : (h.set a (some (m.take k ++ bs ++ m.drop (k + bs.length))))[a]? =
        some (some (m.take k ++ bs ++ m.drop (k + bs.length))) := by
      simp [List.getElem?_set, ha]
    refine ⟨h.set a (some (m.take k ++ bs ++ m.drop (k + bs.length))), sto, ?_,
      ⟨by simp only [AStr.buf, hg]; rfl, by rw [hml, o.len], o.even, o.max, o.free⟩, ?_⟩
    · simp [write, hb, writeMem, hk]
    · refine ⟨fun b _ hn => ?_, by simp, fun b ⟨t, e, ht⟩ => ?_, fun b m' hb' => ?_⟩
      · have : a ≠ b := by
          rintro rfl; exact hn ⟨_, rfl, rfl⟩
        simp [List.getElem?_set, this]
      · cases e; exact Or.inl ⟨_, rfl, ht⟩
      · by_cases e : a = b
        · subst e; exact Or.inl ⟨_, rfl, rfl⟩
        · simp only [List.getElem?_set, e, if_false] at hb'
          refine Or.inr ⟨(List.getElem?_eq_some_iff.1 hb').1, fun ⟨t, e', ht⟩ => ?_⟩
          cases e'; cases ht; exact e rfl

theorem roundUp_le {n : Nat} (h : n ≤ Max) : n ≤ roundUp n ∧ roundUp n ≤ Max ∧ roundUp n % 2 = 0 ∧
    wrap (roundUp n + 1) = roundUp n + 1 := by
  simp only [roundUp, wrap, Max] at *; omega

/-- A new block of memory. -/
theorem alloc_has (junk : Nat → Nat → Nat) (h : Heap) {r : Nat} (he : r % 2 = 0) (hm : r ≤ Max) (len : Nat)
    (sto : Mem) :
    ∃ m, Has (alloc junk h (wrap (r + 1))) ⟨.heap h.length, len, r, true, sto⟩ m := by
  refine ⟨(List.range (wrap (r + 1))).map (junk h.length), by simp [buf, alloc], ?_, he, hm, by simp⟩
  simp only [List.length_map, List.length_range, wrap, Max] at *
  omega

theorem alloc_frame (junk : Nat → Nat → Nat) (h : Heap) (n len r : Nat) (mf : Bool) (sto : Mem) :
    Frame h none (alloc junk h n) (some ⟨.heap h.length, len, r, mf, sto⟩) := by
  refine ⟨fun a ha _ => ?_, by simp [alloc], fun a ⟨t, e, ht⟩ => ?_, fun a m ha => ?_⟩
  · simp [alloc, List.getElem?_append_left ha]
  · cases e; cases ht; exact Or.inr (Nat.le_refl _)
  · have hl := (List.getElem?_eq_some_iff.1 ha).1
    simp only [alloc, List.length_append, List.length_cons, List.length_nil] at hl
    rcases Nat.lt_or_ge a h.length with hlt | hge
    · exact Or.inr ⟨hlt, fun ⟨t, e, _⟩ => nomatch e⟩
    · have : a = h.length := by omega
      exact Or.inl ⟨_, rfl, by rw [this]⟩

/-- Freeing the memory of a string. -/
theorem release_ok {h : Heap} {s : Str} {m : Mem} (o : Has h s m) :
    ∃ h', release h s = some h' ∧ Frame h (some s) h' none := by
  rcases s with ⟨l, len, r, mf, sto⟩
  rcases mf with _ | _
  · refine ⟨h, rfl, fun _ _ _ => rfl, Nat.le_refl _, fun a ⟨t, e, _⟩ => (nomatch e), fun a m ha => Or.inr ⟨(List.getElem?_eq_some_iff.1 ha).1, fun ⟨t, e, ht⟩ => ?_⟩⟩
    cases e
    exact nomatch o.free.2 ⟨a, ht⟩
  · obtain ⟨a, ha⟩ := o.free.1 rfl
    have hlt := o.lt a ha
    cases ha
    have hb := o.buf
    simp only [AStr.buf] at hb
    refine ⟨h.set a none, by simp [release, hb], fun b _ hn => ?_, by simp, fun b ⟨t, e, _⟩ => (nomatch e), fun b m' hb' => ?_⟩
    · have : a ≠ b := by
        rintro rfl; exact hn ⟨_, rfl, rfl⟩
      simp [List.getElem?_set, this]
    · by_cases e : a = b
      · subst e; simp [List.getElem?_set, hlt] at hb'
      · simp only [List.getElem?_set, e, if_false] at hb'
        refine Or.inr ⟨(List.getElem?_eq_some_iff.1 hb').1, fun ⟨t, e', ht⟩ => ?_⟩
        cases e'; cases ht; exact e rfl

theorem Own.bytes {h : Heap} {s : Str} {bs : Mem} (o : Own h s bs) : bytes h s = some bs ∧ bs.length = s.len := by
  obtain ⟨⟨m, hm, rfl, -⟩, hle⟩ := o
  have := hm.len
  constructor
  · simp only [AStr.bytes, hm.buf, Option.bind_some, read]
    rw [if_pos (by omega)]; rfl
  · simp; omega

/-- `Copy` at the position `k`, up to which the string keeps its bytes. -/
theorem copy_ok {h : Heap} {s : Str} {m : Mem} (o : Has h s m) (hl : s.loc ≠ .empty) {k : Nat} {bs : Mem}
    (hk : k + bs.length ≤ s.reserved) :
    ∃ h' x, copy h s k bs = some (h', { s with storage := x }) ∧
      Own h' { s with storage := x, len := k + bs.length } (m.take k ++ bs) ∧
      Frame h (some s) h' (some { s with storage := x, len := k + bs.length }) := by
  have hml := o.len
  obtain ⟨h', x, e, ho, hf⟩ := write_ok o hl (k := k) (bs := bs ++ [0]) (by simp; omega)
  have hlen : (m.take k ++ bs).length = k + bs.length := by simp; omega
  have hsplit : m.take k ++ (bs ++ [0]) ++ m.drop (k + (bs ++ [0]).length) =
      (m.take k ++ bs) ++ 0 :: m.drop (k + (bs ++ [0]).length) := by simp
  refine ⟨h', x, e, ⟨⟨_, ho.with_len _, ?_, ?_⟩, hk⟩, hf.trans (ho.frame rfl)⟩
  · rw [hsplit]; show List.take (k + bs.length) _ = _
    rw [← hlen]; exact List.take_left
  · rw [hsplit]; show (m.take k ++ bs ++ _)[k + bs.length]? = _
    rw [← hlen]; simp

theorem Has.keep {h h' : Heap} {s s' : Option Str} {t : Str} {m : Mem} (o : Has h t m) (f : Frame h s h' s')
    (hn : ∀ a, t.loc = .heap a → ¬ Owns s a) : Has h' t m := by
  refine ⟨?_, o.len, o.even, o.max, o.free⟩
  have hb := o.buf
  have hlt := o.lt
  rcases t with ⟨_ | _ | a, _, _, _, _⟩
  · exact hb
  · exact hb
  · simp only [AStr.buf] at *
    rw [f.keep a (hlt a rfl) (hn a rfl)]; exact hb

theorem Own.keep {h h' : Heap} {s s' : Option Str} {t : Str} {bs : Mem} (o : Own h t bs) (f : Frame h s h' s')
    (hn : ∀ a, t.loc = .heap a → ¬ Owns s a) : Own h' t bs := by
  obtain ⟨⟨m, hm, h1, h2⟩, hle⟩ := o
  exact ⟨⟨m, hm.keep f hn, h1, h2⟩, hle⟩

/-- A new string beside the old one, and then the old memory is freed. -/
theorem Frame.side {h h1 h2 : Heap} {s s1 : Str} (f : Frame h none h1 (some s1)) (g : Frame h1 (some s) h2 none) :
    Frame h (some s) h2 (some s1) := by
  have hl := f.le
  have hl' := g.le
  refine ⟨fun a ha hn => ?_, by omega, fun a ha => ?_, fun a m ha => ?_⟩
  · rw [g.keep a (by omega) hn, f.keep a ha (fun ⟨t, e, _⟩ => nomatch e)]
  · rcases f.own a ha with ⟨t, e, _⟩ | h'
    · exact nomatch e
    · exact Or.inr h'
  · rcases g.live a m ha with ⟨t, e, _⟩ | ⟨h1', h2'⟩
    · exact nomatch e
    · rw [g.keep a h1' h2'] at ha
      rcases f.live a m ha with h' | ⟨h', _⟩
      · exact Or.inl h'
      · exact Or.inr ⟨h', h2'⟩

/-- What is left of a string after a change. -/
def Good (h : Heap) (s : Str) (r : Option (Heap × Str)) (bs : Mem) : Prop :=
  ∃ h' s', r = some (h', s') ∧ Own h' s' bs ∧ Frame h (some s) h' (some s')

theorem grow_ok (junk : Nat → Nat → Nat) {h : Heap} {s : Str} {bs : Mem} (o : Own h s bs) {n : Nat}
    (hn : s.reserved < n) (hM : n ≤ Max) :
    ∃ h' s', grow junk h s n = some (h', s') ∧ Own h' s' bs ∧ Frame h (some s) h' (some s') ∧
      n ≤ s'.reserved ∧ s'.len = s.len ∧ s'.loc ≠ .empty := by
  obtain ⟨hb, hbl⟩ := o.bytes
  obtain ⟨⟨m, hm, ht, h0⟩, hle⟩ := o
  have hmx : n ≤ max (wrap (s.reserved * 2)) n ∧ max (wrap (s.reserved * 2)) n ≤ Max := by
    have := hm.even
    simp only [wrap, Max] at *
    omega
  obtain ⟨hr1, hr2, hr3, hr4⟩ := roundUp_le hmx.2
  obtain ⟨m', hm'⟩ := alloc_has junk h hr3 hr2 s.len s.storage
  have hrd : read m 0 s.len = some bs := by
    have := hm.len
    simp only [read]; rw [if_pos (by omega)]; simpa using ht
  obtain ⟨h1, x, e, ho, hf⟩ := copy_ok hm' (by simp) (k := 0) (bs := bs) (by simp only; omega)
  have hf' : Frame h none h1 (some { loc := .heap h.length, len := 0 + bs.length, reserved := _, mustFree := true, storage := x }) :=
    (alloc_frame junk h _ _ _ _ _).trans hf
  have hms : Has h1 s m := hm.keep hf' fun a _ ⟨t, e, _⟩ => nomatch e
  obtain ⟨h2, e2, hf2⟩ := release_ok hms
  refine ⟨h2, { loc := .heap h.length, len := 0 + bs.length, reserved := _, mustFree := true, storage := x }, ?_, ?_, hf'.side hf2, by simp only; omega, by simp only; omega, by simp⟩
  · simp only [grow, hm.buf, hrd, Option.bind_eq_bind, Option.bind_some, e, e2]
    have : 0 + bs.length = s.len := by omega
    rw [this]; rfl
  · have := ho.keep hf2 fun a ha ⟨t, et, hta⟩ => ?_
    · simpa using this
    · cases et
      simp only [Loc.heap.injEq] at ha
      have := hm.lt a hta
      omega

theorem room_ok (junk : Nat → Nat → Nat) {h : Heap} {s : Str} {bs : Mem} (o : Own h s bs) {n : Nat}
    (hM : n ≤ Max) :
    ∃ h' s', room junk h s n = some (h', s') ∧ Own h' s' bs ∧ Frame h (some s) h' (some s') ∧
      n ≤ s'.reserved ∧ s'.len = s.len ∧ (0 < n → s'.loc ≠ .empty) := by
  unfold room
  split
  · rename_i hlt
    obtain ⟨h', s', e, a, b, c, d, f⟩ := grow_ok junk o hlt hM
    exact ⟨h', s', e, a, b, c, d, fun _ => f⟩
  · rename_i hlt
    obtain ⟨⟨m, hm, ht, h0⟩, hle⟩ := o
    refine ⟨h, s, rfl, ⟨⟨m, hm, ht, h0⟩, hle⟩, hm.frame rfl, by omega, rfl, fun hp he => ?_⟩
    have hb := hm.buf
    have := hm.len
    simp only [buf, he, Option.some.injEq] at hb
    subst hb
    simp at this
    omega

theorem growNoCopy_ok (junk : Nat → Nat → Nat) {h : Heap} {s : Str} {m : Mem} (o : Has h s m) {n : Nat}
    (hM : n ≤ Max) :
    ∃ h' s' m', growNoCopy junk h s n = some (h', s') ∧ Has h' s' m' ∧ Frame h (some s) h' (some s') ∧
      n ≤ s'.reserved ∧ s'.loc ≠ .empty := by
  obtain ⟨h1, e1, f1⟩ := release_ok o
  obtain ⟨hr1, hr2, hr3, hr4⟩ := roundUp_le hM
  obtain ⟨m', hm'⟩ := alloc_has junk h1 hr3 hr2 s.len s.storage
  exact ⟨_, _, m', by simp [growNoCopy, e1], hm', f1.trans (alloc_frame ..), hr1, by simp⟩

theorem Has.empty {h : Heap} {s : Str} {m : Mem} (o : Has h s m) (he : s.loc = .empty) : s.reserved = 0 ∧ m = [0] := by
  have hb := o.buf
  have := o.len
  simp only [AStr.buf, he, Option.some.injEq] at hb
  subst hb
  simp at this
  exact ⟨by omega, rfl⟩

theorem assign_ok (junk : Nat → Nat → Nat) {h : Heap} {s : Str} {m bs : Mem} (o : Own h s m)
    (hM : bs.length ≤ Max) : Good h s (assign junk h s bs) bs := by
  obtain ⟨⟨m, hm, -, h0⟩, hle⟩ := o
  unfold assign
  split
  · obtain ⟨h1, s1, m1, e1, o1, f1, l1, n1⟩ := growNoCopy_ok junk hm hM
    obtain ⟨h2, x, e2, o2, f2⟩ := copy_ok o1 n1 (k := 0) (bs := bs) (by omega)
    refine ⟨h2, _, ?_, o2, f1.trans f2⟩
    simp [e1, e2]
  · split
    · rename_i hr he
      obtain ⟨hr0, rfl⟩ := hm.empty he
      have : bs = [] := List.eq_nil_of_length_eq_zero (by omega)
      subst this
      have : s.len = 0 := by omega
      exact ⟨h, s, rfl, ⟨⟨_, hm, by simp [this], h0⟩, hle⟩, hm.frame rfl⟩
    · rename_i hr he
      obtain ⟨h2, x, e2, o2, f2⟩ := copy_ok hm he (k := 0) (bs := bs) (by omega)
      exact ⟨h2, _, by simp [e2], o2, f2⟩

theorem assignOwn_ok (junk : Nat → Nat → Nat) {h : Heap} {s : Str} {m : Mem} (o : Own h s m) {k n : Nat}
    (hM : k + n ≤ m.length) : Good h s (assignOwn junk h s k n) ((m.drop k).take n) := by
  have hbl := o.bytes.2
  obtain ⟨⟨m', hm, rfl, h0⟩, hle⟩ := o
  have hml := hm.len
  unfold assignOwn
  rw [if_neg (by omega)]
  split
  · rename_i he
    obtain ⟨hr0, rfl⟩ := hm.empty he
    have hl : s.len = 0 := by omega
    have : n = 0 := by omega
    subst this
    exact ⟨h, s, rfl, ⟨⟨_, hm, by simp [hl], h0⟩, hle⟩, hm.frame rfl⟩
  · rename_i he
    have hrd : read m' k n = some (((m'.take s.len).drop k).take n) := by
      simp only [read]
      rw [if_pos (by omega), List.drop_take, List.take_take, Nat.min_eq_left (by omega)]
    have hlen : (((m'.take s.len).drop k).take n).length = n := by simp; omega
    generalize ((m'.take s.len).drop k).take n = bs at *
    subst hlen
    obtain ⟨h2, x, e2, o2, f2⟩ := copy_ok hm he (k := 0) (bs := bs) (by omega)
    simp only [Nat.zero_add, List.take_zero, List.nil_append] at o2 f2
    exact ⟨h2, _, by simp [hm.buf, hrd, e2], o2, f2⟩

theorem clear_ok {h : Heap} {s : Str} {m : Mem} (o : Own h s m) : Good h s (clear h s) [] := by
  obtain ⟨⟨m, hm, -, h0⟩, hle⟩ := o
  unfold clear
  split
  · rename_i he
    obtain ⟨hr0, rfl⟩ := hm.empty he
    have : s.len = 0 := by omega
    exact ⟨h, s, rfl, ⟨⟨_, hm, by simp [this], h0⟩, hle⟩, hm.frame rfl⟩
  · rename_i he
    obtain ⟨h2, x, e2, o2, f2⟩ := copy_ok hm he (k := 0) (bs := []) (by simp)
    simp only [copy, List.nil_append] at e2
    exact ⟨h2, _, by simp [e2], o2, f2⟩

theorem own_empty (h : Heap) (sto : Mem) : Own h ⟨.empty, 0, 0, false, sto⟩ [] :=
  ⟨⟨[0], ⟨rfl, rfl, rfl, Nat.zero_le _, by simp⟩, rfl, rfl⟩, Nat.le_refl _⟩

theorem clearFree_ok {h : Heap} {s : Str} {m : Mem} (o : Own h s m) : Good h s (clearFree h s) [] := by
  obtain ⟨⟨m, hm, -, h0⟩, hle⟩ := o
  unfold clearFree
  split
  · obtain ⟨h1, e1, f1⟩ := release_ok hm
    refine ⟨h1, ⟨.empty, 0, 0, false, s.storage⟩, by simp [e1], own_empty _ _, f1.keep, f1.le, ?_, fun a m ha => ?_⟩
    · rintro a ⟨t, e, ht⟩; cases e; exact nomatch ht
    · rcases f1.live a m ha with ⟨t, e, _⟩ | h'
      · exact nomatch e
      · exact Or.inr h'
  · split
    · rename_i he
      obtain ⟨h2, x, e2, o2, f2⟩ := copy_ok hm he (k := 0) (bs := []) (by simp)
      simp only [copy, List.nil_append] at e2
      exact ⟨h2, _, by simp [e2], o2, f2⟩
    · rename_i he
      have he : s.loc = .empty := Decidable.not_not.1 he
      obtain ⟨hr0, rfl⟩ := hm.empty he
      exact ⟨h, _, rfl, ⟨⟨_, hm.with_len 0, rfl, rfl⟩, Nat.zero_le _⟩, hm.frame rfl⟩

/-- The bytes that a string has after its length was set. -/
theorem setLength_ok (junk : Nat → Nat → Nat) {h : Heap} {s : Str} {bs : Mem} (o : Own h s bs) {n : Nat}
    (hM : n ≤ Max) : ∃ x, Good h s (setLength junk h s n) (bs.take n ++ x) ∧ x.length = n - bs.length := by
  have hbl := o.bytes.2
  obtain ⟨h1, s1, e1, o1, f1, r1, l1, n1⟩ := room_ok junk o hM
  have hbl1 := o1.bytes.2
  obtain ⟨⟨m, hm, ht, h0⟩, hle⟩ := o1
  have hml := hm.len
  simp only [setLength, e1, Option.bind_eq_bind, Option.bind_some]
  split
  · rename_i he
    obtain ⟨h2, x, e2, o2, f2⟩ := copy_ok hm he (k := n) (bs := []) (by simpa using r1)
    simp only [copy, List.nil_append, List.append_nil, List.length_nil, Nat.add_zero] at e2 o2 f2
    refine ⟨(m.take n).drop bs.length, ⟨h2, _, by simp [e2], ?_, f1.trans f2⟩, by simp; omega⟩
    have : bs.take n ++ (m.take n).drop bs.length = m.take n := by
      rw [← ht, List.take_take]
      have hlen : (m.take s1.len).length = s1.len := by simp; omega
      rw [hlen]
      rcases Nat.le_total n s1.len with hc | hc
      · rw [Nat.min_eq_left hc, List.drop_eq_nil_of_le (by simp; omega), List.append_nil]
      · rw [Nat.min_eq_right hc]
        have : m.take s1.len = (m.take n).take s1.len := by rw [List.take_take, Nat.min_eq_left hc]
        rw [this]; exact List.take_append_drop ..
    rw [this]; exact o2
  · rename_i he
    have he : s1.loc = .empty := Decidable.not_not.1 he
    have hn : n = 0 := by
      rcases Nat.eq_zero_or_pos n with h' | h'
      · exact h'
      · exact absurd he (n1 h')
    subst hn
    obtain ⟨hr0, rfl⟩ := hm.empty he
    refine ⟨[], ⟨h1, _, rfl, ?_, f1.trans (hm.frame rfl)⟩, by simp⟩
    exact ⟨⟨_, hm.with_len 0, rfl, rfl⟩, Nat.zero_le _⟩

theorem setReserved_ok (junk : Nat → Nat → Nat) {h : Heap} {s : Str} {bs : Mem} (o : Own h s bs) {n : Nat}
    (hM : n ≤ Max) : Good h s (setReserved junk h s n) (bs.take n) := by
  have hbl := o.bytes.2
  have hw : wrap n = n := by simp only [wrap, Max] at *; omega
  unfold setReserved
  rw [hw]
  split
  · obtain ⟨x, hx, hl⟩ := setLength_ok junk o hM
    have : x = [] := List.eq_nil_of_length_eq_zero (by omega)
    subst this
    simpa using hx
  · rw [List.take_of_length_le (by omega)]
    split
    · obtain ⟨⟨m, hm, h'⟩, hle⟩ := o
      exact ⟨h, s, rfl, ⟨⟨m, hm, h'⟩, hle⟩, hm.frame rfl⟩
    · obtain ⟨h', s', e, a, b, -⟩ := grow_ok junk o (n := n) (by omega) hM
      exact ⟨h', s', e, a, b⟩

theorem append_room {h : Heap} {s : Str} {bs ds : Mem} (o : Own h s bs) (hl : s.loc ≠ .empty)
    {k : Nat} (hk : s.len = k) (hr : k + ds.length ≤ s.reserved) :
    ∃ h' x, copy h s k ds = some (h', { s with storage := x }) ∧
      Own h' { s with storage := x, len := k + ds.length } (bs ++ ds) ∧
      Frame h (some s) h' (some { s with storage := x, len := k + ds.length }) := by
  subst hk
  obtain ⟨⟨m, hm, rfl, h0⟩, hle⟩ := o
  exact copy_ok hm hl hr

theorem append_ok (junk : Nat → Nat → Nat) {h : Heap} {s : Str} {bs ds : Mem} (o : Own h s bs)
    (hM : bs.length + ds.length ≤ Max) : Good h s (append junk h s ds) (bs ++ ds) := by
  have hbl := o.bytes.2
  unfold append
  split
  · rename_i hz
    have : ds = [] := List.eq_nil_of_length_eq_zero hz
    subst this
    obtain ⟨⟨m, hm, h'⟩, hle⟩ := o
    exact ⟨h, s, rfl, by simpa using ⟨⟨m, hm, h'⟩, hle⟩, hm.frame rfl⟩
  · rename_i hz
    have hw : wrap (s.len + ds.length) = s.len + ds.length := by simp only [wrap, Max] at *; omega
    obtain ⟨h1, s1, e1, o1, f1, r1, l1, n1⟩ := room_ok junk o (n := s.len + ds.length) (by omega)
    obtain ⟨h2, x, e2, o2, f2⟩ := append_room o1 (n1 (by omega)) (ds := ds) l1 (by omega)
    refine ⟨h2, _, ?_, o2, f1.trans f2⟩
    simp only [hw, e1, Option.bind_eq_bind, Option.bind_some, e2, Option.pure_def, l1]

theorem appendSelf_ok (junk : Nat → Nat → Nat) {h : Heap} {s : Str} {bs : Mem} (o : Own h s bs)
    (hM : bs.length + bs.length ≤ Max) : Good h s (appendSelf junk h s) (bs ++ bs) := by
  have hbl := o.bytes.2
  unfold appendSelf
  split
  · rename_i hz
    have : bs = [] := List.eq_nil_of_length_eq_zero (by omega)
    subst this
    obtain ⟨⟨m, hm, h'⟩, hle⟩ := o
    exact ⟨h, s, rfl, by simpa using ⟨⟨m, hm, h'⟩, hle⟩, hm.frame rfl⟩
  · rename_i hz
    have hw : wrap (s.len + s.len) = s.len + s.len := by simp only [wrap, Max] at *; omega
    obtain ⟨h1, s1, e1, o1, f1, r1, l1, n1⟩ := room_ok junk o (n := s.len + s.len) (by omega)
    obtain ⟨h2, x, e2, o2, f2⟩ := append_room o1 (n1 (by omega)) (ds := bs) l1 (by omega)
    have hb := o1.bytes.1
    have hbb : (buf h1 s1).bind (fun m => read m 0 s.len) = some bs := by rw [← l1]; exact hb
    refine ⟨h2, _, ?_, o2, f1.trans f2⟩
    obtain ⟨m, hm1, hm2⟩ := Option.bind_eq_some_iff.1 hbb
    simp only [hw, e1, Option.bind_eq_bind, Option.bind_some, hm1, hm2, e2, Option.pure_def, l1, hbl]

theorem inPlace_ok {h : Heap} {s : Str} {bs : Mem} (o : Own h s bs) (f : Mem → Mem)
    (hf : ∀ m, (f m).length = m.length) : Good h s (inPlace f h s) (f bs) := by
  have hbl := o.bytes.2
  have hb := o.bytes.1
  obtain ⟨⟨m, hm, ht, h0⟩, hle⟩ := o
  have hml := hm.len
  unfold inPlace
  split
  · rename_i hz
    have : bs = [] := List.eq_nil_of_length_eq_zero (by omega)
    subst this
    have : f [] = [] := List.eq_nil_of_length_eq_zero (by rw [hf]; rfl)
    rw [this]
    exact ⟨h, s, rfl, ⟨⟨m, hm, ht, h0⟩, hle⟩, hm.frame rfl⟩
  · rename_i hz
    have hne : s.loc ≠ .empty := fun he => by have := hm.empty he; omega
    simp only [bytes, hm.buf, Option.bind_some] at hb
    obtain ⟨h', x, e, ho, hfr⟩ := write_ok hm hne (k := 0) (bs := f bs) (by rw [hf]; omega)
    refine ⟨h', _, by simp [hm.buf, hb, e], ⟨⟨_, ho, ?_, ?_⟩, hle⟩, hfr⟩
    · simp [hf, hbl]
    · have : s.len = 0 + (f bs).length := by rw [hf]; omega
      simp only [List.take_zero, List.nil_append, Nat.zero_add] at this ⊢
      rw [List.getElem?_append_right (by omega), List.getElem?_drop, this]
      simpa [← this] using h0

theorem setChar_ok {h : Heap} {s : Str} {bs : Mem} (o : Own h s bs) {k : Nat} (hk : k < bs.length) (c : Nat) :
    Good h s (setChar h s k c) (bs.set k c) := by
  have hbl := o.bytes.2
  obtain ⟨⟨m, hm, rfl, h0⟩, hle⟩ := o
  have hml := hm.len
  have hne : s.loc ≠ .empty := fun he => by have := hm.empty he; omega
  unfold setChar
  rw [if_pos (by omega)]
  obtain ⟨h', x, e, ho, hfr⟩ := write_ok hm hne (k := k) (bs := [c]) (by simp; omega)
  have hs : m.take k ++ [c] ++ m.drop (k + [c].length) = m.set k c := by
    rw [List.set_eq_take_append_cons_drop, if_pos (by omega)]; simp
  rw [hs] at ho
  refine ⟨h', _, e, ⟨⟨_, ho, ?_, ?_⟩, hle⟩, hfr⟩
  · exact List.take_set
  · rw [List.getElem?_set_ne (by simp only; omega)]; exact h0

theorem appendChar_ok (junk : Nat → Nat → Nat) {h : Heap} {s : Str} {bs : Mem} (o : Own h s bs)
    (hM : bs.length + 1 ≤ Max) (c : Nat) : Good h s (appendChar junk h s c) (bs ++ [c]) := by
  have hbl := o.bytes.2
  have hw : wrap (s.len + 1) = s.len + 1 := by simp only [wrap, Max] at *; omega
  have hroom : roomChar junk h s = room junk h s (s.len + 1) := by
    rw [roomChar, hw, room]
    by_cases hc : s.reserved ≤ s.len
    · rw [if_pos hc, if_pos (by omega)]
    · rw [if_neg hc, if_neg (by omega)]
  obtain ⟨h1, s1, e1, o1, f1, r1, l1, n1⟩ := room_ok junk o (n := s.len + 1) (by omega)
  have hbl1 := o1.bytes.2
  obtain ⟨⟨m, hm, rfl, h0⟩, hle⟩ := o1
  have hml := hm.len
  have hne := n1 (by omega)
  obtain ⟨h2, x, e2, o2, f2⟩ := write_ok hm hne (k := s1.len) (bs := [c]) (by simp; omega)
  have o2' := o2.with_len (s.len + 1)
  obtain ⟨h3, y, e3, o3, f3⟩ := copy_ok o2' hne (k := s.len + 1) (bs := []) (by simp only [List.length_nil]; omega)
  simp only [copy, List.nil_append, List.length_nil, Nat.add_zero] at e3 o3 f3
  have hb : (m.take s1.len ++ [c] ++ m.drop (s1.len + [c].length)).take (s.len + 1) ++ [] = m.take s1.len ++ [c] := by
    have hl : (m.take s1.len ++ [c]).length = s.len + 1 := by
      rw [List.length_append, hbl1, l1]; rfl
    rw [List.append_nil, ← hl]; exact List.take_left
  rw [hb] at o3
  refine ⟨h3, _, ?_, o3, ?_⟩
  · rw [l1] at e2
    simp only [appendChar, hroom, e1, Option.bind_eq_bind, Option.bind_some, e2, l1, hw]
    exact e3
  · exact f1.trans (f2.trans (Frame.trans (h1 := h2) (s1 := some { s1 with storage := x, len := s.len + 1 }) (o2.frame rfl) f3))

theorem trim_ok (junk : Nat → Nat → Nat) {h : Heap} {s : Str} {bs : Mem} (o : Own h s bs) {a b : Nat}
    (hab : a + b ≤ bs.length) (hM : bs.length ≤ Max) :
    Good h s (trim junk h s a b) ((bs.drop a).take (bs.length - a - b)) := by
  have hbl := o.bytes.2
  have hw : wrap (a + b) = a + b := by simp only [wrap, Max] at *; omega
  unfold trim
  rw [hw, if_neg (by omega)]
  split
  · rename_i ha
    subst ha
    split
    · rename_i hb
      subst hb
      obtain ⟨⟨m, hm, h'⟩, hle⟩ := o
      exact ⟨h, s, rfl, by simpa using ⟨⟨m, hm, h'⟩, hle⟩, hm.frame rfl⟩
    · obtain ⟨x, hx, hl⟩ := setLength_ok junk o (n := s.len - b) (by omega)
      have : x = [] := List.eq_nil_of_length_eq_zero (by omega)
      subst this
      rw [hbl]
      simpa using hx
  · have := assignOwn_ok junk o (k := a) (n := s.len - b - a) (by omega)
    have e : bs.length - a - b = s.len - b - a := by omega
    rw [e]; exact this

theorem leading_drop (c : Nat) (m : Mem) : m.drop (leading c m) = m.dropWhile (· == c) ∧ leading c m ≤ m.length := by
  induction m with
  | nil => exact ⟨rfl, Nat.le_refl _⟩
  | cons d ds ih =>
    simp only [leading, List.dropWhile_cons, beq_iff_eq]
    split
    · exact ⟨by simpa using ih.1, by simp; exact ih.2⟩
    · exact ⟨rfl, Nat.zero_le _⟩

theorem trimStart_ok (junk : Nat → Nat → Nat) {h : Heap} {s : Str} {bs : Mem} (o : Own h s bs) (hM : bs.length ≤ Max)
    (c : Nat) : Good h s (trimStart junk h s c) (bs.dropWhile (· == c)) := by
  obtain ⟨h1, h2⟩ := leading_drop c bs
  have := trim_ok junk o (a := leading c bs) (b := 0) (by omega) hM
  simp only [trimStart, o.bytes.1, Option.bind_eq_bind, Option.bind_some]
  rw [← h1]
  rwa [List.take_of_length_le (by simp)] at this

theorem trimEnd_ok (junk : Nat → Nat → Nat) {h : Heap} {s : Str} {bs : Mem} (o : Own h s bs) (hM : bs.length ≤ Max)
    (c : Nat) : Good h s (trimEnd junk h s c) (bs.reverse.dropWhile (· == c)).reverse := by
  obtain ⟨h1, h2⟩ := leading_drop c bs.reverse
  rw [List.length_reverse] at h2
  have := trim_ok junk o (a := 0) (b := leading c bs.reverse) (by omega) hM
  simp only [trimEnd, o.bytes.1, Option.bind_eq_bind, Option.bind_some]
  rw [← h1, List.drop_reverse, List.reverse_reverse]
  simpa using this

theorem Good.bind {h : Heap} {s : Str} {r : Option (Heap × Str)} {bs cs : Mem} (g : Good h s r bs)
    {f : Heap × Str → Option (Heap × Str)}
    (k : ∀ h' s', Own h' s' bs → Good h' s' (f (h', s')) cs) : Good h s (r.bind f) cs := by
  obtain ⟨h1, s1, rfl, o1, f1⟩ := g
  obtain ⟨h2, s2, e2, o2, f2⟩ := k h1 s1 o1
  exact ⟨h2, s2, e2, o2, f1.trans f2⟩

theorem appendList_ok (junk : Nat → Nat → Nat) (sep : Nat) (items : List Mem) : ∀ {h : Heap} {s : Str} {bs : Mem},
    Own h s bs → bs.length + (List.intercalate [sep] items).length ≤ Max →
    Good h s (appendList junk sep h s items) (bs ++ List.intercalate [sep] items) := by
  induction items with
  | nil =>
    intro h s bs o _
    obtain ⟨⟨m, hm, h'⟩, hle⟩ := o
    exact ⟨h, s, rfl, by simpa [List.intercalate] using ⟨⟨m, hm, h'⟩, hle⟩, hm.frame rfl⟩
  | cons x rest ih =>
    intro h s bs o hM
    rcases rest with _ | ⟨y, rest⟩
    · simp only [List.intercalate, List.intersperse, List.flatten_cons, List.flatten_nil, List.append_nil] at hM ⊢
      exact append_ok junk o hM
    · have hi : List.intercalate [sep] (x :: y :: rest) = x ++ sep :: List.intercalate [sep] (y :: rest) := by
        simp [List.intercalate, List.intersperse]
      rw [hi] at hM ⊢
      simp only [List.length_append, List.length_cons] at hM
      refine (append_ok junk o (by omega)).bind fun h1 s1 o1 => ?_
      refine (appendChar_ok junk o1 (by simp; omega) sep).bind fun h2 s2 o2 => ?_
      have := ih o2 (by simp only [List.length_append, List.length_cons, List.length_nil]; omega)
      simpa using this

/-! ### New strings -/

def GoodNew (h : Heap) (r : Option (Heap × Str)) (bs : Mem) : Prop :=
  ∃ h' s', r = some (h', s') ∧ Own h' s' bs ∧ Frame h none h' (some s')

theorem newCopy_ok (junk : Nat → Nat → Nat) (h : Heap) {bs : Mem} (hM : bs.length ≤ Max) :
    GoodNew h (newCopy junk h bs) bs := by
  obtain ⟨hr1, hr2, hr3, hr4⟩ := roundUp_le hM
  obtain ⟨m, hm⟩ := alloc_has junk h hr3 hr2 bs.length []
  obtain ⟨h', x, e, o, f⟩ := copy_ok hm (by simp) (k := 0) (bs := bs) (by simpa using hr1)
  simp only [Nat.zero_add, List.take_zero, List.nil_append] at o f
  exact ⟨h', _, e, o, (alloc_frame ..).trans f⟩

theorem newReserve_ok (junk : Nat → Nat → Nat) (h : Heap) {n : Nat} (hp : 0 < n) (hM : n ≤ Max) :
    GoodNew h (newReserve junk h n) [] := by
  obtain ⟨hr1, hr2, hr3, hr4⟩ := roundUp_le hM
  obtain ⟨m, hm⟩ := alloc_has junk h hr3 hr2 0 []
  obtain ⟨h', x, e, o, f⟩ := copy_ok hm (by simp) (k := 0) (bs := []) (by simp)
  simp only [List.take_zero, List.nil_append, copy, List.length_nil, Nat.add_zero] at o f e
  refine ⟨h', _, ?_, o, (alloc_frame ..).trans f⟩
  simp only [newReserve, hp, if_true, e]

theorem frame_none (h : Heap) {s : Str} (hl : ∀ a, s.loc ≠ .heap a) : Frame h none h (some s) :=
  ⟨fun _ _ _ => rfl, Nat.le_refl _, fun a ⟨t, e, ht⟩ => by cases e; exact absurd ht (hl a),
    fun _ _ ha => Or.inr ⟨(List.getElem?_eq_some_iff.1 ha).1, fun ⟨_, e, _⟩ => nomatch e⟩⟩

theorem newStack_ok (junk : Nat → Nat) (h : Heap) {r : Nat} (he : r % 2 = 0) (hM : r ≤ Max) :
    Own h (newStack junk r) [] ∧ Frame h none h (some (newStack junk r)) :=
  ⟨⟨⟨_, ⟨rfl, by simp [newStack], he, hM, by simp [newStack]⟩, rfl, rfl⟩, Nat.zero_le _⟩,
    frame_none h (by simp [newStack])⟩

end Verif.AStr
