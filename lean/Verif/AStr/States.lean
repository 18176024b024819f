import Verif.AStr.Proof
namespace Verif.AStr

/-! ### All strings together -/

/-- Every string owns its memory, no two own the same, and no memory is without an owner. -/
structure Inv (st : St) (bs : Nat → Option Mem) : Prop where
  has : ∀ i s, get st i = some s → ∃ b, bs i = some b ∧ Own st.heap s b
  none : ∀ i, get st i = none → bs i = none
  apart : ∀ i j s t a, get st i = some s → get st j = some t → s.loc = .heap a → t.loc = .heap a → i = j
  owned : ∀ a m, st.heap[a]? = some (some m) → ∃ i s, get st i = some s ∧ s.loc = .heap a

/-- `bs` with another content at `i`. -/
def upd (bs : Nat → Option Mem) (i : Nat) (x : Option Mem) : Nat → Option Mem := fun j => if j = i then x else bs j

/-- One string changes. -/
theorem Inv.change {st st' : St} {bs : Nat → Option Mem} (v : Inv st bs) (i : Nat) {s' : Option Str}
    (hi : get st' i = s') (hj : ∀ j, j ≠ i → get st' j = get st j)
    (f : Frame st.heap (get st i) st'.heap s') {x : Option Mem}
    (hx : ∀ t, s' = some t → ∃ b, x = some b ∧ Own st'.heap t b) (hx' : s' = .none → x = .none) :
    Inv st' (upd bs i x) := by
  have hno : ∀ j t, j ≠ i → get st j = some t → ∀ a, t.loc = .heap a → ¬ Owns (get st i) a := by
    rintro j t hne hg a ha ⟨u, hu, hua⟩
    exact hne (v.apart j i t u a hg hu ha hua)
  have hltj : ∀ j t, get st j = some t → ∀ a, t.loc = .heap a → a < st.heap.length := by
    intro j t hg a ha
    obtain ⟨b, -, ⟨⟨m, hm, -⟩, -⟩⟩ := v.has j t hg
    exact hm.lt a ha
  have hcross : ∀ j s t a, j ≠ i → get st j = some s → s' = some t → s.loc = .heap a → t.loc = .heap a → False := by
    intro j s t a hne hg ht ha hta
    rcases f.own a ⟨t, ht, hta⟩ with h' | h'
    · exact hno j s hne hg a ha h'
    · have := hltj j s hg a ha
      omega
  refine ⟨fun j t hg => ?_, fun j hg => ?_, fun j k s t a h1 h2 h3 h4 => ?_, fun a m ha => ?_⟩
  · by_cases hc : j = i
    · subst hc
      rw [hi] at hg
      simpa [upd] using hx t hg
    · rw [hj j hc] at hg
      obtain ⟨b, hb, o⟩ := v.has j t hg
      exact ⟨b, by simp [upd, hc, hb], o.keep f (hno j t hc hg)⟩
  · by_cases hc : j = i
    · subst hc
      rw [hi] at hg
      simpa [upd] using hx' hg
    · rw [hj j hc] at hg
      simpa [upd, hc] using v.none j hg
  · by_cases hc : j = i <;> by_cases hk : k = i
    · rw [hc, hk]
    · subst hc
      rw [hi] at h1
      rw [hj k hk] at h2
      exact (hcross k t s a hk h2 h1 h4 h3).elim
    · subst hk
      rw [hi] at h2
      rw [hj j hc] at h1
      exact (hcross j s t a hc h1 h2 h3 h4).elim
    · rw [hj j hc] at h1
      rw [hj k hk] at h2
      exact v.apart j k s t a h1 h2 h3 h4
  · rcases f.live a m ha with ⟨t, ht, hta⟩ | ⟨h1, h2⟩
    · exact ⟨i, t, hi.trans ht, hta⟩
    · rw [f.keep a h1 h2] at ha
      obtain ⟨j, t, hg, hta⟩ := v.owned a m ha
      have hc : j ≠ i := by
        rintro rfl; exact h2 ⟨t, hg, hta⟩
      exact ⟨j, t, (hj j hc).trans hg, hta⟩

theorem get_set_self {st : St} {i : Nat} (hi : i < st.strs.length) (h : Heap) (x : Option Str) :
    get ⟨h, st.strs.set i x⟩ i = x := by simp [get, hi]

theorem get_set_ne {st : St} {i j : Nat} (hne : j ≠ i) (h : Heap) (x : Option Str) :
    get ⟨h, st.strs.set i x⟩ j = get st j := by
  simp [get, List.getElem?_set_ne (Ne.symm hne)]

theorem get_lt {st : St} {i : Nat} {s : Str} (h : get st i = some s) : i < st.strs.length := by
  simp only [get] at h
  rcases hh : st.strs[i]? with _ | x
  · simp [hh] at h
  · exact (List.getElem?_eq_some_iff.1 hh).1

theorem change_ok {st : St} {bs : Nat → Option Mem} (v : Inv st bs) {i : Nat} {s : Str} (hi : get st i = some s)
    {f : Heap → Str → Option (Heap × Str)} {b : Mem} (g : Good st.heap s (f st.heap s) b) :
    ∃ st', change st i f = some st' ∧ Inv st' (upd bs i (some b)) ∧ st'.strs.length = st.strs.length := by
  obtain ⟨h', s', e, o, fr⟩ := g
  have hlt := get_lt hi
  refine ⟨⟨h', st.strs.set i (some s')⟩, by simp [change, hi, e], ?_, by simp⟩
  refine v.change i (get_set_self hlt h' (some s')) (fun j hj => get_set_ne hj h' _) (hi ▸ fr) ?_ ?_
  · intro t ht; cases ht; exact ⟨b, rfl, o⟩
  · intro h; exact nomatch h

theorem get_add {st : St} (h : Heap) (x : Option Str) : get ⟨h, st.strs ++ [x]⟩ st.strs.length = x := by
  simp [get]

theorem get_add_ne {st : St} {j : Nat} (hne : j ≠ st.strs.length) (h : Heap) (x : Option Str) :
    get ⟨h, st.strs ++ [x]⟩ j = get st j := by
  simp only [get]
  rcases Nat.lt_or_ge j st.strs.length with h1 | h1
  · rw [List.getElem?_append_left h1]
  · rw [List.getElem?_eq_none (by simp; omega), List.getElem?_eq_none (by omega)]

theorem get_end {st : St} : get st st.strs.length = none := by simp [get]

theorem add_ok {st : St} {bs : Nat → Option Mem} (v : Inv st bs) {r : Option (Heap × Str)} {b : Mem}
    (g : GoodNew st.heap r b) :
    ∃ st', add st r = some st' ∧ Inv st' (upd bs st.strs.length (some b)) ∧ st'.strs.length = st.strs.length + 1 := by
  obtain ⟨h', s', rfl, o, fr⟩ := g
  refine ⟨⟨h', st.strs ++ [some s']⟩, rfl, ?_, by simp⟩
  refine v.change st.strs.length (get_add h' (some s')) (fun j hj => get_add_ne hj h' _) (get_end (st := st) ▸ fr) ?_ ?_
  · intro t ht; cases ht; exact ⟨b, rfl, o⟩
  · intro h; exact nomatch h

theorem upd_same {bs : Nat → Option Mem} {i : Nat} {x : Option Mem} (h : bs i = x) : upd bs i x = bs := by
  funext j; simp only [upd]; split
  · rename_i e; rw [e, h]
  · rfl

/-- The memory of one string becomes that of another. -/
theorem Inv.move {st st' : St} {bs : Nat → Option Mem} (v : Inv st bs) {i j : Nat} (hne : i ≠ j) {t t' : Str}
    (hj : get st j = some t) (hi : ∀ s, get st i = some s → ∀ a, s.loc ≠ .heap a)
    (hi' : get st' i = some t') (hl : t'.loc = t.loc) (hle : t'.len = t.len) (hr : t'.reserved = t.reserved)
    (hf : t'.mustFree = t.mustFree) (hmf : t.mustFree = true)
    (hj' : get st' j = some (emptied t)) (hk : ∀ k, k ≠ i → k ≠ j → get st' k = get st k) (hh : st'.heap = st.heap) :
    Inv st' (upd (upd bs i (bs j)) j (some [])) := by
  obtain ⟨b, hb, ⟨⟨m, hm, ht, h0⟩, hlen⟩⟩ := v.has j t hj
  obtain ⟨a0, ha0⟩ := hm.free.1 hmf
  have hm' : Has st.heap t' m := by
    refine ⟨?_, by rw [hr, hm.len], hr ▸ hm.even, hr ▸ hm.max, by rw [hf, hl]; exact hm.free⟩
    have := hm.buf
    simp only [buf, hl, ha0] at this ⊢
    exact this
  have hot : Own st.heap t' b := ⟨⟨m, hm', by rw [hle]; exact ht, by rw [hle]; exact h0⟩, by rw [hle, hr]; exact hlen⟩
  have hmap : ∀ k s, get st' k = some s → ∀ a, s.loc = .heap a →
      (k = i ∧ a = a0) ∨ (k ≠ i ∧ k ≠ j ∧ get st k = some s) := by
    intro k s hg a ha
    by_cases hc : k = i
    · subst hc
      rw [hi'] at hg; cases hg
      rw [hl, ha0] at ha
      exact Or.inl ⟨rfl, (Loc.heap.inj ha).symm⟩
    · by_cases hc' : k = j
      · subst hc'
        rw [hj'] at hg; cases hg
        exact nomatch ha
      · exact Or.inr ⟨hc, hc', (hk k hc hc').symm.trans hg⟩
  refine ⟨fun k s hg => ?_, fun k hg => ?_, fun k l s u a h1 h2 h3 h4 => ?_, fun a m' ha => ?_⟩
  · rw [hh]
    by_cases hc : k = j
    · subst hc
      rw [hj'] at hg; cases hg
      exact ⟨[], by simp [upd], own_empty _ _⟩
    · by_cases hc' : k = i
      · subst hc'
        rw [hi'] at hg; cases hg
        exact ⟨b, by simp [upd, hc, hb], hot⟩
      · rw [hk k hc' hc] at hg
        obtain ⟨b', hb', o'⟩ := v.has k s hg
        exact ⟨b', by simp [upd, hc, hc', hb'], o'⟩
  · by_cases hc : k = j
    · subst hc; rw [hj'] at hg; exact nomatch hg
    · by_cases hc' : k = i
      · subst hc'; rw [hi'] at hg; exact nomatch hg
      · rw [hk k hc' hc] at hg
        simp [upd, hc, hc', v.none k hg]
  · rcases hmap k s h1 a h3 with ⟨e1, e2⟩ | ⟨e1, e2, e3⟩ <;> rcases hmap l u h2 a h4 with ⟨e4, e5⟩ | ⟨e4, e5, e6⟩
    · rw [e1, e4]
    · exact absurd (v.apart l j u t a e6 hj h4 (e2 ▸ ha0)) e5
    · exact absurd (v.apart k j s t a e3 hj h3 (e5 ▸ ha0)) e2
    · exact v.apart k l s u a e3 e6 h3 h4
  · rw [hh] at ha
    obtain ⟨k, s, hg, hs⟩ := v.owned a m' ha
    by_cases hc : k = j
    · subst hc
      rw [hj] at hg; cases hg
      exact ⟨i, t', hi', hl.trans hs⟩
    · have hc' : k ≠ i := by
        rintro rfl; exact hi s hg a hs
      exact ⟨k, s, (hk k hc' hc).trans hg, hs⟩

/-! ### Steps -/

theorem emptied_loc {s : Str} (hl : ∀ a, s.loc ≠ .heap a) (h : Heap) : Frame h (some s) h (some (emptied s)) :=
  ⟨fun _ _ _ => rfl, Nat.le_refl _, fun a ⟨t, e, ht⟩ => by cases e; exact (nomatch ht),
    fun a _ ha => Or.inr ⟨(List.getElem?_eq_some_iff.1 ha).1, fun ⟨_, e, ht⟩ => by cases e; exact hl a ht⟩⟩

theorem not_heap {h : Heap} {s : Str} {m : Mem} (o : Has h s m) (hf : ¬ s.mustFree = true) : ∀ a, s.loc ≠ .heap a :=
  fun a ha => hf (o.free.2 ⟨a, ha⟩)

/-- A string without memory of its own is emptied. -/
theorem Inv.emptied {st : St} {bs : Nat → Option Mem} (v : Inv st bs) {j : Nat} {t : Str} (hj : get st j = some t)
    (hl : ∀ a, t.loc ≠ .heap a) : Inv ⟨st.heap, st.strs.set j (some (emptied t))⟩ (upd bs j (some [])) := by
  refine v.change j (get_set_self (get_lt hj) _ _) (fun k hk => get_set_ne hk _ _) (hj ▸ emptied_loc hl _) ?_ ?_
  · intro u hu; cases hu; exact ⟨[], rfl, own_empty _ _⟩
  · intro h; exact nomatch h

theorem moveNew_ok (junk : Nat → Nat → Nat) {st : St} {bs : Nat → Option Mem} (v : Inv st bs) {j : Nat} {t : Str} {b : Mem}
    (hj : get st j = some t) (hb : bs j = some b) (hM : b.length ≤ Max) :
    ∃ st', moveNew junk st j = some st' ∧ Inv st' (upd (upd bs st.strs.length (some b)) j (some [])) ∧
      st'.strs.length = st.strs.length + 1 := by
  have hlt := get_lt hj
  obtain ⟨b', hb', o⟩ := v.has j t hj
  rw [hb] at hb'; cases hb'
  have hne : st.strs.length ≠ j := by omega
  simp only [moveNew, hj]
  split
  · rename_i hmf
    refine ⟨_, rfl, ?_, by simp⟩
    have := v.move (st' := ⟨st.heap, st.strs.set j (some (AStr.emptied t)) ++ [some { t with storage := [] }]⟩)
      (i := st.strs.length) (j := j) (t' := { t with storage := [] }) hne hj
      (fun s hs => by rw [get_end] at hs; exact nomatch hs) ?_ rfl rfl rfl rfl hmf ?_ ?_ rfl
    · rw [hb] at this; exact this
    · have := get_add (st := ⟨st.heap, st.strs.set j (some (AStr.emptied t))⟩) st.heap (some { t with storage := [] })
      simpa using this
    · rw [get_add_ne (st := ⟨st.heap, st.strs.set j (some (AStr.emptied t))⟩) (by simpa using hne.symm)]
      exact get_set_self hlt _ _
    · intro k h1 h2
      rw [get_add_ne (st := ⟨st.heap, st.strs.set j (some (AStr.emptied t))⟩) (by simpa using h1)]
      exact get_set_ne h2 _ _
  · rename_i hmf
    obtain ⟨m, hm, -⟩ := o.has
    have hl := not_heap hm hmf
    rw [o.bytes.1]
    obtain ⟨h', s', e, o', f'⟩ := assign_ok junk (own_empty st.heap []) (bs := b) hM
    have e' : assign junk st.heap newEmpty b = some (h', s') := e
    simp only [e', Option.map_some]
    refine ⟨_, rfl, ?_, by simp⟩
    have hfn : Frame st.heap none h' (some s') := (frame_none st.heap (by simp)).trans f'
    obtain ⟨st1, e1, v1, l1⟩ := add_ok v (r := some (h', s')) ⟨h', s', rfl, o', hfn⟩
    simp only [add, Option.map_some, Option.some.injEq] at e1
    subst e1
    have hj1 : get ⟨h', st.strs ++ [some s']⟩ j = some t := by rw [get_add_ne hne.symm]; exact hj
    have := v1.emptied hj1 hl
    simp only [List.set_append_left _ _ hlt] at this
    exact this

theorem destroy_ok {st : St} {bs : Nat → Option Mem} (v : Inv st bs) {i : Nat} {s : Str} (hi : get st i = some s) :
    ∃ h, destroy st.heap s = some h ∧ Inv ⟨h, st.strs.set i none⟩ (upd bs i none) := by
  obtain ⟨b, hb, o⟩ := v.has i s hi
  obtain ⟨m, hm, -⟩ := o.has
  obtain ⟨h', e, f⟩ := release_ok hm
  refine ⟨h', e, v.change i (get_set_self (get_lt hi) _ _) (fun k hk => get_set_ne hk _ _) (hi ▸ f) ?_ ?_⟩
  · intro t ht; exact nomatch ht
  · intro _; rfl

theorem assignFrom_ok (junk : Nat → Nat → Nat) {st : St} {bs : Nat → Option Mem} (v : Inv st bs) {i j : Nat} {s t : Str} {b : Mem}
    (hi : get st i = some s) (hj : get st j = some t) (hb : bs j = some b) (hM : b.length ≤ Max) :
    ∃ st', assignFrom junk st i j = some st' ∧ Inv st' (upd bs i (some b)) ∧ st'.strs.length = st.strs.length := by
  obtain ⟨b', hb', o⟩ := v.has j t hj
  rw [hb] at hb'; cases hb'
  unfold assignFrom
  split
  · rename_i e
    subst e
    rw [hi] at hj; cases hj
    simp only [hi]
    have g := assignOwn_ok junk o (k := 0) (n := s.len) (by rw [o.bytes.2]; omega)
    have e : (b.drop 0).take s.len = b := by rw [List.drop_zero, ← o.bytes.2, List.take_length]
    rw [e] at g
    exact change_ok v hi g
  · simp only [hj, o.bytes.1]
    obtain ⟨c, hc, os⟩ := v.has i s hi
    exact change_ok v hi (assign_ok junk os hM)

theorem get_of_change {st st' : St} {i : Nat} {f : Heap → Str → Option (Heap × Str)} (h : change st i f = some st')
    {j : Nat} (hne : j ≠ i) : get st' j = get st j := by
  unfold change at h
  split at h
  · exact nomatch h
  · obtain ⟨r, hr, rfl⟩ := Option.map_eq_some_iff.1 h
    exact get_set_ne hne _ _

theorem assignMove_ok (junk : Nat → Nat → Nat) {st : St} {bs : Nat → Option Mem} (v : Inv st bs) {i j : Nat} {s t : Str} {b : Mem}
    (hi : get st i = some s) (hj : get st j = some t) (hb : bs j = some b) (hM : b.length ≤ Max) :
    ∃ st', assignMove junk st i j = some st' ∧ Inv st' (upd (upd bs i (some b)) j (some [])) ∧
      st'.strs.length = st.strs.length := by
  have hlti := get_lt hi
  have hltj := get_lt hj
  obtain ⟨b', hb', o⟩ := v.has j t hj
  rw [hb] at hb'; cases hb'
  obtain ⟨c, hc, os⟩ := v.has i s hi
  obtain ⟨m, hm, -⟩ := o.has
  obtain ⟨ms, hms, -⟩ := os.has
  simp only [assignMove, hi, hj]
  split
  · rename_i hmf
    obtain ⟨h', e, f⟩ := release_ok hms
    simp only [e]
    refine ⟨_, rfl, ?_, by simp⟩
    -- the first string gives up its memory
    have fe : Frame st.heap (some s) h' (some (AStr.emptied s)) := by
      refine ⟨f.keep, f.le, ?_, fun a m ha => ?_⟩
      · rintro a ⟨t, e, ht⟩; cases e; exact nomatch ht
      · rcases f.live a m ha with ⟨t, e, _⟩ | h'
        · exact nomatch e
        · exact Or.inr h'
    have v1 : Inv ⟨h', st.strs.set i (some (AStr.emptied s))⟩ (upd bs i (some [])) := by
      refine v.change i (get_set_self hlti _ _) (fun k hk => get_set_ne hk _ _) (hi ▸ fe) ?_ ?_
      · intro u hu; cases hu; exact ⟨[], rfl, own_empty _ _⟩
      · intro h; exact nomatch h
    by_cases hij : i = j
    · subst hij
      rw [hi] at hj; cases hj
      have : upd (upd bs i (some b)) i (some []) = upd bs i (some []) := by
        funext k; simp only [upd]; split <;> rfl
      rw [this]
      simpa using v1
    · have hj1 : get ⟨h', st.strs.set i (some (AStr.emptied s))⟩ j = some t := by
        rw [get_set_ne (Ne.symm hij)]; exact hj
      have hbj : upd bs i (some []) j = some b := by simp [upd, Ne.symm hij, hb]
      have := v1.move (st' := ⟨h', (st.strs.set i (some { s with loc := t.loc, len := t.len, reserved := t.reserved, mustFree := t.mustFree })).set j (some (AStr.emptied t))⟩)
        hij hj1 ?_ (t' := { s with loc := t.loc, len := t.len, reserved := t.reserved, mustFree := t.mustFree }) ?_ rfl rfl rfl rfl hmf
        ?_ ?_ rfl
      · have e2 : upd (upd (upd bs i (some [])) i (upd bs i (some []) j)) j (some []) = upd (upd bs i (some b)) j (some []) := by
          rw [hbj]; funext k; simp only [upd]; split
          · rfl
          · split <;> rfl
        rw [e2] at this; exact this
      · intro u hu a ha
        rw [get_set_self hlti] at hu
        cases hu; exact nomatch ha
      · simp [get, hij, Ne.symm hij, hlti]
      · simp [get, hltj]
      · intro k h1 h2
        simp only [get]
        rw [List.getElem?_set_ne (Ne.symm h2), List.getElem?_set_ne (Ne.symm h1), List.getElem?_set_ne (Ne.symm h1)]
  · rename_i hmf
    obtain ⟨st1, e1, v1, l1⟩ := assignFrom_ok junk v hi hj hb hM
    simp only [e1, Option.bind_some]
    have hb1 : upd bs i (some b) j = some b := by
      simp only [upd]; split
      · rfl
      · exact hb
    have hl := not_heap hm hmf
    have hg : ∃ t1, get st1 j = some t1 ∧ ∀ a, t1.loc ≠ .heap a := by
      by_cases hij : i = j
      · subst hij
        rw [hi] at hj; cases hj
        -- nothing is allocated when a string is assigned to itself
        simp only [assignFrom, if_true, hi, change] at e1
        have hsl := o.bytes.2
        have hsr := o.le
        simp only [assignOwn] at e1
        rw [if_neg (by omega)] at e1
        split at e1
        · simp only [Option.map_some, Option.some.injEq] at e1
          subst e1
          exact ⟨s, get_set_self hlti _ _, hl⟩
        · rename_i hne
          have hrd : read m 0 s.len = some b := by
            have := o.bytes.1
            simpa only [bytes, hm.buf, Option.bind_some] using this
          obtain ⟨h2, x, e2, -⟩ := copy_ok hm hne (k := 0) (bs := b) (by omega)
          simp only [hm.buf, Option.bind_eq_bind, Option.bind_some, hrd, e2, Option.pure_def, Option.map_some, Option.some.injEq] at e1
          subst e1
          exact ⟨_, get_set_self hlti _ _, hl⟩
      · refine ⟨t, ?_, hl⟩
        simp only [assignFrom, hij, if_false, hj, o.bytes.1] at e1
        rw [get_of_change e1 (Ne.symm hij)]; exact hj
    obtain ⟨t1, ht1, hl1⟩ := hg
    simp only [ht1]
    exact ⟨_, rfl, v1.emptied ht1 hl1, by simpa using l1⟩

theorem appendFrom_ok (junk : Nat → Nat → Nat) {st : St} {bs : Nat → Option Mem} (v : Inv st bs) {i j : Nat} {s t : Str} {b c : Mem}
    (hi : get st i = some s) (hj : get st j = some t) (hc : bs i = some c) (hb : bs j = some b)
    (hM : c.length + b.length ≤ Max) :
    ∃ st', appendFrom junk st i j = some st' ∧ Inv st' (upd bs i (some (c ++ b))) ∧ st'.strs.length = st.strs.length := by
  obtain ⟨b', hb', o⟩ := v.has j t hj
  rw [hb] at hb'; cases hb'
  obtain ⟨c', hc', os⟩ := v.has i s hi
  rw [hc] at hc'; cases hc'
  unfold appendFrom
  split
  · rename_i e
    subst e
    rw [hc] at hb; cases hb
    exact change_ok v hi (appendSelf_ok junk os hM)
  · simp only [hj, o.bytes.1]
    exact change_ok v hi (append_ok junk os hM)

end Verif.AStr
