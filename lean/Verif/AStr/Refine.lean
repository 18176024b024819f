import Verif.AStr.States
namespace Verif.AStr

/-! ### Bytes and sequences -/

theorem Fits.length : ∀ {b : Mem} {x : Seq}, Fits b x → b.length = x.length
  | [], [], _ => rfl
  | _ :: _, _ :: _, h => by simp [Fits.length h.2]

theorem fits_known : ∀ b : Mem, Fits b (known b)
  | [] => trivial
  | _ :: bs => ⟨fun _ h => Option.some.inj h, fits_known bs⟩

theorem fits_none : ∀ b : Mem, Fits b (List.replicate b.length none)
  | [] => trivial
  | _ :: bs => ⟨fun _ h => (nomatch h), fits_none bs⟩

theorem Fits.append : ∀ {b : Mem} {x : Seq} {c : Mem} {y : Seq}, Fits b x → Fits c y → Fits (b ++ c) (x ++ y)
  | [], [], _, _, _, h => h
  | _ :: _, _ :: _, _, _, h, h' => ⟨h.1, h.2.append h'⟩

theorem Fits.take : ∀ {b : Mem} {x : Seq} (n : Nat), Fits b x → Fits (b.take n) (x.take n)
  | [], [], n, h => by simpa using h
  | _ :: _, _ :: _, 0, _ => trivial
  | _ :: _, _ :: _, n + 1, h => ⟨h.1, h.2.take n⟩

theorem Fits.drop : ∀ {b : Mem} {x : Seq} (n : Nat), Fits b x → Fits (b.drop n) (x.drop n)
  | [], [], n, h => by simpa using h
  | _ :: _, _ :: _, 0, h => h
  | _ :: _, _ :: _, n + 1, h => h.2.drop n

theorem Fits.map (f : Nat → Nat) : ∀ {b : Mem} {x : Seq}, Fits b x → Fits (b.map f) (x.map (Option.map f))
  | [], [], _ => trivial
  | _ :: _, y :: _, h => ⟨fun c hc => by
      obtain ⟨d, hd, rfl⟩ := Option.map_eq_some_iff.1 hc
      rw [h.1 d hd], h.2.map f⟩

theorem Fits.set (c : Nat) : ∀ {b : Mem} {x : Seq} (k : Nat), Fits b x → Fits (b.set k c) (x.set k (some c))
  | [], [], _, h => by simpa using h
  | _ :: _, _ :: _, 0, h => ⟨fun _ e => Option.some.inj e, h.2⟩
  | _ :: _, _ :: _, n + 1, h => ⟨h.1, h.2.set c n⟩

theorem Fits.written : ∀ {b : Mem} {x : Seq} {m : Mem}, Fits b x → written x = some m → b = m
  | [], [], m, _, h => by simpa [AStr.written] using h
  | b :: bs, none :: xs, m, _, h => nomatch h
  | b :: bs, some y :: xs, m, hf, h => by
    obtain ⟨m', hm', rfl⟩ := Option.map_eq_some_iff.1 h
    rw [hf.1 y rfl, Fits.written hf.2 hm']

theorem lower_eq : lower = lowercase := by
  funext c
  simp only [lower, lowercase, show 'A'.toNat = 65 from rfl, show 'Z'.toNat = 90 from rfl]
  split <;> omega

theorem upper_eq : upper = uppercase := by
  funext c
  simp only [upper, uppercase, show 'a'.toNat = 97 from rfl, show 'z'.toNat = 122 from rfl]
  split <;> omega

theorem replaceLoop_zero (a b : Nat) : ∀ (m : Mem) (n : Nat),
    (replaceLoop a b 0 n m).1 = m.map fun c => if c = a then b else c
  | [], _ => rfl
  | c :: cs, n => by
    simp only [replaceLoop, List.map_cons]
    split
    · rw [if_neg (by omega)]; simp [replaceLoop_zero a b cs]
    · simp [replaceLoop_zero a b cs]

theorem replaceLoop_first (a b : Nat) : ∀ (m : Mem) (n k : Nat),
    (replaceLoop a b (n + k + 1) n m).1 = replaceFirst a b (k + 1) m
  | [], _, _ => rfl
  | c :: cs, n, k => by
    simp only [replaceLoop, replaceFirst]
    split
    · rcases k with _ | k
      · simp [replaceFirst]
      · rw [if_neg (by omega)]
        have := replaceLoop_first a b cs (n + 1) k
        rw [show n + 1 + k + 1 = n + (k + 1) + 1 by omega] at this
        simp [this]
    · simp [replaceLoop_first a b cs n k]

theorem replaceLoop_eq (a b limit : Nat) (m : Mem) : (replaceLoop a b limit 0 m).1 = replaced a b limit m := by
  unfold replaced
  split
  · rename_i h; subst h; exact replaceLoop_zero a b m 0
  · rename_i h
    obtain ⟨k, rfl⟩ : ∃ k, limit = k + 1 := ⟨limit - 1, by omega⟩
    have := replaceLoop_first a b m 0 k
    rwa [Nat.zero_add] at this

theorem replaceLoop_length (a b limit : Nat) : ∀ (m : Mem) (n : Nat), (replaceLoop a b limit n m).1.length = m.length
  | [], _ => rfl
  | c :: cs, n => by
    simp only [replaceLoop]
    split
    · split
      · rfl
      · simp [replaceLoop_length a b limit cs]
    · simp [replaceLoop_length a b limit cs]

/-! ### Refinement -/

/-- The memory is in order, and its strings have the bytes of the sequences. -/
structure Rel (st : St) (a : Abs) (bs : Nat → Option Mem) : Prop where
  inv : Inv st bs
  len : st.strs.length = a.length
  fits : ∀ i, match bs i, a.get i with
    | none, none => True
    | some b, some x => Fits b x ∧ x.length ≤ Max
    | _, _ => False

theorem Rel.at {st : St} {a : Abs} {bs : Nat → Option Mem} (r : Rel st a bs) {i : Nat} {x : Seq} (h : a.get i = some x) :
    ∃ s b, get st i = some s ∧ bs i = some b ∧ Own st.heap s b ∧ Fits b x ∧ x.length ≤ Max := by
  have hf := r.fits i
  rw [h] at hf
  rcases hb : bs i with _ | b
  · rw [hb] at hf; exact hf.elim
  · rw [hb] at hf
    rcases hg : get st i with _ | s
    · rw [r.inv.none i hg] at hb; exact nomatch hb
    · obtain ⟨b', hb', o⟩ := r.inv.has i s hg
      rw [hb] at hb'; cases hb'
      exact ⟨s, b, rfl, rfl, o, hf⟩

theorem abs_set {a : Abs} {i : Nat} (hi : i < a.length) (x : Option Seq) (j : Nat) :
    Abs.get (a.set i x) j = if j = i then x else a.get j := by
  simp only [Abs.get, List.getElem?_set]
  by_cases h : j = i
  · subst h; simp [hi]
  · simp [h, Ne.symm h]

theorem abs_add (a : Abs) (x : Option Seq) (j : Nat) :
    Abs.get (a ++ [x]) j = if j = a.length then x else a.get j := by
  simp only [Abs.get]
  split
  · rename_i h; subst h; simp
  · rename_i h
    rcases Nat.lt_or_ge j a.length with h1 | h1
    · rw [List.getElem?_append_left h1]
    · rw [List.getElem?_eq_none (by simp; omega), List.getElem?_eq_none (by omega)]

theorem abs_lt {a : Abs} {i : Nat} {x : Seq} (h : a.get i = some x) : i < a.length := by
  simp only [Abs.get] at h
  rcases hh : a[i]? with _ | y
  · simp [hh] at h
  · exact (List.getElem?_eq_some_iff.1 hh).1

theorem Rel.set {st st' : St} {a : Abs} {bs : Nat → Option Mem} (r : Rel st a bs) {i : Nat} (hi : i < a.length)
    {b : Mem} {x : Seq} (v : Inv st' (upd bs i (some b))) (hl : st'.strs.length = st.strs.length) (hf : Fits b x)
    (hM : x.length ≤ Max) : Rel st' (a.set i (some x)) (upd bs i (some b)) := by
  refine ⟨v, by rw [hl, r.len, List.length_set], fun j => ?_⟩
  rw [abs_set hi]
  by_cases h : j = i
  · subst h; simp [upd, hf, hM]
  · simp only [upd, h, if_false]; exact r.fits j

theorem Rel.add {st st' : St} {a : Abs} {bs : Nat → Option Mem} (r : Rel st a bs)
    {b : Mem} {x : Seq} (v : Inv st' (upd bs st.strs.length (some b))) (hl : st'.strs.length = st.strs.length + 1)
    (hf : Fits b x) (hM : x.length ≤ Max) : Rel st' (a ++ [some x]) (upd bs st.strs.length (some b)) := by
  refine ⟨v, by rw [hl, r.len]; simp, fun j => ?_⟩
  rw [abs_add, r.len]
  by_cases h : j = a.length
  · subst h; simp [upd, hf, hM]
  · simp only [upd, h, if_false]; exact r.fits j

/-- The simulation of one change. -/
theorem change_sim {st : St} {a a' : Abs} {bs : Nat → Option Mem} (r : Rel st a bs) {i : Nat}
    {f : Heap → Str → Option (Heap × Str)} {g : Seq → Option Seq} (ha : a.change i g = some a')
    (hs : ∀ s b x y, get st i = some s → bs i = some b → Own st.heap s b → Fits b x → x.length ≤ Max → g x = some y → y.length ≤ Max →
      ∃ c, Good st.heap s (f st.heap s) c ∧ Fits c y) :
    ∃ st' bs', change st i f = some st' ∧ Rel st' a' bs' := by
  unfold Abs.change at ha
  split at ha
  · exact nomatch ha
  · rename_i x hx
    split at ha
    · exact nomatch ha
    · rename_i y hy
      split at ha
      · rename_i hM
        cases ha
        obtain ⟨s, b, h1, h2, h3, h4, h5⟩ := r.at hx
        obtain ⟨c, hg, hc⟩ := hs s b x y h1 h2 h3 h4 h5 hy hM
        obtain ⟨st', e, v, l⟩ := change_ok r.inv h1 hg
        exact ⟨st', _, e, r.set (abs_lt hx) v l hc hM⟩
      · exact nomatch ha

theorem add_sim {st : St} {a a' : Abs} {bs : Nat → Option Mem} (r : Rel st a bs) {x : Seq} {b : Mem}
    {o : Option (Heap × Str)} (ha : a.add x = some a') (hf : Fits b x) (g : x.length ≤ Max → GoodNew st.heap o b) :
    ∃ st' bs', add st o = some st' ∧ Rel st' a' bs' := by
  unfold Abs.add at ha
  split at ha
  · rename_i hM
    cases ha
    obtain ⟨st', e, v, l⟩ := add_ok r.inv (g hM)
    exact ⟨st', _, e, r.add v l hf hM⟩
  · exact nomatch ha

theorem step_sim (junk : Nat → Nat → Nat) {st : St} {a a' : Abs} {bs : Nat → Option Mem} (r : Rel st a bs) (o : Op)
    (ha : a.step o = some a') : ∃ st' bs', step junk st o = some st' ∧ Rel st' a' bs' := by
  cases o with
  | newEmpty =>
    exact add_sim r ha (b := []) trivial fun _ => ⟨_, _, rfl, own_empty _ _, frame_none _ (by simp [newEmpty])⟩
  | newReserve n =>
    simp only [Abs.step] at ha
    split at ha
    · rename_i h
      exact add_sim r ha (b := []) trivial fun _ => newReserve_ok junk _ h.1 h.2
    · exact nomatch ha
  | newCopy ds =>
    exact add_sim r ha (fits_known ds) fun h => newCopy_ok junk _ (by simpa [known] using h)
  | newStack j n =>
    simp only [Abs.step] at ha
    split at ha
    · rename_i h
      have := newStack_ok j st.heap h.1 h.2
      exact add_sim r ha (b := []) trivial fun _ => ⟨_, _, rfl, this.1, this.2⟩
    · exact nomatch ha
  | newFrom j =>
    obtain ⟨x, hx, ha⟩ := Option.bind_eq_some_iff.1 ha
    obtain ⟨s, b, h1, h2, h3, h4, h5⟩ := r.at hx
    simp only [step, h1, h3.bytes.1, Option.bind_some]
    exact add_sim r ha h4 fun h => newCopy_ok junk _ (by rw [h4.length]; exact h)
  | newMove j =>
    obtain ⟨x, hx, ha⟩ := Option.bind_eq_some_iff.1 ha
    obtain ⟨s, b, h1, h2, h3, h4, h5⟩ := r.at hx
    obtain ⟨st', e, v, l⟩ := moveNew_ok junk r.inv h1 h2 (by rw [h4.length]; exact h5)
    refine ⟨st', _, e, v, ?_, fun k => ?_⟩
    · simp only [Abs.add] at ha
      rw [if_pos h5] at ha; cases ha
      simp [l, r.len]
    · simp only [Abs.add] at ha
      rw [if_pos h5] at ha; cases ha
      have hlt := abs_lt hx
      rw [abs_add, abs_set hlt, List.length_set, r.len]
      by_cases hk : k = a.length
      · have : k ≠ j := by omega
        simp [upd, hk, show a.length ≠ j by omega, h4, h5]
      · by_cases hj : k = j
        · subst hj; simp [upd, hk, Fits]
        · simp only [upd, hk, hj, if_false]; exact r.fits k
  | destroy i =>
    obtain ⟨x, hx, rfl⟩ := Option.map_eq_some_iff.1 ha
    obtain ⟨s, b, h1, h2, h3, h4, h5⟩ := r.at hx
    obtain ⟨h', e, v⟩ := destroy_ok r.inv h1
    refine ⟨⟨h', st.strs.set i none⟩, _, by simp [step, h1, e], v, by simp [r.len], fun k => ?_⟩
    rw [abs_set (abs_lt hx)]
    by_cases hk : k = i
    · subst hk; simp [upd]
    · simp only [upd, hk, if_false]; exact r.fits k
  | assign i ds =>
    simp only [Abs.step] at ha
    simp only [step]
    refine change_sim r ha fun s b x y h1 h2 h3 h4 h5 h6 h7 => ?_
    cases h6
    exact ⟨ds, assign_ok junk h3 (by simpa [known] using h7), fits_known ds⟩
  | assignFrom i j =>
    obtain ⟨x, hx, ha⟩ := Option.bind_eq_some_iff.1 ha
    obtain ⟨t, b, h1, h2, h3, h4, h5⟩ := r.at hx
    simp only [Abs.change] at ha
    split at ha
    · exact nomatch ha
    · rename_i x' hx'
      rw [if_pos h5] at ha; cases ha
      obtain ⟨s, b', g1, g2, g3, g4, g5⟩ := r.at hx'
      obtain ⟨st', e, v, l⟩ := assignFrom_ok junk r.inv g1 h1 h2 (by rw [h4.length]; exact h5)
      exact ⟨st', _, e, r.set (abs_lt hx') v l h4 h5⟩
  | assignMove i j =>
    obtain ⟨x, hx, ha⟩ := Option.bind_eq_some_iff.1 ha
    obtain ⟨a1, ha1, rfl⟩ := Option.map_eq_some_iff.1 ha
    obtain ⟨t, b, h1, h2, h3, h4, h5⟩ := r.at hx
    simp only [Abs.change] at ha1
    split at ha1
    · exact nomatch ha1
    · rename_i x' hx'
      rw [if_pos h5] at ha1; cases ha1
      obtain ⟨s, b', g1, g2, g3, g4, g5⟩ := r.at hx'
      obtain ⟨st', e, v, l⟩ := assignMove_ok junk r.inv g1 h1 h2 (by rw [h4.length]; exact h5)
      refine ⟨st', _, e, v, by simp [l, r.len], fun k => ?_⟩
      rw [abs_set (by rw [List.length_set]; exact abs_lt hx), abs_set (abs_lt hx')]
      by_cases hj : k = j
      · subst hj; simp [upd, Fits]
      · by_cases hi : k = i
        · subst hi; simp [upd, hj, h4, h5]
        · simp only [upd, hi, hj, if_false]; exact r.fits k
  | clear i =>
    simp only [Abs.step] at ha
    simp only [step]
    refine change_sim r ha fun s b x y h1 h2 h3 h4 h5 h6 h7 => ?_
    cases h6
    exact ⟨[], clear_ok h3, trivial⟩
  | clearFree i =>
    simp only [Abs.step] at ha
    simp only [step]
    refine change_sim r ha fun s b x y h1 h2 h3 h4 h5 h6 h7 => ?_
    cases h6
    exact ⟨[], clearFree_ok h3, trivial⟩
  | setLength i n =>
    simp only [Abs.step] at ha
    simp only [step]
    refine change_sim r ha fun s b x y h1 h2 h3 h4 h5 h6 h7 => ?_
    cases h6
    have hn : n ≤ Max := by
      simp only [resized, List.length_append, List.length_take, List.length_replicate] at h7
      omega
    obtain ⟨z, hz, hl⟩ := setLength_ok junk h3 hn
    refine ⟨_, hz, (h4.take n).append ?_⟩
    rw [← h4.length, ← hl]
    exact fits_none z
  | setReserved i n =>
    simp only [Abs.step] at ha
    split at ha
    · rename_i hn
      simp only [step]
      refine change_sim r ha fun s b x y h1 h2 h3 h4 h5 h6 h7 => ?_
      cases h6
      exact ⟨_, setReserved_ok junk h3 hn, h4.take n⟩
    · exact nomatch ha
  | appendChar i c =>
    simp only [Abs.step] at ha
    simp only [step]
    refine change_sim r ha fun s b x y h1 h2 h3 h4 h5 h6 h7 => ?_
    cases h6
    refine ⟨_, appendChar_ok junk h3 ?_ c, h4.append (fits_known [c])⟩
    rw [h4.length]; simpa using h7
  | append i ds =>
    simp only [Abs.step] at ha
    simp only [step]
    refine change_sim r ha fun s b x y h1 h2 h3 h4 h5 h6 h7 => ?_
    cases h6
    refine ⟨_, append_ok junk h3 ?_, h4.append (fits_known ds)⟩
    rw [h4.length]; simpa [known] using h7
  | appendFrom i j =>
    obtain ⟨x, hx, ha⟩ := Option.bind_eq_some_iff.1 ha
    obtain ⟨t, b, h1, h2, h3, h4, h5⟩ := r.at hx
    simp only [Abs.change] at ha
    split at ha
    · exact nomatch ha
    · rename_i x' hx'
      split at ha
      · rename_i hM
        cases ha
        obtain ⟨s, b', g1, g2, g3, g4, g5⟩ := r.at hx'
        obtain ⟨st', e, v, l⟩ := appendFrom_ok junk r.inv g1 h1 g2 h2 (by
          rw [h4.length, g4.length]; simpa using hM)
        exact ⟨st', _, e, r.set (abs_lt hx') v l (g4.append h4) hM⟩
      · exact nomatch ha
  | appendList i items sep =>
    simp only [Abs.step] at ha
    simp only [step]
    refine change_sim r ha fun s b x y h1 h2 h3 h4 h5 h6 h7 => ?_
    cases h6
    refine ⟨_, appendList_ok junk sep items h3 ?_, h4.append (fits_known _)⟩
    rw [h4.length]; simpa [known] using h7
  | toLower i =>
    simp only [Abs.step] at ha
    simp only [step]
    refine change_sim r ha fun s b x y h1 h2 h3 h4 h5 h6 h7 => ?_
    cases h6
    exact ⟨_, inPlace_ok h3 _ (by simp), lower_eq ▸ h4.map lower⟩
  | toUpper i =>
    simp only [Abs.step] at ha
    simp only [step]
    refine change_sim r ha fun s b x y h1 h2 h3 h4 h5 h6 h7 => ?_
    cases h6
    exact ⟨_, inPlace_ok h3 _ (by simp), upper_eq ▸ h4.map upper⟩
  | replaceChar i x y limit =>
    simp only [Abs.step] at ha
    simp only [step]
    refine change_sim r ha fun s b z w h1 h2 h3 h4 h5 h6 h7 => ?_
    obtain ⟨m, hm, rfl⟩ := Option.map_eq_some_iff.1 h6
    have := h4.written hm
    subst this
    refine ⟨_, inPlace_ok h3 (fun bs => (replaceLoop x y limit 0 bs).1) (fun m => replaceLoop_length x y limit m 0), ?_⟩
    simp only [replaceLoop_eq]
    exact fits_known _
  | setChar i k c =>
    simp only [Abs.step] at ha
    simp only [step]
    refine change_sim r ha fun s b x y h1 h2 h3 h4 h5 h6 h7 => ?_
    split at h6
    · rename_i hk
      cases h6
      exact ⟨_, setChar_ok h3 (by rw [h4.length]; exact hk) c, h4.set c k⟩
    · exact nomatch h6
  | trim i p q =>
    simp only [Abs.step] at ha
    simp only [step]
    refine change_sim r ha fun s b x y h1 h2 h3 h4 h5 h6 h7 => ?_
    split at h6
    · rename_i hk
      cases h6
      rw [← h4.length] at hk h5 ⊢
      exact ⟨_, trim_ok junk h3 hk h5, (h4.drop p).take _⟩
    · exact nomatch h6
  | trimStart i c =>
    simp only [Abs.step] at ha
    simp only [step]
    refine change_sim r ha fun s b x y h1 h2 h3 h4 h5 h6 h7 => ?_
    obtain ⟨m, hm, rfl⟩ := Option.map_eq_some_iff.1 h6
    have := h4.written hm
    subst this
    exact ⟨_, trimStart_ok junk h3 (by rw [h4.length]; exact h5) c, fits_known _⟩
  | trimEnd i c =>
    simp only [Abs.step] at ha
    simp only [step]
    refine change_sim r ha fun s b x y h1 h2 h3 h4 h5 h6 h7 => ?_
    obtain ⟨m, hm, rfl⟩ := Option.map_eq_some_iff.1 h6
    have := h4.written hm
    subst this
    exact ⟨_, trimEnd_ok junk h3 (by rw [h4.length]; exact h5) c, fits_known _⟩

theorem run_sim (junk : Nat → Nat → Nat) : ∀ (os : List Op) {st : St} {a a' : Abs} {bs : Nat → Option Mem},
    Rel st a bs → a.run os = some a' → ∃ st' bs', run junk st os = some st' ∧ Rel st' a' bs'
  | [], st, a, a', bs, r, h => by
    simp only [Abs.run, Option.some.injEq] at h
    subst h
    exact ⟨st, bs, rfl, r⟩
  | o :: os, st, a, a', bs, r, h => by
    simp only [Abs.run] at h
    obtain ⟨a1, h1, h2⟩ := Option.bind_eq_some_iff.1 h
    obtain ⟨st1, bs1, e1, r1⟩ := step_sim junk r o h1
    obtain ⟨st2, bs2, e2, r2⟩ := run_sim junk os r1 h2
    exact ⟨st2, bs2, by simp [run, e1, e2], r2⟩

theorem start_rel : Rel start [] (fun _ => none) := by
  refine ⟨⟨?_, ?_, ?_, ?_⟩, rfl, ?_⟩ <;> simp [start, get, Abs.get]

theorem Rel.shows {st : St} {a : Abs} {bs : Nat → Option Mem} (r : Rel st a bs) : Shows st a := by
  refine ⟨r.len, fun i => ?_⟩
  have hf := r.fits i
  rcases hx : a.get i with _ | x
  · rcases hg : get st i with _ | s
    · trivial
    · obtain ⟨b, hb, -⟩ := r.inv.has i s hg
      rw [hb, hx] at hf
      exact hf
  · obtain ⟨s, b, h1, h2, ⟨⟨m, hm, hm2, hm3⟩, h3⟩, h4, h5⟩ := r.at hx
    rw [h1]
    have := hm.len
    exact ⟨m, b, hm.buf, hm2, hm3, h3, by omega, h4⟩

end Verif.AStr
