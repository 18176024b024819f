import Verif.StrFind.Spec
namespace Verif.StrFind

theorem low_iff (a b : UInt8) : low a = low b ↔ sameLetter a b := by
  have h1 : ∀ x : UInt8, (low x).toNat = if 65 ≤ x.toNat ∧ x.toNat ≤ 90 then x.toNat + 32 else x.toNat := by
    intro x
    have := x.toNat_lt
    unfold low
    simp only [UInt8.le_iff_toNat_le]
    split
    · rename_i c
      change 65 ≤ x.toNat ∧ x.toNat ≤ 90 at c
      rw [if_pos c]
      simp [UInt8.toNat_add, UInt8.toNat_sub]
      omega
    · rename_i c
      change ¬ (65 ≤ x.toNat ∧ x.toNat ≤ 90) at c
      rw [if_neg c]
  rw [← UInt8.toNat_inj, h1, h1]
  unfold sameLetter
  rw [← UInt8.toNat_inj]
  split <;> split <;> omega

theorem low_zero (a : UInt8) : low a = 0 ↔ a = 0 := by
  have : low 0 = 0 := by decide
  rw [show (low a = 0) = (low a = low 0) by rw [this], low_iff]
  unfold sameLetter
  rw [← UInt8.toNat_inj]
  simp

/-- What is needed of a way to compare bytes. -/
structure Way (f : UInt8 → UInt8) (R : UInt8 → UInt8 → Prop) : Prop where
  iff : ∀ a b, f a = f b ↔ R a b
  zero : ∀ a, f a = 0 ↔ a = 0

theorem way_exact : Way exact (· = ·) := ⟨fun _ _ => Iff.rfl, fun _ => Iff.rfl⟩
theorem way_low : Way low sameLetter := ⟨low_iff, low_zero⟩

theorem Agree.length {R a b} (h : Agree R a b) : a.length = b.length := by
  induction h with
  | nil => rfl
  | cons _ _ ih => simp [ih]

theorem agree_eq {a b : Bytes} : Agree (· = ·) a b ↔ a = b := by
  constructor
  · intro h
    induction h with
    | nil => rfl
    | cons h _ ih => rw [h, ih]
  · intro h
    subst h
    induction a with
    | nil => exact .nil
    | cons x a ih => exact .cons rfl ih

/-- A text is at the start of `s`, or not. -/
theorem cmp_ok {f R} (w : Way f R) : ∀ (s t r : Bytes), Text t → ∃ b, strNCmp f (s ++ [0]) (t ++ r) t.length = some b ∧
    (b = true ↔ ∃ x y, s = x ++ y ∧ Agree R x t)
  | s, [], r, _ => ⟨true, by simp [strNCmp], ⟨fun _ => ⟨[], s, rfl, .nil⟩, fun _ => rfl⟩⟩
  | [], y :: t, r, ht => by
      refine ⟨false, ?_, ?_⟩
      · have : f 0 ≠ f y := by
          intro e
          have : f y = 0 := e ▸ (w.zero 0).2 rfl
          exact ht y (List.mem_cons_self ..) ((w.zero y).1 this)
        simp [strNCmp, this]
      · constructor
        · exact nofun
        · rintro ⟨x, z, e, h⟩
          have := h.length
          have h2 : x = [] := by
            cases x with
            | nil => rfl
            | cons _ _ => exact nomatch e
          subst h2
          simp at this
  | x :: s, y :: t, r, ht => by
      by_cases e : f x = f y
      · have hy : f x ≠ 0 := fun z => ht y (List.mem_cons_self ..) ((w.zero y).1 (e ▸ z))
        obtain ⟨b, h1, h2⟩ := cmp_ok w s t r (fun c hc => ht c (List.mem_cons_of_mem _ hc))
        refine ⟨b, ?_, ?_⟩
        · simp only [List.cons_append, List.length_cons, strNCmp]
          rw [if_pos e, if_neg hy]
          exact h1
        · rw [h2]
          constructor
          · rintro ⟨a, c, rfl, h⟩
            exact ⟨x :: a, c, rfl, .cons ((w.iff x y).1 e) h⟩
          · rintro ⟨a, c, h1, h2⟩
            cases h2 with
            | cons hr h =>
                injection h1 with e1 e2
                exact ⟨_, c, e2, h⟩
      · refine ⟨false, ?_, ?_⟩
        · simp only [List.cons_append, List.length_cons, strNCmp]
          rw [if_neg e]
        · constructor
          · exact nofun
          · rintro ⟨a, c, h1, h2⟩
            cases h2 with
            | cons hr h =>
                injection h1 with e1 e2
                rw [e1] at e
                exact absurd ((w.iff _ y).2 hr) e

theorem at_drop {R} {s t : Bytes} {i : Nat} (hi : i ≤ s.length) :
    At R s t i ↔ ∃ x y, s.drop i = x ++ y ∧ Agree R x t := by
  constructor
  · rintro ⟨a, b, c, rfl, rfl, h⟩
    exact ⟨b, c, by simp, h⟩
  · rintro ⟨x, y, e, h⟩
    refine ⟨s.take i, x, y, ?_, by simp; omega, h⟩
    rw [List.append_assoc, ← e, List.take_append_drop]

theorem at_bound {R} {s t : Bytes} {i : Nat} (h : At R s t i) : i + t.length ≤ s.length := by
  obtain ⟨a, b, c, rfl, rfl, h⟩ := h
  have := h.length
  simp
  omega

theorem mem_drop {s : Bytes} {i : Nat} (hi : i ≤ s.length) : (mem s).drop i = s.drop i ++ [0] := by
  unfold mem
  rw [List.drop_append_of_le_length hi]

theorem cmp_at {f R} (w : Way f R) {s t r : Bytes} (ht : Text t) {i : Nat} (hi : i ≤ s.length) :
    ∃ b, strNCmp f ((mem s).drop i) (t ++ r) t.length = some b ∧ (b = true ↔ At R s t i) := by
  rw [mem_drop hi]
  obtain ⟨b, h1, h2⟩ := cmp_ok w (s.drop i) t r ht
  exact ⟨b, h1, h2.trans (at_drop hi).symm⟩

theorem findLoop_ok {f R} (w : Way f R) {s t r : Bytes} (ht : Text t) : ∀ (n pos : Nat), pos + n ≤ s.length + 1 →
    ∃ o, findLoop f (mem s) (t ++ r) t.length pos n = some o ∧ First (fun i => pos ≤ i ∧ i < pos + n ∧ At R s t i) o
  | 0, pos, _ => ⟨none, rfl, fun j h => by omega⟩
  | n + 1, pos, h => by
      obtain ⟨b, h1, h2⟩ := cmp_at w (r := r) ht (show pos ≤ s.length by omega)
      simp only [findLoop, h1]
      cases b with
      | true =>
          exact ⟨some pos, rfl, ⟨Nat.le_refl _, by omega, h2.1 rfl⟩, fun j hj h => by omega⟩
      | false =>
          obtain ⟨o, e, ho⟩ := findLoop_ok w (s := s) (r := r) ht n (pos + 1) (by omega)
          refine ⟨o, e, ?_⟩
          have hno : ¬ At R s t pos := fun x => nomatch h2.2 x
          cases o with
          | none =>
              intro j ⟨j1, j2, j3⟩
              by_cases ej : j = pos
              · exact hno (ej ▸ j3)
              · exact ho j ⟨by omega, by omega, j3⟩
          | some i =>
              refine ⟨⟨by have := ho.1.1; omega, by have := ho.1.2.1; omega, ho.1.2.2⟩, ?_⟩
              intro j hj ⟨j1, j2, j3⟩
              by_cases ej : j = pos
              · exact hno (ej ▸ j3)
              · exact ho.2 j hj ⟨by omega, by omega, j3⟩

theorem lastLoop_ok {f R} (w : Way f R) {s t r : Bytes} (ht : Text t) (e : Nat) : ∀ (n : Nat), n = 0 ∨ e + n ≤ s.length + 1 →
    ∃ o, lastLoop f (mem s) (t ++ r) t.length e n = some o ∧ Last (fun i => e ≤ i ∧ i < e + n ∧ At R s t i) o
  | 0, _ => ⟨none, rfl, fun j h => by omega⟩
  | n + 1, h => by
      obtain ⟨b, h1, h2⟩ := cmp_at w (r := r) ht (show e + n ≤ s.length by omega)
      simp only [lastLoop, h1]
      cases b with
      | true =>
          exact ⟨some (e + n), rfl, ⟨by omega, by omega, h2.1 rfl⟩, fun j hj h => by omega⟩
      | false =>
          obtain ⟨o, eo, ho⟩ := lastLoop_ok w (s := s) (r := r) ht e n (by omega)
          refine ⟨o, eo, ?_⟩
          have hno : ¬ At R s t (e + n) := fun x => nomatch h2.2 x
          cases o with
          | none =>
              intro j ⟨j1, j2, j3⟩
              by_cases ej : j = e + n
              · exact hno (ej ▸ j3)
              · exact ho j ⟨by omega, by omega, j3⟩
          | some i =>
              refine ⟨⟨ho.1.1, by have := ho.1.2.1; omega, ho.1.2.2⟩, ?_⟩
              intro j hj ⟨j1, j2, j3⟩
              by_cases ej : j = e + n
              · exact hno (ej ▸ j3)
              · exact ho.2 j hj ⟨by omega, by omega, j3⟩

theorem First.congr {P Q : Nat → Prop} (h : ∀ i, P i ↔ Q i) {o} (hp : First P o) : First Q o := by
  have : P = Q := funext fun i => propext (h i)
  exact this ▸ hp

theorem Last.congr {P Q : Nat → Prop} (h : ∀ i, P i ↔ Q i) {o} (hp : Last P o) : Last Q o := by
  have : P = Q := funext fun i => propext (h i)
  exact this ▸ hp

theorem mem_get {s : Bytes} {i : Nat} (h : i < s.length) : (mem s)[i]? = s[i]? := by
  unfold mem
  rw [List.getElem?_append_left h]

theorem charLoop_ok {f R} (w : Way f R) {s : Bytes} {c : UInt8} : ∀ (n pos : Nat), pos + n ≤ s.length →
    ∃ o, findCharLoop f (mem s) c pos n = some o ∧ First (fun i => pos ≤ i ∧ i < pos + n ∧ ∃ b, s[i]? = some b ∧ R b c) o
  | 0, pos, _ => ⟨none, rfl, fun j h => by omega⟩
  | n + 1, pos, h => by
      have hlt : pos < s.length := by omega
      have hget := List.getElem?_eq_getElem hlt
      simp only [findCharLoop, mem_get hlt, hget]
      by_cases e : f s[pos] = f c
      · rw [if_pos e]
        exact ⟨some pos, rfl, ⟨Nat.le_refl _, by omega, _, hget, (w.iff _ _).1 e⟩, fun j hj h => by omega⟩
      · rw [if_neg e]
        obtain ⟨o, eo, ho⟩ := charLoop_ok w (s := s) (c := c) n (pos + 1) (by omega)
        refine ⟨o, eo, ?_⟩
        have hno : ¬ ∃ b, s[pos]? = some b ∧ R b c := by
          rintro ⟨b, hb, hr⟩
          rw [hget] at hb
          cases hb
          exact e ((w.iff _ _).2 hr)
        cases o with
        | none =>
            intro j ⟨j1, j2, j3⟩
            by_cases ej : j = pos
            · exact hno (ej ▸ j3)
            · exact ho j ⟨by omega, by omega, j3⟩
        | some i =>
            refine ⟨⟨by have := ho.1.1; omega, by have := ho.1.2.1; omega, ho.1.2.2⟩, ?_⟩
            intro j hj ⟨j1, j2, j3⟩
            by_cases ej : j = pos
            · exact hno (ej ▸ j3)
            · exact ho.2 j hj ⟨by omega, by omega, j3⟩

theorem lastCharLoop_ok {f R} (w : Way f R) {s : Bytes} {c : UInt8} (e : Nat) : ∀ (n : Nat), n = 0 ∨ e + n ≤ (mem s).length →
    ∃ o, lastCharLoop f (mem s) c e n = some o ∧ Last (fun i => e ≤ i ∧ i < e + n ∧ ∃ b, (mem s)[i]? = some b ∧ R b c) o
  | 0, _ => ⟨none, rfl, fun j h => by omega⟩
  | n + 1, h => by
      have hlt : e + n < (mem s).length := by omega
      have hget := List.getElem?_eq_getElem hlt
      simp only [lastCharLoop, hget]
      by_cases ef : f (mem s)[e + n] = f c
      · rw [if_pos ef]
        exact ⟨some (e + n), rfl, ⟨by omega, by omega, _, hget, (w.iff _ _).1 ef⟩, fun j hj h => by omega⟩
      · rw [if_neg ef]
        obtain ⟨o, eo, ho⟩ := lastCharLoop_ok w (s := s) (c := c) e n (by omega)
        refine ⟨o, eo, ?_⟩
        have hno : ¬ ∃ b, (mem s)[e + n]? = some b ∧ R b c := by
          rintro ⟨b, hb, hr⟩
          rw [hget] at hb
          cases hb
          exact ef ((w.iff _ _).2 hr)
        cases o with
        | none =>
            intro j ⟨j1, j2, j3⟩
            by_cases ej : j = e + n
            · exact hno (ej ▸ j3)
            · exact ho j ⟨by omega, by omega, j3⟩
        | some i =>
            refine ⟨⟨ho.1.1, by have := ho.1.2.1; omega, ho.1.2.2⟩, ?_⟩
            intro j hj ⟨j1, j2, j3⟩
            by_cases ej : j = e + n
            · exact hno (ej ▸ j3)
            · exact ho.2 j hj ⟨by omega, by omega, j3⟩

theorem strLen_ok : ∀ (t r : Bytes), Text t → strLen (t ++ 0 :: r) = some t.length
  | [], r, _ => by simp [strLen]
  | x :: t, r, h => by
      have hx := h x (List.mem_cons_self ..)
      simp [strLen, hx, strLen_ok t r (fun c hc => h c (List.mem_cons_of_mem _ hc))]

theorem eqC_ok : ∀ (s t r : Bytes), Text s → Text t → eqC (s ++ [0]) (t ++ 0 :: r) = some (decide (s = t))
  | [], [], r, _, _ => by simp [eqC]
  | [], y :: t, r, _, ht => by
      have := (ht y (List.mem_cons_self ..)).symm
      simp [eqC, this]
  | x :: s, [], r, hs, _ => by
      have := hs x (List.mem_cons_self ..)
      simp [eqC, this]
  | x :: s, y :: t, r, hs, ht => by
      have hx := hs x (List.mem_cons_self ..)
      simp only [List.cons_append, eqC]
      by_cases e : x = y
      · subst e
        rw [if_neg (by simp), if_neg hx, eqC_ok s t r (fun c hc => hs c (List.mem_cons_of_mem _ hc))
          (fun c hc => ht c (List.mem_cons_of_mem _ hc))]
        simp
      · rw [if_pos e]
        simp [e]

/-- Enough to know about the answers of `Compare`. -/
theorem compare_ok {f : UInt8 → UInt8} (hz : ∀ a, f a = 0 ↔ a = 0) : ∀ (s t : Bytes), Text s → Text t →
    ∃ o, compare f (mem s) (mem t) = some o ∧ (o = .lt → Before f s t) ∧ (o = .gt → Before f t s) ∧
      (o = .eq → s.map f = t.map f)
  | [], [], _, _ => by
      refine ⟨.eq, ?_, nofun, nofun, fun _ => rfl⟩
      simp [mem, compare, (hz 0).2 rfl, UInt8.lt_irrefl]
  | [], y :: t, _, ht => by
      refine ⟨.lt, ?_, fun _ => .inl ⟨[], [], y, t, rfl, rfl, rfl⟩, nofun, nofun⟩
      have h0 := (hz 0).2 rfl
      have hy : f y ≠ 0 := fun e => ht y (List.mem_cons_self ..) ((hz y).1 e)
      have : (0 : UInt8) < f y := by
        rw [UInt8.lt_iff_toNat_lt]
        have : (f y).toNat ≠ 0 := fun e => hy (UInt8.toNat_inj.1 e)
        simp; omega
      simp [mem, compare, h0, this]
  | x :: s, [], hs, _ => by
      refine ⟨.gt, ?_, nofun, fun _ => .inl ⟨[], [], x, s, rfl, rfl, rfl⟩, nofun⟩
      have h0 := (hz 0).2 rfl
      have hy : f x ≠ 0 := fun e => hs x (List.mem_cons_self ..) ((hz x).1 e)
      have h1 : (0 : UInt8) < f x := by
        rw [UInt8.lt_iff_toNat_lt]
        have : (f x).toNat ≠ 0 := fun e => hy (UInt8.toNat_inj.1 e)
        simp; omega
      have h2 : ¬ f x < 0 := by
        rw [UInt8.lt_iff_toNat_lt]; simp
      simp [mem, compare, h0, h1, h2]
  | x :: s, y :: t, hs, ht => by
      simp only [mem, List.cons_append, compare]
      by_cases h1 : f x < f y
      · rw [if_pos h1]
        exact ⟨.lt, rfl, fun _ => .inr ⟨[], [], x, y, s, t, rfl, rfl, rfl, UInt8.lt_iff_toNat_lt.1 h1⟩, nofun, nofun⟩
      rw [if_neg h1]
      by_cases h2 : f y < f x
      · rw [if_pos h2]
        exact ⟨.gt, rfl, nofun, fun _ => .inr ⟨[], [], y, x, t, s, rfl, rfl, rfl, UInt8.lt_iff_toNat_lt.1 h2⟩, nofun⟩
      rw [if_neg h2]
      have e : f x = f y := by
        rw [UInt8.lt_iff_toNat_lt] at h1 h2
        exact UInt8.toNat_inj.1 (by omega)
      have hx : f x ≠ 0 := fun e => hs x (List.mem_cons_self ..) ((hz x).1 e)
      rw [if_neg hx]
      have lift : ∀ {u v : UInt8} {a b : Bytes}, f u = f v → Before f a b → Before f (u :: a) (v :: b) := by
        intro u v a b e h
        rcases h with ⟨a1, b1, y, d, h1, h2, h3⟩ | ⟨a1, b1, x, y, c, d, h1, h2, h3, h4⟩
        · exact .inl ⟨u :: a1, v :: b1, y, d, by rw [h1], by rw [h2]; rfl, by simp [e, h3]⟩
        · exact .inr ⟨u :: a1, v :: b1, x, y, c, d, by rw [h1]; rfl, by rw [h2]; rfl, by simp [e, h3], h4⟩
      obtain ⟨o, c0, c1, c2, c3⟩ := compare_ok hz s t (fun c hc => hs c (List.mem_cons_of_mem _ hc))
        (fun c hc => ht c (List.mem_cons_of_mem _ hc))
      refine ⟨o, c0, fun h => lift e (c1 h), fun h => lift e.symm (c2 h), fun h => ?_⟩
      simp [e, c3 h]

theorem before_irrefl {f : UInt8 → UInt8} {s t : Bytes} (e : s.map f = t.map f) : ¬ Before f s t := by
  rintro (⟨a, b, y, d, rfl, rfl, h⟩ | ⟨a, b, x, y, c, d, rfl, rfl, h, hlt⟩)
  · have := congrArg List.length e
    have := congrArg List.length h
    simp at *
    omega
  · simp only [List.map_append, List.map_cons, h] at e
    have := List.append_cancel_left e
    injection this with e1 _
    rw [e1] at hlt
    exact Nat.lt_irrefl _ hlt

theorem before_head {f : UInt8 → UInt8} {u v : UInt8} {a b : Bytes} (h : Before f (u :: a) (v :: b)) :
    (f u).toNat < (f v).toNat ∨ (f u = f v ∧ Before f a b) := by
  rcases h with ⟨a1, b1, z, d, e1, e2, e3⟩ | ⟨a1, b1, p, q, c, d, e1, e2, e3, e4⟩
  · subst e1
    cases b1 with
    | nil => exact absurd e3 (by simp)
    | cons w b1 =>
        simp only [List.map_cons] at e3
        injection e3 with e3 e3'
        injection e2 with e2 e2'
        subst e2
        exact .inr ⟨e3, .inl ⟨a, b1, z, d, rfl, e2', e3'⟩⟩
  · cases a1 with
    | nil =>
        cases b1 with
        | nil =>
            injection e1 with e1 _
            injection e2 with e2 _
            subst e1; subst e2
            exact .inl e4
        | cons _ _ => exact absurd e3 (by simp)
    | cons u1 a1 =>
        cases b1 with
        | nil => exact absurd e3 (by simp)
        | cons w b1 =>
            simp only [List.map_cons] at e3
            injection e3 with e3 e3'
            injection e1 with e1 e1'
            injection e2 with e2 e2'
            subst e1; subst e2
            exact .inr ⟨e3, .inr ⟨a1, b1, p, q, c, d, e1', e2', e3', e4⟩⟩

theorem before_lift {f : UInt8 → UInt8} {u v : UInt8} {a b : Bytes} (e : f u = f v) (h : Before f a b) :
    Before f (u :: a) (v :: b) := by
  rcases h with ⟨a1, b1, y, d, h1, h2, h3⟩ | ⟨a1, b1, x, y, c, d, h1, h2, h3, h4⟩
  · exact .inl ⟨u :: a1, v :: b1, y, d, by rw [h1], by rw [h2]; rfl, by simp [e, h3]⟩
  · exact .inr ⟨u :: a1, v :: b1, x, y, c, d, by rw [h1]; rfl, by rw [h2]; rfl, by simp [e, h3], h4⟩

theorem before_nil {f : UInt8 → UInt8} {a : Bytes} : ¬ Before f a [] := by
  rintro (⟨a, b, y, d, _, e, _⟩ | ⟨a, b, x, y, c, d, _, e, _, _⟩)
  · exact absurd e (by simp)
  · exact absurd e (by simp)

theorem before_trans {f : UInt8 → UInt8} : ∀ {s t u : Bytes}, Before f s t → Before f t u → Before f s u
  | _, [], _, h, _ => absurd h before_nil
  | _, _, [], _, h => absurd h before_nil
  | [], _ :: _, v :: u, _, _ => .inl ⟨[], [], v, u, rfl, rfl, rfl⟩
  | x :: s, y :: t, z :: u, h1, h2 => by
      have small : ∀ {p q : UInt8} {a b : Bytes}, (f p).toNat < (f q).toNat → Before f (p :: a) (q :: b) :=
        fun {p q a b} h => .inr ⟨[], [], p, q, a, b, rfl, rfl, rfl, h⟩
      rcases before_head h1 with a | ⟨a, a'⟩ <;> rcases before_head h2 with b | ⟨b, b'⟩
      · exact small (by omega)
      · exact small (by rw [← b]; exact a)
      · exact small (by rw [a]; exact b)
      · exact before_lift (a.trans b) (before_trans a' b')

theorem before_asymm {f : UInt8 → UInt8} {s t : Bytes} (h : Before f s t) : ¬ Before f t s :=
  fun h' => before_irrefl rfl (before_trans h h')

end Verif.StrFind
