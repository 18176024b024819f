/- Lemmas about the function `Copy`. -/
import Verif.Copy.Spec
import Verif.Dirs.Lists

namespace Verif.Copy
open Unity (Name)

theorem key_iff (a b : Name) : Dirs.key a = Dirs.key b ↔ Dirs.Same false a b := by
  have : (Dirs.fold false) = Unity.lower := by
    funext c; simp [Dirs.fold, Unity.lower]
  simp [Dirs.key, Dirs.Same, this]

theorem lookup_some {g : Graph} {n : Name} {i : Nat} (h : lookup g n = some i) : Called g i n := by
  rw [lookup, List.findIdx?_eq_some_iff_getElem] at h
  obtain ⟨hi, h, _⟩ := h
  exact ⟨g[i].1, g[i].2, by simp [hi], (key_iff _ _).1 (by simpa using h)⟩

theorem lookup_none {g : Graph} {n : Name} (h : lookup g n = none) (i : Nat) : ¬ Called g i n := by
  rintro ⟨m, k, hi, hs⟩
  rw [lookup, List.findIdx?_eq_none_iff] at h
  have := h (m, k) (List.mem_of_getElem? hi)
  simp [(key_iff _ _).2 hs] at this

theorem find_some {clean : Name → Name} {g : Graph} {n : Name} {i : Nat} (h : find clean g n = some i) :
    Called g i n ∨ ((∀ j, ¬ Called g j n) ∧ Called g i (clean n)) := by
  unfold find at h
  cases hl : lookup g n with
  | some j => rw [hl] at h; simp at h; exact .inl (h ▸ lookup_some hl)
  | none => rw [hl] at h; exact .inr ⟨lookup_none hl, lookup_some (by simpa using h)⟩

theorem find_none {clean : Name → Name} {g : Graph} {n : Name} (h : find clean g n = none) (i : Nat) :
    ¬ Called g i n ∧ ¬ Called g i (clean n) := by
  unfold find at h
  cases hl : lookup g n with
  | some j => rw [hl] at h; simp at h
  | none => rw [hl] at h; exact ⟨lookup_none hl i, lookup_none (by simpa using h) i⟩

theorem isFolder_iff (p : Name) : isFolder p = true ↔ Folder p := by
  unfold isFolder Folder
  constructor
  · intro h
    split at h
    · rename_i c hc
      obtain ⟨q, rfl⟩ := List.getLast?_eq_some_iff.1 hc
      exact ⟨q, c, rfl, by simpa using h⟩
    · exact nomatch h
  · rintro ⟨q, c, rfl, h⟩
    simpa using h

theorem Called.lt {g : Graph} {i : Nat} {n : Name} (h : Called g i n) : i < g.length := by
  obtain ⟨m, k, h, _⟩ := h
  exact (List.getElem?_eq_some_iff.1 h).1

theorem get_append {g : Graph} {i : Nat} {e} (x : Graph) (h : g[i]? = some e) : (g ++ x)[i]? = some e := by
  rw [List.getElem?_append_left (List.getElem?_eq_some_iff.1 h).1]; exact h

theorem Called.append {g : Graph} {i : Nat} {n : Name} (h : Called g i n) (x : Graph) : Called (g ++ x) i n := by
  obtain ⟨m, k, h, hs⟩ := h
  exact ⟨m, k, get_append x h, hs⟩

theorem Called.back {g : Graph} {i : Nat} {n : Name} {e : Name × Kind} (h : Called (g ++ [e]) i n) :
    Called g i n ∨ (i = g.length ∧ Dirs.Same false e.1 n) := by
  obtain ⟨m, k, h, hs⟩ := h
  by_cases hi : i < g.length
  · rw [List.getElem?_append_left hi] at h
    exact .inl ⟨m, k, h, hs⟩
  · rw [List.getElem?_append_right (by omega)] at h
    have h' := (List.getElem?_eq_some_iff.1 h).1
    simp at h'
    have : i - g.length = 0 := by omega
    rw [this] at h
    simp at h
    exact .inr ⟨by omega, by rw [h]; exact hs⟩

theorem Same.symm {l : Bool} {a b : Name} (h : Dirs.Same l a b) : Dirs.Same l b a := Eq.symm h
theorem Same.trans {l : Bool} {a b c : Name} (h : Dirs.Same l a b) (h' : Dirs.Same l b c) : Dirs.Same l a c :=
  Eq.trans h h'

theorem Called.same {g : Graph} {i : Nat} {n m : Name} (h : Called g i n) (hs : Dirs.Same false m n) :
    Called g i m := by
  obtain ⟨a, k, h, h'⟩ := h
  exact ⟨a, k, h, Same.trans h' (Same.symm hs)⟩

/-- A node with a new name that is no alias. -/
theorem WF.add {g : Graph} (w : WF g) {n : Name} {k : Kind} (hn : ∀ i, ¬ Called g i n)
    (hk : ∀ ts, k ≠ .alias ts) : WF (g ++ [(n, k)]) := by
  refine ⟨fun i j m hi hj => ?_, fun i m ts hi => ?_⟩
  · rcases hi.back with hi | ⟨hi, si⟩ <;> rcases hj.back with hj | ⟨hj, sj⟩
    · exact w.names i j m hi hj
    · exact absurd (hi.same sj) (hn i)
    · exact absurd (hj.same si) (hn j)
    · omega
  · by_cases h : i < g.length
    · rw [List.getElem?_append_left h] at hi
      exact w.before i m ts hi
    · rw [List.getElem?_append_right (by omega)] at hi
      have h' := (List.getElem?_eq_some_iff.1 hi).1
      simp at h'
      have : i - g.length = 0 := by omega
      rw [this] at hi
      simp at hi
      exact absurd hi.2 (hk ts)

theorem Files.append {g : Graph} (x : Graph) {i : Nat} {l : List Nat} (h : Files g i l) : Files (g ++ x) i l := by
  induction h with
  | file h hk => exact .file (get_append x h) hk
  | alias ls h hl _ ih => exact .alias ls (get_append x h) hl ih

/-! ### Aliases -/

theorem concat_ok {α : Type} {f : α → Except Err (List Nat)} : ∀ {xs : List α} {l : List Nat},
    concat f xs = .ok l → ∃ ls : List (List Nat), l = ls.flatten ∧ ls.length = xs.length ∧
      ∀ (k : Nat) (x : α) (m : List Nat), xs[k]? = some x → ls[k]? = some m → f x = .ok m
  | [], l, h => ⟨[], by simpa [concat] using h.symm, rfl, by simp⟩
  | x :: xs, l, h => by
      unfold concat at h
      cases hf : f x with
      | error e => rw [hf] at h; exact nomatch h
      | ok a =>
          rw [hf] at h
          cases hc : concat f xs with
          | error e => rw [hc] at h; exact nomatch h
          | ok b =>
              rw [hc] at h
              obtain ⟨ls, e1, e2, e3⟩ := concat_ok hc
              refine ⟨a :: ls, ?_, by simp [e2], ?_⟩
              · rw [List.flatten_cons, ← e1]; exact (Except.ok.inj h).symm
              · intro k y m hy hm
                cases k with
                | zero => simp at hy hm; rw [← hy, ← hm]; exact hf
                | succ k => exact e3 k y m (by simpa using hy) (by simpa using hm)

theorem concat_error {α : Type} {f : α → Except Err (List Nat)} : ∀ {xs : List α} {e : Err},
    concat f xs = .error e → ∃ x ∈ xs, f x = .error e
  | [], e, h => nomatch h
  | x :: xs, e, h => by
      unfold concat at h
      cases hf : f x with
      | error e' => rw [hf] at h; exact ⟨x, .head _, by rw [hf, Except.error.inj h]⟩
      | ok a =>
          rw [hf] at h
          cases hc : concat f xs with
          | error e' =>
              rw [hc] at h
              obtain ⟨y, hy, h'⟩ := concat_error hc
              exact ⟨y, .tail _ hy, by rw [h', Except.error.inj h]⟩
          | ok b => rw [hc] at h; exact nomatch h

theorem resolve_ok {g : Graph} : ∀ {fuel i : Nat} {l : List Nat}, resolve g fuel i = .ok l → Files g i l
  | 0, i, l, h => nomatch h
  | fuel + 1, i, l, h => by
      unfold resolve at h
      split at h
      · rename_i n ts hg
        obtain ⟨ls, e1, e2, e3⟩ := concat_ok h
        rw [e1]
        exact .alias ls hg e2 fun k t m ht hm => resolve_ok (e3 k t m ht hm)
      · rename_i n k _ hg
        split at h
        · rename_i hk
          rw [← Except.ok.inj h]
          exact .file hg hk
        · exact nomatch h
      · exact nomatch h

theorem resolve_error {g : Graph} (w : WF g) : ∀ {fuel i : Nat} {e : Err}, i < g.length → i < fuel →
    resolve g fuel i = .error e →
    e = .unsupported ∧ ∃ j n, Reach g i j ∧ g[j]? = some (n, .other false)
  | 0, i, e, _, hf, h => absurd hf (by omega)
  | fuel + 1, i, e, hi, hf, h => by
      unfold resolve at h
      split at h
      · rename_i n ts hg
        obtain ⟨t, ht, h⟩ := concat_error h
        have := w.before i n ts hg t ht
        obtain ⟨he, j, m, hr, hj⟩ := resolve_error w (by omega) (by omega) h
        exact ⟨he, j, m, .step hg ht hr, hj⟩
      · rename_i n k hna hg
        split at h
        · exact nomatch h
        · rename_i hk
          refine ⟨(Except.error.inj h).symm, i, n, .refl, ?_⟩
          rw [hg]
          cases k with
          | file => exact absurd rfl hk
          | copy _ => exact absurd rfl hk
          | alias ts => exact (hna ts rfl).elim
          | other b => cases b <;> first | rfl | exact absurd rfl hk
      · rename_i hg
        rw [List.getElem?_eq_none_iff] at hg
        omega

theorem Files.lt {g : Graph} {i : Nat} {l : List Nat} (h : Files g i l) : ∀ x ∈ l, ∃ n k, g[x]? = some (n, k) ∧ k.isAFile = true := by
  induction h with
  | file h hk => intro x hx; rw [List.mem_singleton.1 hx]; exact ⟨_, _, h, hk⟩
  | alias ls h hl _ ih =>
      intro x hx
      obtain ⟨l, hl', hx⟩ := List.mem_flatten.1 hx
      obtain ⟨k, hk⟩ := List.mem_iff_getElem?.1 hl'
      have : k < ls.length := (List.getElem?_eq_some_iff.1 hk).1
      exact ih k _ l (List.getElem?_eq_getElem (by omega)) hk x hx

/-! ### Sources -/

theorem sources_ok {clean : Name → Name} : ∀ {srcs : List Name} {g g' : Graph} {ns : List Nat}, WF g →
    sources clean g srcs = .ok (g', ns) → WF g' ∧ SourcesAre clean g g' srcs ns
  | [], g, g', ns, w, h => by
      have h := Except.ok.inj h
      have h1 : g = g' := congrArg Prod.fst h
      have h2 : [] = ns := congrArg Prod.snd h
      subst h1; subst h2
      exact ⟨w, ⟨[], by simp, by simp⟩, [], [], rfl, rfl, rfl, by simp⟩
  | s :: ss, g, g', ns, w, h => by
      unfold sources at h
      split at h
      · rename_i i hi
        split at h
        · exact nomatch h
        · rename_i a ha
          split at h
          · exact nomatch h
          · rename_i g2 b hb
            have h := Except.ok.inj h
            have h1 : g2 = g' := congrArg Prod.fst h
            have h2 : a ++ b = ns := congrArg Prod.snd h
            subst h1; subst h2
            obtain ⟨w', ⟨new, e1, e2⟩, js, ls, j1, j2, j3, j4⟩ := sources_ok w hb
            refine ⟨w', ⟨new, e1, fun e he => ?_⟩, i :: js, a :: ls, by simp [j1], by simp [j2], by simp [j3], ?_⟩
            · obtain ⟨p, t, ht, q⟩ := e2 e he
              exact ⟨p, t, .tail _ ht, q⟩
            · intro k j t l hk hj hl
              cases k with
              | zero =>
                  simp at hk hj hl
                  subst hk; subst hj; subst hl
                  rw [e1]
                  refine ⟨(resolve_ok ha).append _, ?_⟩
                  rcases find_some hi with h | ⟨h, h'⟩
                  · exact .inl (h.append _)
                  · exact .inr ⟨h, h'.append _⟩
              | succ k => exact j4 k j t l (by simpa using hk) (by simpa using hj) (by simpa using hl)
      · rename_i hi
        split at h
        · exact nomatch h
        · rename_i g2 b hb
          have h := Except.ok.inj h
          have h1 : g2 = g' := congrArg Prod.fst h
          have h2 : g.length :: b = ns := congrArg Prod.snd h
          subst h1; subst h2
          have w1 : WF (g ++ [(clean s, .file)]) := w.add (fun i => (find_none hi i).2) (by simp)
          obtain ⟨w', ⟨new, e1, e2⟩, js, ls, j1, j2, j3, j4⟩ := sources_ok w1 hb
          have hget : (g ++ [(clean s, Kind.file)])[g.length]? = some (clean s, .file) := by simp
          refine ⟨w', ⟨(clean s, .file) :: new, by simp [e1], fun e he => ?_⟩, g.length :: js, [g.length] :: ls,
            by simp [j1], by simp [j2], by simp [j3], ?_⟩
          · rcases List.mem_cons.1 he with rfl | he
            · exact ⟨rfl, s, .head _, rfl⟩
            · obtain ⟨p, t, ht, q⟩ := e2 e he
              exact ⟨p, t, .tail _ ht, q⟩
          · intro k j t l hk hj hl
            cases k with
            | zero =>
                simp at hk hj hl
                subst hk; subst hj; subst hl
                rw [e1]
                exact ⟨(Files.file hget rfl).append _, .inr ⟨fun i => (find_none hi i).1,
                  clean s, .file, get_append _ hget, rfl⟩⟩
            | succ k =>
                obtain ⟨p, q⟩ := j4 k j t l (by simpa using hk) (by simpa using hj) (by simpa using hl)
                refine ⟨p, q.imp id fun q => ⟨fun i hi => q.1 i (hi.append _), q.2⟩⟩

theorem Reach.back {g : Graph} {n : Name} {k : Kind} (w : WF g) {i j : Nat}
    (h : Reach (g ++ [(n, k)]) i j) (hi : i < g.length) : Reach g i j := by
  induction h with
  | refl => exact .refl
  | step hg ht _ ih =>
      rw [List.getElem?_append_left hi] at hg
      have := w.before _ _ _ hg _ ht
      exact .step hg ht (ih (by omega))

theorem Reach.le {g : Graph} (w : WF g) {i j : Nat} (h : Reach g i j) : j ≤ i := by
  induction h with
  | refl => exact Nat.le_refl _
  | step hg ht _ ih =>
      have := w.before _ _ _ hg _ ht
      omega

theorem sources_error {clean : Name → Name} : ∀ {srcs : List Name} {g : Graph} {e : Err}, WF g →
    sources clean g srcs = .error e → e = .unsupported ∧ ∃ s ∈ srcs, ∃ i j n,
      (Called g i s ∨ Called g i (clean s)) ∧ Reach g i j ∧ g[j]? = some (n, .other false)
  | [], g, e, w, h => nomatch h
  | s :: ss, g, e, w, h => by
      unfold sources at h
      split at h
      · rename_i i hi
        have hc : Called g i s ∨ Called g i (clean s) := (find_some hi).imp id And.right
        have hlt : i < g.length := hc.elim Called.lt Called.lt
        split at h
        · rename_i e' he
          obtain ⟨p, j, n, q⟩ := resolve_error w hlt hlt he
          rw [← Except.error.inj h]
          exact ⟨p, s, .head _, i, j, n, hc, q⟩
        · split at h
          · rename_i e' he
            obtain ⟨p, t, ht, q⟩ := sources_error w he
            rw [← Except.error.inj h]
            exact ⟨p, t, .tail _ ht, q⟩
          · exact nomatch h
      · rename_i hi
        split at h
        · rename_i e' he
          have w1 : WF (g ++ [(clean s, .file)]) := w.add (fun i => (find_none hi i).2) (by simp)
          obtain ⟨p, t, ht, i, j, n, q1, q2, q3⟩ := sources_error w1 he
          rw [← Except.error.inj h]
          have hj : j < g.length := by
            have h' := (List.getElem?_eq_some_iff.1 q3).1
            simp at h'
            by_cases hj : j < g.length
            · exact hj
            · have : j = g.length := by omega
              rw [this] at q3
              simp at q3
          have hi' : i < g.length := by
            by_cases hi' : i < g.length
            · exact hi'
            · cases q2 with
              | refl => exact hj
              | step hg ht' hr =>
                  have h' := (List.getElem?_eq_some_iff.1 hg).1
                  simp at h'
                  have : i = g.length := by omega
                  rw [this] at hg
                  simp at hg
          refine ⟨p, t, .tail _ ht, i, j, n, ?_, q2.back w hi', ?_⟩
          · exact q1.imp (fun h => h.back.resolve_right fun h => by omega) (fun h => h.back.resolve_right fun h => by omega)
          · rw [List.getElem?_append_left hj] at q3; exact q3
        · exact nomatch h

/-! ### Destinations -/

theorem fileName_spec (sl : Char) (s : Name) :
    sl ∉ (s.reverse.takeWhile (· ≠ sl)).reverse ∧
    (s = (s.reverse.takeWhile (· ≠ sl)).reverse ∨ ∃ d, s = d ++ sl :: (s.reverse.takeWhile (· ≠ sl)).reverse) := by
  refine ⟨?_, ?_⟩
  · intro h
    rw [List.mem_reverse] at h
    have := List.all_takeWhile (l := s.reverse) (p := (· ≠ sl))
    rw [List.all_eq_true] at this
    simpa using this sl h
  · have e := List.takeWhile_append_dropWhile (p := (· ≠ sl)) (l := s.reverse)
    have e' : s = (s.reverse.dropWhile (· ≠ sl)).reverse ++ (s.reverse.takeWhile (· ≠ sl)).reverse := by
      have := congrArg List.reverse e
      rw [List.reverse_append, List.reverse_reverse] at this
      exact this.symm
    cases hd : s.reverse.dropWhile (· ≠ sl) with
    | nil => rw [hd] at e'; left; simpa using e'
    | cons c t =>
        right
        have hc : c = sl := by
          have := List.head?_dropWhile_not (p := (· ≠ sl)) (l := s.reverse)
          rw [hd] at this
          simpa using this
        rw [hd, hc] at e'
        refine ⟨t.reverse, ?_⟩
        simpa using e'

theorem destOf_spec (linux : Bool) (sl : Char) (dest base src : Name) :
    DestIs linux sl dest base src (destOf linux sl dest base src) := by
  unfold destOf
  by_cases hf : isFolder dest = true
  · rw [if_pos hf]
    refine .inr ⟨(isFolder_iff _).1 hf, _, rfl, ?_⟩
    unfold tailName
    by_cases hb : (!base.isEmpty && Dirs.beginsWith linux src base) = true
    · rw [if_pos hb]
      rw [Bool.and_eq_true] at hb
      refine .inl ⟨by intro h; rw [h] at hb; simp at hb, src.take base.length, by simp, ?_⟩
      have := hb.2
      unfold Dirs.beginsWith at this
      rw [Bool.and_eq_true] at this
      exact (Dirs.sameChars_iff _ _ _).1 this.2
    · rw [if_neg hb]
      refine .inr ⟨?_, fileName_spec sl src⟩
      rw [Bool.and_eq_true] at hb
      by_cases h0 : base = []
      · exact .inl h0
      · exact .inr fun h => hb ⟨by simp [h0], (Dirs.beginsWith_iff _ _ _).2 h⟩
  · rw [if_neg hf]
    exact .inl ⟨fun h => hf ((isFolder_iff _).2 h), rfl⟩

/-- What is said about copies that were made. -/
theorem copies_ok {clean : Name → Name} {linux : Bool} {sl : Char} {dest base : Name} :
    ∀ {ns : List Nat} {g g' : Graph} {cs : List Nat}, WF g → copies clean linux sl dest base g ns = .ok (g', cs) →
    WF g' ∧ ∃ new, g' = g ++ new ∧ new.length = ns.length ∧ cs = List.range' g.length ns.length ∧
      ∀ (k i : Nat) (src : Name) (kd : Kind), ns[k]? = some i → g[i]? = some (src, kd) →
        new[k]? = some (clean (destOf linux sl dest base src), .copy i)
  | [], g, g', cs, w, h => by
      have h := Except.ok.inj h
      have h1 : g = g' := congrArg Prod.fst h
      have h2 : [] = cs := congrArg Prod.snd h
      subst h1; subst h2
      exact ⟨w, [], by simp, rfl, rfl, by simp⟩
  | i :: is, g, g', cs, w, h => by
      unfold copies at h
      split at h
      · exact nomatch h
      · rename_i src kd hs
        dsimp only at h
        split at h
        · exact nomatch h
        · rename_i hf
          split at h
          · exact nomatch h
          · rename_i g2 b hb
            have h := Except.ok.inj h
            have h1 : g2 = g' := congrArg Prod.fst h
            have h2 : g.length :: b = cs := congrArg Prod.snd h
            subst h1; subst h2
            have w1 := w.add (k := .copy i) (fun j => (find_none hf j).2) (by simp)
            obtain ⟨w', new, e1, e2, e3, e4⟩ := copies_ok w1 hb
            refine ⟨w', _ :: new, by rw [e1]; simp; rfl, by simp [e2], ?_, ?_⟩
            · rw [e3]; simp [List.range'_succ]
            · intro k j s kd' hk hj
              cases k with
              | zero =>
                  simp at hk
                  subst hk
                  rw [hs] at hj
                  have : src = s := congrArg Prod.fst (Option.some.inj hj)
                  rw [← this]; rfl
              | succ k => exact e4 k j s kd' (by simpa using hk) (get_append _ hj)

theorem copies_error {clean : Name → Name} {linux : Bool} {sl : Char} {dest base : Name} :
    ∀ {ns : List Nat} {g : Graph} {e : Err}, (∀ i ∈ ns, i < g.length) →
    copies clean linux sl dest base g ns = .error e → e = .defined ∧
      ∃ (k i : Nat) (src : Name) (kd : Kind), ns[k]? = some i ∧ g[i]? = some (src, kd) ∧
        ((∃ j, Called g j (destOf linux sl dest base src) ∨ Called g j (clean (destOf linux sl dest base src))) ∨
         ∃ (k' i' : Nat) (src' : Name) (kd' : Kind), k' < k ∧ ns[k']? = some i' ∧ g[i']? = some (src', kd') ∧
           (Dirs.Same false (clean (destOf linux sl dest base src')) (destOf linux sl dest base src) ∨
            Dirs.Same false (clean (destOf linux sl dest base src')) (clean (destOf linux sl dest base src))))
  | [], g, e, _, h => nomatch h
  | i :: is, g, e, hn, h => by
      have hi := hn i (.head _)
      unfold copies at h
      split at h
      · rename_i hs
        rw [List.getElem?_eq_none_iff] at hs
        omega
      · rename_i src kd hs
        dsimp only at h
        split at h
        · rename_i j hj
          refine ⟨(Except.error.inj h).symm, 0, i, src, kd, rfl, hs, .inl ⟨j, (find_some hj).imp id And.right⟩⟩
        · rename_i hf
          split at h
          · rename_i e' he
            obtain ⟨p, k, a, s, kd', h1, h2, h3⟩ := copies_error
              (fun a ha => by have := hn a (.tail _ ha); simp; omega) he
            rw [← Except.error.inj h]
            have hb : ∀ {k a : Nat} {x : Name × Kind}, is[k]? = some a →
                (g ++ [(clean (destOf linux sl dest base src), Kind.copy i)])[a]? = some x → g[a]? = some x := by
              intro k a x h1 h2
              have := hn a (.tail _ (List.mem_of_getElem? h1))
              rwa [List.getElem?_append_left this] at h2
            refine ⟨p, k + 1, a, s, kd', by simpa using h1, hb h1 h2, ?_⟩
            rcases h3 with ⟨j, h3⟩ | ⟨k', i', s', kd2, q1, q2, q3, q4⟩
            · have : ∀ n, Called (g ++ [(clean (destOf linux sl dest base src), Kind.copy i)]) j n →
                  Called g j n ∨ Dirs.Same false (clean (destOf linux sl dest base src)) n :=
                fun n hc => hc.back.imp id And.right
              rcases h3 with h3 | h3 <;> rcases this _ h3 with h | h
              · exact .inl ⟨j, .inl h⟩
              · exact .inr ⟨0, i, src, kd, by omega, rfl, hs, .inl h⟩
              · exact .inl ⟨j, .inr h⟩
              · exact .inr ⟨0, i, src, kd, by omega, rfl, hs, .inr h⟩
            · exact .inr ⟨k' + 1, i', s', kd2, by omega, by simpa using q2, hb q2 q3, q4⟩
          · exact nomatch h

end Verif.Copy
