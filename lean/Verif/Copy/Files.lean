/- Lemmas about copying bytes, text files and lists of dependencies. -/
import Verif.Copy.Proof

namespace Verif.Copy
open Unity (Name)

/-! ### Bytes -/

theorem take_take_drop (src : Bytes) (a n : Nat) : src.take a ++ (src.drop a).take n = src.take (a + n) := by
  rw [List.take_add]

theorem sendLoop_spec (src : Bytes) : ∀ (os : List Send) (off : Nat) (dst d : Bytes) (n : Nat) (u : Bool),
    off ≤ src.length → dst = src.take off → sendLoop src os off dst = some (d, n, u) →
    d = src.take n ∧ n ≤ src.length ∧ off ≤ n ∧
      (u = true → ∃ pre rest, os = pre ++ Send.fail true :: rest ∧ (off = n → pre = []) ∧ (pre = [] → off = n))
  | [], off, dst, d, n, u, ho, hd, h => by
      unfold sendLoop at h
      split at h
      · have h := Option.some.inj h
        injection h with h1 h2; injection h2 with h2 h3
        subst h1; subst h2; subst h3
        exact ⟨hd, ho, Nat.le_refl _, fun h => nomatch h⟩
      · exact nomatch h
  | o :: os, off, dst, d, n, u, ho, hd, h => by
      unfold sendLoop at h
      split at h
      · have h := Option.some.inj h
        injection h with h1 h2; injection h2 with h2 h3
        subst h1; subst h2; subst h3
        exact ⟨hd, ho, Nat.le_refl _, fun h => nomatch h⟩
      · split at h
        · rename_i u'
          have h := Option.some.inj h
          injection h with h1 h2; injection h2 with h2 h3
          subst h1; subst h2; subst h3
          refine ⟨hd, ho, Nat.le_refl _, fun h => ?_⟩
          subst h
          exact ⟨[], os, rfl, fun _ => rfl, fun _ => rfl⟩
        · rename_i m
          split at h
          · rename_i hm
            obtain ⟨a, b, c, e⟩ := sendLoop_spec src os (off + m) _ d n u (by omega)
              (by rw [hd, take_take_drop]) h
            refine ⟨a, b, by omega, fun hu => ?_⟩
            obtain ⟨pre, rest, e1, _, _⟩ := e hu
            exact ⟨.sent m :: pre, rest, by rw [e1]; rfl, fun h => by omega, fun h => nomatch h⟩
          · exact nomatch h

theorem readLoop_spec (src : Bytes) : ∀ (os : List Chunk) (pos : Nat) (dst d : Bytes) (n : Nat),
    pos ≤ src.length → dst = src.take pos → readLoop src os pos pos dst = some (d, n) → n = src.length → d = src
  | [], pos, dst, d, n, hp, hd, h, hn => by
      unfold readLoop at h
      split at h
      · have h := Option.some.inj h
        injection h with h1 h2
        rw [← h1, hd, h2, hn, List.take_length]
      · exact nomatch h
  | o :: os, pos, dst, d, n, hp, hd, h, hn => by
      unfold readLoop at h
      split at h
      · have h := Option.some.inj h
        injection h with h1 h2
        rw [← h1, hd, h2, hn, List.take_length]
      · rename_i hlt
        split at h
        · have h := Option.some.inj h
          injection h with h1 h2
          omega
        · rename_i r w
          split at h
          · rename_i hr
            split at h
            · have h := Option.some.inj h
              injection h with h1 h2
              omega
            · split at h
              · have h := Option.some.inj h
                injection h with h1 h2
                omega
              · rename_i hw
                have hw : w = r := Classical.not_not.1 hw
                subst hw
                exact readLoop_spec src os (pos + w) _ d n (by omega) (by rw [hd, take_take_drop]) h hn
          · exact nomatch h

/-- If `sendfile` never fails as unavailable after it has copied something, a copy that succeeds is the source. -/
theorem copyBytes_spec {src : Bytes} {sends : List Send} {chunks : List Chunk} {d : Bytes}
    (hs : ∀ pre rest, sends = pre ++ Send.fail true :: rest → pre = [])
    (h : copyBytes src sends chunks = some (d, true)) : d = src := by
  unfold copyBytes at h
  split at h
  · exact nomatch h
  · rename_i dst n hl
    obtain ⟨a, b, _, _⟩ := sendLoop_spec src sends 0 [] _ _ _ (by omega) (by simp) hl
    have h := Option.some.inj h
    injection h with h1 h2
    have hn : n = src.length := by simpa using h2
    rw [← h1, a, hn, List.take_length]
  · rename_i dst n hl
    obtain ⟨a, b, _, e⟩ := sendLoop_spec src sends 0 [] _ _ _ (by omega) (by simp) hl
    obtain ⟨pre, rest, e1, _, e2⟩ := e rfl
    have h0 : 0 = n := e2 (hs pre rest e1)
    subst h0
    split at h
    · exact nomatch h
    · rename_i dst' n' hr
      have h := Option.some.inj h
      injection h with h1 h2
      rw [← h1]
      exact readLoop_spec src chunks 0 _ _ _ (by omega) a hr (by simpa using h2)

/-! ### Lists of dependencies -/

theorem mem_filterDeps (g : Nat → Node) (wanted : Name → Bool) (x : Nat) : ∀ (ds : List Dep) (l : List Nat),
    x ∈ filterDeps g wanted l ds ↔ x ∈ l ∨
      ∃ d ∈ ds, d.weak = false ∧ d.node = x ∧ (g x).isFile = true ∧ wanted (g x).name = true
  | [], l => by simp [filterDeps]
  | d :: ds, l => by
      unfold filterDeps
      rw [mem_filterDeps g wanted x ds]
      have key : x ∈ (if d.weak || !(g d.node).isFile || l.contains d.node then l
          else if wanted (g d.node).name then l ++ [d.node] else l) ↔
          x ∈ l ∨ (d.weak = false ∧ d.node = x ∧ (g x).isFile = true ∧ wanted (g x).name = true) := by
        by_cases h1 : d.weak = true
        · simp [h1]
        · by_cases h2 : (g d.node).isFile = true
          · by_cases h3 : d.node ∈ l
            · simp [h1, h2, h3]
              rintro rfl _ _; exact h3
            · by_cases h4 : wanted (g d.node).name = true
              · simp [h1, h2, h3, h4]
                constructor
                · rintro (h | rfl)
                  · exact .inl h
                  · exact .inr ⟨rfl, h2, h4⟩
                · rintro (h | h)
                  · exact .inl h
                  · exact .inr h.1.symm
              · simp [h1, h2, h3, h4]
                rintro rfl _ h; exact absurd h h4
          · simp [h1, h2]
            rintro rfl h; exact absurd h h2
      rw [key]
      simp only [List.mem_cons, exists_eq_or_imp, or_assoc]

theorem nodup_filterDeps (g : Nat → Node) (wanted : Name → Bool) : ∀ (ds : List Dep) (l : List Nat),
    l.Nodup → (filterDeps g wanted l ds).Nodup
  | [], l, h => h
  | d :: ds, l, h => by
      unfold filterDeps
      apply nodup_filterDeps g wanted ds
      split
      · exact h
      · rename_i hc
        split
        · rw [List.nodup_append]
          refine ⟨h, by simp, fun a ha b hb => ?_⟩
          rw [List.mem_singleton.1 hb]
          rintro rfl
          simp [ha] at hc
        · exact h

theorem mem_ofDeps (g : Nat → Node) (wanted : Name → Bool) (x : Nat) : ∀ (ds : List Dep) (l : List Nat),
    x ∈ ofDeps g wanted l ds ↔ x ∈ l ∨ ∃ d ∈ ds, d.weak = false ∧
      ∃ e ∈ (g d.node).static ++ (g d.node).dynamic, e.weak = false ∧ e.node = x ∧ (g x).isFile = true ∧
        wanted (g x).name = true
  | [], l => by simp [ofDeps]
  | d :: ds, l => by
      unfold ofDeps
      rw [mem_ofDeps g wanted x ds]
      by_cases h : d.weak = true
      · simp [h]
      · rw [if_neg h, mem_filterDeps, mem_filterDeps]
        simp only [List.mem_cons, exists_eq_or_imp, List.mem_append, or_and_right, exists_or, or_assoc]
        simp only [Bool.not_eq_true] at h
        simp [h, or_assoc]

theorem nodup_ofDeps (g : Nat → Node) (wanted : Name → Bool) : ∀ (ds : List Dep) (l : List Nat),
    l.Nodup → (ofDeps g wanted l ds).Nodup
  | [], l, h => h
  | d :: ds, l, h => by
      unfold ofDeps
      apply nodup_ofDeps g wanted ds
      split
      · exact h
      · exact nodup_filterDeps _ _ _ _ (nodup_filterDeps _ _ _ _ h)

theorem mem_ofSources (g : Nat → Node) (wanted : Name → Bool) (x : Nat) : ∀ (ss : List Dep) (l : List Nat),
    x ∈ ofSources g wanted l ss ↔ x ∈ l ∨ (Below g ss x ∧ wanted (g x).name = true)
  | [], l => by simp [ofSources, Below]
  | s :: ss, l => by
      unfold ofSources
      rw [mem_ofSources g wanted x ss]
      have hB : (Below g (s :: ss) x ∧ wanted (g x).name = true) ↔
          (s.weak = false ∧ ∃ d ∈ (g s.node).static ++ (g s.node).dynamic, d.weak = false ∧
            ∃ e ∈ (g d.node).static ++ (g d.node).dynamic, e.weak = false ∧ e.node = x ∧ (g x).isFile = true ∧
              wanted (g x).name = true) ∨ (Below g ss x ∧ wanted (g x).name = true) := by
        unfold Below
        constructor
        · rintro ⟨⟨t, ht, h1, d, hd, h2, e, he, h3, h4, h5⟩, hw⟩
          rcases List.mem_cons.1 ht with rfl | ht
          · exact .inl ⟨h1, d, hd, h2, e, he, h3, h4, h5, hw⟩
          · exact .inr ⟨⟨t, ht, h1, d, hd, h2, e, he, h3, h4, h5⟩, hw⟩
        · rintro (⟨h1, d, hd, h2, e, he, h3, h4, h5, hw⟩ | ⟨⟨t, ht, h⟩, hw⟩)
          · exact ⟨⟨s, .head _, h1, d, hd, h2, e, he, h3, h4, h5⟩, hw⟩
          · exact ⟨⟨t, .tail _ ht, h⟩, hw⟩
      rw [hB]
      by_cases h : s.weak = true
      · simp [h]
      · rw [if_neg h, mem_ofDeps, mem_ofDeps]
        simp only [Bool.not_eq_true] at h
        simp only [h, true_and, List.mem_append (s := (g s.node).static), or_and_right, exists_or, or_assoc]

theorem nodup_ofSources (g : Nat → Node) (wanted : Name → Bool) : ∀ (ss : List Dep) (l : List Nat),
    l.Nodup → (ofSources g wanted l ss).Nodup
  | [], l, h => h
  | d :: ds, l, h => by
      unfold ofSources
      apply nodup_ofSources g wanted ds
      split
      · exact h
      · exact nodup_ofDeps _ _ _ _ (nodup_ofDeps _ _ _ _ h)

theorem mem_unrepeat (x : Name) : ∀ (l : List Name) (p : Option Name),
    (x ∈ unrepeat p l → x ∈ l) ∧ (x ∈ l → x ∈ unrepeat p l ∨ p = some x)
  | [], p => by simp [unrepeat]
  | n :: ns, p => by
      unfold unrepeat
      split
      · rename_i hp
        have ih := mem_unrepeat x ns p
        refine ⟨fun h => .tail _ (ih.1 h), fun h => ?_⟩
        rcases List.mem_cons.1 h with rfl | h
        · exact .inr hp
        · exact ih.2 h
      · have ih := mem_unrepeat x ns (some n)
        refine ⟨fun h => ?_, fun h => ?_⟩
        · rcases List.mem_cons.1 h with rfl | h
          · exact .head _
          · exact .tail _ (ih.1 h)
        · rcases List.mem_cons.1 h with rfl | h
          · exact .inl (.head _)
          · rcases ih.2 h with h | h
            · exact .inl (.tail _ h)
            · injection h with h; subst h; exact .inl (.head _)

/-- Of a list in order, `unrepeat` leaves each entry once. -/
theorem unrepeat_sorted (le : Name → Name → Prop) : ∀ (l : List Name) (p : Option Name),
    (∀ a ∈ p.toList ++ l, ∀ b ∈ p.toList ++ l, le a b → le b a → a = b) →
    l.Pairwise le → (∀ q, p = some q → ∀ a ∈ l, le q a) →
    (unrepeat p l).Pairwise (fun a b => le a b ∧ a ≠ b) ∧
      ∀ q, p = some q → ∀ a ∈ unrepeat p l, le q a ∧ q ≠ a
  | [], p, _, _, _ => by simp [unrepeat]
  | n :: ns, p, ha, hs, hp => by
      rw [List.pairwise_cons] at hs
      unfold unrepeat
      split
      · rename_i hpn
        refine unrepeat_sorted le ns p (fun a h1 b h2 => ha a ?_ b ?_) hs.2 fun q hq a h => hp q hq a (.tail _ h)
        · rcases List.mem_append.1 h1 with h | h
          · exact List.mem_append_left _ h
          · exact List.mem_append_right _ (.tail _ h)
        · rcases List.mem_append.1 h2 with h | h
          · exact List.mem_append_left _ h
          · exact List.mem_append_right _ (.tail _ h)
      · rename_i hpn
        obtain ⟨h1, h2⟩ := unrepeat_sorted le ns (some n)
          (fun a h1 b h2 => ha a (List.mem_append_right _ (by simpa using h1)) b
            (List.mem_append_right _ (by simpa using h2))) hs.2
          (fun q hq a h => by injection hq with hq; subst hq; exact hs.1 a h)
        refine ⟨List.pairwise_cons.2 ⟨fun a h => h2 n rfl a h, h1⟩, fun q hq a h => ?_⟩
        subst hq
        have hqn : q ≠ n := fun h => hpn (by rw [h])
        rcases List.mem_cons.1 h with rfl | h
        · exact ⟨hp q rfl _ (.head _), hqn⟩
        · have hm := (mem_unrepeat a ns (some n)).1 h
          refine ⟨hp q rfl a (.tail _ hm), ?_⟩
          rintro rfl
          exact hqn (ha q (List.mem_append_left _ (by simp)) n (List.mem_append_right _ (.head _))
            (hp q rfl n (.head _)) (hs.1 q hm))

/-! ### Text -/

theorem split_at_newline {a b x y : Name} (ha : '\n' ∉ a) (hb : '\n' ∉ b) (h : a ++ '\n' :: x = b ++ '\n' :: y) :
    a = b ∧ x = y := by
  induction a generalizing b with
  | nil =>
      cases b with
      | nil => simpa using h
      | cons c b => simp at h; exact absurd (h.1 ▸ .head _) hb
  | cons c a ih =>
      cases b with
      | nil => simp at h; exact absurd (h.1 ▸ .head _) ha
      | cons d b =>
          simp at h
          obtain ⟨h1, h2⟩ := ih (fun h => ha (.tail _ h)) (fun h => hb (.tail _ h)) h.2
          exact ⟨by rw [h.1, h1], h2⟩

end Verif.Copy
