import Verif.Family.Spec
namespace Verif.Family

theorem toNat_inj {a b : Char} (h : a.toNat = b.toNat) : a = b := by
  rw [← Char.ofNat_toNat a, ← Char.ofNat_toNat b, h]

theorem le_iff (a b : Char) : a ≤ b ↔ a.toNat ≤ b.toNat := Iff.rfl

theorem toNat_lower (c : Char) : (lower c).toNat = if 65 ≤ c.toNat ∧ c.toNat ≤ 90 then c.toNat + 32 else c.toNat := by
  have ha : ('A' ≤ c) ↔ 65 ≤ c.toNat := le_iff _ _
  have hz : (c ≤ 'Z') ↔ c.toNat ≤ 90 := le_iff _ _
  rw [lower]
  simp only [ha, hz]
  have key : ∀ k, k < 91 → 65 ≤ k → (Char.ofNat (k + 32)).toNat = k + 32 := by decide
  split
  · rename_i h; exact key _ (by omega) h.1
  · rfl

theorem lower_same (a b : Char) : lower a = lower b ↔
    (a = b ∨ ('A' ≤ a ∧ a ≤ 'Z' ∧ a.toNat + 32 = b.toNat) ∨ ('A' ≤ b ∧ b ≤ 'Z' ∧ b.toNat + 32 = a.toNat)) := by
  have hA : ('A' ≤ a) ↔ 65 ≤ a.toNat := le_iff _ _
  have hA' : ('A' ≤ b) ↔ 65 ≤ b.toNat := le_iff _ _
  have hZ : (a ≤ 'Z') ↔ a.toNat ≤ 90 := le_iff _ _
  have hZ' : (b ≤ 'Z') ↔ b.toNat ≤ 90 := le_iff _ _
  have he : a = b ↔ a.toNat = b.toNat := ⟨fun h => h ▸ rfl, toNat_inj⟩
  have hl : lower a = lower b ↔ (lower a).toNat = (lower b).toNat := ⟨fun h => h ▸ rfl, toNat_inj⟩
  rw [hA, hA', hZ, hZ', he, hl, toNat_lower, toNat_lower]
  split <;> split <;> omega

theorem same_iff (a b : Text) : Same a b ↔ a.map lower = b.map lower := by
  induction a generalizing b with
  | nil => cases b <;> simp [Same]
  | cons x a ih =>
    cases b with
    | nil => simp [Same]
    | cons y b => rw [Same, ih, List.map_cons, List.map_cons, List.cons.injEq, lower_same]

theorem equalsI_iff (a b : Text) : equalsI a b = true ↔ a.map lower = b.map lower := by
  rw [equalsI]
  simp only [Bool.and_eq_true, beq_iff_eq]
  exact ⟨fun h => h.2, fun h => ⟨by simpa using congrArg List.length h, h⟩⟩

/-- comparing from the end -/
theorem endsWithI_rev (s e : Text) : endsWithI s e = (e.reverse.map lower).isPrefixOf (s.reverse.map lower) := by
  rw [Bool.eq_iff_iff, List.isPrefixOf_iff_prefix, endsWithI]
  simp only [Bool.and_eq_true, decide_eq_true_eq, beq_iff_eq]
  rw [← List.map_reverse.symm, ← List.map_reverse.symm, List.reverse_prefix]
  constructor
  · rintro ⟨hl, h⟩
    rw [← h, List.map_drop]
    exact List.drop_suffix _ _
  · intro h
    have hl := h.length_le
    simp only [List.length_map] at hl
    refine ⟨hl, ?_⟩
    have := List.suffix_iff_eq_drop.1 h
    rw [List.map_drop, this]
    simp

theorem endsWith_rev (s e : Text) : endsWith s e = e.reverse.isPrefixOf s.reverse := by
  rw [Bool.eq_iff_iff, List.isPrefixOf_iff_prefix, endsWith]
  simp only [Bool.and_eq_true, decide_eq_true_eq, beq_iff_eq]
  rw [List.reverse_prefix]
  constructor
  · rintro ⟨hl, h⟩
    rw [← h]
    exact List.drop_suffix _ _
  · intro h
    exact ⟨h.length_le, (List.suffix_iff_eq_drop.1 h).symm⟩

theorem slashes_name {n : Text} {name : Text} (h : n.map lower = name.map lower) (hn : '/' ∉ name.map lower) : slashes n = n := by
  rw [slashes]
  conv => rhs; rw [← List.map_id n]
  apply List.map_congr_left
  intro c hc
  rw [if_neg]
  · rfl
  · intro e
    apply hn
    rw [← h]
    exact List.mem_map.2 ⟨c, hc, by rw [e]; decide⟩

/-- the reversed executable: the name in lower case, a separator, the directory -/
theorem rev_file {exe : Text} {name : String} (h : File exe name) (hn : '/' ∉ name.toList.map lower) :
    ∃ d, (slashes exe).reverse.map lower = (name.toList.map lower).reverse ++ '\\' :: d := by
  obtain ⟨dir, sep, n, e, hs, hm⟩ := h
  rw [same_iff] at hm
  refine ⟨((slashes dir).map lower).reverse, ?_⟩
  have hs' : slashes [sep] = ['\\'] := by rcases hs with h | h <;> rw [h] <;> rfl
  have : slashes exe = slashes dir ++ ('\\' :: n) := by
    rw [e, slashes, List.map_append, List.map_cons]
    have h1 : (if sep = '/' then '\\' else sep) = '\\' := by simpa [slashes] using hs'
    rw [h1]
    have := slashes_name hm hn
    rw [slashes] at this
    rw [this]
    rfl
  rw [this, List.map_reverse, List.map_append, List.map_cons, List.reverse_append, List.reverse_cons, hm,
    show lower '\\' = '\\' from by decide]
  simp

theorem withoutVersion_spec {a b : Text} (hb : '-' ∉ b) : withoutVersion (a ++ '-' :: b) = a := by
  rw [withoutVersion, if_pos (by simp), List.reverse_append, List.reverse_cons, List.append_assoc]
  have : ∀ l : Text, '-' ∉ l → (l ++ ['-'] ++ a.reverse).dropWhile (· ≠ '-') = '-' :: a.reverse := by
    intro l
    induction l with
    | nil => intro _; simp
    | cons c l ih =>
      intro h
      have hc : c ≠ '-' := fun e => h (by simp [e])
      have := ih (fun e => h (by simp [e]))
      simp only [List.cons_append, ne_eq]
      rw [List.dropWhile_cons_of_pos (by simpa using hc)]
      simpa using this
  rw [show (['-'] : Text) ++ a.reverse = '-' :: a.reverse from rfl, ]
  have := this b.reverse (by simpa using hb)
  rw [List.append_assoc] at this
  rw [show b.reverse ++ '-' :: a.reverse = b.reverse ++ (['-'] ++ a.reverse) from rfl, this]
  simp

theorem slashes_append (a b : Text) : slashes (a ++ b) = slashes a ++ slashes b := List.map_append
theorem mem_slashes {c : Char} (s : Text) (h1 : c ≠ '/') (h2 : c ≠ '\\') : c ∈ slashes s ↔ c ∈ s := by
  rw [slashes, List.mem_map]
  constructor
  · rintro ⟨x, hx, h⟩
    split at h
    · exact absurd h.symm h2
    · exact h ▸ hx
  · intro h
    exact ⟨c, h, if_neg h1⟩

theorem split_dash {s : Text} (h : '-' ∈ s) : ∃ a b, s = a ++ '-' :: b ∧ '-' ∉ b := by
  induction s with
  | nil => simp at h
  | cons c s ih =>
    by_cases hs : '-' ∈ s
    · obtain ⟨a, b, e, hb⟩ := ih hs
      exact ⟨c :: a, b, by rw [e]; rfl, hb⟩
    · have : c = '-' := by
        rcases List.mem_cons.1 h with h | h
        · exact h.symm
        · exact absurd h hs
      exact ⟨[], s, by rw [this]; rfl, hs⟩

theorem ends_split {s e : Text} (h : endsWithI s e = true) : ∃ d n, s = d ++ n ∧ n.map lower = e.map lower := by
  rw [endsWithI] at h
  simp only [Bool.and_eq_true, decide_eq_true_eq, beq_iff_eq] at h
  exact ⟨s.take (s.length - e.length), s.drop (s.length - e.length), (List.take_append_drop _ _).symm, h.2⟩

theorem slashes_lower_name {n : Text} {name : Text} (h : (slashes n).map lower = name.map lower) (hn : '\\' ∉ name.map lower) :
    n.map lower = name.map lower := by
  rw [← h, slashes, List.map_map]
  apply List.map_congr_left
  intro c hc
  simp only [Function.comp]
  split
  · rename_i e
    exfalso
    apply hn
    rw [← h, slashes, List.map_map]
    exact List.mem_map.2 ⟨c, hc, by simp [e]; decide⟩
  · rfl

/-- what `NoGcc` says about the executable without its version -/
theorem noGcc {exe : Text} (h : NoGcc exe) (hd : '-' ∈ exe) : endsWithI (withoutVersion (slashes exe)) "gcc".toList = false ∧
    endsWithI (withoutVersion (slashes exe)) "g++".toList = false := by
  obtain ⟨a, b, e, hb⟩ := split_dash hd
  have hb' : '-' ∉ slashes b := fun h => hb ((mem_slashes b (by decide) (by decide)).1 h)
  have he : slashes exe = slashes a ++ '-' :: slashes b := by rw [e, slashes_append]; rfl
  rw [he, withoutVersion_spec hb']
  have key : ∀ g : Text, '\\' ∉ g.map lower → (∀ d n, a = d ++ n → ¬ Same n g) → endsWithI (slashes a) g = false := by
    intro g hg hno
    cases hx : endsWithI (slashes a) g with
    | false => rfl
    | true =>
      obtain ⟨d, n, e1, e2⟩ := ends_split hx
      exfalso
      rw [slashes, List.map_eq_append_iff] at e1
      obtain ⟨d', n', e1, _, e3⟩ := e1
      rw [← e3] at e2
      exact hno d' n' e1 ((same_iff _ _).2 (slashes_lower_name e2 hg))
  exact ⟨key _ (by decide) (fun d n e' => (h a b e hb d n e').1), key _ (by decide) (fun d n e' => (h a b e hb d n e').2)⟩

end Verif.Family
