import Verif.Dirs.Order
/-! Lemmas for C83: when can the files be read off the text that is hashed? -/
namespace Verif.Dirs
open Unity (Name nameLt)

/-- chunks that begin with a drive and a colon -/
theorem colon_inj {d : Char} (hd : d ≠ ':') : ∀ (l l' : List Name), (∀ t ∈ l, ':' ∉ t) → (∀ t ∈ l', ':' ∉ t) →
    (l.flatMap fun t => d :: ':' :: t) = (l'.flatMap fun t => d :: ':' :: t) → l = l'
  | [], [], _, _, _ => rfl
  | [], t :: l', _, _, h => by simp at h
  | t :: l, [], _, _, h => by simp at h
  | t :: l, t' :: l', h1, h2, h => by
    simp only [List.flatMap_cons, List.cons_append, List.cons.injEq, true_and] at h
    have key : ∀ (a b : Name) (m m' : List Name), ':' ∉ b →
        a ++ (m.flatMap fun t => d :: ':' :: t) = b ++ (m'.flatMap fun t => d :: ':' :: t) → b.length ≤ a.length := by
      intro a b m m' hb he
      refine Nat.le_of_not_lt fun hlt => ?_
      rcases List.append_eq_append_iff.mp he with ⟨u, rfl, hu⟩ | ⟨u, rfl, hu⟩
      · match m, u, hu with
        | _, [], _ => simp at hlt
        | [], x :: u, hu => simp at hu
        | t :: m, [x], hu =>
          simp only [List.flatMap_cons, List.cons_append, List.cons.injEq, List.nil_append] at hu
          match m', hu.2 with
          | [], hu => simp at hu
          | t' :: m', hu =>
            simp only [List.flatMap_cons, List.cons_append, List.cons.injEq] at hu
            exact hd hu.1.symm
        | t :: m, x :: y :: u, hu =>
          simp only [List.flatMap_cons, List.cons_append, List.cons.injEq] at hu
          exact hb (by simp [← hu.2.1])
      · simp at hlt; omega
    have hlen : t.length = t'.length :=
      Nat.le_antisymm (key t' t l' l (h1 t (by simp)) h.symm) (key t t' l l' (h2 t' (by simp)) h)
    obtain ⟨rfl, hr⟩ := List.append_inj h hlen
    rw [colon_inj hd l l' (fun x hx => h1 x (by simp [hx])) (fun x hx => h2 x (by simp [hx])) hr]

/-- chunks without slash behind a text that begins with a slash -/
theorem slash_inj {sl : Char} {r : Name} : ∀ (l l' : List Name), (∀ t ∈ l, sl ∉ t) → (∀ t ∈ l', sl ∉ t) →
    (l.flatMap fun t => (sl :: r) ++ t) = (l'.flatMap fun t => (sl :: r) ++ t) → l = l'
  | [], [], _, _, _ => rfl
  | [], t :: l', _, _, h => by simp at h
  | t :: l, [], _, _, h => by simp at h
  | t :: l, t' :: l', h1, h2, h => by
    simp only [List.flatMap_cons, List.append_assoc, List.append_cancel_left_eq] at h
    have key : ∀ (a b : Name) (m m' : List Name), sl ∉ b →
        a ++ (m.flatMap fun t => (sl :: r) ++ t) = b ++ (m'.flatMap fun t => (sl :: r) ++ t) → b.length ≤ a.length := by
      intro a b m m' hb he
      refine Nat.le_of_not_lt fun hlt => ?_
      rcases List.append_eq_append_iff.mp he with ⟨u, rfl, hu⟩ | ⟨u, rfl, hu⟩
      · match m, u, hu with
        | _, [], _ => simp at hlt
        | [], x :: u, hu => simp at hu
        | t :: m, x :: u, hu =>
          simp only [List.flatMap_cons, List.cons_append, List.cons.injEq] at hu
          exact hb (by simp [hu.1])
      · simp at hlt; omega
    have hlen : t.length = t'.length :=
      Nat.le_antisymm (key t' t l' l (h1 t (by simp)) h.symm) (key t t' l l' (h2 t' (by simp)) h)
    obtain ⟨rfl, hr⟩ := List.append_inj h hlen
    rw [slash_inj l l' (fun x hx => h1 x (by simp [hx])) (fun x hx => h2 x (by simp [hx])) hr]

/-- the first part of a list told apart from the second by a test -/
theorem split_inj {α : Type} (p : α → Bool) {a b a' b' : List α} (ha : ∀ x ∈ a, p x = false) (hb : ∀ x ∈ b, p x = true)
    (ha' : ∀ x ∈ a', p x = false) (hb' : ∀ x ∈ b', p x = true) (h : a ++ b = a' ++ b') : a = a' ∧ b = b' := by
  have n1 : a.filter p = [] := List.filter_eq_nil_iff.mpr fun x hx => by simp [ha x hx]
  have n2 : a'.filter p = [] := List.filter_eq_nil_iff.mpr fun x hx => by simp [ha' x hx]
  have n3 : b.filter (fun x => ! p x) = [] := List.filter_eq_nil_iff.mpr fun x hx => by simp [hb x hx]
  have n4 : b'.filter (fun x => ! p x) = [] := List.filter_eq_nil_iff.mpr fun x hx => by simp [hb' x hx]
  have s1 : b.filter p = b := List.filter_eq_self.mpr hb
  have s2 : b'.filter p = b' := List.filter_eq_self.mpr hb'
  have s3 : a.filter (fun x => ! p x) = a := List.filter_eq_self.mpr fun x hx => by simp [ha x hx]
  have s4 : a'.filter (fun x => ! p x) = a' := List.filter_eq_self.mpr fun x hx => by simp [ha' x hx]
  have e1 := congrArg (List.filter p) h
  have e2 := congrArg (List.filter fun x => ! p x) h
  rw [List.filter_append, List.filter_append, n1, n2, s1, s2] at e1
  rw [List.filter_append, List.filter_append, n3, n4, s3, s4] at e2
  exact ⟨by simpa using e2, by simpa using e1⟩

/-- the part of the hashed text that stands for a file -/
def fileText (c : Config) (f : Name × Bool) : Name :=
  f.1 ++ if c.includeReadOnly then [if f.2 then '\x01' else '\x00'] else []

theorem stampText_eq (c : Config) (l : List (Name × Bool) × List Name) :
    stampText c l = (l.1.map (fileText c) ++ l.2).flatten := by
  rw [List.flatten_append, stampText, List.flatMap]; rfl

/-- the files can be read off their texts -/
theorem fileText_inj (c : Config) : ∀ (l l' : List (Name × Bool)), l.map (fileText c) = l'.map (fileText c) →
    l.map Prod.fst = l'.map Prod.fst ∧ (c.includeReadOnly = true → l = l')
  | [], [], _ => ⟨rfl, fun _ => rfl⟩
  | [], _ :: _, h => by simp at h
  | _ :: _, [], h => by simp at h
  | x :: l, y :: l', h => by
    simp only [List.map_cons, List.cons.injEq] at h
    obtain ⟨h1, h2⟩ := fileText_inj c l l' h.2
    have h3 := h.1
    obtain ⟨x1, x2⟩ := x
    obtain ⟨y1, y2⟩ := y
    unfold fileText at h3
    cases hr : c.includeReadOnly with
    | false =>
      simp only [hr, Bool.false_eq_true, if_false, List.append_nil] at h3
      exact ⟨by simp [h1, h3], fun h => by simp at h⟩
    | true =>
      simp only [hr, if_true] at h3
      obtain ⟨h4, h5⟩ := List.append_inj' h3 rfl
      have : x2 = y2 := by
        cases x2 <;> cases y2 <;> simp at h5 <;> rfl
      exact ⟨by simp [h1, h4], fun _ => by rw [h2 hr, h4, this]⟩

theorem getLast?_append_ne {a b : Name} (hb : b ≠ []) : (a ++ b).getLast? = b.getLast? := by
  rw [List.getLast?_append]
  cases h : b.getLast? with
  | none => exact absurd (List.getLast?_eq_none_iff.mp h) hb
  | some x => simp

/-- the text of a file does not end with a slash -/
theorem fileText_last (c : Config) (hs0 : c.sl ≠ '\x00') (hs1 : c.sl ≠ '\x01') (p n : Name) (ro : Bool) (hn : n ≠ []) (hs : c.sl ∉ n) :
    ((fileText c (p ++ n, ro)).getLast? == some c.sl) = false := by
  rw [beq_eq_false_iff_ne]
  unfold fileText
  split
  · rw [getLast?_append_ne (by simp)]
    cases ro <;> simp [hs0.symm, hs1.symm]
  · simp only [List.append_nil]
    rw [getLast?_append_ne hn]
    intro h
    exact hs (List.mem_of_getLast? h)

end Verif.Dirs
