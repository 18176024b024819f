import Verif.Str.RelModel
/-! Property C31: relative paths lead back to the file. -/
namespace Verif.Str

/-- Walking a relative path from a folder: `..` goes up, any other component goes down. -/
def walk : List (List Char) → List (List Char) → List (List Char)
  | dir, [] => dir
  | dir, c :: cs => if c = ['.', '.'] then walk dir.dropLast cs else walk (dir ++ [c]) cs

/-- no two consecutive slashes -/
def NoDoubleSlash (s : List Char) : Prop :=
  ∀ u v x y, s = u ++ x :: y :: v → isSlash x = true → isSlash y = true → False

theorem isSlash_iff' (c : Char) : isSlash c = true ↔ c = '/' ∨ c = '\\' := by simp [isSlash]

theorem lower_slash (c : Char) : isSlash (lower c) = isSlash c := by
  unfold lower
  split
  · rename_i h
    have h1 : 65 ≤ c.toNat := h.1
    have h2 : c.toNat ≤ 90 := h.2
    have hv : (Char.ofNat ('a'.toNat + (c.toNat - 'A'.toNat))).toNat = c.toNat + 32 := by
      have : ('a'.toNat + (c.toNat - 'A'.toNat)) = c.toNat + 32 := by
        show 97 + (c.toNat - 65) = _
        omega
      rw [this]; unfold Char.ofNat
      rw [dif_pos (by left; omega)]; rfl
    have e1 : isSlash (Char.ofNat ('a'.toNat + (c.toNat - 'A'.toNat))) = false := by
      rw [Bool.eq_false_iff]; intro hs
      rcases (isSlash_iff' _).1 hs with h | h
      · rw [h] at hv; change 47 = _ at hv; omega
      · rw [h] at hv; change 92 = _ at hv; omega
    have e2 : isSlash c = false := by
      rw [Bool.eq_false_iff]; intro hs
      rcases (isSlash_iff' _).1 hs with h | h
      · rw [h] at h1; exact absurd h1 (by decide)
      · rw [h] at h2; exact absurd h2 (by decide)
    rw [e1, e2]
  · rfl

theorem fold_slash (os : Os) (c : Char) : isSlash (os.fold c) = isSlash c := by
  cases os
  · exact lower_slash c
  · exact lower_slash c
  · rfl

/-- the common part: `base = P ++ A'`, `file = Q ++ B'`, `P` and `Q` equal up to case, `P` empty or ending
with a slash -/
theorem relLoop_spec (os : Os) : ∀ (A B : List Char) (best : Option (List Char × List Char)),
    relLoop os best A B = best ∨ ∃ P x Q A' B', relLoop os best A B = some (A', B') ∧ A = P ++ x :: A' ∧
      isSlash x = true ∧ B = Q ++ B' ∧ (P ++ [x]).map os.fold = Q.map os.fold := by
  intro A
  induction A with
  | nil => intro B best; left; cases B <;> rfl
  | cons a A ih =>
    intro B best
    cases B with
    | nil => left; rfl
    | cons b B =>
      rw [relLoop]
      by_cases he : os.fold a = os.fold b
      · rw [if_pos he]
        dsimp only
        rcases ih B (if a = '/' ∨ a = '\\' then some (A, B) else best) with h | ⟨P, x, Q, A', B', h1, h2, h3, h4, h5⟩
        · rw [h]
          by_cases hs : a = '/' ∨ a = '\\'
          · rw [if_pos hs]
            exact Or.inr ⟨[], a, [b], A, B, rfl, rfl, (isSlash_iff' a).2 hs, rfl, by simp [he]⟩
          · rw [if_neg hs]; exact Or.inl rfl
        · exact Or.inr ⟨a :: P, x, b :: Q, A', B', h1, by rw [h2]; rfl, h3, by rw [h4]; rfl, by
            simp only [List.cons_append, List.map_cons, he, List.cons.injEq, true_and]; exact h5⟩
      · rw [if_neg he]; exact Or.inl rfl

/-- the first characters agree and are slashes: something is common -/
theorem relLoop_some (os : Os) (x y : Char) (A B : List Char) (best : Option (List Char × List Char))
    (hx : isSlash x = true) (h : os.fold x = os.fold y) : relLoop os best (x :: A) (y :: B) ≠ none := by
  rw [relLoop, if_pos h]
  dsimp only
  rw [if_pos ((isSlash_iff' x).1 hx)]
  rcases relLoop_spec os A B (some (A, B)) with h | ⟨_, _, _, _, _, h, _⟩ <;> rw [h] <;> simp

theorem compsGo_append_slash : ∀ (s cur : List Char) (x : Char) (t : List Char), isSlash x = true →
    compsGo cur (s ++ x :: t) = compsGo cur (s ++ [x]) ++ compsGo [] t := by
  intro s
  induction s with
  | nil =>
    intro cur x t hx
    simp only [List.nil_append, compsGo, hx, if_true]
    split <;> simp
  | cons a s ih =>
    intro cur x t hx
    simp only [List.cons_append, compsGo]
    rw [ih _ x t hx, ih _ x t hx]
    split
    · split <;> simp
    · rfl

theorem compsGo_map (f : Char → Char) (hf : ∀ c, isSlash (f c) = isSlash c) : ∀ (s cur : List Char),
    compsGo (cur.map f) (s.map f) = (compsGo cur s).map (List.map f) := by
  intro s
  induction s with
  | nil => intro cur; simp only [List.map_nil, compsGo]; cases cur <;> simp
  | cons a s ih =>
    intro cur
    simp only [List.map_cons, compsGo, hf]
    have h1 := ih (cur ++ [a])
    have h2 := ih []
    simp only [List.map_append, List.map_cons, List.map_nil] at h1 h2
    rw [h1, h2]
    cases cur <;> simp <;> split <;> simp

theorem upCount_comps : ∀ (s cur : List Char), (∀ u v x y, s = u ++ x :: y :: v → isSlash x = true → isSlash y = true → False) →
    (cur = [] → s.head?.any isSlash = false) → (s ≠ [] ∨ cur ≠ [] → s.getLast?.any isSlash = true) →
    (compsGo cur s).length = upCount s := by
  intro s
  induction s with
  | nil =>
    intro cur _ _ h
    cases cur with
    | nil => rfl
    | cons c cur => simp at h
  | cons a s ih =>
    intro cur h1 h2 h3
    have h1' : ∀ u v x y, s = u ++ x :: y :: v → isSlash x = true → isSlash y = true → False :=
      fun u v x y h => h1 (a :: u) v x y (by rw [h]; rfl)
    have hl := h3 (Or.inl (by simp))
    rw [compsGo, upCount]
    by_cases ha : isSlash a = true
    · rw [if_pos ha, if_pos ((isSlash_iff' a).1 ha)]
      have hc : cur ≠ [] := by
        intro hc
        have := h2 hc
        simp [ha] at this
      rw [if_neg hc, List.length_cons]
      congr 1
      refine ih [] h1' (fun _ => ?_) (fun h => ?_)
      · cases s with
        | nil => rfl
        | cons b s =>
          simp only [List.head?_cons, Option.any_some, Bool.eq_false_iff]
          exact fun hb => h1 [] s a b rfl ha hb
      · cases s with
        | nil => simp at h
        | cons b s => rw [List.getLast?_cons_cons] at hl; exact hl
    · rw [if_neg ha, if_neg (fun h => ha ((isSlash_iff' a).2 h))]
      refine ih _ h1' (fun h => by simp at h) (fun _ => ?_)
      cases s with
      | nil => simp [ha] at hl
      | cons b s => rw [List.getLast?_cons_cons] at hl; exact hl

theorem comps_ups (os : Os) (t : List Char) : ∀ n, comps (ups os n ++ t) = List.replicate n ['.', '.'] ++ comps t := by
  intro n
  induction n with
  | zero => rfl
  | succ n ih =>
    have hs : isSlash os.slash = true := by cases os <;> rfl
    have hd : isSlash '.' = false := rfl
    simp only [ups, List.cons_append, comps, compsGo, hd, hs, List.replicate_succ]
    unfold comps at ih
    simp [ih]

theorem walk_up (cs : List (List Char)) : ∀ (n : Nat) (dir : List (List Char)),
    walk dir (List.replicate n ['.', '.'] ++ cs) = walk (dir.take (dir.length - n)) cs := by
  intro n
  induction n with
  | zero => intro dir; simp
  | succ n ih =>
    intro dir
    rw [List.replicate_succ, List.cons_append, walk, if_pos rfl, ih]
    congr 1
    rw [List.dropLast_eq_take, List.take_take]
    congr 1
    simp; omega

theorem walk_down : ∀ (cs dir : List (List Char)), (['.', '.'] : List Char) ∉ cs → walk dir cs = dir ++ cs := by
  intro cs
  induction cs with
  | nil => intro dir _; simp [walk]
  | cons c cs ih =>
    intro dir h
    rw [walk, if_neg (fun h' => h (by simp [h'])), ih _ (fun h' => h (by simp [h']))]
    simp

/-- Main lemma: with a common part, walking the relative path from the base gives the file up to case. -/
theorem relative_common (os : Os) (basePath fileName : List Char) (hne : basePath ≠ [])
    (hb : NoDoubleSlash basePath) (hl : basePath.getLast?.any isSlash = true → basePath.getLast? = some os.slash)
    (hf : (['.', '.'] : List Char) ∉ comps fileName)
    (hc : relLoop os none (if basePath.getLast? = some os.slash then basePath else basePath ++ [os.slash]) fileName ≠ none) :
    (walk (comps basePath) (comps (getRelativePath os basePath fileName))).map (List.map os.fold) =
      (comps fileName).map (List.map os.fold) := by
  have hsl : isSlash os.slash = true := by cases os <;> rfl
  unfold getRelativePath
  dsimp only
  generalize hbase : (if basePath.getLast? = some os.slash then basePath else basePath ++ [os.slash]) = base at hc ⊢
  have hcb : comps base = comps basePath := by
    rw [← hbase]
    split
    · rfl
    · unfold comps
      rw [compsGo_append_slash _ _ _ _ hsl]
      have : ∀ (s cur : List Char), compsGo cur (s ++ [os.slash]) = compsGo cur s := by
        intro s
        induction s with
        | nil => intro cur; simp only [List.nil_append, compsGo, hsl, if_true]
        | cons a s ih => intro cur; rw [List.cons_append, compsGo, compsGo, ih, ih]
      rw [this]; simp [compsGo]
  have hlast : base.getLast? = some os.slash := by
    rw [← hbase]
    split
    · assumption
    · simp
  have hnd : NoDoubleSlash base := by
    rw [← hbase]
    split
    · exact hb
    · rename_i h
      intro u v x y hu hx hy
      rcases List.eq_nil_or_concat v with rfl | ⟨v, z, rfl⟩
      · have : basePath ++ [os.slash] = (u ++ [x]) ++ [y] := by rw [hu]; simp
        have := List.append_inj_left' this rfl
        exact h (hl (by rw [this]; simp [hx]))
      · have : basePath ++ [os.slash] = (u ++ x :: y :: v) ++ [z] := by rw [hu]; simp
        have := List.append_inj_left' this rfl
        exact hb u v x y this hx hy
  rcases relLoop_spec os base fileName none with h | ⟨P, x, Q, A', B', h1, h2, h3, h4, h5⟩
  · exact absurd h hc
  · rw [h1]
    dsimp only
    have hup : (comps A').length = upCount A' := by
      refine upCount_comps A' [] (fun u v y z h => hnd (P ++ x :: u) v y z (by rw [h2, h]; simp)) (fun _ => ?_) (fun h => ?_)
      · cases A' with
        | nil => rfl
        | cons a A' =>
          simp only [List.head?_cons, Option.any_some, Bool.eq_false_iff]
          exact fun ha => hnd P A' x a h2 h3 ha
      · cases A' with
        | nil => simp at h
        | cons a A' =>
          rw [h2, List.getLast?_append, List.getLast?_cons_cons] at hlast
          cases hA : (a :: A').getLast? with
          | none => simp at hA
          | some z =>
            rw [hA] at hlast
            simp at hlast
            simp [hlast, hsl]
    have hq : ∃ Q' q, Q = Q' ++ [q] ∧ isSlash q = true := by
      rcases List.eq_nil_or_concat Q with rfl | ⟨Q', q, rfl⟩
      · simp at h5
      · refine ⟨Q', q, by simp, ?_⟩
        simp only [List.map_append, List.map_cons, List.map_nil, List.concat_eq_append] at h5
        have := List.append_inj_right' h5 rfl
        simp at this
        rw [← fold_slash os, ← this, fold_slash, h3]
    obtain ⟨Q', q, rfl, hqs⟩ := hq
    have hfile : comps fileName = comps (Q' ++ [q]) ++ comps B' := by
      rw [h4]
      unfold comps
      rw [List.append_assoc, List.singleton_append, compsGo_append_slash _ _ _ _ hqs]
    have hbase' : comps basePath = comps (P ++ [x]) ++ comps A' := by
      rw [← hcb, h2]
      unfold comps
      rw [compsGo_append_slash _ _ _ _ h3]
    have hpq : (comps (P ++ [x])).map (List.map os.fold) = (comps (Q' ++ [q])).map (List.map os.fold) := by
      unfold comps
      have e1 := compsGo_map os.fold (fold_slash os) (P ++ [x]) []
      have e2 := compsGo_map os.fold (fold_slash os) (Q' ++ [q]) []
      rw [← e1, ← e2, h5]
    rw [comps_ups, walk_up, hbase', walk_down]
    · rw [← hup, hfile]
      simp [hpq]
    · intro h
      exact hf (by rw [hfile]; simp [h])

/-- C31. On a case sensitive system: for every base folder (without doubled slashes) and file (without
`..`), the relative path, walked from the base folder, leads to the file, provided they share a root;
otherwise the full file name is returned. -/
theorem C31_linux (basePath fileName : List Char) (hb : NoDoubleSlash basePath)
    (h1 : basePath.head? = some '/') (h2 : fileName.head? = some '/')
    (hl : basePath.getLast? ≠ some '\\') (hf : (['.', '.'] : List Char) ∉ comps fileName) :
    walk (comps basePath) (comps (getRelativePath .linux basePath fileName)) = comps fileName := by
  have hid : ∀ l : List (List Char), l.map (List.map (Os.fold .linux)) = l := by
    intro l
    have : Os.fold .linux = id := by funext c; rfl
    simp [this]
  have hne : basePath ≠ [] := by intro h; simp [h] at h1
  have := relative_common .linux basePath fileName hne hb (by
    intro h
    cases hg : basePath.getLast? with
    | none => simp [hg] at h
    | some c =>
      rw [hg] at h hl
      rcases (isSlash_iff' c).1 h with rfl | rfl
      · rfl
      · exact absurd rfl hl) hf (by
    cases basePath with
    | nil => simp at h1
    | cons a A =>
      simp at h1; subst h1
      cases fileName with
      | nil => simp at h2
      | cons b B =>
        simp at h2; subst h2
        split
        · exact relLoop_some _ _ _ _ _ _ rfl rfl
        · exact relLoop_some _ _ _ (A ++ [Os.slash .linux]) _ _ rfl rfl)
  rwa [hid, hid] at this

/-- C31. On every system: either the full file name is returned, or the relative path walked from the base
folder leads to the file, up to upper and lower case where the file system ignores it. -/
theorem C31_any (os : Os) (basePath fileName : List Char) (hne : basePath ≠ [])
    (hb : NoDoubleSlash basePath) (hl : basePath.getLast?.any isSlash = true → basePath.getLast? = some os.slash)
    (hf : (['.', '.'] : List Char) ∉ comps fileName) :
    getRelativePath os basePath fileName = fileName ∨
    (walk (comps basePath) (comps (getRelativePath os basePath fileName))).map (List.map os.fold) =
      (comps fileName).map (List.map os.fold) := by
  by_cases hc : relLoop os none (if basePath.getLast? = some os.slash then basePath else basePath ++ [os.slash]) fileName = none
  · left
    unfold getRelativePath
    dsimp only
    rw [hc]
  · right
    exact relative_common os basePath fileName hne hb hl hf hc

/-- C31. Nothing common is only reported when not even the first component (with its slash) agrees. -/
theorem C31_none (os : Os) (P : List Char) (x : Char) (A Q B : List Char) (hx : isSlash x = true)
    (h : (P ++ [x]).map os.fold = Q.map os.fold) : relLoop os none (P ++ x :: A) (Q ++ B) ≠ none := by
  suffices ∀ (P Q : List Char) (best), (P ++ [x]).map os.fold = Q.map os.fold →
      relLoop os best (P ++ x :: A) (Q ++ B) ≠ none from this P Q none h
  intro P
  induction P with
  | nil =>
    intro Q best h
    cases Q with
    | nil => simp at h
    | cons y Q =>
      simp at h
      exact relLoop_some os x y A (Q ++ B) best hx h.1
  | cons p P ih =>
    intro Q best h
    cases Q with
    | nil => simp at h
    | cons q Q =>
      simp only [List.cons_append, List.map_cons, List.cons.injEq] at h
      simp only [List.cons_append]
      rw [relLoop, if_pos h.1]
      exact ih Q _ h.2

example : getRelativePath .linux "/a/b/c".toList "/a/x/y.cpp".toList = "../../x/y.cpp".toList ∧
    getRelativePath .windows "C:\\A\\b\\".toList "c:\\a\\B2\\f".toList = "..\\B2\\f".toList ∧
    getRelativePath .windows "C:\\a".toList "D:\\a".toList = "D:\\a".toList := by decide

example : NoDoubleSlash "/a/b".toList := by
  intro u v x y h hx hy
  match u, h with
  | [], h => simp at h; obtain ⟨rfl, rfl, _⟩ := h; revert hy; decide
  | [_], h => simp at h; obtain ⟨_, rfl, rfl, _⟩ := h; revert hx; decide
  | [_, _], h => simp at h; obtain ⟨_, _, rfl, rfl, _⟩ := h; revert hy; decide
  | _ :: _ :: _ :: u, h =>
    have := congrArg List.length h
    simp at this
    omega

end Verif.Str
