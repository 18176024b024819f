import Verif.Str.NearModel
import Verif.Str.LevProps
/-! Property C27: suggestions are the nearest candidates. -/
namespace Verif.Str

/-- ordered by distance -/
def ByDist (l : List NodeDist) : Prop := l.Pairwise (fun a b => a.2 ≤ b.2)

/-- insertion behind everything that is not farther -/
def insertD (x : NodeDist) : List NodeDist → List NodeDist
  | [] => [x]
  | a :: l => if a.2 ≤ x.2 then a :: insertD x l else x :: a :: l

theorem insertD_perm (x : NodeDist) : ∀ l, (insertD x l).Perm (x :: l)
  | [] => List.Perm.refl _
  | a :: l => by
    rw [insertD]
    split
    · exact ((insertD_perm x l).cons a).trans (List.Perm.swap x a l)
    · exact List.Perm.refl _

theorem insertD_sorted (x : NodeDist) : ∀ l, ByDist l → ByDist (insertD x l)
  | [], _ => by simp [insertD, ByDist]
  | a :: l, h => by
    have ⟨h1, h2⟩ := List.pairwise_cons.1 h
    rw [insertD]
    split
    · rename_i hle
      refine List.pairwise_cons.2 ⟨fun b hb => ?_, insertD_sorted x l h2⟩
      rcases List.mem_cons.1 ((insertD_perm x l).mem_iff.1 hb) with rfl | hb
      · exact hle
      · exact h1 b hb
    · rename_i hgt
      refine List.pairwise_cons.2 ⟨fun b hb => ?_, h⟩
      rcases List.mem_cons.1 hb with rfl | hb
      · omega
      · have := h1 b hb; omega

theorem insertD_append_of_le (x : NodeDist) : ∀ l, (∀ a ∈ l, a.2 ≤ x.2) → insertD x l = l ++ [x]
  | [], _ => rfl
  | a :: l, h => by
    rw [insertD, if_pos (h a (by simp)), insertD_append_of_le x l fun b hb => h b (by simp [hb])]
    rfl

theorem insertD_split (x : NodeDist) : ∀ p r : List NodeDist, (∀ a ∈ p, a.2 ≤ x.2) → (∀ a ∈ r, x.2 < a.2) →
    insertD x (p ++ r) = p ++ x :: r
  | [], [], _, _ => rfl
  | [], a :: r, _, h => by
    rw [List.nil_append, insertD, if_neg (by have := h a (by simp); omega)]; rfl
  | a :: p, r, h1, h2 => by
    rw [List.cons_append, insertD, if_pos (h1 a (by simp)), insertD_split x p r (fun b hb => h1 b (by simp [hb])) h2]
    rfl

theorem insertD_take (x : NodeDist) : ∀ (n : Nat) (l : List NodeDist),
    (insertD x (l.take n)).take n = (insertD x l).take n
  | 0, l => by simp
  | n + 1, [] => by simp
  | n + 1, a :: l => by
    rw [List.take_succ_cons, insertD, insertD]
    split
    · rw [List.take_succ_cons, List.take_succ_cons, insertD_take x n l]
    · rw [List.take_succ_cons, List.take_succ_cons]
      cases n with
      | zero => rfl
      | succ n => rw [List.take_succ_cons, List.take_succ_cons, List.take_take]; congr 3; omega

theorem nearShift_spec (d : Nat) : ∀ (n : Nat) (pre suf : List NodeDist) (z : NodeDist), pre.length = n →
    ∃ p r z', pre = p ++ r ∧ nearShift d n (pre ++ z :: suf) = (p.length, p ++ z' :: (r ++ suf)) ∧
      (∀ a ∈ r, d < a.2) ∧ (p = [] ∨ ∃ q a, p = q ++ [a] ∧ a.2 ≤ d) := by
  intro n
  induction n with
  | zero =>
    intro pre suf z h
    have : pre = [] := List.length_eq_zero_iff.1 h
    subst this
    exact ⟨[], [], z, rfl, rfl, by simp, Or.inl rfl⟩
  | succ n ih =>
    intro pre suf z h
    rcases List.eq_nil_or_concat pre with rfl | ⟨pre, a, rfl⟩
    · simp at h
    · rw [List.concat_eq_append] at *
      have hn : pre.length = n := by simpa using h
      have hg : (pre ++ [a] ++ z :: suf).getD n ([], 0) = a := by
        simp [List.getD_eq_getElem?_getD, ← hn]
      rw [nearShift, hg]
      split
      · rename_i hle
        exact ⟨pre ++ [a], [], z, by simp, by simp [hn], by simp, Or.inr ⟨pre, a, rfl, hle⟩⟩
      · rename_i hgt
        rw [if_pos (by simp; omega)]
        have hset : (pre ++ [a] ++ z :: suf).set (n + 1) a = pre ++ a :: (a :: suf) := by
          rw [List.set_append_right _ _ (by simp; omega)]
          simp [hn]
        rw [hset]
        obtain ⟨p, r, z', h1, h2, h3, h4⟩ := ih pre (a :: suf) a hn
        refine ⟨p, r ++ [a], z', by rw [h1]; simp, by rw [h2]; simp, ?_, h4⟩
        intro b hb
        rcases List.mem_append.1 hb with hb | hb
        · exact h3 b hb
        · simp at hb; subst hb; omega

theorem ByDist.le_last {l : List NodeDist} (h : ByDist l) {t : NodeDist} (ht : l.getLast? = some t) : ∀ a ∈ l, a.2 ≤ t.2 := by
  obtain ⟨q, rfl⟩ := List.getLast?_eq_some_iff.1 ht
  intro a ha
  rcases List.mem_append.1 ha with ha | ha
  · exact (List.pairwise_append.1 h).2.2 a ha t (by simp)
  · simp at ha; subst ha; exact Nat.le_refl _

/-- invariant: `worstMinDistance` is the distance of the last element -/
def WorstOk (s : List NodeDist × Nat) : Prop := ∀ t, s.1.getLast? = some t → s.2 = t.2

theorem nearAdd_spec (cap : Nat) (node : List Char) (d : Nat) (s : List NodeDist × Nat) (hc : 0 < cap)
    (hl : s.1.length ≤ cap) (hs : ByDist s.1) (hw : WorstOk s) :
    ∃ s', nearAdd cap node d s = some s' ∧ s'.1 = (insertD (node, d) s.1).take cap ∧ WorstOk s' := by
  obtain ⟨l, w⟩ := s
  dsimp only at hl hs
  unfold nearAdd
  dsimp only
  cases ht : l.getLast? with
  | none =>
    have : l = [] := List.getLast?_eq_none_iff.1 ht
    subst this
    refine ⟨_, rfl, ?_, ?_⟩
    · simp only [List.nil_append, insertD]
      rw [List.take_of_length_le (by simp; omega)]
    · intro t h; simp at h; subst h; rfl
  | some top =>
    have hwt : w = top.2 := hw top ht
    subst hwt
    dsimp only
    have hlast := hs.le_last ht
    split
    · rename_i hge
      rw [if_pos rfl]
      have hins : insertD (node, d) l = l ++ [(node, d)] :=
        insertD_append_of_le _ _ fun a ha => Nat.le_trans (hlast a ha) hge
      split
      · rename_i hcap
        refine ⟨_, rfl, ?_, hw⟩
        show l = _
        rw [hins, List.take_append_of_le_length (by omega), List.take_of_length_le (by omega)]
      · refine ⟨_, rfl, ?_, ?_⟩
        · rw [hins, List.take_of_length_le (by simp; omega)]
        · intro t h; simp at h; subst h; rfl
    · rename_i hlt
      rw [if_pos (by omega)]
      obtain ⟨q, rfl⟩ := List.getLast?_eq_some_iff.1 ht
      -- what the shift does
      have key : ∃ p r z', q ++ [top] = p ++ r ∧ r ≠ [] ∧ (∀ a ∈ r, d < a.2) ∧ (∀ a ∈ p, a.2 ≤ d) ∧
          nearShift d (q ++ [top]).length (if (q ++ [top]).length = cap then q ++ [top] else q ++ [top] ++ [([], 0)]) =
            (p.length, p ++ z' :: (if (q ++ [top]).length = cap then r.dropLast else r)) := by
        have hp : ∀ p r : List NodeDist, q ++ [top] = p ++ r → (p = [] ∨ ∃ q a, p = q ++ [a] ∧ a.2 ≤ d) → ∀ a ∈ p, a.2 ≤ d := by
          intro p r hpr h a ha
          rcases h with rfl | ⟨q', b, rfl, hb⟩
          · cases ha
          · rw [hpr] at hs
            have hs' := (List.pairwise_append.1 hs).1
            exact Nat.le_trans (ByDist.le_last hs' (by simp) a ha) hb
        split
        · rename_i hcap
          have hlen : (q ++ [top]).length = q.length + 1 := by simp
          rw [hlen, nearShift]
          have hg : (q ++ [top]).getD q.length ([], 0) = top := by simp [List.getD_eq_getElem?_getD]
          rw [hg]
          rw [if_neg (by omega), if_neg (by simp)]
          obtain ⟨p, r, z', h1, h2, h3, h4⟩ := nearShift_spec d q.length q [] top rfl
          refine ⟨p, r ++ [top], z', by rw [h1]; simp, by simp, ?_, hp p (r ++ [top]) (by rw [h1]; simp) h4, ?_⟩
          · intro a ha
            rcases List.mem_append.1 ha with ha | ha
            · exact h3 a ha
            · simp at ha; subst ha; omega
          · rw [h2]; simp
        · obtain ⟨p, r, z', h1, h2, h3, h4⟩ := nearShift_spec d (q ++ [top]).length (q ++ [top]) [] ([], 0) rfl
          refine ⟨p, r, z', h1, ?_, h3, hp p r h1 h4, by rw [h2]; simp⟩
          rintro rfl
          rw [List.append_nil] at h1
          have := hp p [] (by simp [h1]) h4 top (by rw [← h1]; simp)
          omega
      obtain ⟨p, r, z', h1, h2, h3, h4, h5⟩ := key
      rw [h5]
      dsimp only
      have hrl : 0 < r.length := List.length_pos_iff.2 h2
      have hlen : (q ++ [top]).length = p.length + r.length := by rw [h1]; simp
      rw [if_pos (by omega)]
      have hset : (p ++ z' :: (if (q ++ [top]).length = cap then r.dropLast else r)).set p.length (node, d) =
          p ++ (node, d) :: (if (q ++ [top]).length = cap then r.dropLast else r) := by
        rw [List.set_append_right _ _ (Nat.le_refl _)]; simp
      rw [hset]
      have hres : p ++ (node, d) :: (if (q ++ [top]).length = cap then r.dropLast else r) =
          (insertD (node, d) (q ++ [top])).take cap := by
        rw [h1, insertD_split (node, d) p r h4 h3]
        split
        · rename_i hcap
          rw [← h1, hlen] at hcap
          rw [← hcap, List.take_append, List.take_of_length_le (by omega)]
          congr 1
          rw [show p.length + r.length - p.length = (r.length - 1) + 1 by omega, List.take_succ_cons,
            List.dropLast_eq_take]
        · rename_i hcap
          rw [← h1, hlen] at hcap
          rw [List.take_of_length_le]
          simp; omega
      cases hn : (p ++ (node, d) :: (if (q ++ [top]).length = cap then r.dropLast else r)).getLast? with
      | none => simp at hn
      | some t =>
        refine ⟨_, rfl, hres, ?_⟩
        intro t' ht'
        dsimp only at ht' ⊢
        rw [hn] at ht'; cases ht'; rfl

/-- the candidates with their distances, in the order of the node map -/
def candidates (maxDistance : Nat) (fullPath : List Char) (names : List (List Char)) : List NodeDist :=
  (names.map fun n => (n, (levDistanceI fullPath n).1)).filter fun x => !nearSkip maxDistance x.2 fullPath x.1

theorem nearLoop_spec (cap maxDistance : Nat) (fullPath : List Char) (hc : 0 < cap) : ∀ (names : List (List Char))
    (s : List NodeDist × Nat) (full : List NodeDist), s.1 = full.take cap → ByDist full → WorstOk s →
    ∃ s' full', nearLoop cap maxDistance fullPath s names = some s' ∧ s'.1 = full'.take cap ∧ ByDist full' ∧
      full'.Perm (full ++ candidates maxDistance fullPath names) := by
  intro names
  induction names with
  | nil => intro s full h1 h2 h3; exact ⟨s, full, rfl, h1, h2, by simp [candidates]⟩
  | cons name names ih =>
    intro s full h1 h2 h3
    rw [nearLoop]
    have hcand : candidates maxDistance fullPath (name :: names) =
        (if nearSkip maxDistance (levDistanceI fullPath name).1 fullPath name then [] else [(name, (levDistanceI fullPath name).1)]) ++
          candidates maxDistance fullPath names := by
      unfold candidates
      rw [List.map_cons, List.filter_cons]
      dsimp only
      cases nearSkip maxDistance (levDistanceI fullPath name).1 fullPath name <;> simp
    rw [hcand]
    split
    · rw [List.nil_append]; exact ih s full h1 h2 h3
    · have hs : ByDist s.1 := by rw [h1]; exact h2.sublist (List.take_sublist _ _)
      obtain ⟨s', e1, e2, e3⟩ := nearAdd_spec cap name (levDistanceI fullPath name).1 s hc (by rw [h1]; simp; omega) hs h3
      rw [e1]
      dsimp only
      obtain ⟨s'', full', f1, f2, f3, f4⟩ := ih s' (insertD (name, (levDistanceI fullPath name).1) full)
        (by rw [e2, h1, insertD_take]) (insertD_sorted _ _ h2) e3
      refine ⟨s'', full', f1, f2, f3, f4.trans ?_⟩
      refine ((insertD_perm _ full).append_right _).trans ?_
      rw [← List.append_assoc]
      exact List.Perm.append_right _ (List.perm_append_comm (l₁ := [_]))

/-- C27. For every set of node names, capacity and query, no assertion fails and the result consists of
the first `cap` elements of some ordering of all candidates by distance. -/
theorem C27_nearest (cap maxDistance : Nat) (fullPath : List Char) (names : List (List Char)) (hc : 0 < cap)
    (hq : fullPath ≠ []) :
    ∃ full : List NodeDist, findNearest cap maxDistance fullPath names = some (full.take cap) ∧
      full.Pairwise (fun a b => a.2 ≤ b.2) ∧ full.Perm (candidates maxDistance fullPath names) := by
  obtain ⟨s', full', h1, h2, h3, h4⟩ := nearLoop_spec cap maxDistance fullPath hc names ([], fullPath.length + 1) []
    (by simp) List.Pairwise.nil (by intro t h; simp at h)
  refine ⟨full', ?_, h3, h4⟩
  unfold findNearest
  rw [if_neg (by omega), if_neg (by simp [hq]), h1, Option.map_some, h2]

/-- C27, spelled out: the result is ordered, contains only candidates within the maximum distance, and a
candidate that is left out is not nearer than any listed one and is left out only because the list is
full. -/
theorem C27_explicit (cap maxDistance : Nat) (fullPath : List Char) (names : List (List Char)) (hc : 0 < cap)
    (hq : fullPath ≠ []) :
    ∃ res : List NodeDist, findNearest cap maxDistance fullPath names = some res ∧ res.length ≤ cap ∧
      res.Pairwise (fun a b => a.2 ≤ b.2) ∧
      (∀ r ∈ res, r.1 ∈ names ∧ r.2 = (levDistanceI fullPath r.1).1 ∧ r.2 ≤ maxDistance) ∧
      (∀ c ∈ candidates maxDistance fullPath names, c ∉ res → res.length = cap ∧ ∀ r ∈ res, r.2 ≤ c.2) := by
  obtain ⟨full, h1, h2, h3⟩ := C27_nearest cap maxDistance fullPath names hc hq
  refine ⟨_, h1, by simp; omega, h2.sublist (List.take_sublist _ _), fun r hr => ?_, fun c hcm hcr => ?_⟩
  · have hm := h3.mem_iff.1 (List.mem_of_mem_take hr)
    unfold candidates at hm
    obtain ⟨hm, hf⟩ := List.mem_filter.1 hm
    obtain ⟨n, hn, rfl⟩ := List.mem_map.1 hm
    refine ⟨hn, rfl, ?_⟩
    unfold nearSkip at hf
    by_cases hgt : (levDistanceI fullPath n).1 > maxDistance
    · simp [hgt] at hf
    · exact Nat.le_of_not_lt hgt
  · have hm := h3.mem_iff.2 hcm
    rw [← List.take_append_drop cap full] at hm h2
    have hd := (List.mem_append.1 hm).resolve_left hcr
    refine ⟨?_, fun r hr => (List.pairwise_append.1 h2).2.2 r hr c hd⟩
    have := List.length_pos_of_mem hd
    simp at this ⊢; omega

theorem align_length {eq : Char → Char → Bool} {s t : List Char} {n : Nat} (h : Align eq s t n) :
    s.length ≤ t.length + n ∧ t.length ≤ s.length + n := by
  induction h <;> simp <;> omega

/-- What the filter means: a node is a candidate exactly if it is within the maximum distance and its
distance equals the difference of the lengths, that is, if one name results from the other by insertions
only (up to case). -/
theorem C27_candidate_iff (maxDistance : Nat) (fullPath : List Char) (names : List (List Char)) (n : List Char)
    (hlen : fullPath.length < 1024) :
    (n, (levDistanceI fullPath n).1) ∈ candidates maxDistance fullPath names ↔
      n ∈ names ∧ (levDistanceI fullPath n).1 ≤ maxDistance ∧
      (fullPath.length + (levDistanceI fullPath n).1 = n.length ∨ n.length + (levDistanceI fullPath n).1 = fullPath.length) := by
  have hge : fullPath.length ≤ n.length + (levDistanceI fullPath n).1 ∧ n.length ≤ fullPath.length + (levDistanceI fullPath n).1 := by
    rw [levDistanceI, levImpl_eq isEquiv_noCase _ _ _ (Or.inl hlen)]
    exact align_length (lev_align _ fullPath n rfl)
  unfold candidates
  rw [List.mem_filter, List.mem_map]
  dsimp only
  generalize hd : (levDistanceI fullPath n).1 = d at *
  constructor
  · rintro ⟨⟨m, hm, he⟩, hf⟩
    simp only [Prod.mk.injEq] at he
    obtain ⟨rfl, he⟩ := he
    refine ⟨hm, ?_⟩
    unfold nearSkip at hf
    split at hf
    · simp at hf
    · split at hf <;> simp at hf <;> omega
  · rintro ⟨h1, h2, h3⟩
    refine ⟨⟨n, h1, by rw [hd]⟩, ?_⟩
    unfold nearSkip
    rw [if_neg (by omega)]
    split <;> simp <;> omega

/-- C27, finding: a name that differs from an existing target in one letter (same length) is never
answered with that target, although a name with a letter missing is. -/
theorem C27_typo_not_suggested :
    findNearest 32 0xFFFFFFFF "gane".toList ["game".toList, "gaming".toList] = some [] ∧
    findNearest 32 0xFFFFFFFF "gme".toList ["game".toList, "gaming".toList] = some [("game".toList, 1)] := by
  decide

example : findNearest 2 5 "lib".toList ["libab".toList, "liba".toList, "Lib".toList, "lia".toList] =
    some [("Lib".toList, 0), ("liba".toList, 1)] := by decide

end Verif.Str
