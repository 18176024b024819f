import Verif.Dirs.Nodes
/-! Properties C84 (copied directories) and C85 (objects of listed files). -/
namespace Verif.Dirs
open Unity (Name)

/-! ### C84 -/

/-- where a file of a list is copied to: the destination and what comes behind the path of the list -/
def target (dest : Name) (p : Name × Name) : Name := dest ++ p.2.drop p.1.length

theorem copyDir_facts {dest : Name} {lists : List (Name × List Name)} {g g' : Graph} {ds : List Name}
    (h : copyDir dest g lists = .ok (g', ds)) :
    ds.length = (listed lists).length ∧
    (∀ (i : Nat) p d, (listed lists)[i]? = some p → ds[i]? = some d →
      ∃ src k, find g' p.2 = some (src, k) ∧ find g' (target dest p) = some (d, .copy src)) ∧
    ∃ y, g' = g ++ y ∧ ∀ e ∈ y, ∃ p ∈ listed lists, e.1 = p.2 ∨ e.1 = target dest p := by
  rw [copyDir_eq] at h
  refine eachFile_ok (P := fun p g' d => ∃ src k, find g' p.2 = some (src, k) ∧ find g' (target dest p) = some (d, .copy src))
    (N := fun p n => n = p.2 ∨ n = target dest p) (fun g x g' d h => copyOne_ok h) ?_ (listed lists) g g' ds h
  rintro p g d y ⟨src, k, h1, h2⟩
  exact ⟨src, k, find_append h1, find_append h2⟩

/-- C84. When copying a directory succeeds, whatever was in the graph before, then there is one dependency for every listed file, in
order: a copy to the file's place below the destination, of this file (names up to case, as nodes are found). No copy stands
for two different files, and nothing that was in the graph has changed. -/
theorem C84_copies (dest : Name) (lists : List (Name × List Name)) (g g' : Graph) (ds : List Name)
    (h : copyDir dest g lists = .ok (g', ds)) :
    ds.length = (listed lists).length ∧
    (∀ (i : Nat) p d, (listed lists)[i]? = some p → ds[i]? = some d →
      Same false d (target dest p) ∧ ∃ src, (d, Kind.copy src) ∈ g' ∧ Same false src p.2 ∧ ∃ k, (src, k) ∈ g') ∧
    (∀ (i j : Nat) p q d, (listed lists)[i]? = some p → (listed lists)[j]? = some q → ds[i]? = some d → ds[j]? = some d →
      Same false p.2 q.2) ∧
    (∃ y, g' = g ++ y) := by
  obtain ⟨h1, h2, y, h3, _⟩ := copyDir_facts h
  refine ⟨h1, ?_, ?_, y, h3⟩
  · intro i p d hp hd
    obtain ⟨src, k, h4, h5⟩ := h2 i p d hp hd
    exact ⟨same_iff.mpr (find_mem h5).2, src, (find_mem h5).1, same_iff.mpr (find_mem h4).2, k, (find_mem h4).1⟩
  · intro i j p q d hp hq hi hj
    obtain ⟨s1, k1, h4, h5⟩ := h2 i p d hp hi
    obtain ⟨s2, k2, h6, h7⟩ := h2 j q d hq hj
    have e1 : find g' (target dest p) = find g' (target dest q) := find_congr ((find_mem h5).2.symm.trans (find_mem h7).2)
    rw [h5, h7] at e1
    simp only [Option.some.injEq, Prod.mk.injEq, true_and, Kind.copy.injEq] at e1
    subst e1
    exact same_iff.mpr ((find_mem h4).2.symm.trans (find_mem h6).2)

/-- C84 (partial: names that differ only in case are one node, see `C84_case`). When no two names in play differ only in case, the copies
and their sources are exactly the files listed and their places below the destination. -/
theorem C84_exact_partial (dest : Name) (lists : List (Name × List Name)) (g g' : Graph) (ds : List Name)
    (h : copyDir dest g lists = .ok (g', ds))
    (hc : ∀ a b, (a ∈ g.map Prod.fst ∨ ∃ p ∈ listed lists, a = p.2 ∨ a = target dest p) →
      (b ∈ g.map Prod.fst ∨ ∃ p ∈ listed lists, b = p.2 ∨ b = target dest p) → Same false a b → a = b) :
    ds = (listed lists).map (target dest) ∧ ∀ p ∈ listed lists, (target dest p, Kind.copy p.2) ∈ g' := by
  obtain ⟨h1, h2, y, rfl, h3⟩ := copyDir_facts h
  have inPlay : ∀ n k, (n, k) ∈ g ++ y → n ∈ g.map Prod.fst ∨ ∃ p ∈ listed lists, n = p.2 ∨ n = target dest p := by
    intro n k hm
    rcases List.mem_append.mp hm with hm | hm
    · exact .inl (List.mem_map.mpr ⟨_, hm, rfl⟩)
    · exact .inr (h3 _ hm)
  have each : ∀ (i : Nat) p d, (listed lists)[i]? = some p → ds[i]? = some d → d = target dest p ∧ (target dest p, Kind.copy p.2) ∈ g ++ y := by
    intro i p d hp hd
    obtain ⟨src, k, h4, h5⟩ := h2 i p d hp hd
    have hpm := List.mem_of_getElem? hp
    have e1 : d = target dest p := hc _ _ (inPlay _ _ (find_mem h5).1) (.inr ⟨p, hpm, .inr rfl⟩) (same_iff.mpr (find_mem h5).2)
    have e2 : src = p.2 := hc _ _ (inPlay _ _ (find_mem h4).1) (.inr ⟨p, hpm, .inl rfl⟩) (same_iff.mpr (find_mem h4).2)
    exact ⟨e1, by rw [← e1, ← e2]; exact (find_mem h5).1⟩
  constructor
  · apply List.ext_getElem
    · simpa using h1
    · intro i hi hi'
      have hi2 : i < (listed lists).length := by simpa using hi'
      rw [(each i _ _ (List.getElem?_eq_getElem hi2) (List.getElem?_eq_getElem hi)).1]
      simp
  · intro p hp
    obtain ⟨i, hi, rfl⟩ := List.getElem_of_mem hp
    exact (each i _ _ (List.getElem?_eq_getElem hi) (List.getElem?_eq_getElem (h1 ▸ hi))).2

/-- C84. When nothing in the graph stands in the way (nothing is known under the names of the copies, and what is known under the names
of the files are files) and no two different files are to be copied to the same place, copying succeeds. -/
theorem C84_succeeds (dest : Name) (lists : List (Name × List Name)) (g : Graph)
    (h1 : ∀ n k, (n, k) ∈ g → ∀ p ∈ listed lists, Same false n p.2 → k.isAFile = true)
    (h2 : ∀ n k, (n, k) ∈ g → ∀ p ∈ listed lists, ¬ Same false n (target dest p))
    (h3 : ∀ p ∈ listed lists, ∀ q ∈ listed lists, ¬ Same false p.2 (target dest q))
    (h4 : ∀ p ∈ listed lists, ∀ q ∈ listed lists, Same false (target dest p) (target dest q) → Same false p.2 q.2) :
    ∃ g' ds, copyDir dest g lists = .ok (g', ds) := by
  rw [copyDir_eq]
  refine eachFile_total (fun g => (∀ n k, (n, k) ∈ g → ∀ p ∈ listed lists, key n = key p.2 → k.isAFile = true) ∧
    (∀ n k, (n, k) ∈ g → ∀ p ∈ listed lists, key n = key (target dest p) → ∃ src k', k = .copy src ∧ find g p.2 = some (src, k')))
    (listed lists) ?_ g ⟨fun n k hm p hp hk => h1 n k hm p hp (same_iff.mpr hk), fun n k hm p hp hk => absurd (same_iff.mpr hk) (h2 n k hm p hp)⟩
  rintro ⟨root, f⟩ hx g ⟨i1, i2⟩
  -- the source
  have hsrc : ∃ y src, sourceNode g f = .ok (g ++ y, src) ∧ (∀ e ∈ y, e = (f, Kind.file)) ∧ ∃ k, find (g ++ y) f = some (src, k) := by
    unfold sourceNode
    cases hf : find g f with
    | none => exact ⟨[(f, .file)], f, rfl, by simp, .file, find_new hf⟩
    | some e =>
      obtain ⟨n, k⟩ := e
      have : k.isAFile = true := i1 n k (find_mem hf).1 (root, f) hx (find_mem hf).2
      exact ⟨[], n, by simp [this], by simp, k, by simpa using hf⟩
  obtain ⟨y, src, e1, e2, k0, e3⟩ := hsrc
  have j1 : ∀ n k, (n, k) ∈ g ++ y → ∀ p ∈ listed lists, key n = key p.2 → k.isAFile = true := by
    intro n k hm p hp hk
    rcases List.mem_append.mp hm with hm | hm
    · exact i1 n k hm p hp hk
    · have := e2 _ hm
      simp only [Prod.mk.injEq] at this
      rw [this.2]; rfl
  have j2 : ∀ n k, (n, k) ∈ g ++ y → ∀ p ∈ listed lists, key n = key (target dest p) → ∃ src k', k = .copy src ∧ find (g ++ y) p.2 = some (src, k') := by
    intro n k hm p hp hk
    rcases List.mem_append.mp hm with hm | hm
    · obtain ⟨s, k', a, b⟩ := i2 n k hm p hp hk
      exact ⟨s, k', a, find_append b⟩
    · have := e2 _ hm
      simp only [Prod.mk.injEq] at this
      exact absurd (same_iff.mpr (this.1 ▸ hk)) (h3 (root, f) hx p hp)
  have ht : dest ++ f.drop root.length = target dest (root, f) := rfl
  simp only [copyOne, e1, ht]
  cases hd : find (g ++ y) (target dest (root, f)) with
  | none =>
    refine ⟨_, _, rfl, ?_, ?_⟩
    · intro n k hm p hp hk
      rcases List.mem_append.mp hm with hm | hm
      · exact j1 n k hm p hp hk
      · simp only [List.mem_singleton, Prod.mk.injEq] at hm
        rw [hm.2]; rfl
    · intro n k hm p hp hk
      rcases List.mem_append.mp hm with hm | hm
      · obtain ⟨s, k', a, b⟩ := j2 n k hm p hp hk
        exact ⟨s, k', a, find_append b⟩
      · simp only [List.mem_singleton, Prod.mk.injEq] at hm
        refine ⟨src, k0, hm.2, find_append ?_⟩
        have := same_iff.mp (h4 p hp (root, f) hx (same_iff.mpr (hk.symm.trans (by rw [hm.1]))))
        rw [find_congr this]; exact e3
  | some e =>
    obtain ⟨n, k⟩ := e
    obtain ⟨s, k', a, b⟩ := j2 n k (find_mem hd).1 (root, f) hx (find_mem hd).2
    subst a
    simp only at b
    rw [e3] at b
    simp only [Option.some.injEq, Prod.mk.injEq] at b
    refine ⟨g ++ y, n, by simp [b.1], j1, j2⟩

/-! ### C85 -/

theorem objects_facts {c : ObjConfig} {lists : List (Name × List Name)} {g g' : Graph} {ds : List Name}
    (h : objects c g lists = .ok (g', ds)) :
    ds.length = (listed lists).length ∧
    (∀ (i : Nat) p d, (listed lists)[i]? = some p → ds[i]? = some d →
      ∃ src k o, find g' p.2 = some (src, k) ∧ objectName c src p.1 = some o ∧ find g' o = some (d, .object src c.id)) ∧
    ∃ y, g' = g ++ y := by
  rw [objects_eq] at h
  obtain ⟨h1, h2, y, h3, _⟩ := eachFile_ok (P := fun p g' d => ∃ src k o, find g' p.2 = some (src, k) ∧ objectName c src p.1 = some o ∧ find g' o = some (d, .object src c.id))
    (N := fun _ _ => True) (fun g x g' d h => by
      obtain ⟨src, k, o, a1, a2, a3, _, y, a4, _⟩ := objectOne_ok h
      exact ⟨⟨src, k, o, a1, a2, a3⟩, y, a4, fun _ _ => trivial⟩) (by
      rintro p g d y ⟨src, k, o, h1, h2, h3⟩
      exact ⟨src, k, o, find_append h1, h2, find_append h3⟩) (listed lists) g g' ds h
  exact ⟨h1, h2, y, h3⟩

/-- C85. When the objects of an object list are set up, whatever was in the graph before, then there is one for every listed file, in
order: it belongs to this object list, is compiled from this file (names up to case) and has the name made from it. No object
stands for two different files, or for two object lists. -/
theorem C85_objects (c : ObjConfig) (lists : List (Name × List Name)) (g g' : Graph) (ds : List Name)
    (h : objects c g lists = .ok (g', ds)) :
    ds.length = (listed lists).length ∧
    (∀ (i : Nat) p d, (listed lists)[i]? = some p → ds[i]? = some d →
      ∃ src o, (d, Kind.object src c.id) ∈ g' ∧ Same false src p.2 ∧ objectName c src p.1 = some o ∧ Same false d o) ∧
    (∀ (i j : Nat) p q d, (listed lists)[i]? = some p → (listed lists)[j]? = some q → ds[i]? = some d → ds[j]? = some d →
      Same false p.2 q.2) ∧
    (∃ y, g' = g ++ y) := by
  obtain ⟨h1, h2, y, h3⟩ := objects_facts h
  refine ⟨h1, ?_, ?_, y, h3⟩
  · intro i p d hp hd
    obtain ⟨src, k, o, h4, h5, h6⟩ := h2 i p d hp hd
    exact ⟨src, o, (find_mem h6).1, same_iff.mpr (find_mem h4).2, h5, same_iff.mpr (find_mem h6).2⟩
  · intro i j p q d hp hq hi hj
    obtain ⟨s1, k1, o1, h4, _, h5⟩ := h2 i p d hp hi
    obtain ⟨s2, k2, o2, h6, _, h7⟩ := h2 j q d hq hj
    have e1 : find g' o1 = find g' o2 := find_congr ((find_mem h5).2.symm.trans (find_mem h7).2)
    rw [h5, h7] at e1
    simp only [Option.some.injEq, Prod.mk.injEq, true_and, Kind.object.injEq, and_true] at e1
    subst e1
    exact same_iff.mpr ((find_mem h4).2.symm.trans (find_mem h6).2)

theorem eachFile_inv {α : Type} {f : Graph → α → Except Err (Graph × Name)} (Inv : Graph → Prop) (P : α → Graph → Name → Prop)
    (hP : ∀ x g d y, P x g d → P x (g ++ y) d) :
    ∀ (l : List α), (∀ x ∈ l, ∀ g g' d, Inv g → f g x = .ok (g', d) → Inv g' ∧ P x g' d ∧ ∃ y, g' = g ++ y) →
    ∀ g g' ds, Inv g → eachFile f g l = .ok (g', ds) →
      (∃ y, g' = g ++ y) ∧ ds.length = l.length ∧ ∀ (i : Nat) x d, l[i]? = some x → ds[i]? = some d → P x g' d
  | [], _, g, g', ds, _, h => by
    simp only [eachFile] at h
    cases h
    exact ⟨⟨[], by simp⟩, rfl, by simp⟩
  | x :: l, hf, g, g', ds, hg, h => by
    simp only [eachFile] at h
    cases h1 : f g x with
    | error e => simp [h1] at h
    | ok p =>
      obtain ⟨g1, d⟩ := p
      simp only [h1] at h
      cases h2 : eachFile f g1 l with
      | error e => simp [h2] at h
      | ok p =>
        obtain ⟨g2, ds'⟩ := p
        simp only [h2] at h
        cases h
        obtain ⟨hi, hp, y, rfl⟩ := hf x (by simp) g g1 d hg h1
        obtain ⟨⟨z, rfl⟩, h4, h5⟩ := eachFile_inv Inv P hP l (fun a ha => hf a (by simp [ha])) _ g' ds' hi h2
        refine ⟨⟨y ++ z, by simp⟩, by simp [h4], ?_⟩
        intro i a b ha hb
        cases i with
        | zero =>
          simp only [List.getElem?_cons_zero, Option.some.injEq] at ha hb
          subst ha; subst hb
          exact hP _ _ _ _ hp
        | succ i =>
          simp only [List.getElem?_cons_succ] at ha hb
          exact h5 i a b ha hb

/-- the names in play: known before, listed, or made from a listed file -/
def InPlay (c : ObjConfig) (L : List (Name × Name)) (g : Graph) (n : Name) : Prop :=
  n ∈ g.map Prod.fst ∨ ∃ p ∈ L, n = p.2 ∨ objectName c p.2 p.1 = some n

theorem objectOne_exact {c : ObjConfig} {L : List (Name × Name)} {g0 : Graph}
    (hc : ∀ a b, InPlay c L g0 a → InPlay c L g0 b → Same false a b → a = b) (p : Name × Name) (hp : p ∈ L) (g1 g2 : Graph) (d : Name)
    (hi : ∀ n k, (n, k) ∈ g1 → InPlay c L g0 n) (hok : objectOne c p.1 g1 p.2 = .ok (g2, d)) :
    (∀ n k, (n, k) ∈ g2 → InPlay c L g0 n) ∧ (objectName c p.2 p.1 = some d ∧ (d, Kind.object p.2 c.id) ∈ g2) ∧ ∃ y, g2 = g1 ++ y := by
  obtain ⟨src, k, o, a1, a2, a3, a5, y, rfl, a4⟩ := objectOne_ok hok
  have src_in : InPlay c L g0 src := by
    rcases a5 with ⟨k', hf⟩ | he
    · exact hi _ _ (find_mem hf).1
    · exact .inr ⟨p, hp, .inl he⟩
  have e2 : src = p.2 := hc _ _ src_in (.inr ⟨p, hp, .inl rfl⟩) (same_iff.mpr (find_mem a1).2)
  rw [e2] at a2 a3
  have inv : ∀ n k, (n, k) ∈ g1 ++ y → InPlay c L g0 n := by
    intro n k hm
    rcases List.mem_append.mp hm with hm | hm
    · exact hi n k hm
    · refine .inr ⟨p, hp, ?_⟩
      rcases a4 _ hm with h | h
      · exact .inl h
      · exact .inr (by rw [a2]; simp only at h; rw [h])
  have e1 : d = o := hc _ _ (inv _ _ (find_mem a3).1) (.inr ⟨p, hp, .inr a2⟩) (same_iff.mpr (find_mem a3).2)
  rw [← e1] at a2 a3
  exact ⟨inv, ⟨a2, (find_mem a3).1⟩, y, rfl⟩

/-- C85 (partial: names that differ only in case are one node, see `C85_case`). When no two names in play differ only in case, the objects
and their sources are exactly those named after the files listed. -/
theorem C85_exact_partial (c : ObjConfig) (lists : List (Name × List Name)) (g g' : Graph) (ds : List Name)
    (h : objects c g lists = .ok (g', ds))
    (hc : ∀ a b, InPlay c (listed lists) g a → InPlay c (listed lists) g b → Same false a b → a = b) :
    ds.map some = (listed lists).map (fun p => objectName c p.2 p.1) ∧
      ∀ p ∈ listed lists, ∃ o, objectName c p.2 p.1 = some o ∧ (o, Kind.object p.2 c.id) ∈ g' := by
  have h' := (objects_eq c lists g).symm.trans h
  have hex := eachFile_inv (f := fun g (p : Name × Name) => objectOne c p.1 g p.2) (fun g' => ∀ n k, (n, k) ∈ g' → InPlay c (listed lists) g n)
    (fun p g' d => objectName c p.2 p.1 = some d ∧ (d, Kind.object p.2 c.id) ∈ g')
    (fun p g d y hp => ⟨hp.1, List.mem_append.mpr (.inl hp.2)⟩) (listed lists)
    (fun p hp g1 g2 d hi hok => objectOne_exact hc p hp g1 g2 d hi hok) g g' ds (fun n k hm => .inl (List.mem_map.mpr ⟨_, hm, rfl⟩)) h'
  obtain ⟨_, h1, h2⟩ := hex
  constructor
  · apply List.ext_getElem
    · simpa using h1
    · intro i hi hi'
      have hi2 : i < (listed lists).length := by simpa using hi'
      have hi3 : i < ds.length := by simpa using hi
      have := (h2 i _ _ (List.getElem?_eq_getElem hi2) (List.getElem?_eq_getElem hi3)).1
      rw [List.getElem_map, List.getElem_map, this]
  · intro p hp
    obtain ⟨i, hi, rfl⟩ := List.getElem_of_mem hp
    have hi3 : i < ds.length := by omega
    exact ⟨ds[i], h2 i _ _ (List.getElem?_eq_getElem hi) (List.getElem?_eq_getElem hi3)⟩

end Verif.Dirs
