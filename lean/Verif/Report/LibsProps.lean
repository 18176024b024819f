import Verif.Report.LibsProof
/-!
C122: the statistics of libraries in the report of a build.
-/
namespace Verif.Report

private theorem run {g : Nat → Node} {N root : Nat} {sort : List LibStats → List LibStats} {libs : List LibStats} {bad : Bool} (hc : Closed g N)
    (hr : root < N) (h : libraryStats g sort (N + 1) root = some (libs, bad)) :
    ∃ E, WF g root E ∧ (∀ n, n ∈ nodes E ↔ Needs g root n) ∧ libs = sort (view g E).libs ∧ bad = (view g E).bad := by
  obtain ⟨E, e, w, m⟩ := visited hc hr
  rw [libraryStats, e] at h
  simp only [Option.map_some, Option.some.injEq, Prod.mk.injEq] at h
  exact ⟨E, w, m, h.1.symm, h.2.symm⟩

/-- C122: the statistics are gathered. -/
theorem C122_ends {g : Nat → Node} {N root : Nat} (hc : Closed g N) (hr : root < N) (sort : List LibStats → List LibStats) :
    ∃ r, libraryStats g sort (N + 1) root = some r := by
  obtain ⟨E, e, _⟩ := visited hc hr
  rw [libraryStats, e]
  exact ⟨_, rfl⟩

/-- C122: each library that is needed has one row, which sums up its objects. Each object is of one library that needs it, and where the assertion
does not fail, each object needed is of some library. Rows come with the longest time first. -/
theorem C122_libraries {g : Nat → Node} {N root : Nat} {sort : List LibStats → List LibStats} {libs : List LibStats} {bad : Bool} (hc : Closed g N)
    (hr : root < N) (hs : Sorts sort) (h : libraryStats g sort (N + 1) root = some (libs, bad)) :
    (libs.map (·.node)).Nodup ∧ (∀ n, n ∈ libs.map (·.node) ↔ Needs g root n ∧ IsLib g n) ∧ libs.Pairwise (fun a b => b.time ≤ a.time) ∧
    ∃ objs : Nat → List Nat, (∀ l ∈ libs, l = row g l.node (objs l.node)) ∧
      (∀ L, (objs L).Nodup ∧ ∀ o ∈ objs L, IsObject g o ∧ Needs g L o ∧ Needs g root o ∧ IsLib g L ∧ Needs g root L) ∧
      (∀ L M o, o ∈ objs L → o ∈ objs M → L = M) ∧
      (bad = false → ∀ o, Needs g root o → IsObject g o → ∃ L, o ∈ objs L) := by
  obtain ⟨E, w, m, e1, e2⟩ := run hc hr h
  have hl := view_libs w
  have hn : (view g E).libs.map (·.node) = ((nodes E).filter fun n => isLibrary (g n)).reverse := by
    rw [hl, List.map_map]
    have : ((fun x : LibStats => x.node) ∘ fun L => row g L (objsOf g E L)) = id := rfl
    rw [this, List.map_id]
  have hp : (libs.map (·.node)).Perm ((nodes E).filter fun n => isLibrary (g n)) := by
    rw [e1]
    refine ((hs.perm _).map _).trans ?_
    rw [hn]
    exact List.reverse_perm _
  have hnd := wf_nodup w
  refine ⟨hp.nodup_iff.2 (hnd.sublist List.filter_sublist), fun n => ?_, e1 ▸ hs.ordered _, objsOf g E, ?_, ?_, ?_, ?_⟩
  · rw [hp.mem_iff, List.mem_filter, m, isLib_iff]
  · intro l hm
    rw [e1, (hs.perm _).mem_iff, hl, List.mem_map] at hm
    obtain ⟨L, _, rfl⟩ := hm
    rfl
  · intro L
    refine ⟨hnd.sublist (List.filter_sublist.map _), fun o ho => ?_⟩
    obtain ⟨h1, h2⟩ := mem_objsOf.1 ho
    obtain ⟨a, b, c⟩ := wf_mem w h1
    exact ⟨h2, c, (m o).1 (List.mem_map.2 ⟨_, h1, rfl⟩), a, (m L).1 b⟩
  · intro L M o h1 h2
    have h1 := (mem_objsOf.1 h1).1
    have h2 := (mem_objsOf.1 h2).1
    have : ∀ {E : Log}, (nodes E).Nodup → (o, some L) ∈ E → (o, some M) ∈ E → L = M := by
      intro E
      induction E with
      | nil => intro _ h; simp at h
      | cons a E ih =>
        intro hd h1 h2
        have hd := List.nodup_cons.1 hd
        rcases List.mem_cons.1 h1 with x | x <;> rcases List.mem_cons.1 h2 with y | y
        · rw [← x] at y; cases y; rfl
        · exact absurd (List.mem_map.2 ⟨_, y, rfl⟩) (by rw [← x] at hd; exact hd.1)
        · exact absurd (List.mem_map.2 ⟨_, x, rfl⟩) (by rw [← y] at hd; exact hd.1)
        · exact ih hd.2 x y
    exact this hnd h1 h2
  · intro hb o ho hi
    obtain ⟨⟨o', cur⟩, h1, h2⟩ := List.mem_map.1 ((m o).2 ho)
    simp only at h2
    subst h2
    cases cur with
    | some L => exact ⟨L, mem_objsOf.2 ⟨h1, hi⟩⟩
    | none =>
      have := view_bad.2 ⟨o', h1, hi⟩
      rw [← e2, hb] at this
      cases this

/-- C122: the assertion does not fail where objects belong to libraries. -/
theorem C122_safe {g : Nat → Node} {N root : Nat} {sort : List LibStats → List LibStats} {libs : List LibStats} {bad : Bool} (hc : Closed g N)
    (hr : root < N) (hi : InLibs g root) (h : libraryStats g sort (N + 1) root = some (libs, bad)) : bad = false := by
  obtain ⟨E, w, m, _, e2⟩ := run hc hr h
  cases hb : bad with
  | false => rfl
  | true =>
    rw [hb] at e2
    obtain ⟨n, h1, h2⟩ := view_bad.1 e2.symm
    rcases wf_top w h1 with e | ⟨p, hp, hd, hl⟩
    · subst e; exact absurd h2 hi.1
    · exact absurd (hi.2 p n ((m p).1 hp) hd h2) hl

/-- `L` has the objects needed, each once -/
def ListsObjects (g : Nat → Node) (root : Nat) (L : List Nat) : Prop := L.Nodup ∧ ∀ n, n ∈ L ↔ Needs g root n ∧ IsObject g n

private theorem sum_flat {α : Type} (f : α → List Nat) (l : List α) : (l.map fun x => (f x).length).sum = (l.flatMap f).length := by
  rw [List.length_flatMap]

private theorem filter_flat {α : Type} (f : α → List Nat) (p : Nat → Bool) (l : List α) :
    (l.map fun x => ((f x).filter p).length).sum = ((l.flatMap f).filter p).length := by
  rw [sum_flat fun x => (f x).filter p, List.filter_flatMap]

/-- C122: over all libraries, the objects, the ones out of date, the cacheable, the hits and the stores add up to those of all objects needed,
each counted once. -/
theorem C122_total {g : Nat → Node} {N root : Nat} {sort : List LibStats → List LibStats} {libs : List LibStats} {L : List Nat} (hc : Closed g N)
    (hr : root < N) (hs : Sorts sort) (hL : ListsObjects g root L) (h : libraryStats g sort (N + 1) root = some (libs, false)) :
    (libs.map (·.objects)).sum = L.length ∧
    (libs.map (·.outOfDate)).sum = number g L OutOfDate ∧
    (libs.map (·.cacheable)).sum = number g L Cacheable ∧
    (libs.map (·.hits)).sum = number g L (·.hit = true) ∧
    (libs.map (·.stores)).sum = number g L (fun x => Cacheable x ∧ x.store = true) := by
  obtain ⟨hnd, hmem, _, objs, hrow, hobj, huniq, hall⟩ := C122_libraries hc hr hs h
  have hperm : (libs.flatMap fun l => objs l.node).Perm L := by
    rw [List.perm_ext_iff_of_nodup _ hL.1]
    · intro o
      rw [hL.2, List.mem_flatMap]
      constructor
      · rintro ⟨l, _, ho⟩
        obtain ⟨a, _, b, _⟩ := (hobj l.node).2 o ho
        exact ⟨b, a⟩
      · rintro ⟨a, b⟩
        obtain ⟨M, hM⟩ := hall rfl o a b
        obtain ⟨_, _, _, c, d⟩ := (hobj M).2 o hM
        obtain ⟨l, h1, h2⟩ := List.mem_map.1 ((hmem M).2 ⟨d, c⟩)
        exact ⟨l, h1, h2 ▸ hM⟩
    · unfold List.Nodup
      rw [List.pairwise_flatMap]
      refine ⟨fun l _ => (hobj l.node).1, ?_⟩
      have hnd : (libs.map (·.node)).Pairwise (· ≠ ·) := hnd
      rw [List.pairwise_map] at hnd
      exact hnd.imp fun hne x hx y hy (e : x = y) => hne (huniq _ _ x hx (e ▸ hy))
  have rowf : ∀ (f : LibStats → Nat) (k : List Nat → Nat), (∀ n O, f (row g n O) = k O) →
      (libs.map f).sum = (libs.map fun l => k (objs l.node)).sum := by
    intro f k hf
    congr 1
    apply List.map_congr_left
    intro l hl
    rw [hrow l hl, hf]
    rfl
  refine ⟨?_, ?_, ?_, ?_, ?_⟩
  · rw [rowf (·.objects) List.length fun _ _ => rfl, sum_flat, hperm.length_eq]
  all_goals
    first
    | rw [rowf (·.outOfDate) (fun O => number g O OutOfDate) fun _ _ => rfl]
    | rw [rowf (·.cacheable) (fun O => number g O Cacheable) fun _ _ => rfl]
    | rw [rowf (·.hits) (fun O => number g O (·.hit = true)) fun _ _ => rfl]
    | rw [rowf (·.stores) (fun O => number g O (fun x => Cacheable x ∧ x.store = true)) fun _ _ => rfl]
    unfold number
    rw [filter_flat]
    exact (hperm.filter _).length_eq

private theorem number_le {g : Nat → Node} {L : List Nat} {p q : Node → Prop} [DecidablePred p] [DecidablePred q] (h : ∀ x, p x → q x) :
    number g L p ≤ number g L q := by
  unfold number
  rw [← List.countP_eq_length_filter, ← List.countP_eq_length_filter]
  exact List.countP_mono_left fun x _ hx => by simpa using h _ (by simpa using hx)

/-- C122: in each row hits and stores are among the cacheable, those among the ones out of date, and those among the objects: so `Uncacheable` and
`Cache Miss` are not below zero. -/
theorem C122_parts {g : Nat → Node} {N root : Nat} {sort : List LibStats → List LibStats} {libs : List LibStats} {bad : Bool} (hc : Closed g N)
    (hr : root < N) (hs : Sorts sort) (h : libraryStats g sort (N + 1) root = some (libs, bad)) :
    ∀ l ∈ libs, l.hits ≤ l.cacheable ∧ l.stores ≤ l.cacheable ∧ l.cacheable ≤ l.outOfDate ∧ l.outOfDate ≤ l.objects := by
  obtain ⟨_, _, _, objs, hrow, _⟩ := C122_libraries hc hr hs h
  intro l hl
  rw [hrow l hl]
  generalize objs l.node = O
  refine ⟨number_le (g := g) (L := O) (p := fun x => x.hit = true) (q := Cacheable) fun x h => .inl h,
    number_le (g := g) (L := O) (p := fun x => Cacheable x ∧ x.store = true) (q := Cacheable) fun x h => h.1,
    number_le (g := g) (L := O) (p := Cacheable) (q := OutOfDate) fun x h => h.elim .inl fun h => .inr (.inl h), ?_⟩
  exact List.length_filter_le _ _

/-! ### cases -/

/-- an alias (0) of a program (1) that needs a list of objects (2) and a library (3): both need the object 5, and each one more -/
def g0 : Nat → Node
  | 0 => { kind := .other, static_ := [1] }
  | 1 => { kind := .other, built := true, time := 9, static_ := [2, 3] }
  | 2 => { kind := .objectList, dynamic_ := [4, 5] }
  | 3 => { kind := .library, built := true, time := 7, static_ := [2], dynamic_ := [5, 6] }
  | 4 => { kind := .object, hit := true, time := 2 }
  | 5 => { kind := .object, miss := true, store := true, built := true, time := 3, caching := 1 }
  | 6 => { kind := .object }
  | _ => { kind := .other }

def sort0 (l : List LibStats) : List LibStats := l.mergeSort fun a b => decide (b.time ≤ a.time)

theorem sorts0 : Sorts sort0 where
  perm l := List.mergeSort_perm _ _
  ordered l := by
    have := List.pairwise_mergeSort (le := fun a b : LibStats => decide (b.time ≤ a.time)) (fun a b c h1 h2 => by simp at *; omega)
      (fun a b => by simp; omega) l
    exact this.imp fun h => by simpa using h

theorem closed0 : Closed g0 7 := by
  intro n hn m hm
  match n, hn with
  | 0, _ => simp [g0] at hm; omega
  | 1, _ => simp [g0] at hm; omega
  | 2, _ => simp [g0] at hm; omega
  | 3, _ => simp [g0] at hm; omega
  | 4, _ => simp [g0] at hm
  | 5, _ => simp [g0] at hm
  | 6, _ => simp [g0] at hm

def libs0 : List LibStats := [
  { node := 3, time := 7, objects := 1 },
  { node := 2, time := 5, objects := 2, outOfDate := 2, cacheable := 2, hits := 1, stores := 1, cacheTime := 1 }]

theorem stats0 : libraryStats g0 sort0 8 0 = some (libs0, false) := by
  have h : gather g0 8 none 0 {} = some ⟨[6, 3, 5, 4, 2, 1, 0], libs0.reverse, false⟩ := by decide +kernel
  have h2 : sort0 libs0.reverse = libs0 := by
    simp [sort0, libs0, List.mergeSort, List.MergeSort.Internal.splitInTwo, List.merge]
  rw [libraryStats, h]
  simp [h2]

/-- the shared object counts for the first library only -/
example : ∀ l ∈ libs0, l.hits ≤ l.cacheable ∧ l.stores ≤ l.cacheable ∧ l.cacheable ≤ l.outOfDate ∧ l.outOfDate ≤ l.objects :=
  C122_parts closed0 (by decide) sorts0 stats0

theorem needs0 : ∀ n, Needs g0 0 n ↔ n < 7 := by
  intro n
  constructor
  · intro h
    induction h with
    | refl => decide
    | step _ hd ih => exact closed0 _ ih _ hd.2
  · intro h
    have s1 : Needs g0 0 1 := .step .refl ⟨by simp [g0], by simp [g0]⟩
    have s2 : Needs g0 0 2 := .step s1 ⟨by simp [g0], by simp [g0]⟩
    have s3 : Needs g0 0 3 := .step s1 ⟨by simp [g0], by simp [g0]⟩
    have s4 : Needs g0 0 4 := .step s2 ⟨by simp [g0], by simp [g0]⟩
    have s5 : Needs g0 0 5 := .step s2 ⟨by simp [g0], by simp [g0]⟩
    have s6 : Needs g0 0 6 := .step s3 ⟨by simp [g0], by simp [g0]⟩
    match n, h with
    | 0, _ => exact .refl
    | 1, _ => exact s1
    | 2, _ => exact s2
    | 3, _ => exact s3
    | 4, _ => exact s4
    | 5, _ => exact s5
    | 6, _ => exact s6

theorem inLibs0 : InLibs g0 0 := by
  refine ⟨by simp [IsObject, g0], fun n m hn hd ho => ?_⟩
  have hn := (needs0 n).1 hn
  match n, hn with
  | 0, _ => obtain ⟨_, h⟩ := hd; simp [g0] at h; subst h; simp [IsObject, g0] at ho
  | 1, _ => obtain ⟨_, h⟩ := hd; simp [g0] at h; rcases h with h | h <;> subst h <;> simp [IsObject, g0] at ho
  | 2, _ => exact .inr (.inr (.inl rfl))
  | 3, _ => exact .inl rfl
  | 4, _ => simp [Dep, g0] at hd
  | 5, _ => simp [Dep, g0] at hd
  | 6, _ => simp [Dep, g0] at hd

example : false = false := C122_safe closed0 (by decide) inLibs0 stats0

theorem lists0 : ListsObjects g0 0 [4, 5, 6] := by
  refine ⟨by decide, fun n => ?_⟩
  rw [needs0]
  constructor
  · intro h; simp at h; rcases h with h | h | h <;> subst h <;> simp [IsObject, g0]
  · rintro ⟨h, ho⟩
    match n, h with
    | 0, _ => simp [IsObject, g0] at ho
    | 1, _ => simp [IsObject, g0] at ho
    | 2, _ => simp [IsObject, g0] at ho
    | 3, _ => simp [IsObject, g0] at ho
    | 4, _ => simp
    | 5, _ => simp
    | 6, _ => simp

example : (libs0.map (·.objects)).sum = 3 := (C122_total closed0 (by decide) sorts0 lists0 stats0).1

/-- The assertion fails where an object is the target: C122 is not safe in general. -/
theorem C122_target_false : ∃ (g : Nat → Node) (N root : Nat) (sort : List LibStats → List LibStats),
    Closed g N ∧ root < N ∧ Sorts sort ∧ libraryStats g sort (N + 1) root = some ([], true) := by
  refine ⟨fun _ => { kind := .object, built := true, time := 3 }, 1, 0, sort0, ?_, by decide, sorts0, by decide +kernel⟩
  intro n _ m hm
  simp at hm

end Verif.Report
