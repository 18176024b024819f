import Verif.Sln.Doc
/-
C101: what a solution is made of.
-/
namespace Verif.Sln

theorem ex_cons {α : Type} {P : α → Prop} {a : α} {l : List α} : (∃ x ∈ a :: l, P x) ↔ P a ∨ ∃ x ∈ l, P x := by
  simp [List.mem_cons]

theorem ex_map {α β : Type} {P : β → Prop} {f : α → β} {l : List α} : (∃ y ∈ l.map f, P y) ↔ ∃ x ∈ l, P (f x) := by
  constructor
  · rintro ⟨y, hy, hp⟩
    obtain ⟨x, hx, rfl⟩ := List.mem_map.1 hy
    exact ⟨x, hx, hp⟩
  · rintro ⟨x, hx, hp⟩
    exact ⟨f x, List.mem_map_of_mem hx, hp⟩

theorem equalsI_iff : ∀ (a b : Text), Cont.equalsI a b = true ↔ a.map Str.lower = b.map Str.lower
  | [], [] => by simp [Cont.equalsI]
  | [], _ :: _ => by simp [Cont.equalsI]
  | _ :: _, [] => by simp [Cont.equalsI]
  | a :: s, b :: t => by simp [Cont.equalsI, Str.eqNoCase, equalsI_iff s t]

theorem fixPath_eq : ∀ (p : Text), fixPath p = pathOf p
  | [] => rfl
  | [c] => by
    by_cases h : c = '/'
    · subst h; decide
    · by_cases h' : c = '\\'
      · subst h'; decide
      · simp [fixPath, pathOf, h, h']
  | c :: d :: t => by
    have ih := fixPath_eq (d :: t)
    rw [pathOf, ← ih]
    · simp only [fixPath, List.map_cons, List.getLast?_cons_cons]
      generalize (if c = '/' then '\\' else c) = x
      generalize (if d = '/' then '\\' else d) = y
      split <;> simp [List.dropLast]
    · simp

theorem configs_eq (inp : Input) : ((if inp.configs = [] then defaultConfigs inp else inp.configs).map fixConfig) = configsOf inp := by
  unfold configsOf
  split
  · simp [defaultConfigs, fixConfig, show Cont.equalsI win32 win32 = true from by decide, show Cont.equalsI x64 win32 = false from by decide]
  · apply List.map_congr_left
    intro c _
    have h : ∀ p : Text, (Cont.equalsI p win32 = true) = (p.map Str.lower = ['w', 'i', 'n', '3', '2']) := by
      intro p
      rw [equalsI_iff]
      rfl
    simp only [fixConfig, h, x86]

/-! ### folders -/

theorem collapseInto_paths (f : Folder) (l : List Folder) : ∀ q, q ∈ (collapseInto f l).map (·.path) ↔ q = f.path ∨ q ∈ l.map (·.path) := by
  induction l with
  | nil => simp [collapseInto]
  | cons g l ih =>
    intro q
    unfold collapseInto
    split
    · rename_i h
      simp only [List.map_cons, List.mem_cons, h]
      grind
    · simp only [List.map_cons, List.mem_cons, ih]
      grind

theorem collapseInto_nodup (f : Folder) (l : List Folder) (h : (l.map (·.path)).Nodup) : ((collapseInto f l).map (·.path)).Nodup := by
  induction l with
  | nil => simp [collapseInto]
  | cons g l ih =>
    unfold collapseInto
    split
    · exact h
    · rename_i hg
      rw [List.map_cons, List.nodup_cons] at h ⊢
      refine ⟨?_, ih h.2⟩
      rw [collapseInto_paths]
      simp only [not_or]
      exact ⟨hg, h.1⟩

/-- a folder has a project -/
def hasP (l : List Folder) (q n : Text) : Prop := ∃ f ∈ l, f.path = q ∧ n ∈ f.projects
def hasI (l : List Folder) (q n : Text) : Prop := ∃ f ∈ l, f.path = q ∧ n ∈ f.items

theorem collapseInto_has (f : Folder) (l : List Folder) (q n : Text) :
    (hasP (collapseInto f l) q n ↔ (f.path = q ∧ n ∈ f.projects) ∨ hasP l q n) ∧ (hasI (collapseInto f l) q n ↔ (f.path = q ∧ n ∈ f.items) ∨ hasI l q n) := by
  unfold hasP hasI
  induction l with
  | nil => simp [collapseInto]
  | cons g l ih =>
    unfold collapseInto
    split
    · rename_i h
      simp only [ex_cons, List.mem_append]
      grind
    · simp only [ex_cons, ih.1, ih.2]
      grind

theorem collapse_spec (l : List Folder) : ((collapse l).map (·.path)).Nodup ∧ (∀ q, q ∈ (collapse l).map (·.path) ↔ q ∈ l.map (·.path)) ∧
    ∀ q n, (hasP (collapse l) q n ↔ hasP l q n) ∧ (hasI (collapse l) q n ↔ hasI l q n) := by
  have key : ∀ (l acc : List Folder), (acc.map (·.path)).Nodup →
      ((l.foldl (fun acc f => collapseInto f acc) acc).map (·.path)).Nodup ∧
      (∀ q, q ∈ (l.foldl (fun acc f => collapseInto f acc) acc).map (·.path) ↔ q ∈ acc.map (·.path) ∨ q ∈ l.map (·.path)) ∧
      ∀ q n, (hasP (l.foldl (fun acc f => collapseInto f acc) acc) q n ↔ hasP acc q n ∨ hasP l q n) ∧
        (hasI (l.foldl (fun acc f => collapseInto f acc) acc) q n ↔ hasI acc q n ∨ hasI l q n) := by
    intro l
    induction l with
    | nil => intro acc h; simp [h, hasP, hasI]
    | cons f l ih =>
      intro acc h
      obtain ⟨h1, h2, h3⟩ := ih (collapseInto f acc) (collapseInto_nodup f acc h)
      refine ⟨h1, fun q => ?_, fun q n => ⟨?_, ?_⟩⟩
      · rw [List.foldl_cons, h2, collapseInto_paths, List.map_cons, List.mem_cons]
        grind
      · have e : hasP (f :: l) q n ↔ (f.path = q ∧ n ∈ f.projects) ∨ hasP l q n := by simp only [hasP, ex_cons]
        rw [List.foldl_cons, (h3 q n).1, (collapseInto_has f acc q n).1, e]
        grind
      · have e : hasI (f :: l) q n ↔ (f.path = q ∧ n ∈ f.items) ∨ hasI l q n := by simp only [hasI, ex_cons]
        rw [List.foldl_cons, (h3 q n).2, (collapseInto_has f acc q n).2, e]
        grind
  obtain ⟨h1, h2, h3⟩ := key l [] (by simp)
  refine ⟨h1, fun q => ?_, fun q n => ?_⟩
  · rw [collapse, h2]; simp
  · have e1 : ¬ hasP [] q n := by simp [hasP]
    have e2 : ¬ hasI [] q n := by simp [hasI]
    exact ⟨by rw [collapse, (h3 q n).1]; simp [e1], by rw [collapse, (h3 q n).2]; simp [e2]⟩

/-! ### projects -/

theorem gather_spec {find : Text → Option Project} : ∀ {l : List Text} {acc ps : List Project}, gather find l acc = some ps → acc.Nodup →
    ps.Nodup ∧ (∀ n ∈ l, find n ≠ none) ∧ ∀ p, p ∈ ps ↔ p ∈ acc ∨ ∃ n ∈ l, find n = some p
  | [], acc, ps, h, hn => by
    cases h
    simp [hn]
  | n :: l, acc, ps, h, hn => by
    unfold gather at h
    cases hf : find n with
    | none => rw [hf] at h; cases h
    | some p =>
      rw [hf] at h
      have hn' : (if p ∈ acc then acc else acc ++ [p]).Nodup := by
        split
        · exact hn
        · rename_i hp
          rw [List.nodup_append]
          refine ⟨hn, by simp, ?_⟩
          rintro x hx y hy rfl
          simp only [List.mem_singleton] at hy
          subst hy
          exact hp hx
      obtain ⟨h1, h2, h3⟩ := gather_spec h hn'
      have h4 : ∀ q, q ∈ (if p ∈ acc then acc else acc ++ [p]) ↔ q ∈ acc ∨ q = p := by
        intro q
        split
        · grind
        · simp
      refine ⟨h1, ?_, fun q => ?_⟩
      · intro m hm
        rcases List.mem_cons.1 hm with rfl | hm
        · rw [hf]; simp
        · exact h2 m hm
      · rw [h3, h4, ex_cons, hf]
        grind

/-- what `Initialize` gives -/
theorem init_spec {find : Text → Option Project} {inp : Input} {s : Sln} (h : init find inp = some s) :
    s.projects.Nodup ∧ (∀ n ∈ asked inp, find n ≠ none) ∧ (∀ p, p ∈ s.projects ↔ IsProject find inp p) ∧
    (∀ c, c ∈ s.configs ↔ c ∈ configsOf inp) ∧
    (s.folders.map (·.path)).Nodup ∧ (∀ q, q ∈ s.folders.map (·.path) ↔ ∃ f ∈ inp.folders, pathOf f.path = q) ∧
    (∀ q n, hasP s.folders q n ↔ ∃ f ∈ inp.folders, pathOf f.path = q ∧ n ∈ f.projects) ∧
    (∀ q n, hasI s.folders q n ↔ ∃ f ∈ inp.folders, pathOf f.path = q ∧ n ∈ f.items) ∧
    s.deps = inp.deps ∧ s.version = inp.version ∧ s.minVersion = inp.minVersion ∧
    ∀ p ∈ s.projects, ∀ c ∈ s.configs, (c.platform, c.config) ∈ p.tuples := by
  unfold init at h
  rw [configs_eq] at h
  obtain ⟨f1, f2, f3⟩ := collapse_spec (inp.folders.map fun f => { f with path := fixPath f.path })
  generalize collapse (inp.folders.map fun f => { f with path := fixPath f.path }) = folders at *
  have hP : ∀ q n, hasP folders q n ↔ ∃ f ∈ inp.folders, pathOf f.path = q ∧ n ∈ f.projects := by
    intro q n
    rw [(f3 q n).1]
    simp only [hasP, ex_map, fixPath_eq]
  have hI : ∀ q n, hasI folders q n ↔ ∃ f ∈ inp.folders, pathOf f.path = q ∧ n ∈ f.items := by
    intro q n
    rw [(f3 q n).2]
    simp only [hasI, ex_map, fixPath_eq]
  have hF : ∀ q, q ∈ folders.map (·.path) ↔ ∃ f ∈ inp.folders, pathOf f.path = q := by
    intro q
    rw [f2]
    simp only [List.map_map, List.mem_map, Function.comp, fixPath_eq]
  simp only at h
  cases hg : gather find (named inp.projects folders inp.deps (sortBy configLt (configsOf inp))) [] with
  | none => rw [hg] at h; cases h
  | some ps =>
    rw [hg] at h
    simp only at h
    split at h
    · rename_i hall
      injection h with h
      subst h
      obtain ⟨g1, g2, g3⟩ := gather_spec hg (by simp)
      have hasked : ∀ n, n ∈ named inp.projects folders inp.deps (sortBy configLt (configsOf inp)) ↔ n ∈ asked inp := by
        intro n
        have a1 : n ∈ folders.flatMap (·.projects) ↔ n ∈ inp.folders.flatMap (·.projects) := by
          simp only [List.mem_flatMap]
          constructor
          · rintro ⟨f, hf, hn⟩
            obtain ⟨g, hg, _, hn⟩ := (hP f.path n).1 ⟨f, hf, rfl, hn⟩
            exact ⟨g, hg, hn⟩
          · rintro ⟨f, hf, hn⟩
            obtain ⟨g, hg, _, hn⟩ := (hP (pathOf f.path) n).2 ⟨f, hf, rfl, hn⟩
            exact ⟨g, hg, hn⟩
        have a2 : n ∈ (sortBy configLt (configsOf inp)).flatMap (fun c => c.build ++ c.deploy) ↔
            n ∈ (if inp.configs = [] then inp.baseBuild ++ inp.baseDeploy else inp.configs.flatMap fun c => c.build ++ c.deploy) := by
          simp only [List.mem_flatMap, mem_sortBy]
          unfold configsOf
          split
          · simp
          · rw [ex_map]
            simp only [List.mem_flatMap]
        simp only [named, asked, List.mem_append, a1, a2]
      refine ⟨(sortBy_perm _ _).symm.nodup g1, ?_, ?_, ?_, f1, hF, hP, hI, rfl, rfl, rfl, ?_⟩
      · intro n hn
        exact g2 n ((hasked n).2 hn)
      · intro p
        rw [mem_sortBy, g3]
        simp only [List.not_mem_nil, false_or, IsProject, hasked]
      · intro c
        exact mem_sortBy
      · intro p hp c hc
        have := List.all_eq_true.1 hall p hp
        have := List.all_eq_true.1 this c hc
        exact of_decide_eq_true this
    · cases h

end Verif.Sln
