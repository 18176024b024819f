import Verif.Sln.Proof
/-
C101: what is found in the file of a solution.
-/
namespace Verif.Sln

/-- no text of the solution has a character with a meaning in the file -/
structure Plains (rel : Text → Text) (s : Sln) : Prop where
  version : Plain s.version
  minVersion : Plain s.minVersion
  project : ∀ p ∈ s.projects, Plain p.name ∧ Plain p.guid ∧ Plain p.typeGuid ∧ Plain (rel p.name)
  config : ∀ c ∈ s.configs, Plain c.solConfig ∧ Plain c.solPlatform ∧ Plain c.config ∧ Plain c.platform
  folder : ∀ f ∈ s.folders, Plain f.path ∧ ∀ i ∈ f.items, Plain (rel i)

def nameOf (win : Bool) (p : Project) : Text := (projectName win p.name).getD []

def projectSecs (s : Sln) (p : Project) : List (Text × Text × List (Text × Text)) :=
  if dependencyGuids s p = [] then [] else [(sDeps, postProject, (dependencyGuids s p).map fun g => (g, g))]

def folderSecs (rel : Text → Text) (s : Sln) (path : Text) : List (Text × Text × List (Text × Text)) :=
  (s.folders.filter fun f => Cont.equalsI path f.path ∧ f.items ≠ []).map fun f => (sItems, preProject, (sortBy textLt f.items).map fun i => (rel i, rel i))

def projectEntry (win : Bool) (rel : Text → Text) (s : Sln) (p : Project) : Entry :=
  ⟨upper p.typeGuid, nameOf win p, rel p.name, upper p.guid, (projectSecs s p).map fun x => (x.1, x.2.2)⟩

def folderEntry (win : Bool) (rel : Text → Text) (s : Sln) (path : Text) : Entry :=
  ⟨folderType, (afterLast '\\' path).getD path, (afterLast '\\' path).getD path, upper (formatGuid win path), (folderSecs rel s path).map fun x => (x.1, x.2.2)⟩

def nestedPairs (win : Bool) (s : Sln) : List (Text × Text) := projectsToFolders win s ++ folderParents win s

def docOf (win : Bool) (rel : Text → Text) (s : Sln) : Doc :=
  ⟨s.projects.map (projectEntry win rel s) ++ (folderPaths s).map (folderEntry win rel s),
   [(sConfigs, configPairs s), (sMapping, mappingPairs s), (sProps, [(sHide, sFalse)])] ++
   (if projectsToFolders win s = [] ∧ folderPaths s = [] then [] else [(sNested, nestedPairs win s)])⟩

/-! ### characters -/

theorem upperChar_plain (c : Char) (h : c ≠ '"' ∧ c ≠ '\r' ∧ c ≠ '\n' ∧ c ≠ '=') : upperChar c ≠ '"' ∧ upperChar c ≠ '\r' ∧ upperChar c ≠ '\n' ∧ upperChar c ≠ '=' := by
  unfold upperChar
  split
  · rename_i hc
    have h1 : 97 ≤ c.toNat ∧ c.toNat ≤ 122 := hc
    have : ∀ n, 97 ≤ n → n ≤ 122 → Char.ofNat (n - 32) ≠ '"' ∧ Char.ofNat (n - 32) ≠ '\r' ∧ Char.ofNat (n - 32) ≠ '\n' ∧ Char.ofNat (n - 32) ≠ '=' := by
      have : ∀ n : Fin 123, 97 ≤ n.1 → Char.ofNat (n.1 - 32) ≠ '"' ∧ Char.ofNat (n.1 - 32) ≠ '\r' ∧ Char.ofNat (n.1 - 32) ≠ '\n' ∧ Char.ofNat (n.1 - 32) ≠ '=' := by decide
      intro n h1 h2
      exact this ⟨n, by omega⟩ h1
    exact this _ h1.1 h1.2
  · exact h

theorem Plain.upper {t : Text} (h : Plain t) : Plain (upper t) := by
  intro c hc
  obtain ⟨d, hd, rfl⟩ := List.mem_map.1 hc
  exact upperChar_plain d (h d hd)

theorem hexDigit_plain (n : Nat) (h : n < 16) : hexDigit n ≠ '"' ∧ hexDigit n ≠ '\r' ∧ hexDigit n ≠ '\n' ∧ hexDigit n ≠ '=' := by
  have : ∀ n : Fin 16, hexDigit n.1 ≠ '"' ∧ hexDigit n.1 ≠ '\r' ∧ hexDigit n.1 ≠ '\n' ∧ hexDigit n.1 ≠ '=' := by decide
  exact this ⟨n, h⟩

instance (t : Text) : Decidable (Plain t) := inferInstanceAs (Decidable (∀ c ∈ t, _))

theorem tail_plain : Plain "-6c94-4f93-bc2a-7f5284b7d434}".toList := by decide

theorem guid_plain (win : Bool) (t : Text) : Plain (formatGuid win t) := by
  unfold formatGuid
  rw [List.cons_append, plain_cons, plain_append]
  refine ⟨by decide, ?_, tail_plain⟩
  intro c hc
  obtain ⟨i, _, rfl⟩ := List.mem_map.1 hc
  exact hexDigit_plain _ (Nat.mod_lt _ (by decide))

theorem cfg_plain {a b : Text} (ha : Plain a) (hb : Plain b) : Plain (cfg a b) := by
  rw [cfg, plain_append, plain_cons]
  exact ⟨ha, by decide, hb⟩

theorem afterLast_sub {c : Char} {t u : Text} (h : afterLast c t = some u) : ∀ d ∈ u, d ∈ t := by
  intro d hd
  unfold afterLast at h
  split at h
  · cases h
    rw [List.mem_reverse] at hd
    exact List.mem_reverse.1 ((List.takeWhile_sublist _).subset hd)
  · cases h

theorem cut_sub (x y : Nat) (t : Text) : ∀ c ∈ (cut x y t).getD [], c ∈ t := by
  intro c hc
  unfold cut at hc
  split at hc
  · cases hc
  · exact List.mem_of_mem_take (List.mem_of_mem_drop hc)

theorem nameOf_sub (win : Bool) (p : Project) : ∀ c ∈ nameOf win p, c ∈ p.name := cut_sub _ _ _

theorem mem_parents : ∀ (t q : Text), q ∈ parents t ↔ ∃ r, t = q ++ '\\' :: r := by
  intro t
  induction t with
  | nil => intro q; simp [parents]
  | cons c t ih =>
    intro q
    unfold parents
    split
    · rename_i hc
      subst hc
      constructor
      · intro h
        rcases List.mem_cons.1 h with h | h
        · exact ⟨t, by rw [h]; rfl⟩
        · obtain ⟨q', h', rfl⟩ := List.mem_map.1 h
          obtain ⟨r, hr⟩ := (ih q').1 h'
          exact ⟨r, by rw [hr]; rfl⟩
      · rintro ⟨r, hr⟩
        cases q with
        | nil => simp
        | cons d q =>
          simp only [List.cons_append, List.cons.injEq] at hr
          obtain ⟨rfl, hr⟩ := hr
          exact List.mem_cons_of_mem _ (List.mem_map.2 ⟨q, (ih q).2 ⟨r, hr⟩, rfl⟩)
    · rename_i hc
      constructor
      · intro h
        obtain ⟨q', h', rfl⟩ := List.mem_map.1 h
        obtain ⟨r, hr⟩ := (ih q').1 h'
        exact ⟨r, by rw [hr]; rfl⟩
      · rintro ⟨r, hr⟩
        cases q with
        | nil => simp only [List.nil_append, List.cons.injEq] at hr; exact absurd hr.1 hc
        | cons d q =>
          simp only [List.cons_append, List.cons.injEq] at hr
          obtain ⟨rfl, hr⟩ := hr
          exact List.mem_map.2 ⟨q, (ih q).2 ⟨r, hr⟩, rfl⟩

/-! ### lists -/

theorem sortBy_perm {α : Type} (lt : α → α → Bool) (l : List α) : (sortBy lt l).Perm l := by
  obtain ⟨b, h1, h2⟩ := Sort.C35_shellSort_perm lt l
  rw [sortBy, h1]
  exact h2

theorem mem_sortBy {α : Type} {lt : α → α → Bool} {l : List α} {a : α} : a ∈ sortBy lt l ↔ a ∈ l := (sortBy_perm lt l).mem_iff

theorem foldl_addPath (l acc : List Text) : (∀ p, p ∈ l.foldl addPath acc ↔ p ∈ acc ∨ p ∈ l) ∧ (acc.Nodup → (l.foldl addPath acc).Nodup) := by
  induction l generalizing acc with
  | nil => simp
  | cons a l ih =>
    obtain ⟨h1, h2⟩ := ih (addPath acc a)
    have h3 : ∀ p, p ∈ addPath acc a ↔ p ∈ acc ∨ p = a := by
      intro p
      unfold addPath
      split <;> simp_all
    refine ⟨fun p => ?_, fun hn => h2 ?_⟩
    · rw [List.foldl_cons, h1, h3]
      simp [or_assoc]
    · unfold addPath
      split
      · exact hn
      · rw [List.nodup_append]
        refine ⟨hn, by simp, ?_⟩
        rintro x hx y hy rfl
        simp only [List.mem_singleton] at hy
        subst hy
        contradiction

theorem mem_folderPaths (s : Sln) (q : Text) : q ∈ folderPaths s ↔ ∃ f ∈ s.folders, q = f.path ∨ ∃ r, f.path = q ++ '\\' :: r := by
  rw [folderPaths, mem_sortBy, (foldl_addPath _ _).1]
  simp only [List.not_mem_nil, false_or, List.mem_flatMap, List.mem_cons, mem_parents]

theorem folderPaths_nodup (s : Sln) : (folderPaths s).Nodup := by
  rw [folderPaths]
  exact (sortBy_perm _ _).symm.nodup ((foldl_addPath _ _).2 (by simp))

theorem folderPaths_plain {rel : Text → Text} {s : Sln} (h : Plains rel s) {q : Text} (hq : q ∈ folderPaths s) : Plain q := by
  obtain ⟨f, hf, h1⟩ := (mem_folderPaths s q).1 hq
  have hp := (h.folder f hf).1
  rcases h1 with rfl | ⟨r, hr⟩
  · exact hp
  · exact hp.sub fun c hc => by rw [hr]; simp [hc]

theorem key_plain {p : Project} {c : Config} {w : Text} (hg : Plain p.guid) (h1 : Plain c.solConfig) (h2 : Plain c.solPlatform) (hw : Plain w) : Plain (key p c w) := by
  have e : key p c w = upper p.guid ++ ('.' :: (cfg c.solConfig c.solPlatform ++ w)) := by simp [key]
  rw [e, plain_append, plain_cons, plain_append]
  exact ⟨hg.upper, by decide, cfg_plain h1 h2, hw⟩

theorem mapping_plain {rel : Text → Text} {s : Sln} (h : Plains rel s) : ∀ x ∈ mappingPairs s, Plain x.1 ∧ Plain x.2 := by
  intro x hx
  simp only [mappingPairs, List.mem_flatMap, List.mem_append, List.mem_singleton] at hx
  obtain ⟨p, hp, c, hc, hx⟩ := hx
  obtain ⟨_, hg, _⟩ := h.project p hp
  obtain ⟨c1, c2, c3, c4⟩ := h.config c hc
  have k1 : ∀ w, Plain w → Plain (key p c w) ∧ Plain (cfg c.config c.platform) := fun w hw => ⟨key_plain hg c1 c2 hw, cfg_plain c3 c4⟩
  rcases hx with (hx | hx) | hx
  · subst hx; exact k1 _ (by decide)
  · split at hx
    · simp only [List.mem_singleton] at hx; subst hx; exact k1 _ (by decide)
    · cases hx
  · split at hx
    · simp only [List.mem_singleton] at hx; subst hx; exact k1 _ (by decide)
    · cases hx

theorem nested_plain {rel : Text → Text} {s : Sln} (win : Bool) (h : Plains rel s) : ∀ x ∈ nestedPairs win s, Plain x.1 ∧ Plain x.2 := by
  intro x hx
  simp only [nestedPairs, projectsToFolders, folderParents, List.mem_append, List.mem_flatMap, List.mem_map, List.mem_filterMap, Option.map_eq_some_iff] at hx
  rcases hx with ⟨p, hp, f, _, rfl⟩ | ⟨p, _, q, _, rfl⟩
  · exact ⟨(h.project p hp).2.1.upper, (guid_plain _ _).upper⟩
  · exact ⟨(guid_plain _ _).upper, (guid_plain _ _).upper⟩

theorem config_plain {rel : Text → Text} {s : Sln} (h : Plains rel s) : ∀ x ∈ configPairs s, Plain x.1 ∧ Plain x.2 := by
  intro x hx
  obtain ⟨c, hc, rfl⟩ := List.mem_map.1 hx
  obtain ⟨c1, c2, _⟩ := h.config c hc
  exact ⟨cfg_plain c1 c2, cfg_plain c1 c2⟩

theorem dependency_plain {rel : Text → Text} {s : Sln} (h : Plains rel s) (p : Project) : ∀ g ∈ dependencyGuids s p, Plain g := by
  intro g hg
  simp only [dependencyGuids, List.mem_flatMap] at hg
  obtain ⟨d, _, hg⟩ := hg
  split at hg
  · simp only [List.mem_filterMap, Option.map_eq_some_iff] at hg
    obtain ⟨n, _, q, hq, rfl⟩ := hg
    exact (h.project q (List.mem_of_find?_eq_some hq)).2.1
  · cases hg

/-! ### the file -/

theorem dependencyLines_eq (s : Sln) (p : Project) : dependencyLines (dependencyGuids s p) =
    (projectSecs s p).flatMap fun x => [projectSection ++ x.1 ++ closing ++ x.2.1] ++ x.2.2.map pairLine ++ [endProjectSection] := by
  unfold dependencyLines projectSecs
  split
  · rfl
  · simp [List.map_map, Function.comp_def]

theorem itemLines_eq (rel : Text → Text) (s : Sln) (path : Text) : itemLines rel s path =
    (folderSecs rel s path).flatMap fun x => [projectSection ++ x.1 ++ closing ++ x.2.1] ++ x.2.2.map pairLine ++ [endProjectSection] := by
  unfold itemLines folderSecs
  induction s.folders with
  | nil => rfl
  | cons f l ih =>
    rw [List.flatMap_cons, List.filter_cons, ih]
    split
    · rename_i h
      rw [if_pos (by simpa using h)]
      simp [List.map_map, Function.comp_def]
    · rename_i h
      rw [if_neg (by simpa using h)]
      rfl

theorem steps_project {win : Bool} {rel : Text → Text} {s : Sln} (h : Plains rel s) {p : Project} (hp : p ∈ s.projects) {ls : List Text} (hl : projectLines win rel s p = some ls) (es : List Entry) :
    steps (.top es) ls = some (.top (es ++ [projectEntry win rel s p])) := by
  unfold projectLines at hl
  cases hn : projectName win p.name with
  | none => rw [hn] at hl; cases hl
  | some n =>
    rw [hn] at hl
    cases hl
    obtain ⟨h1, h2, h3, h4⟩ := h.project p hp
    have hname : nameOf win p = n := by rw [nameOf, hn]; rfl
    have h5 : Plain n := by
      rw [← hname]
      exact h1.sub (nameOf_sub win p)
    rw [dependencyLines_eq, steps_block es h3.upper h5 h4 h2.upper, projectEntry, hname]
    intro x hx
    unfold projectSecs at hx
    split at hx
    · cases hx
    · simp only [List.mem_singleton] at hx
      subst hx
      refine ⟨by show ')' ∉ sDeps; decide, ?_⟩
      intro y hy
      obtain ⟨g, hg, rfl⟩ := List.mem_map.1 hy
      exact dependency_plain h p g hg

theorem folderType_plain : Plain folderType := by decide

theorem steps_folder {win : Bool} {rel : Text → Text} {s : Sln} (h : Plains rel s) {path : Text} (hp : path ∈ folderPaths s) (es : List Entry) :
    steps (.top es) (folderLines win rel s path) = some (.top (es ++ [folderEntry win rel s path])) := by
  have h1 : Plain ((afterLast '\\' path).getD path) := by
    cases ha : afterLast '\\' path with
    | none => exact folderPaths_plain h hp
    | some u => exact (folderPaths_plain h hp).sub (afterLast_sub ha)
  unfold folderLines
  rw [itemLines_eq, steps_block es folderType_plain h1 h1 (guid_plain win path).upper, folderEntry]
  intro x hx
  simp only [folderSecs, List.mem_map, List.mem_filter] at hx
  obtain ⟨f, ⟨hf, _⟩, rfl⟩ := hx
  refine ⟨by show ')' ∉ sItems; decide, ?_⟩
  intro y hy
  obtain ⟨i, hi, rfl⟩ := List.mem_map.1 hy
  exact (h.folder f hf).2 i (mem_sortBy.1 hi)

theorem steps_projects {win : Bool} {rel : Text → Text} {s : Sln} (h : Plains rel s) : ∀ (l : List Project) (es : List Entry) (ls : List (List Text)), (∀ p ∈ l, p ∈ s.projects) →
    l.mapM (projectLines win rel s) = some ls → steps (.top es) ls.flatten = some (.top (es ++ l.map (projectEntry win rel s)))
  | [], es, ls, _, hl => by
    simp only [List.mapM_nil, pure, Option.some.injEq] at hl
    subst hl
    simp [steps]
  | p :: l, es, ls, hs, hl => by
    rw [List.mapM_cons] at hl
    cases h1 : projectLines win rel s p with
    | none => rw [h1] at hl; cases hl
    | some x =>
      cases h2 : l.mapM (projectLines win rel s) with
      | none => rw [h1, h2] at hl; cases hl
      | some y =>
        rw [h1, h2] at hl
        cases hl
        rw [List.flatten_cons, steps_append, steps_project h (hs p (by simp)) h1]
        simp only [Option.bind]
        rw [steps_projects h l _ y (fun q hq => hs q (by simp [hq])) h2]
        simp

theorem steps_folders {win : Bool} {rel : Text → Text} {s : Sln} (h : Plains rel s) : ∀ (l : List Text) (es : List Entry), (∀ p ∈ l, p ∈ folderPaths s) →
    steps (.top es) (l.flatMap (folderLines win rel s)) = some (.top (es ++ l.map (folderEntry win rel s)))
  | [], es, _ => by simp [steps]
  | p :: l, es, hs => by
    rw [List.flatMap_cons, steps_append, steps_folder h (hs p (by simp))]
    simp only [Option.bind]
    rw [steps_folders h l _ (fun q hq => hs q (by simp [hq]))]
    simp

theorem steps_others (es : List Entry) : ∀ (ls : List Text), (∀ l ∈ ls, ∀ c, l.head? = some c → c ≠ 'P' ∧ c ≠ 'G') → steps (.top es) ls = some (.top es)
  | [], _ => rfl
  | l :: ls, h => by
    rw [steps, step_other es (h l (by simp))]
    exact steps_others es ls fun m hm => h m (by simp [hm])

theorem head_other {a : Char} {t u : Text} (ha : a ≠ 'P' ∧ a ≠ 'G') (ht : t.head? = some a) : ∀ c, (t ++ u).head? = some c → c ≠ 'P' ∧ c ≠ 'G' := by
  cases t with
  | nil => cases ht
  | cons x t =>
    intro c hc
    simp only [List.head?_cons, Option.some.injEq, List.cons_append] at ht hc
    exact hc ▸ ht ▸ ha

theorem steps_header (s : Sln) (es : List Entry) : steps (.top es) (header s) = some (.top es) := by
  apply steps_others
  intro l hl
  simp only [header, List.mem_cons, List.not_mem_nil, or_false] at hl
  rcases hl with h | h | h | h <;> subst h
  · have := head_other (a := 'M') (t := "Microsoft Visual Studio Solution File, Format Version 12.00".toList) (u := []) (by decide) rfl
    rwa [List.append_nil] at this
  · generalize (if s.version = [] then "14.0.22823.1".toList else s.version) = v
    by_cases hv : 16 ≤ scanU (v.takeWhile (· ≠ '.'))
    · rw [if_pos hv]; exact head_other (a := '#') (by decide) rfl
    · rw [if_neg hv]; exact head_other (a := '#') (by decide) rfl
  · exact head_other (a := 'V') (by decide) rfl
  · exact head_other (a := 'M') (by decide) rfl

theorem step_global (es : List Entry) : step (.top es) sGlobal = some (.glob es []) := by
  rw [e_global]
  simp only [step, n_global, ↓reduceIte]

theorem step_endGlobal (es : List Entry) (gs : List (Text × List (Text × Text))) : step (.glob es gs) sEndGlobal = some (.done ⟨es, gs⟩) := by
  rw [e_endGlobal]
  simp only [step, ↓reduceIte]

theorem steps_nested {win : Bool} {rel : Text → Text} {s : Sln} (h : Plains rel s) (es : List Entry) (gs : List (Text × List (Text × Text))) :
    steps (.glob es gs) (nestedLines win s) = some (.glob es (gs ++ if projectsToFolders win s = [] ∧ folderPaths s = [] then [] else [(sNested, nestedPairs win s)])) := by
  unfold nestedLines
  split
  · simp [steps]
  · exact steps_section es gs (by decide) _ _ fun p hp => (nested_plain win h p hp).1

theorem steps_lines {win : Bool} {rel : Text → Text} {s : Sln} (h : Plains rel s) {ls : List Text} (hl : lines win rel s = some ls) :
    steps (.top []) ls = some (.done (docOf win rel s)) := by
  unfold lines at hl
  cases h1 : s.projects.mapM (projectLines win rel s) with
  | none => rw [h1] at hl; cases hl
  | some ps =>
    rw [h1] at hl
    cases hl
    simp only [steps_append, steps_header, Option.bind]
    rw [steps_projects h s.projects [] ps (fun _ hp => hp) h1]
    simp only [Option.bind]
    rw [steps_folders h _ _ (fun _ hp => hp)]
    simp only [steps, step_global, Option.bind]
    rw [steps_section _ _ (by decide) _ _ fun p hp => (config_plain h p hp).1]
    simp only
    rw [steps_section _ _ (by decide) _ _ fun p hp => (mapping_plain h p hp).1]
    simp only
    rw [steps_section _ _ (by decide) _ _ (by decide)]
    simp only
    rw [steps_nested h]
    simp only [step_endGlobal, docOf, List.nil_append, List.cons_append]

/-! ### no line has another line in it -/

def NoCr (t : Text) : Prop := ∀ c ∈ t, c ≠ '\r'
instance (t : Text) : Decidable (NoCr t) := inferInstanceAs (Decidable (∀ c ∈ t, _))
theorem Plain.nocr {t : Text} (h : Plain t) : NoCr t := fun c hc => (h c hc).2.1
theorem nocr_append {a b : Text} : NoCr (a ++ b) ↔ NoCr a ∧ NoCr b := by
  simp only [NoCr, List.mem_append, or_imp]
  exact forall_and

theorem pairLine_nocr {x : Text × Text} (h : Plain x.1 ∧ Plain x.2) : NoCr (pairLine x) := by
  simp only [pairLine, nocr_append]
  exact ⟨⟨⟨by decide, h.1.nocr⟩, by decide⟩, h.2.nocr⟩

theorem pairs_nocr {ps : List (Text × Text)} (h : ∀ x ∈ ps, Plain x.1 ∧ Plain x.2) : ∀ l ∈ ps.map pairLine, NoCr l := by
  intro l hl
  obtain ⟨x, hx, rfl⟩ := List.mem_map.1 hl
  exact pairLine_nocr (h x hx)

theorem section_nocr {n t : Text} {ps : List (Text × Text)} (hn : NoCr n) (ht : NoCr t) (h : ∀ x ∈ ps, Plain x.1 ∧ Plain x.2) : ∀ l ∈ section_ n t ps, NoCr l := by
  intro l hl
  simp only [section_, List.mem_append, List.mem_singleton] at hl
  rcases hl with (hl | hl) | hl
  · subst hl
    simp only [nocr_append]
    exact ⟨⟨⟨by decide, hn⟩, by decide⟩, ht⟩
  · exact pairs_nocr h l hl
  · subst hl; decide

theorem block_nocr {a b c d : Text} (ha : Plain a) (hb : Plain b) (hc : Plain c) (hd : Plain d) {secs : List (Text × Text × List (Text × Text))}
    (h : ∀ s ∈ secs, NoCr s.1 ∧ NoCr s.2.1 ∧ ∀ p ∈ s.2.2, Plain p.1 ∧ Plain p.2) :
    ∀ l ∈ [projectLine a b c d] ++ secs.flatMap (fun s => [projectSection ++ s.1 ++ closing ++ s.2.1] ++ s.2.2.map pairLine ++ [endProjectSection]) ++ [endProject], NoCr l := by
  intro l hl
  simp only [List.mem_append, List.mem_singleton, List.mem_flatMap] at hl
  rcases hl with (hl | ⟨s, hs, (hl | hl) | hl⟩) | hl
  · subst hl
    simp only [projectLine, nocr_append]
    exact ⟨⟨⟨⟨⟨⟨⟨⟨by decide, ha.nocr⟩, by decide⟩, hb.nocr⟩, by decide⟩, hc.nocr⟩, by decide⟩, hd.nocr⟩, by decide⟩
  · subst hl
    obtain ⟨h1, h2, _⟩ := h s hs
    simp only [nocr_append]
    exact ⟨⟨⟨by decide, h1⟩, by decide⟩, h2⟩
  · exact pairs_nocr (h s hs).2.2 l hl
  · subst hl; decide
  · subst hl; decide

theorem header_nocr {rel : Text → Text} {s : Sln} (h : Plains rel s) : ∀ l ∈ header s, NoCr l := by
  intro l hl
  simp only [header, List.mem_cons, List.not_mem_nil, or_false] at hl
  have h1 : NoCr (if s.version = [] then "14.0.22823.1".toList else s.version) := by
    split
    · decide
    · exact h.version.nocr
  have h2 : NoCr (if s.minVersion = [] then "10.0.40219.1".toList else s.minVersion) := by
    split
    · decide
    · exact h.minVersion.nocr
  rcases hl with h | h | h | h <;> subst h
  · decide
  · generalize (if s.version = [] then "14.0.22823.1".toList else s.version) = v at *
    rw [nocr_append]
    refine ⟨?_, fun c hc => h1 c ((List.takeWhile_sublist _).subset hc)⟩
    split <;> decide
  · rw [nocr_append]
    exact ⟨by decide, h1⟩
  · rw [nocr_append]
    exact ⟨by decide, h2⟩

theorem projectLines_nocr {win : Bool} {rel : Text → Text} {s : Sln} (h : Plains rel s) {p : Project} (hp : p ∈ s.projects) {ls : List Text} (hl : projectLines win rel s p = some ls) :
    ∀ l ∈ ls, NoCr l := by
  unfold projectLines at hl
  cases hn : projectName win p.name with
  | none => rw [hn] at hl; cases hl
  | some n =>
    rw [hn] at hl
    cases hl
    obtain ⟨h1, h2, h3, h4⟩ := h.project p hp
    have hname : nameOf win p = n := by rw [nameOf, hn]; rfl
    have h5 : Plain n := by
      rw [← hname]
      exact h1.sub (nameOf_sub win p)
    rw [dependencyLines_eq]
    apply block_nocr h3.upper h5 h4 h2.upper
    intro x hx
    unfold projectSecs at hx
    split at hx
    · cases hx
    · simp only [List.mem_singleton] at hx
      subst hx
      refine ⟨by show NoCr sDeps; decide, by show NoCr postProject; decide, ?_⟩
      intro y hy
      obtain ⟨g, hg, rfl⟩ := List.mem_map.1 hy
      exact ⟨dependency_plain h p g hg, dependency_plain h p g hg⟩

theorem folderLines_nocr {win : Bool} {rel : Text → Text} {s : Sln} (h : Plains rel s) {path : Text} (hp : path ∈ folderPaths s) : ∀ l ∈ folderLines win rel s path, NoCr l := by
  have h1 : Plain ((afterLast '\\' path).getD path) := by
    cases ha : afterLast '\\' path with
    | none => exact folderPaths_plain h hp
    | some u => exact (folderPaths_plain h hp).sub (afterLast_sub ha)
  unfold folderLines
  rw [itemLines_eq]
  apply block_nocr folderType_plain h1 h1 (guid_plain win path).upper
  intro x hx
  simp only [folderSecs, List.mem_map, List.mem_filter] at hx
  obtain ⟨f, ⟨hf, _⟩, rfl⟩ := hx
  refine ⟨by show NoCr sItems; decide, by show NoCr preProject; decide, ?_⟩
  intro y hy
  obtain ⟨i, hi, rfl⟩ := List.mem_map.1 hy
  exact ⟨(h.folder f hf).2 i (mem_sortBy.1 hi), (h.folder f hf).2 i (mem_sortBy.1 hi)⟩

theorem mem_mapM : ∀ {α β : Type} {f : α → Option β} {l : List α} {ls : List β}, l.mapM f = some ls → ∀ y ∈ ls, ∃ x ∈ l, f x = some y
  | _, _, _, [], _, h, y, hy => by
    simp only [List.mapM_nil, pure, Option.some.injEq] at h
    subst h
    cases hy
  | _, _, f, a :: l, ls, h, y, hy => by
    rw [List.mapM_cons] at h
    cases h1 : f a with
    | none => rw [h1] at h; cases h
    | some b =>
      cases h2 : l.mapM f with
      | none => rw [h1, h2] at h; cases h
      | some bs =>
        rw [h1, h2] at h
        cases h
        rcases List.mem_cons.1 hy with rfl | hy
        · exact ⟨a, by simp, h1⟩
        · obtain ⟨x, hx, e⟩ := mem_mapM h2 y hy
          exact ⟨x, by simp [hx], e⟩

theorem lines_nocr {win : Bool} {rel : Text → Text} {s : Sln} (h : Plains rel s) {ls : List Text} (hl : lines win rel s = some ls) : ∀ l ∈ ls, NoCr l := by
  unfold lines at hl
  cases h1 : s.projects.mapM (projectLines win rel s) with
  | none => rw [h1] at hl; cases hl
  | some ps =>
    rw [h1] at hl
    cases hl
    intro l hl
    simp only [List.mem_append, List.mem_singleton] at hl
    rcases hl with (((((((hl | hl) | hl) | hl) | hl) | hl) | hl) | hl) | hl
    · exact header_nocr h l hl
    · obtain ⟨x, hx, hl⟩ := List.mem_flatten.1 hl
      obtain ⟨p, hp, e⟩ := mem_mapM h1 x hx
      exact projectLines_nocr h hp e l hl
    · obtain ⟨p, hp, hl⟩ := List.mem_flatMap.1 hl
      exact folderLines_nocr h hp l hl
    · subst hl; decide
    · exact section_nocr (by decide) (by decide) (config_plain h) l hl
    · exact section_nocr (by decide) (by decide) (mapping_plain h) l hl
    · exact section_nocr (by decide) (by decide) (by decide) l hl
    · unfold nestedLines at hl
      split at hl
      · cases hl
      · exact section_nocr (by decide) (by decide) (nested_plain win h) l hl
    · subst hl; decide

/-- Reading the file gives what was to be written. -/
theorem read_text {win : Bool} {rel : Text → Text} {s : Sln} (h : Plains rel s) {t : Text} (ht : text win rel s = some t) : read t = some (docOf win rel s) := by
  unfold text at ht
  cases hl : lines win rel s with
  | none => rw [hl] at ht; cases ht
  | some ls =>
    rw [hl] at ht
    cases ht
    simp only [read, splitLines_lines ls (lines_nocr h hl), bind, Option.bind, steps_lines h hl]

end Verif.Sln
