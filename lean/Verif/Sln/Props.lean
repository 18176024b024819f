import Verif.Sln.Init
/-
C101: solution files.
-/
namespace Verif.Sln

theorem split_inj {x : Char} {a a' b b' : Text} (ha : x ∉ a) (ha' : x ∉ a') (h : a ++ x :: b = a' ++ x :: b') : a = a' ∧ b = b' := by
  have h1 := until_append ha b
  have h2 := until_append ha' b'
  rw [h, h2] at h1
  simp only [Option.some.injEq, Prod.mk.injEq] at h1
  exact ⟨h1.1.symm, h1.2.symm⟩

theorem upperChar_dot (c : Char) (h : upperChar c = '.') : c = '.' := by
  unfold upperChar at h
  split at h
  · rename_i hc
    have h1 : 97 ≤ c.toNat ∧ c.toNat ≤ 122 := hc
    have : ∀ n : Fin 123, 97 ≤ n.1 → Char.ofNat (n.1 - 32) ≠ '.' := by decide
    exact absurd h (this ⟨c.toNat, by omega⟩ h1.1)
  · exact h

theorem upper_dot {g : Text} (h : '.' ∉ g) : '.' ∉ upper g := by
  intro hm
  obtain ⟨c, hc, e⟩ := List.mem_map.1 hm
  rw [upperChar_dot c e] at hc
  exact h hc

/-- what a line of the mapping is about -/
def Suffix (w : Text) : Prop := w = sActive ∨ w = sBuild ∨ w = sDeploy

theorem suffix_inj {w w' a b : Text} (hw : Suffix w) (hw' : Suffix w') (h : a ++ w = b ++ w') : a = b ∧ w = w' := by
  have key : ∀ (v x : Text), Suffix v → (x ++ v).reverse.take 3 = v.reverse.take 3 := by
    intro v x hv
    rw [List.reverse_append, List.take_append_of_le_length]
    rcases hv with rfl | rfl | rfl <;> decide
  have h3 : w.reverse.take 3 = w'.reverse.take 3 := by rw [← key w a hw, ← key w' b hw', h]
  have hww : w = w' := by
    rcases hw with rfl | rfl | rfl <;> rcases hw' with rfl | rfl | rfl <;> first | rfl | (exact absurd h3 (by decide))
  subst hww
  exact ⟨List.append_cancel_right h, rfl⟩

theorem key_inj {p p' : Project} {c c' : Config} {w w' : Text} (hg : '.' ∉ p.guid) (hg' : '.' ∉ p'.guid) (hc : '|' ∉ c.solConfig) (hc' : '|' ∉ c'.solConfig)
    (hw : Suffix w) (hw' : Suffix w') (h : key p c w = key p' c' w') :
    upper p.guid = upper p'.guid ∧ c.solConfig = c'.solConfig ∧ c.solPlatform = c'.solPlatform ∧ w = w' := by
  have e : ∀ (p : Project) (c : Config) (w : Text), key p c w = upper p.guid ++ '.' :: (c.solConfig ++ '|' :: (c.solPlatform ++ w)) := by
    intro p c w
    simp [key, cfg]
  rw [e, e] at h
  obtain ⟨h1, h2⟩ := split_inj (upper_dot hg) (upper_dot hg') h
  obtain ⟨h3, h4⟩ := split_inj hc hc' h2
  obtain ⟨h5, h6⟩ := suffix_inj hw hw' h4
  exact ⟨h1, h3, h5, h6⟩

theorem pairs_mapping (win : Bool) (rel : Text → Text) (s : Sln) : pairsOf (docOf win rel s).globals sMapping = mappingPairs s := by
  unfold pairsOf docOf
  have h1 : sConfigs ≠ sMapping := by decide
  have h2 : sProps ≠ sMapping := by decide
  have h3 : sNested ≠ sMapping := by decide
  split <;> simp [List.filter_cons, h1, h2, h3]

theorem pairs_configs (win : Bool) (rel : Text → Text) (s : Sln) : pairsOf (docOf win rel s).globals sConfigs = configPairs s := by
  unfold pairsOf docOf
  have h1 : sMapping ≠ sConfigs := by decide
  have h2 : sProps ≠ sConfigs := by decide
  have h3 : sNested ≠ sConfigs := by decide
  split <;> simp [List.filter_cons, h1, h2, h3]

theorem pairs_nested (win : Bool) (rel : Text → Text) (s : Sln) : pairsOf (docOf win rel s).globals sNested = nestedPairs win s := by
  unfold pairsOf docOf
  have h1 : sConfigs ≠ sNested := by decide
  have h2 : sProps ≠ sNested := by decide
  have h3 : sMapping ≠ sNested := by decide
  split
  · rename_i h
    simp [List.filter_cons, h1, h2, h3, nestedPairs, folderParents, h.1, h.2]
  · simp [List.filter_cons, h1, h2, h3]

theorem isFolder_iff {find : Text → Option Project} {inp : Input} {s : Sln} (h : init find inp = some s) (q : Text) : q ∈ folderPaths s ↔ IsFolder inp q := by
  obtain ⟨_, _, _, _, _, hF, _⟩ := init_spec h
  rw [mem_folderPaths]
  unfold IsFolder
  constructor
  · rintro ⟨f, hf, h1⟩
    obtain ⟨g, hg, e⟩ := (hF f.path).1 (List.mem_map_of_mem hf)
    exact ⟨g, hg, by rw [e]; exact h1⟩
  · rintro ⟨f, hf, h1⟩
    obtain ⟨g, hg, e⟩ := List.mem_map.1 ((hF (pathOf f.path)).2 ⟨f, hf, rfl⟩)
    exact ⟨g, hg, by rw [e]; exact h1⟩

/-- The file can be read. It has one entry for each project asked for, which leads to its file, and one for each solution folder and each folder such a folder is in. -/
theorem C101_entries {find : Text → Option Project} {inp : Input} {s : Sln} {win : Bool} {rel : Text → Text} {t : Text}
    (h : init find inp = some s) (hp : Plains rel s) (ht : text win rel s = some t) :
    ∃ (d : Doc) (ps : List Project) (fs : List Text), read t = some d ∧ ps.Nodup ∧ (∀ p, p ∈ ps ↔ IsProject find inp p) ∧ fs.Nodup ∧ (∀ q, q ∈ fs ↔ IsFolder inp q) ∧
      d.entries.map (fun e => (e.type, e.path, e.guid)) =
        ps.map (fun p => (upper p.typeGuid, rel p.name, upper p.guid)) ++
        fs.map (fun q => ("{2150E333-8FDC-42A3-9474-1A3956D46DE8}".toList, (afterLast '\\' q).getD q, upper (formatGuid win q))) := by
  obtain ⟨h1, _, h2, _⟩ := init_spec h
  refine ⟨docOf win rel s, s.projects, folderPaths s, read_text hp ht, h1, h2, folderPaths_nodup s, isFolder_iff h, ?_⟩
  simp only [docOf, List.map_append, List.map_map]
  rfl

/-- Every project has every configuration of the solution, and in each it is given the configuration and platform asked for, nothing else; it is built and deployed exactly if
it is listed. This needs GUIDs that differ, and names of configurations that differ. -/
theorem C101_configs_partial {find : Text → Option Project} {inp : Input} {s : Sln} {win : Bool} {rel : Text → Text} {t : Text}
    (h : init find inp = some s) (hp : Plains rel s) (ht : text win rel s = some t)
    (hg : ∀ p q, IsProject find inp p → IsProject find inp q → upper p.guid = upper q.guid → p = q) (hdot : ∀ p, IsProject find inp p → '.' ∉ p.guid)
    (hc : ∀ c ∈ configsOf inp, ∀ c' ∈ configsOf inp, c.solConfig = c'.solConfig → c.solPlatform = c'.solPlatform → c = c') (hbar : ∀ c ∈ configsOf inp, '|' ∉ c.solConfig) :
    ∃ d, read t = some d ∧ (∀ k v, (k, v) ∈ pairsOf d.globals "SolutionConfigurationPlatforms".toList ↔ ∃ c ∈ configsOf inp, k = c.solConfig ++ '|' :: c.solPlatform ∧ v = k) ∧
    ∀ p, IsProject find inp p → ∀ c ∈ configsOf inp,
      (c.platform, c.config) ∈ p.tuples ∧
      ∀ v,
        ((upper p.guid ++ '.' :: (c.solConfig ++ '|' :: (c.solPlatform ++ ".ActiveCfg".toList)), v) ∈ pairsOf d.globals "ProjectConfigurationPlatforms".toList ↔
          v = c.config ++ '|' :: c.platform) ∧
        ((upper p.guid ++ '.' :: (c.solConfig ++ '|' :: (c.solPlatform ++ ".Build.0".toList)), v) ∈ pairsOf d.globals "ProjectConfigurationPlatforms".toList ↔
          v = c.config ++ '|' :: c.platform ∧ ∃ n ∈ c.build, n.map Str.lower = p.name.map Str.lower) ∧
        ((upper p.guid ++ '.' :: (c.solConfig ++ '|' :: (c.solPlatform ++ ".Deploy.0".toList)), v) ∈ pairsOf d.globals "ProjectConfigurationPlatforms".toList ↔
          v = c.config ++ '|' :: c.platform ∧ ∃ n ∈ c.deploy, n.map Str.lower = p.name.map Str.lower) := by
  obtain ⟨_, _, h2, h3, _, _, _, _, _, _, _, h12⟩ := init_spec h
  refine ⟨docOf win rel s, read_text hp ht, ?_, ?_⟩
  · intro k v
    have : "SolutionConfigurationPlatforms".toList = sConfigs := rfl
    rw [this, pairs_configs, configPairs, List.mem_map]
    constructor
    · rintro ⟨c, hc, e⟩
      simp only [Prod.mk.injEq] at e
      exact ⟨c, (h3 c).1 hc, e.1.symm, e.2.symm.trans e.1⟩
    · rintro ⟨c, hc, rfl, rfl⟩
      exact ⟨c, (h3 c).2 hc, rfl⟩
  · intro p hpp c hcc
    refine ⟨h12 p ((h2 p).2 hpp) c ((h3 c).2 hcc), ?_⟩
    have ek : ∀ w, upper p.guid ++ '.' :: (c.solConfig ++ '|' :: (c.solPlatform ++ w)) = key p c w := by
      intro w
      simp [key, cfg]
    have em : "ProjectConfigurationPlatforms".toList = sMapping := rfl
    have e1 : ".ActiveCfg".toList = sActive := rfl
    have e2 : ".Build.0".toList = sBuild := rfl
    have e3 : ".Deploy.0".toList = sDeploy := rfl
    have ec : c.config ++ '|' :: c.platform = cfg c.config c.platform := rfl
    have any_iff : ∀ (l : List Text) (n : Text), (l.any (fun m => Cont.equalsI m n) = true) ↔ ∃ m ∈ l, m.map Str.lower = n.map Str.lower := by
      intro l n
      rw [List.any_eq_true]
      simp only [equalsI_iff]
    have main : ∀ w v, Suffix w → ((key p c w, v) ∈ mappingPairs s ↔ v = cfg c.config c.platform ∧ (w = sActive ∨ (w = sBuild ∧ c.build.any (fun n => Cont.equalsI n p.name) = true) ∨
        (w = sDeploy ∧ c.deploy.any (fun n => Cont.equalsI n p.name) = true))) := by
      intro w v hw
      simp only [mappingPairs, List.mem_flatMap, List.mem_append, List.mem_singleton]
      constructor
      · rintro ⟨q, hq, c', hc', hm⟩
        have hq' := (h2 q).1 hq
        have hcc' := (h3 c').1 hc'
        have same : ∀ w', Suffix w' → key p c w = key q c' w' → q = p ∧ c' = c ∧ w = w' := by
          intro w' hw' e
          obtain ⟨k1, k2, k3, k4⟩ := key_inj (hdot p hpp) (hdot q hq') (hbar c hcc) (hbar c' hcc') hw hw' e
          exact ⟨(hg p q hpp hq' k1).symm, (hc c hcc c' hcc' k2 k3).symm, k4⟩
        rcases hm with (hm | hm) | hm
        · simp only [Prod.mk.injEq] at hm
          obtain ⟨rfl, rfl, rfl⟩ := same sActive (.inl rfl) hm.1
          exact ⟨hm.2, .inl rfl⟩
        · split at hm
          · rename_i hb
            simp only [List.mem_singleton, Prod.mk.injEq] at hm
            obtain ⟨rfl, rfl, rfl⟩ := same sBuild (.inr (.inl rfl)) hm.1
            exact ⟨hm.2, .inr (.inl ⟨rfl, hb⟩)⟩
          · cases hm
        · split at hm
          · rename_i hb
            simp only [List.mem_singleton, Prod.mk.injEq] at hm
            obtain ⟨rfl, rfl, rfl⟩ := same sDeploy (.inr (.inr rfl)) hm.1
            exact ⟨hm.2, .inr (.inr ⟨rfl, hb⟩)⟩
          · cases hm
      · rintro ⟨rfl, hm⟩
        refine ⟨p, (h2 p).2 hpp, c, (h3 c).2 hcc, ?_⟩
        rcases hm with rfl | ⟨rfl, hb⟩ | ⟨rfl, hb⟩
        · exact .inl (.inl rfl)
        · exact .inl (.inr (by rw [if_pos hb]; simp))
        · exact .inr (by rw [if_pos hb]; simp)
    intro v
    rw [em, e1, e2, e3, ec, ek, ek, ek, pairs_mapping, main _ _ (.inl rfl), main _ _ (.inr (.inl rfl)), main _ _ (.inr (.inr rfl)), any_iff, any_iff]
    have n1 : sBuild ≠ sActive := by decide
    have n2 : sDeploy ≠ sActive := by decide
    have n3 : sBuild ≠ sDeploy := by decide
    simp [n1, n2, n3, n1.symm, n2.symm, n3.symm]

theorem mem_beforeLast {c : Char} {t q : Text} : beforeLast c t = some q ↔ ∃ r, t = q ++ c :: r ∧ c ∉ r := by
  have hdw : ∀ (u : Text), c ∈ u → ∃ r, u = r ++ c :: ((u.dropWhile (· ≠ c)).drop 1) ∧ c ∉ r := by
    intro u
    induction u with
    | nil => intro h; cases h
    | cons a u ih =>
      intro h
      by_cases ha : a = c
      · subst ha
        exact ⟨[], by simp, by simp⟩
      · obtain ⟨r, h1, h2⟩ := ih (by simpa [Ne.symm ha] using h)
        refine ⟨a :: r, ?_, by simp [Ne.symm ha, h2]⟩
        rw [List.dropWhile_cons_of_pos (by simpa using ha), List.cons_append, ← h1]
  unfold beforeLast
  constructor
  · intro h
    split at h
    · rename_i hm
      cases h
      obtain ⟨r, h1, h2⟩ := hdw t.reverse (by simpa using hm)
      refine ⟨r.reverse, ?_, by simpa using h2⟩
      have := congrArg List.reverse h1
      simpa using this
    · cases h
  · rintro ⟨r, rfl, hr⟩
    rw [if_pos (by simp)]
    obtain ⟨r', h1, h2⟩ := hdw (q ++ c :: r).reverse (by simp)
    have e : (q ++ c :: r).reverse = r.reverse ++ c :: q.reverse := by simp
    rw [e] at h1
    have hr' : c ∉ r.reverse := by simpa using hr
    obtain ⟨_, h3⟩ := split_inj hr' h2 h1
    rw [e, ← h3]
    simp

/-- On Windows, a project is in the folders that name it, and a folder in the one that its path says; nothing else is in a folder; and whatever is in a folder, and each folder, has an entry. -/
theorem C101_folders_partial {find : Text → Option Project} {inp : Input} {s : Sln} {rel : Text → Text} {t : Text}
    (h : init find inp = some s) (hp : Plains rel s) (ht : text true rel s = some t) :
    ∃ d, read t = some d ∧
      (∀ a b, (a, b) ∈ pairsOf d.globals "NestedProjects".toList ↔
        (∃ p, IsProject find inp p ∧ ∃ f ∈ inp.folders, p.name ∈ f.projects ∧ a = upper p.guid ∧ b = upper (formatGuid true (pathOf f.path))) ∨
        (∃ q r, '\\' ∉ r ∧ IsFolder inp (q ++ '\\' :: r) ∧ a = upper (formatGuid true (q ++ '\\' :: r)) ∧ b = upper (formatGuid true q))) ∧
      ∀ a b, (a, b) ∈ pairsOf d.globals "NestedProjects".toList → (∃ e ∈ d.entries, e.guid = a) ∧ ∃ e ∈ d.entries, e.guid = b ∧ e.type = "{2150E333-8FDC-42A3-9474-1A3956D46DE8}".toList := by
  obtain ⟨_, _, h2, _, _, _, h7, _⟩ := init_spec h
  have em : "NestedProjects".toList = sNested := rfl
  have main : ∀ a b, (a, b) ∈ nestedPairs true s ↔
        (∃ p, IsProject find inp p ∧ ∃ f ∈ inp.folders, p.name ∈ f.projects ∧ a = upper p.guid ∧ b = upper (formatGuid true (pathOf f.path))) ∨
        (∃ q r, '\\' ∉ r ∧ IsFolder inp (q ++ '\\' :: r) ∧ a = upper (formatGuid true (q ++ '\\' :: r)) ∧ b = upper (formatGuid true q)) := by
    intro a b
    simp only [nestedPairs, projectsToFolders, folderParents, List.mem_append, List.mem_flatMap, List.mem_map, List.mem_filterMap, Option.map_eq_some_iff, List.mem_filter, decide_eq_true_eq,
      Prod.mk.injEq, show slash true = '\\' from rfl, mem_beforeLast]
    constructor
    · rintro (⟨p, hp, f, ⟨hf, hn⟩, rfl, rfl⟩ | ⟨x, hx, q, ⟨r, rfl, hr⟩, rfl, rfl⟩)
      · obtain ⟨g, hg, e, hn'⟩ := (h7 f.path p.name).1 ⟨f, hf, rfl, hn⟩
        exact .inl ⟨p, (h2 p).1 hp, g, hg, hn', rfl, by rw [e]⟩
      · exact .inr ⟨q, r, hr, (isFolder_iff h _).1 hx, rfl, rfl⟩
    · rintro (⟨p, hp, f, hf, hn, rfl, rfl⟩ | ⟨q, r, hr, hx, rfl, rfl⟩)
      · obtain ⟨g, hg, e, hn'⟩ := (h7 (pathOf f.path) p.name).2 ⟨f, hf, rfl, hn⟩
        exact .inl ⟨p, (h2 p).2 hp, g, ⟨hg, hn'⟩, rfl, by rw [e]⟩
      · exact .inr ⟨_, (isFolder_iff h _).2 hx, q, ⟨r, rfl, hr⟩, rfl, rfl⟩
  have hfold : ∀ q, IsFolder inp q → ∃ e ∈ (docOf true rel s).entries, e.guid = upper (formatGuid true q) ∧ e.type = "{2150E333-8FDC-42A3-9474-1A3956D46DE8}".toList := by
    intro q hq
    exact ⟨folderEntry true rel s q, List.mem_append_right _ (List.mem_map_of_mem ((isFolder_iff h q).2 hq)), rfl, rfl⟩
  refine ⟨docOf true rel s, read_text hp ht, ?_, ?_⟩
  · intro a b
    rw [em, pairs_nested, main]
  · intro a b hab
    rw [em, pairs_nested, main] at hab
    rcases hab with ⟨p, hp, f, hf, hn, rfl, rfl⟩ | ⟨q, r, hr, hx, rfl, rfl⟩
    · exact ⟨⟨projectEntry true rel s p, List.mem_append_left _ (List.mem_map_of_mem ((h2 p).2 hp)), rfl⟩, hfold _ ⟨f, hf, .inl rfl⟩⟩
    · refine ⟨?_, hfold q ?_⟩
      · obtain ⟨e, he, e1, _⟩ := hfold _ hx
        exact ⟨e, he, e1⟩
      · obtain ⟨f, hf, h1⟩ := hx
        rcases h1 with h1 | ⟨r', h1⟩
        · exact ⟨f, hf, .inr ⟨r, h1.symm⟩⟩
        · exact ⟨f, hf, .inr ⟨r ++ '\\' :: r', by rw [h1]; simp⟩⟩

/-- The entry of a project names exactly the projects that it was said to depend on, by the names these have, and each of them has an entry. -/
theorem C101_dependencies_partial {find : Text → Option Project} {inp : Input} {s : Sln} {win : Bool} {rel : Text → Text} {t : Text}
    (h : init find inp = some s) (hp : Plains rel s) (ht : text win rel s = some t)
    (hname : ∀ p q, IsProject find inp p → IsProject find inp q → p.name = q.name → p = q) :
    ∃ d, read t = some d ∧ ∀ p, IsProject find inp p → ∃ e ∈ d.entries, e.guid = upper p.guid ∧ e.path = rel p.name ∧
      ∀ a b, (a, b) ∈ pairsOf e.sections "ProjectDependencies".toList ↔
        a = b ∧ ∃ x ∈ inp.deps, p.name ∈ x.projects ∧ ∃ q, IsProject find inp q ∧ q.name ∈ x.deps ∧ a = q.guid := by
  obtain ⟨_, _, h2, _, _, _, _, _, h9, _⟩ := init_spec h
  refine ⟨docOf win rel s, read_text hp ht, fun p hpp => ⟨projectEntry win rel s p, List.mem_append_left _ (List.mem_map_of_mem ((h2 p).2 hpp)), rfl, rfl, fun a b => ?_⟩⟩
  have em : "ProjectDependencies".toList = sDeps := rfl
  have h1 : pairsOf (projectEntry win rel s p).sections sDeps = (dependencyGuids s p).map fun g => (g, g) := by
    unfold projectEntry projectSecs pairsOf
    split
    · rename_i he; simp [he]
    · simp
  have h3 : ∀ g, g ∈ dependencyGuids s p ↔ ∃ x ∈ inp.deps, p.name ∈ x.projects ∧ ∃ q, IsProject find inp q ∧ q.name ∈ x.deps ∧ g = q.guid := by
    intro g
    rw [dependencyGuids, List.mem_flatMap, h9]
    constructor
    · rintro ⟨x, hx, hg⟩
      split at hg
      · rename_i hn
        simp only [List.mem_filterMap, Option.map_eq_some_iff] at hg
        obtain ⟨n, hn', q, hq, rfl⟩ := hg
        have hqm := List.mem_of_find?_eq_some hq
        have hqn := List.find?_some hq
        simp only [decide_eq_true_eq] at hqn
        exact ⟨x, hx, hn, q, (h2 q).1 hqm, hqn ▸ hn', rfl⟩
      · cases hg
    · rintro ⟨x, hx, hn, q, hq, hqn, rfl⟩
      refine ⟨x, hx, ?_⟩
      rw [if_pos hn, List.mem_filterMap]
      refine ⟨q.name, hqn, ?_⟩
      cases hf : s.projects.find? (·.name = q.name) with
      | none =>
        have := List.find?_eq_none.1 hf q ((h2 q).2 hq)
        simp at this
      | some q' =>
        have hqm := List.mem_of_find?_eq_some hf
        have hqn' := List.find?_some hf
        simp only [decide_eq_true_eq] at hqn'
        rw [hname q' q ((h2 q').1 hqm) hq hqn']
        rfl
  rw [em, h1, List.mem_map]
  constructor
  · rintro ⟨g, hg, e⟩
    simp only [Prod.mk.injEq] at e
    obtain ⟨rfl, rfl⟩ := e
    exact ⟨rfl, (h3 _).1 hg⟩
  · rintro ⟨rfl, hg⟩
    exact ⟨a, (h3 _).2 hg, rfl⟩

/-- The entry of a solution folder lists the files given for it, and those of folders whose paths differ from its own in case only. -/
theorem C101_items {find : Text → Option Project} {inp : Input} {s : Sln} {win : Bool} {rel : Text → Text} {t : Text}
    (h : init find inp = some s) (hp : Plains rel s) (ht : text win rel s = some t) :
    ∃ d, read t = some d ∧ ∀ q, IsFolder inp q → ∃ e ∈ d.entries, e.guid = upper (formatGuid win q) ∧ e.path = (afterLast '\\' q).getD q ∧
      ∀ a b, (a, b) ∈ pairsOf e.sections "SolutionItems".toList ↔
        a = b ∧ ∃ f ∈ inp.folders, (pathOf f.path).map Str.lower = q.map Str.lower ∧ ∃ i ∈ f.items, a = rel i := by
  obtain ⟨_, _, _, _, _, _, _, h8, _⟩ := init_spec h
  refine ⟨docOf win rel s, read_text hp ht, fun q hq => ⟨folderEntry win rel s q, List.mem_append_right _ (List.mem_map_of_mem ((isFolder_iff h q).2 hq)), rfl, rfl, fun a b => ?_⟩⟩
  have em : "SolutionItems".toList = sItems := rfl
  have h1 : ∀ x, x ∈ pairsOf (folderEntry win rel s q).sections sItems ↔ ∃ f ∈ s.folders, f.path.map Str.lower = q.map Str.lower ∧ ∃ i ∈ f.items, x = (rel i, rel i) := by
    intro x
    simp only [folderEntry, folderSecs, pairsOf, List.mem_flatMap, List.mem_filter, List.mem_map, decide_eq_true_eq]
    constructor
    · rintro ⟨sec, ⟨⟨y, ⟨f, ⟨hf, hc⟩, rfl⟩, rfl⟩, _⟩, hx⟩
      simp only [List.mem_map, mem_sortBy] at hx
      obtain ⟨i, hi, rfl⟩ := hx
      exact ⟨f, hf, ((equalsI_iff _ _).1 hc.1).symm, i, hi, rfl⟩
    · rintro ⟨f, hf, he, i, hi, rfl⟩
      exact ⟨(sItems, (sortBy textLt f.items).map fun i => (rel i, rel i)), ⟨⟨_, ⟨f, ⟨hf, (equalsI_iff _ _).2 he.symm, List.ne_nil_of_mem hi⟩, rfl⟩, rfl⟩, rfl⟩,
        List.mem_map.2 ⟨i, mem_sortBy.2 hi, rfl⟩⟩
  rw [em, h1]
  constructor
  · rintro ⟨f, hf, he, i, hi, e⟩
    simp only [Prod.mk.injEq] at e
    obtain ⟨rfl, rfl⟩ := e
    obtain ⟨g, hg, e, hi'⟩ := (h8 f.path i).1 ⟨f, hf, rfl, hi⟩
    exact ⟨rfl, g, hg, by rw [e]; exact he, i, hi', rfl⟩
  · rintro ⟨rfl, f, hf, he, i, hi, rfl⟩
    obtain ⟨g, hg, e, hi'⟩ := (h8 (pathOf f.path) i).2 ⟨f, hf, rfl, hi⟩
    exact ⟨g, hg, by rw [e]; exact he, i, hi', rfl⟩

end Verif.Sln
