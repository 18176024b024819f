import Verif.Xcode.ObjProof
/-!
C116, objects: a project for Xcode holds together and shows every file where it belongs.
-/
namespace Verif.Xcode
open Spec

/-- Every identifier in a field is that of an object the field is for. -/
theorem C116_references (bases fs : List Text) (name : Text) (configs : List Text) {o : Obj} (ho : o ∈ objects (build bases fs) name configs)
    {r : Field × Text} (hr : r ∈ o.refs) : ∃ o' ∈ objects (build bases fs) name configs, o'.id = r.2 ∧ o'.isa ∈ allowed r.1 := by
  obtain ⟨hok, -⟩ := build_ok bases fs
  generalize hp : build bases fs = p at ho hok ⊢
  have list : ∀ i, i < 3 → ∃ o' ∈ objects p name configs, o'.id = ident .configurationList i ∧ o'.isa = .configurationList := by
    intro i hi
    have : listObj i configs ∈ section_ p name configs .configurationList := by
      have : i = 0 ∨ i = 1 ∨ i = 2 := by omega
      rcases this with rfl | rfl | rfl <;> simp [section_]
    exact ⟨_, (mem_section this).1, rfl, rfl⟩
  have phase : ∃ o' ∈ objects p name configs, o'.id = ident .sourcesPhase 0 ∧ o'.isa = .sourcesPhase :=
    ⟨phaseObj p, (mem_section (k := .sourcesPhase) (List.mem_singleton.2 rfl)).1, rfl, rfl⟩
  have group : ∀ i, i < p.folders.length → ∃ o' ∈ objects p name configs, o'.id = ident .group (folderNo p i) ∧ o'.isa = .group :=
    fun i hi => ⟨_, group_mem hi, rfl, rfl⟩
  have config : ∀ i, i < 3 → ∀ n < configs.length, ∃ o' ∈ objects p name configs, o'.id = ident .configuration (startId i + n) ∧ o'.isa = .configuration := by
    intro i hi n hn
    have hm : (⟨.configuration, ident .configuration (startId i + n), configs[n], [], []⟩ : Obj) ∈ configObjs i configs := by
      refine List.mem_map.2 ⟨(configs[n], n), ?_, rfl⟩
      rw [List.mem_zipIdx_iff_getElem?]
      simp [hn]
    have : (⟨.configuration, ident .configuration (startId i + n), configs[n], [], []⟩ : Obj) ∈ section_ p name configs .configuration := by
      have h3 : i = 0 ∨ i = 1 ∨ i = 2 := by omega
      rcases h3 with rfl | rfl | rfl
      · exact List.mem_append_left _ (List.mem_append_left _ hm)
      · exact List.mem_append_left _ (List.mem_append_right _ hm)
      · exact List.mem_append_right _ hm
    exact ⟨_, (mem_section this).1, rfl, rfl⟩
  have zero : 0 < p.folders.length := by
    obtain ⟨f, hf, -⟩ := hok.root
    exact (List.getElem?_eq_some_iff.1 hf).1
  have lists : ∀ i, i < 3 → ∀ r ∈ (listObj i configs).refs, ∃ o' ∈ objects p name configs, o'.id = r.2 ∧ o'.isa ∈ allowed r.1 := by
    intro i hi r hr
    obtain ⟨c, hc, rfl⟩ := List.mem_map.1 hr
    have hn : c.2 < configs.length := by
      have := List.mem_zipIdx_iff_getElem?.1 hc
      exact (List.getElem?_eq_some_iff.1 this).1
    obtain ⟨o', h1, h2, h3⟩ := config i hi c.2 hn
    exact ⟨o', h1, h2, by rw [h3]; exact List.mem_singleton.2 rfl⟩
  rw [mem_objects] at ho
  cases hk : o.isa with
  | buildFile =>
    rw [hk] at ho
    obtain ⟨k, hm, rfl⟩ := List.mem_map.1 ho
    simp [buildFileObj] at hr
    subst hr
    exact ⟨_, file_mem (mem_files.1 hm), rfl, List.mem_singleton.2 rfl⟩
  | fileReference =>
    rw [hk] at ho
    obtain ⟨k, hk, rfl⟩ := List.mem_map.1 ho
    exact nomatch hr
  | group =>
    rw [hk] at ho
    obtain ⟨i, hi, rfl⟩ := List.mem_map.1 ho
    rcases List.mem_append.1 hr with h | h
    · obtain ⟨k, hk, rfl⟩ := List.mem_map.1 h
      have hk := (List.mergeSort_perm _ _).mem_iff.1 hk
      have hf := List.getElem?_eq_getElem (mem_folders.1 hi)
      rw [hf] at hk
      have : k ∈ p.folders.flatMap Folder.files := List.mem_flatMap.2 ⟨_, List.getElem_mem _, hk⟩
      have := hok.files.mem_iff.1 this
      exact ⟨_, file_mem (List.mem_range.1 this), rfl, by simp [allowed, fileObj]⟩
    · obtain ⟨k, hk, rfl⟩ := List.mem_map.1 h
      have hk := (List.mergeSort_perm _ _).mem_iff.1 hk
      have hf := List.getElem?_eq_getElem (mem_folders.1 hi)
      rw [hf] at hk
      have : k ∈ p.folders.flatMap Folder.folders := List.mem_flatMap.2 ⟨_, List.getElem_mem _, hk⟩
      have := hok.folders.mem_iff.1 (List.mem_cons_of_mem 0 this)
      exact ⟨_, group_mem (List.mem_range.1 this), rfl, by simp [allowed, groupObj]⟩
  | legacyTarget =>
    rw [hk] at ho
    simp only [section_, targetObjs, List.take_succ_cons, List.take_zero, List.mem_singleton] at ho
    subst ho
    simp only [List.mem_cons, List.not_mem_nil, or_false] at hr
    rcases hr with rfl | rfl
    · obtain ⟨o', h1, h2, h3⟩ := list 1 (by decide)
      exact ⟨o', h1, h2, by rw [h3]; decide⟩
    · obtain ⟨o', h1, h2, h3⟩ := phase
      exact ⟨o', h1, h2, by rw [h3]; decide⟩
  | nativeTarget =>
    rw [hk] at ho
    simp only [section_, targetObjs, List.drop_succ_cons, List.drop_zero, List.mem_singleton] at ho
    subst ho
    simp only [List.mem_cons, List.not_mem_nil, or_false] at hr
    rcases hr with rfl | rfl
    · obtain ⟨o', h1, h2, h3⟩ := list 2 (by decide)
      exact ⟨o', h1, h2, by rw [h3]; decide⟩
    · obtain ⟨o', h1, h2, h3⟩ := phase
      exact ⟨o', h1, h2, by rw [h3]; decide⟩
  | project =>
    rw [hk] at ho
    simp only [section_, List.mem_singleton] at ho
    subst ho
    simp only [projectObj, List.mem_cons, List.not_mem_nil, or_false] at hr
    rcases hr with rfl | rfl | rfl | rfl
    · obtain ⟨o', h1, h2, h3⟩ := list 0 (by decide)
      exact ⟨o', h1, h2, by rw [h3]; decide⟩
    · obtain ⟨o', h1, h2, h3⟩ := group 0 zero
      exact ⟨o', h1, by rw [h2, folderNo_root hok], by rw [h3]; decide⟩
    · exact ⟨_, (mem_section (k := .legacyTarget) (List.mem_singleton.2 rfl)).1, rfl, List.mem_cons_self ..⟩
    · exact ⟨_, (mem_section (k := .nativeTarget) (List.mem_singleton.2 rfl)).1, rfl, List.mem_cons_of_mem _ (List.mem_cons_self ..)⟩
  | sourcesPhase =>
    rw [hk] at ho
    simp only [section_, List.mem_singleton] at ho
    subst ho
    obtain ⟨k, hk, rfl⟩ := List.mem_map.1 hr
    exact ⟨_, buildFile_mem (mem_files.1 hk), rfl, List.mem_singleton.2 rfl⟩
  | configuration =>
    rw [hk] at ho
    have : o.refs = [] := by
      rcases List.mem_append.1 ho with h | h
      · rcases List.mem_append.1 h with h | h <;>
        · obtain ⟨c, -, rfl⟩ := List.mem_map.1 h
          rfl
      · obtain ⟨c, -, rfl⟩ := List.mem_map.1 h
        rfl
    rw [this] at hr
    exact nomatch hr
  | configurationList =>
    rw [hk] at ho
    simp only [section_, List.mem_cons, List.not_mem_nil, or_false] at ho
    rcases ho with rfl | rfl | rfl
    · exact lists 0 (by decide) r hr
    · exact lists 1 (by decide) r hr
    · exact lists 2 (by decide) r hr

/-- No two objects have the same identifier, as long as there are at most a hundred configurations; see `C116_ids_false`. -/
theorem C116_ids_partial (bases fs : List Text) (name : Text) {configs : List Text} (h : configs.length ≤ 100) :
    ((objects (build bases fs) name configs).map Obj.id).Nodup := by
  generalize build bases fs = p
  have hfile : ((files p).map (fun k => (Isa.fileReference, fileNo p k))).Nodup :=
    List.pairwise_map.2 ((files_nodup p).imp_of_mem fun ha hb hne e => hne (idx_inj ha hb (Prod.mk.inj e).2))
  have hbuild : ((files p).map (fun k => (Isa.buildFile, fileNo p k))).Nodup :=
    List.pairwise_map.2 ((files_nodup p).imp_of_mem fun ha hb hne e => hne (idx_inj ha hb (Prod.mk.inj e).2))
  have hgroup : ((folders p).map (fun k => (Isa.group, folderNo p k))).Nodup :=
    List.pairwise_map.2 ((folders_nodup p).imp_of_mem fun ha hb hne e => hne (idx_inj ha hb (Prod.mk.inj e).2))
  have hconf : ((List.range configs.length).map (fun k => (Isa.configuration, 0 + k)) ++ (List.range configs.length).map (fun k => (Isa.configuration, 100 + k)) ++
      (List.range configs.length).map (fun k => (Isa.configuration, 200 + k))).Nodup := by
    have one : ∀ n, ((List.range configs.length).map (fun k => (Isa.configuration, n + k))).Nodup := fun n =>
      List.pairwise_map.2 (List.nodup_range.imp fun hne e => hne (by have := (Prod.mk.inj e).2; omega))
    refine List.nodup_append.2 ⟨List.nodup_append.2 ⟨one 0, one 100, ?_⟩, one 200, ?_⟩
    · intro a ha b hb e
      obtain ⟨i, hi, rfl⟩ := List.mem_map.1 ha
      obtain ⟨j, hj, rfl⟩ := List.mem_map.1 hb
      have := (Prod.mk.inj e).2
      rw [List.mem_range] at hi hj
      omega
    · intro a ha b hb e
      obtain ⟨j, hj, rfl⟩ := List.mem_map.1 hb
      rw [List.mem_range] at hj
      rcases List.mem_append.1 ha with ha | ha <;>
      · obtain ⟨i, hi, rfl⟩ := List.mem_map.1 ha
        have := (Prod.mk.inj e).2
        rw [List.mem_range] at hi
        omega
  have conf : ∀ i, (configObjs i configs).map Obj.id = ((List.range configs.length).map (fun k => (Isa.configuration, startId i + k))).map fun x => ident x.1 x.2 := by
    intro i
    rw [configObjs, List.map_map, List.map_map]
    have e : (Obj.id ∘ fun c : Text × Nat => ({ isa := .configuration, id := ident .configuration (startId i + c.2), name := c.1 } : Obj)) =
        (fun k => ident .configuration (startId i + k)) ∘ Prod.snd := rfl
    rw [e, ← List.map_map, List.zipIdx_map_snd, List.range_eq_range']
    rfl
  have keys : ((files p).map (fun k => (Isa.buildFile, fileNo p k)) ++ (files p).map (fun k => (Isa.fileReference, fileNo p k)) ++
      (folders p).map (fun k => (Isa.group, folderNo p k)) ++
      [(Isa.legacyTarget, 0), (Isa.nativeTarget, 0), (Isa.project, 0), (Isa.sourcesPhase, 0)] ++
      ((List.range configs.length).map (fun k => (Isa.configuration, 0 + k)) ++ (List.range configs.length).map (fun k => (Isa.configuration, 100 + k)) ++
        (List.range configs.length).map (fun k => (Isa.configuration, 200 + k))) ++
      [(Isa.configurationList, 0), (Isa.configurationList, 1), (Isa.configurationList, 2)]).Nodup := by
    generalize hA : (files p).map (fun k => (Isa.buildFile, fileNo p k)) = A at hbuild
    generalize hB : (files p).map (fun k => (Isa.fileReference, fileNo p k)) = B at hfile
    generalize hC : (folders p).map (fun k => (Isa.group, folderNo p k)) = C at hgroup
    generalize hD : ((List.range configs.length).map (fun k => (Isa.configuration, 0 + k)) ++ (List.range configs.length).map (fun k => (Isa.configuration, 100 + k)) ++
      (List.range configs.length).map (fun k => (Isa.configuration, 200 + k))) = D at hconf
    have a1 : ∀ x ∈ A, x.1 = .buildFile := by rw [← hA]; intro x hx; obtain ⟨k, -, rfl⟩ := List.mem_map.1 hx; rfl
    have b1 : ∀ x ∈ B, x.1 = .fileReference := by rw [← hB]; intro x hx; obtain ⟨k, -, rfl⟩ := List.mem_map.1 hx; rfl
    have c1 : ∀ x ∈ C, x.1 = .group := by rw [← hC]; intro x hx; obtain ⟨k, -, rfl⟩ := List.mem_map.1 hx; rfl
    have d1 : ∀ x ∈ D, x.1 = .configuration := by
      rw [← hD]
      intro x hx
      rcases List.mem_append.1 hx with h | h
      · rcases List.mem_append.1 h with h | h <;>
        · obtain ⟨c, -, rfl⟩ := List.mem_map.1 h
          rfl
      · obtain ⟨c, -, rfl⟩ := List.mem_map.1 h
        rfl
    have e1 : ∀ x ∈ ([(Isa.legacyTarget, 0), (Isa.nativeTarget, 0), (Isa.project, 0), (Isa.sourcesPhase, 0)] : List (Isa × Nat)),
        x.1 ∈ [Isa.legacyTarget, .nativeTarget, .project, .sourcesPhase] := by decide
    have f1 : ∀ x ∈ ([(Isa.configurationList, 0), (Isa.configurationList, 1), (Isa.configurationList, 2)] : List (Isa × Nat)), x.1 = .configurationList := by decide
    refine List.nodup_append.2 ⟨List.nodup_append.2 ⟨List.nodup_append.2 ⟨List.nodup_append.2 ⟨List.nodup_append.2 ⟨hbuild, hfile, ?_⟩, hgroup, ?_⟩, by decide, ?_⟩,
      hconf, ?_⟩, by decide, ?_⟩
    · rintro x hx _ hy rfl
      exact absurd ((a1 x hx).symm.trans (b1 x hy)) (by decide)
    · rintro x hx _ hy rfl
      have hy := c1 x hy
      rcases List.mem_append.1 hx with h | h
      · exact absurd ((a1 x h).symm.trans hy) (by decide)
      · exact absurd ((b1 x h).symm.trans hy) (by decide)
    · rintro x hx _ hy rfl
      have hy := e1 x hy
      rcases List.mem_append.1 hx with h | h
      · rcases List.mem_append.1 h with h | h
        · rw [a1 x h] at hy; exact absurd hy (by decide)
        · rw [b1 x h] at hy; exact absurd hy (by decide)
      · rw [c1 x h] at hy; exact absurd hy (by decide)
    · rintro x hx _ hy rfl
      have hy := d1 x hy
      rcases List.mem_append.1 hx with h | h
      · rcases List.mem_append.1 h with h | h
        · rcases List.mem_append.1 h with h | h
          · exact absurd ((a1 x h).symm.trans hy) (by decide)
          · exact absurd ((b1 x h).symm.trans hy) (by decide)
        · exact absurd ((c1 x h).symm.trans hy) (by decide)
      · have := e1 x h
        rw [hy] at this
        exact absurd this (by decide)
    · rintro x hx _ hy rfl
      have hy := f1 x hy
      rcases List.mem_append.1 hx with h | h
      · rcases List.mem_append.1 h with h | h
        · rcases List.mem_append.1 h with h | h
          · rcases List.mem_append.1 h with h | h
            · exact absurd ((a1 x h).symm.trans hy) (by decide)
            · exact absurd ((b1 x h).symm.trans hy) (by decide)
          · exact absurd ((c1 x h).symm.trans hy) (by decide)
        · have := e1 x h
          rw [hy] at this
          exact absurd this (by decide)
      · exact absurd ((d1 x h).symm.trans hy) (by decide)
  have e : (objects p name configs).map Obj.id = (((files p).map (fun k => (Isa.buildFile, fileNo p k)) ++ (files p).map (fun k => (Isa.fileReference, fileNo p k)) ++
      (folders p).map (fun k => (Isa.group, folderNo p k)) ++
      [(Isa.legacyTarget, 0), (Isa.nativeTarget, 0), (Isa.project, 0), (Isa.sourcesPhase, 0)] ++
      ((List.range configs.length).map (fun k => (Isa.configuration, 0 + k)) ++ (List.range configs.length).map (fun k => (Isa.configuration, 100 + k)) ++
        (List.range configs.length).map (fun k => (Isa.configuration, 200 + k))) ++
      [(Isa.configurationList, 0), (Isa.configurationList, 1), (Isa.configurationList, 2)]).map fun x : Isa × Nat => ident x.1 x.2) := by
    simp only [objects, List.map_append, conf, List.map_map, List.append_assoc]
    rfl
  rw [e]
  exact List.pairwise_map.2 (keys.imp fun hne e => hne (Prod.ext (ident_inj e).1 (ident_inj e).2))

/-- There is one project object, and the file names it. -/
theorem C116_root (bases fs : List Text) (name : Text) (configs : List Text) :
    ∃ o, (objects (build bases fs) name configs).filter (fun o => o.isa = .project) = [o] ∧ o.id = rootObject :=
  ⟨projectObj, objects_filter _ _ _ _, rfl⟩

/-- Each list of configurations has all of them, in order and by name. -/
theorem C116_configurations (bases fs : List Text) (name : Text) (configs : List Text) {o : Obj}
    (ho : o ∈ objects (build bases fs) name configs) (hk : o.isa = .configurationList) :
    (field o .buildConfigurations).length = configs.length ∧
      ∀ (n : Nat) c, configs[n]? = some c → ∃ x i, x ∈ objects (build bases fs) name configs ∧ x.isa = .configuration ∧ x.name = c ∧
        x.id = i ∧ (field o .buildConfigurations)[n]? = some i := by
  generalize build bases fs = p at ho ⊢
  rw [mem_objects, hk] at ho
  have key : ∀ i, i < 3 → (field (listObj i configs) .buildConfigurations).length = configs.length ∧
      ∀ (n : Nat) c, configs[n]? = some c → ∃ x y, x ∈ objects p name configs ∧ x.isa = .configuration ∧ x.name = c ∧
        x.id = y ∧ (field (listObj i configs) .buildConfigurations)[n]? = some y := by
    intro i hi
    have hf : field (listObj i configs) .buildConfigurations = configs.zipIdx.map fun c => ident .configuration (startId i + c.2) := by
      simp only [field, listObj]
      rw [List.filter_eq_self.2, List.map_map]
      · rfl
      · intro r hr
        obtain ⟨c, -, rfl⟩ := List.mem_map.1 hr
        rfl
    rw [hf]
    refine ⟨by simp, fun n c hn => ?_⟩
    have hz : configs.zipIdx[n]? = some (c, n) := by simp [hn]
    have hm : (⟨.configuration, ident .configuration (startId i + n), c, [], []⟩ : Obj) ∈ configObjs i configs :=
      List.mem_map.2 ⟨(c, n), List.mem_of_getElem? hz, rfl⟩
    have : (⟨.configuration, ident .configuration (startId i + n), c, [], []⟩ : Obj) ∈ section_ p name configs .configuration := by
      have h3 : i = 0 ∨ i = 1 ∨ i = 2 := by omega
      rcases h3 with rfl | rfl | rfl
      · exact List.mem_append_left _ (List.mem_append_left _ hm)
      · exact List.mem_append_left _ (List.mem_append_right _ hm)
      · exact List.mem_append_right _ hm
    exact ⟨_, _, (mem_section this).1, rfl, rfl, rfl, by rw [List.getElem?_map, hz]; rfl⟩
  simp only [section_, List.mem_cons, List.not_mem_nil, or_false] at ho
  rcases ho with rfl | rfl | rfl
  · exact key 0 (by decide)
  · exact key 1 (by decide)
  · exact key 2 (by decide)

/-- And each configuration is in one list. -/
theorem C116_each (bases fs : List Text) (name : Text) (configs : List Text) :
    (((objects (build bases fs) name configs).filter fun o => o.isa = .configurationList).flatMap fun o => field o .buildConfigurations).Perm
      (((objects (build bases fs) name configs).filter fun o => o.isa = .configuration).map Obj.id) := by
  rw [objects_filter, objects_filter]
  have hf : ∀ i, field (listObj i configs) .buildConfigurations = (configObjs i configs).map Obj.id := by
    intro i
    simp only [field, listObj, configObjs]
    rw [List.filter_eq_self.2, List.map_map, List.map_map]
    · rfl
    · intro r hr
      obtain ⟨c, -, rfl⟩ := List.mem_map.1 hr
      rfl
  show ([listObj 0 configs, listObj 1 configs, listObj 2 configs].flatMap fun o => field o .buildConfigurations).Perm
    ((configObjs 0 configs ++ configObjs 1 configs ++ configObjs 2 configs).map Obj.id)
  simp only [List.flatMap_cons, List.flatMap_nil, hf, List.append_nil, List.map_append, List.append_assoc]
  exact List.Perm.refl _

/-- There is one file for each that was added. -/
theorem C116_files (bases fs : List Text) (name : Text) (configs : List Text) :
    (((objects (build bases fs) name configs).filter fun o => o.isa = .fileReference).map Obj.path).Perm fs := by
  obtain ⟨-, hf⟩ := build_ok bases fs
  rw [objects_filter]
  show (((files (build bases fs)).map (fileObj (build bases fs))).map Obj.path).Perm fs
  rw [List.map_map]
  refine ((files_perm _).map _).trans ?_
  have : (List.range (build bases fs).files.length).map (Obj.path ∘ fileObj (build bases fs)) = fs := by
    apply List.ext_getElem
    · simp [hf.1]
    · intro k h1 h2
      obtain ⟨f, g, h3, h4, -⟩ := hf.2 k fs[k] (List.getElem?_eq_getElem h2)
      simp [fileObj, h3, h4]
  rw [this]

/-- Every file is in exactly one group, and every group in exactly one other, but for the main group, which is in none. -/
theorem C116_once (bases fs : List Text) (name : Text) (configs : List Text) {pr : Obj}
    (hpr : pr ∈ objects (build bases fs) name configs) (hk : pr.isa = .project) :
    (field pr .mainGroup ++ ((objects (build bases fs) name configs).filter fun o => o.isa = .group).flatMap fun g => field g .children).Perm
      (((objects (build bases fs) name configs).filter fun o => o.isa = .fileReference).map Obj.id ++
        ((objects (build bases fs) name configs).filter fun o => o.isa = .group).map Obj.id) := by
  obtain ⟨hok, -⟩ := build_ok bases fs
  generalize build bases fs = p at hpr hok ⊢
  rw [mem_objects, hk] at hpr
  simp only [section_, List.mem_singleton] at hpr
  subst hpr
  rw [objects_filter, objects_filter]
  have h := all_children hok
  show (ident .group 0 :: ((folders p).map (groupObj p)).flatMap _).Perm (((files p).map (fileObj p)).map _ ++ ((folders p).map (groupObj p)).map _)
  rw [List.flatMap_map, List.map_map, List.map_map]
  exact h

/-- Files are shown in the groups of the directories they are in, relative to the longest base path; those of one directory in one group.
They are compiled, too. -/
theorem C116_shown (bases fs : List Text) (name : Text) (configs : List Text) {l : Text} (hl : l = [] ∨ l = ['/']) {dirs : List Text}
    (hd : ∀ d ∈ dirs, d ≠ [] ∧ '/' ∉ d) {x0 base0 : Text} (hx0 : x0 ∈ fs) (hr0 : Relative bases x0 (l ++ join dirs base0)) (hb0 : '/' ∉ base0) :
    ∃ g, Shown (objects (build bases fs) name configs) g dirs ∧ ∀ x ∈ fs, ∀ base, Relative bases x (l ++ join dirs base) →
      '/' ∉ base → '\\' ∉ base → ∃ o ∈ objects (build bases fs) name configs, o.isa = .fileReference ∧ o.name = base ∧ o.path = x ∧
        o.id ∈ field g .children ∧ ∃ b ∈ objects (build bases fs) name configs, b.isa = .buildFile ∧ field b .fileRef = [o.id] ∧
          ∃ s ∈ objects (build bases fs) name configs, s.isa = .sourcesPhase ∧ b.id ∈ field s .files := by
  obtain ⟨hok, hplaced⟩ := build_ok bases fs
  generalize build bases fs = p at hok hplaced ⊢
  have dir : ∀ b b' : Text, '/' ∉ b → '/' ∉ b' → cut (l ++ join dirs b) = cut (l ++ join dirs b') := by
    intro b b' hb hb'
    rcases List.eq_nil_or_concat dirs with rfl | ⟨es, e, rfl⟩
    · rw [cut_join_nil hl hb, cut_join_nil hl hb']
    · rw [List.concat_eq_append] at hd ⊢
      have he := (hd e (by simp)).1
      rw [cut_join hl es he hb, cut_join hl es he hb']
  obtain ⟨k0, hk0⟩ := List.getElem?_of_mem hx0
  obtain ⟨f0, g0, h1, -, -, h4, -, h6⟩ := hplaced.2 k0 x0 hk0
  rw [relative_unique (relative_spec bases x0) hr0] at h6
  have hs := shown_group hok name configs hl dirs.reverse (fun d hd' => hd d (by simpa using hd')) base0 hb0 f0.folder g0 h4
    (by rw [List.reverse_reverse]; exact h6)
  rw [List.reverse_reverse] at hs
  refine ⟨_, hs, fun x hx base hr hb hb' => ?_⟩
  obtain ⟨k, hk⟩ := List.getElem?_of_mem hx
  obtain ⟨f, g, a1, a2, a3, a4, a5, a6⟩ := hplaced.2 k x hk
  rw [relative_unique (relative_spec bases x) hr] at a3 a6
  have same : f.folder = f0.folder := by
    have e : g.path = g0.path := by rw [a6, h6, dir base base0 hb hb0]
    have hlt : f.folder < (p.folders.map Folder.path).length := by
      rw [List.length_map]
      exact (List.getElem?_eq_some_iff.1 a4).1
    refine (List.getElem?_inj hlt hok.nodup).1 ?_
    rw [List.getElem?_map, List.getElem?_map, a4, h4, Option.map_some, Option.map_some, e]
  have hlt : k < p.files.length := (List.getElem?_eq_some_iff.1 a1).1
  have hn : nameOf (l ++ join dirs base) = base := by
    have hbs : ∀ t : Text, nameOf (t ++ '/' :: base) = base := fun t => by rw [nameOf, afterLast_slash t hb]; rfl
    rcases List.eq_nil_or_concat dirs with rfl | ⟨es, e, rfl⟩
    · rcases hl with rfl | rfl
      · show nameOf base = base
        rw [nameOf, afterLast_none hb, afterLast_none hb']; rfl
      · exact hbs []
    · rw [List.concat_eq_append, join_append, ← List.append_assoc]
      exact hbs _
  refine ⟨fileObj p k, file_mem hlt, rfl, ?_, ?_, ?_, buildFileObj p k, buildFile_mem hlt, rfl, rfl, phaseObj p,
    (mem_section (k := .sourcesPhase) (List.mem_singleton.2 rfl)).1, rfl, ?_⟩
  · simp [fileObj, a1, a3, hn]
  · simp [fileObj, a1, a2]
  · rw [← same]
    exact file_child a4 a5
  · have : field (phaseObj p) .files = (files p).map fun k => ident .buildFile (fileNo p k) := by
      simp only [field, phaseObj]
      rw [List.filter_eq_self.2, List.map_map]
      · rfl
      · intro r hr
        obtain ⟨c, -, rfl⟩ := List.mem_map.1 hr
        rfl
    rw [this]
    exact List.mem_map_of_mem (mem_files.2 hlt)

/-! ### What does not hold -/

/-- With more configurations, two of them have the same identifier. -/
theorem C116_ids_false : ¬ ∀ (bases fs : List Text) (name : Text) (configs : List Text), ((objects (build bases fs) name configs).map Obj.id).Nodup := by
  intro h
  have h := h [] [] [] (List.replicate 101 [])
  have hm : ∀ i, ∀ n < 101, ident .configuration (startId i + n) ∈ (configObjs i (List.replicate 101 ([] : Text))).map Obj.id := by
    intro i n hn
    refine List.mem_map.2 ⟨⟨.configuration, ident .configuration (startId i + n), [], [], []⟩, List.mem_map.2 ⟨([], n), ?_, rfl⟩, rfl⟩
    rw [List.mem_zipIdx_iff_getElem?]
    exact List.getElem?_replicate_of_lt hn
  have h0 := hm 0 100 (by decide)
  have h1 := hm 1 0 (by decide)
  rw [objects, List.map_append, List.nodup_append] at h
  have h := h.1
  rw [List.map_append, List.nodup_append] at h
  have h := h.2.1
  rw [List.map_append, List.nodup_append] at h
  have h := h.1
  rw [List.map_append, List.nodup_append] at h
  exact h.2.2 _ h0 _ h1 rfl

end Verif.Xcode
