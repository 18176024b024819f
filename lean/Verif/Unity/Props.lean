import Verif.Unity.Lemmas
/-! Properties C47 (every file compiled exactly once), C48 (stable order), C49 (changes are noticed). -/
namespace Verif.Unity

theorem collect_inputs (c : Config) : ∀ (deps : List Dep) (fs : List File), collect c deps = some fs →
    fs.map (·.name) = inputs c deps
  | [], fs, h => by simp only [collect, Option.some.injEq] at h; subst h; rfl
  | d :: ds, fs, h => by
    simp only [collect] at h
    split at h
    · next a b h1 h2 =>
      simp only [Option.some.injEq] at h
      subst h
      have ih := collect_inputs c ds b h2
      cases d with
      | dirList path files =>
        simp only [depFiles, Option.some.injEq] at h1
        subst h1
        simp only [List.map_append, ih, inputs, List.map_map]
        congr 1
        rw [List.filter_map]
        change List.map _ _ = List.map _ _
        congr 1
        apply List.filter_congr
        intro x _
        by_cases hp : pchCpp c.pch = [] <;> simp [hp]
      | objectList files =>
        simp only [depFiles, Option.some.injEq] at h1
        subst h1
        simp [inputs, ih, Function.comp_def]
      | file n info =>
        simp only [depFiles] at h1
        simp only [inputs]
        by_cases e : n = c.isolateListFile
        · rw [if_pos e] at h1
          cases h1
          rw [if_pos e]; simpa using ih
        · rw [if_neg e] at h1
          rw [if_neg e]
          cases info with
          | none => cases h1
          | some ro => cases h1; simp [ih]
    · cases h

theorem getFiles_perm (c : Config) (deps : List Dep) (files : List File) (h : getFiles c deps = some files) :
    (files.map (·.name)).Perm (inputs c deps) := by
  unfold getFiles at h
  split at h
  · cases h
  · next fs hfs =>
    obtain ⟨b, hb, hp⟩ := Sort.C35_shellSort_perm (fileLt c.rank c.sl) fs
    rw [hb] at h
    cases h
    rw [← collect_inputs c deps fs hfs]
    exact hp.map _

theorem filterForce_perm (c : Config) (files : List File) :
    ((filterForce c files).1 ++ (filterForce c files).2).Perm files := by
  unfold filterForce
  split
  · simp
  · split
    · simp
    · exact filter_perm_not _ _

/-- one unity: what it includes if it is kept, and its isolated files -/
theorem group_perm (c : Config) (fromList : List Name) (noUnity : Bool) (g : List File) :
    ((if kept c fromList noUnity g then g.filter (fun f => ! isolated c fromList g f) else []) ++
      isoEntries c fromList noUnity g).Perm g := by
  unfold isoEntries kept
  cases noUnity with
  | true =>
    simp only [Bool.or_true, Bool.true_eq_false, and_false, decide_false, Bool.false_eq_true, if_false, List.nil_append]
    rw [List.filter_eq_self.mpr (fun _ _ => rfl)]
  | false =>
    by_cases hk : g.length ≠ g.countP (isolated c fromList g)
    · rw [if_pos (by simp only [decide_eq_true_eq]; exact ⟨hk, trivial⟩)]
      simp only [Bool.or_false]
      exact filter_perm_not _ _
    · rw [if_neg (by simp only [decide_eq_true_eq]; exact fun h => hk h.1)]
      have hk' : g.countP (isolated c fromList g) = g.length := (Classical.not_not.mp hk).symm
      simp only [Bool.or_false, List.nil_append]
      rw [List.filter_eq_self.mpr]
      intro a ha
      exact List.countP_eq_length.mp hk' a ha

theorem filter_flatMap (c : Config) (fromList : List Name) (noUnity : Bool) : ∀ gs : List (List File),
    (gs.filter (kept c fromList noUnity)).flatMap
      (fun g : List File => (g.filter fun f => ! isolated c fromList g f).map fun f => c.shown f.name) =
    (gs.flatMap fun g => if kept c fromList noUnity g then g.filter (fun f => ! isolated c fromList g f) else []).map
      fun f => c.shown f.name
  | [] => rfl
  | g :: gs => by
    have ih := filter_flatMap c fromList noUnity gs
    simp only [List.filter_cons, List.flatMap_cons, List.map_append]
    cases kept c fromList noUnity g
    · simpa using ih
    · simp only [if_true, List.flatMap_cons]; rw [ih]

/-- C47. When a unity builds, then compiling the unity files it lists together with the files it isolates
compiles every one of its input files exactly once: whatever the arithmetic that spreads the files over the unity
files does, whatever is isolated, with or without `-nounity`, and whatever was on disk before. The contents are
those on disk afterwards, as a compiler would read them. The output name must contain a `*`. -/
theorem C47_each_file_once (fl : Flt) (c : Config) (deps : List Dep) (fromList : List Name) (noUnity clean : Bool)
    (canWrite : Name → Bool) (disk : Disk) (r : Result)
    (h : doBuild fl c deps fromList noUnity clean canWrite disk = some r) (hnum : 0 < c.num)
    (hstar : '*' ∈ c.outputPath ++ c.outputPattern) (hpch : '\n' ∉ c.shown c.pch)
    (hplain : ∀ n ∈ inputs c deps, '\n' ∉ c.shown n) :
    (compiled c r).Perm ((inputs c deps).map c.shown) := by
  unfold doBuild at h
  split at h
  · cases h
  · next files hfiles =>
    dsimp only at h
    have hfp := getFiles_perm c deps files hfiles
    have hff := filterForce_perm c files
    revert h hff
    generalize (filterForce c files).1 = keep
    generalize (filterForce c files).2 = force
    intro h hff
    have m := makeFiles_made _ _ _ _ _ _ h
    have hfl := groups_flatten fl (fl.per keep.length c.num) c.num fl.zero keep hnum
    have hlen := groups_length fl (fl.per keep.length c.num) c.num fl.zero keep
    revert m hfl hlen
    generalize groups fl (fl.per keep.length c.num) c.num fl.zero keep = gs
    intro m hfl hlen
    have hpl : ∀ g ∈ gs, ∀ f ∈ g, Plain c f.name := by
      intro g hg f hf
      apply hplain
      refine hfp.mem_iff.mp ?_
      refine List.mem_map.mpr ⟨f, ?_, rfl⟩
      refine hff.mem_iff.mp (List.mem_append_left _ ?_)
      rw [← hfl]
      exact List.mem_flatten.mpr ⟨g, hg, hf⟩
    have hd : ∀ j (hj : j < gs.length), compiledBy c r.disk (unityName c (0 + j)) =
        (fun g : List File => (g.filter fun f => ! isolated c fromList g f).map fun f => c.shown f.name) gs[j] := by
      intro j hj
      have := m.disk (fun a b _ _ e => unityName_inj hstar e) j hj
      unfold compiledBy
      rw [this]
      dsimp only
      rw [includes_text c fromList _ hpch (hpl _ (List.getElem_mem hj))]
      by_cases hp : c.pch = [] <;> simp [hp]
    unfold compiled
    rw [m.names, m.isolated]
    dsimp only
    rw [List.nil_append]
    have hnm := names_flatMap c (compiledBy c r.disk)
      (fun g : List File => (g.filter fun f => ! isolated c fromList g f).map fun f => c.shown f.name)
      (kept c fromList noUnity) gs 0 hd
    rw [hnm]
    -- rearrange
    have e1 : (gs.filter (kept c fromList noUnity)).flatMap
        (fun g : List File => (g.filter fun f => ! isolated c fromList g f).map fun f => c.shown f.name) =
        (gs.flatMap fun g => if kept c fromList noUnity g then g.filter (fun f => ! isolated c fromList g f) else []).map
          fun f => c.shown f.name := by
      exact filter_flatMap c fromList noUnity gs
    rw [e1]
    have e2 : ((force.map File.entry) ++ (gs.flatMap fun g => (isoEntries c fromList noUnity g).map File.entry)).map
        (fun e => c.shown e.1) = (force ++ gs.flatMap (isoEntries c fromList noUnity)).map fun f => c.shown f.name := by
      simp only [List.map_append, List.map_map, List.map_flatMap]
      rfl
    rw [e2, ← List.map_append]
    have hp1 := flatMap_append_perm
      (fun g => if kept c fromList noUnity g then g.filter (fun f => ! isolated c fromList g f) else [])
      (isoEntries c fromList noUnity) gs
    have hp2 : (gs.flatMap fun g => (if kept c fromList noUnity g then g.filter (fun f => ! isolated c fromList g f) else []) ++
        isoEntries c fromList noUnity g).Perm (gs.flatMap id) :=
      flatMap_perm_congr fun g _ => group_perm c fromList noUnity g
    have hp3 : gs.flatMap id = keep := by rw [List.flatMap_id, hfl]
    have hp4 : ((gs.flatMap fun g => if kept c fromList noUnity g then g.filter (fun f => ! isolated c fromList g f) else []) ++
        (force ++ gs.flatMap (isoEntries c fromList noUnity))).Perm files := by
      refine List.Perm.trans ?_ hff
      rw [← hp3]
      refine List.Perm.trans ?_ (List.Perm.append_right force (hp1.trans hp2))
      rw [List.append_assoc]
      exact List.Perm.append_left _ List.perm_append_comm
    have := hp4.map fun f : File => c.shown f.name
    refine this.trans ?_
    have := hfp.map c.shown
    rw [List.map_map] at this
    exact this

/-- C47. With `-nounity` no unity file is compiled: every input is compiled on its own. -/
theorem C47_nounity (fl : Flt) (c : Config) (deps : List Dep) (fromList : List Name) (clean : Bool)
    (canWrite : Name → Bool) (disk : Disk) (r : Result)
    (h : doBuild fl c deps fromList true clean canWrite disk = some r) (hnum : 0 < c.num) :
    r.names = [] ∧ (r.isolated.map (·.1)).Perm (inputs c deps) := by
  unfold doBuild at h
  split at h
  · cases h
  · next files hfiles =>
    dsimp only at h
    have hfp := getFiles_perm c deps files hfiles
    have hff := filterForce_perm c files
    revert h hff
    generalize (filterForce c files).1 = keep
    generalize (filterForce c files).2 = force
    intro h hff
    have m := makeFiles_made _ _ _ _ _ _ h
    have hfl := groups_flatten fl (fl.per keep.length c.num) c.num fl.zero keep hnum
    revert m hfl
    generalize groups fl (fl.per keep.length c.num) c.num fl.zero keep = gs
    intro m hfl
    constructor
    · rw [m.names]; simp [kept]
    · rw [m.isolated]
      have e : (isoEntries c fromList true) = id := by funext g; simp [isoEntries]
      rw [e]
      have : (gs.flatMap fun g => (id g).map File.entry) = keep.map File.entry := by
        rw [← hfl, List.map_flatten, List.flatMap_def]; rfl
      rw [this, ← List.map_append, List.map_map]
      refine List.Perm.trans ?_ hfp
      have := (List.perm_append_comm.trans hff).map fun f : File => f.name
      exact this

/-- C47. Which files `.UnityInputIsolatedFiles` and the precompiled header name: the whole path or what follows a
slash (shown for the case sensitive comparison). -/
theorem C47_endsWithFile (sl : Char) (path file : Name) :
    endsWithFile true sl path file = true ↔ path = file ∨ ∃ dir, path = dir ++ sl :: file := by
  have hs : ∀ a b : Name, sameChars true a b = true ↔ a = b := by
    intro a
    induction a with
    | nil => intro b; cases b <;> simp [sameChars]
    | cons x a ih => intro b; cases b with
      | nil => simp [sameChars]
      | cons y b => simp [sameChars, sameChar, ih]
  unfold endsWithFile
  by_cases hl : path.length < file.length
  · rw [if_pos hl]
    constructor
    · intro h; cases h
    · rintro (h | ⟨d, h⟩)
      · rw [h] at hl; omega
      · rw [h] at hl; simp at hl; omega
  · rw [if_neg hl]
    by_cases hd : path.drop (path.length - file.length) = file
    · rw [if_neg (by rw [hd, (hs file file).mpr rfl]; simp)]
      by_cases he : path.length = file.length
      · rw [if_pos he]
        have : path = file := by rw [he] at hd; simpa using hd
        simp [this]
      · rw [if_neg he]
        have hlt : path.length - file.length - 1 < path.length := by omega
        rw [List.getElem?_eq_getElem hlt]
        simp only [beq_iff_eq, Option.some.injEq]
        constructor
        · intro h
          right
          refine ⟨path.take (path.length - file.length - 1), ?_⟩
          have h2 := List.drop_eq_getElem_cons hlt
          rw [show path.length - file.length - 1 + 1 = path.length - file.length by omega, hd, h] at h2
          rw [← h2, List.take_append_drop]
        · rintro (h | ⟨d, h⟩)
          · exact absurd (by rw [h]) he
          · subst h
            have : (d ++ sl :: file).length - file.length - 1 = d.length := by simp; omega
            simp only [this]
            simp
    · rw [if_pos (by
        cases hq : sameChars true (path.drop (path.length - file.length)) file
        · rfl
        · exact absurd ((hs _ _).mp hq) hd)]
      constructor
      · intro h; cases h
      · rintro (h | ⟨d, h⟩)
        · exact absurd (by rw [h]; simp) hd
        · refine absurd ?_ hd
          rw [h]
          have : (d ++ sl :: file).length - file.length = (d ++ [sl]).length := by simp; omega
          rw [this, show d ++ sl :: file = (d ++ [sl]) ++ file by simp, List.drop_left]

end Verif.Unity
