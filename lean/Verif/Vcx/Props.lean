import Verif.Vcx.Filters
/-
C103: a generated project of Visual Studio.
-/
namespace Verif.Vcx

/-- C103, files: if nothing needs escaping where it is not escaped, the file can be read, and lists each of the files once, whatever the case of its name, each as it
  is seen from the project, with the type of the first pattern that matches it. -/
theorem C103_files_partial {win : Bool} {rel : Text → Text} {p : Project} {text : Text} (h : Plains win rel p) (ht : projectText win rel p = some text) :
    ∃ (root : Node) (names : List Text), read text = some root ∧
      filesIn root = names.map (fun n => (some n, ((p.fileTypes.find? fun t => Str.matchI t.1 n = some true).map fun t => shown t.2).toList)) ∧
      (∀ n ∈ names, ∃ f ∈ p.files, n = relative win rel (backslash f)) ∧
      (∀ f ∈ p.files, ∃ n ∈ names, Same n (relative win rel (backslash f))) ∧
      names.Pairwise (fun a b => ¬ Same a b) := by
  obtain ⟨ns, hn, hr⟩ := read_project h ht
  obtain ⟨h1, h2, h3⟩ := uniqueFiles_spec win rel p.files
  refine ⟨_, (uniqueFiles win rel p.files).map (·.2), hr, ?_, ?_, ?_, ?_⟩
  · rw [filesIn_project hn, List.map_map]
    apply List.map_congr_left
    intro f _
    simp only [Function.comp, fileType, Option.map_map]
    rfl
  · intro n hm
    obtain ⟨x, hx, rfl⟩ := List.mem_map.1 hm
    obtain ⟨f, hf, rfl⟩ := h1 x hx
    exact ⟨f, hf, rfl⟩
  · intro f hf
    obtain ⟨x, hx, e⟩ := h2 f hf
    exact ⟨_, List.mem_map.2 ⟨x, hx, rfl⟩, e⟩
  · rw [List.pairwise_map]
    exact h3.imp fun h => fileLt_not_same h

/-- C103, configurations: they are listed in their order. -/
theorem C103_configs_partial {win : Bool} {rel : Text → Text} {p : Project} {text : Text} (h : Plains win rel p) (ht : projectText win rel p = some text) :
    ∃ root, read text = some root ∧ configsIn root = p.configs.map fun c => some (c.config ++ '|' :: c.platform) := by
  obtain ⟨ns, hn, hr⟩ := read_project h ht
  exact ⟨_, hr, configsIn_project hn _⟩

theorem condition_inj {a b : Config} (h : condition a = condition b) : a.config ++ '|' :: a.platform = b.config ++ '|' :: b.platform := by
  unfold condition at h
  generalize "'$(Configuration)|$(Platform)'=='".toList = pre at h
  have h := List.append_cancel_right h
  rw [List.append_assoc, List.append_assoc] at h
  exact List.append_cancel_left h

theorem conditions_nodup : ∀ {l : List Config}, (l.map fun c => c.config ++ '|' :: c.platform).Nodup → (l.map condition).Nodup
  | [], _ => List.nodup_nil
  | a :: l, h => by
    rw [List.map_cons, List.nodup_cons] at h ⊢
    refine ⟨?_, conditions_nodup h.2⟩
    intro hm
    obtain ⟨b, hb, e⟩ := List.mem_map.1 hm
    exact h.1 (List.mem_map.2 ⟨b, hb, condition_inj e⟩)

theorem told_eq (rel : Text → Text) (c : Config) (d : Derived) :
    configGlobals c ++ configPairs rel c ++ propertyPairs c d.defines d.includes d.forced d.additional = c.told (command rel c) d := by
  unfold Config.told propertyPairs commandItems
  by_cases h : c.f "Keyword" = "Linux".toList
  · rw [if_pos h, decide_eq_true h, if_pos rfl]
    rfl
  · rw [if_neg h, decide_eq_false h, if_neg (by decide)]
    rfl

theorem comes {c : Config} {m : String} {make : Text → Option (List Text)} {post : Char} {v : Text} (h : derived c m (fun o => (make o).map (concat · post)) = some v)
    (hg : c.f "PreprocessorDefinitions" = [] ∨ c.f "IncludeSearchPath" = [] ∨ c.f m ≠ []) : Comes (c.f m) c.options make post v := by
  unfold derived at h
  unfold Comes
  split at h
  · rename_i hm
    rw [if_pos hm]
    exact (Option.some.inj h).symm
  · rename_i hm
    rw [if_neg hm]
    have ho : oln c = c.options := by
      unfold oln
      rw [if_pos]
      rcases hg with hg | hg | hg
      · exact .inl hg
      · exact .inr hg
      · exact absurd hg hm
    rw [ho] at h
    cases e : c.options with
    | none =>
      rw [e] at h
      exact (Option.some.inj h).symm
    | some o =>
      rw [e] at h
      obtain ⟨l, hl, rfl⟩ := Option.map_eq_some_iff.1 h
      exact ⟨l, hl, rfl⟩

/-- C103, properties: if no two configurations have the same name and platform, those that a file gives for one are the values given for it, whatever characters are
  in them, in this order and without the empty ones. Definitions, include paths, forced includes and additional options that are not given are made of the options
  of the target; forced includes and additional options only if definitions or include paths are not given. The program to debug is that of the target if none is
  given. -/
theorem C103_properties_partial {win : Bool} {rel : Text → Text} {p : Project} {text : Text} (h : Plains win rel p) (ht : projectText win rel p = some text)
    (hd : (p.configs.map fun c => c.config ++ '|' :: c.platform).Nodup) {c : Config} (hc : c ∈ p.configs) :
    ∃ root d debug, read text = some root ∧
      propertiesIn root c.config c.platform = ((c.told debug d).filter fun x => x.2 ≠ []).map (fun x => (x.1.toList, shown x.2)) ∧
      debug = (if c.f "LocalDebuggerCommand" ≠ [] then c.f "LocalDebuggerCommand" else (c.debugTarget.map rel).getD []) ∧
      Comes (c.f "PreprocessorDefinitions") c.options (Ide.defines false) ';' d.defines ∧
      Comes (c.f "IncludeSearchPath") c.options (fun o => (Ide.includes false o).map fun l => l.map (relative win rel)) ';' d.includes ∧
      (c.f "PreprocessorDefinitions" = [] ∨ c.f "IncludeSearchPath" = [] ∨ c.f "ForcedIncludes" ≠ [] →
        Comes (c.f "ForcedIncludes") c.options (fun o => (Ide.forced false o).map fun l => l.map (relative win rel)) ';' d.forced) ∧
      (c.f "PreprocessorDefinitions" = [] ∨ c.f "IncludeSearchPath" = [] ∨ c.f "AdditionalOptions" ≠ [] →
        Comes (c.f "AdditionalOptions") c.options Ide.additional ' ' d.additional) := by
  obtain ⟨ns, hn, hr⟩ := read_project h ht
  obtain ⟨n, hp⟩ : ∃ n, propertyNode win rel c = some n := by
    have : propertyNode win rel c ∈ ns.map some := hn ▸ List.mem_map.2 ⟨c, hc, rfl⟩
    obtain ⟨n, _, e⟩ := List.mem_map.1 this
    exact ⟨n, e.symm⟩
  obtain ⟨defs, incs, forced, add, h1, h2, h3, h4, rfl⟩ := propertyNode_eq hp
  refine ⟨_, ⟨defs, incs, forced, add⟩, command rel c, hr, ?_, ?_, comes h1 ?_, comes (by rw [← h2]; simp only [Option.map_map]; rfl) ?_,
    fun hg => comes (by rw [← h3]; simp only [Option.map_map]; rfl) hg, fun hg => comes h4 hg⟩
  · rw [propertiesIn_project hn _ hc (conditions_nodup hd) hp]
    have := told_eq rel c ⟨defs, incs, forced, add⟩
    simp only at this
    rw [this]
    rfl
  · unfold command
    by_cases e : c.f "LocalDebuggerCommand" = []
    · rw [if_pos e, if_neg (fun hx => hx e)]
      cases c.debugTarget <;> rfl
    · rw [if_neg e, if_pos e]
  · by_cases e : c.f "PreprocessorDefinitions" = []
    · exact .inl e
    · exact .inr (.inr e)
  · by_cases e : c.f "IncludeSearchPath" = []
    · exact .inr (.inl e)
    · exact .inr (.inr e)

theorem hexDigit_inj : ∀ a, a < 16 → ∀ b, b < 16 → Sln.hexDigit a = Sln.hexDigit b → a = b := by decide +kernel

theorem hex8_inj {x y : BitVec 32} (h : Sln.hex8 x = Sln.hex8 y) : x = y := by
  have d (i : Nat) (hi : i < 8) : x.toNat / 16 ^ i % 16 = y.toNat / 16 ^ i % 16 := by
    have : ∀ (l : List Nat), (l.map fun i => Sln.hexDigit (x.toNat / 16 ^ i % 16)) = (l.map fun i => Sln.hexDigit (y.toNat / 16 ^ i % 16)) → ∀ i ∈ l,
        x.toNat / 16 ^ i % 16 = y.toNat / 16 ^ i % 16 := by
      intro l
      induction l with
      | nil => intro _ i hi; cases hi
      | cons a l ih =>
        intro h i hi
        simp only [List.map_cons, List.cons.injEq] at h
        rcases List.mem_cons.1 hi with rfl | hi
        · exact hexDigit_inj _ (Nat.mod_lt _ (by decide)) _ (Nat.mod_lt _ (by decide)) h.1
        · exact ih h.2 i hi
    exact this _ h i (by simpa using hi)
  have h0 := d 0 (by decide)
  have h1 := d 1 (by decide)
  have h2 := d 2 (by decide)
  have h3 := d 3 (by decide)
  have h4 := d 4 (by decide)
  have h5 := d 5 (by decide)
  have h6 := d 6 (by decide)
  have h7 := d 7 (by decide)
  have hx := x.isLt
  have hy := y.isLt
  apply BitVec.eq_of_toNat_eq
  simp only [Nat.reducePow] at *
  omega

theorem idents_nodup {hash : Text → BitVec 32} {S : Text → Prop} (hh : ∀ a b, S a → S b → hash a = hash b → a = b) : ∀ {ds : List Text}, ds.Nodup → (∀ d ∈ ds, S d) →
    (ds.map ((·.2) ∘ fun d => (some d, [ident hash d]))).Nodup
  | [], _, _ => List.nodup_nil
  | a :: ds, hn, hs => by
    rw [List.nodup_cons] at hn
    rw [List.map_cons, List.nodup_cons]
    refine ⟨?_, idents_nodup hh hn.2 fun d hd => hs d (.tail _ hd)⟩
    intro hm
    obtain ⟨b, hb, e⟩ := List.mem_map.1 hm
    simp only [Function.comp, List.cons.injEq, and_true] at e
    unfold ident at e
    have e := List.append_cancel_right (List.cons.inj e).2
    have := hh b a (hs b (.tail _ hb)) (hs a (.head _)) (hex8_inj e)
    exact hn.1 (this ▸ hb)

/-- the paths that the filters of a project are relative to -/
def bases (win : Bool) (p : Project) : List Text := if win then p.basePaths else p.basePaths.map backslash

theorem within_chain {bases files : List Text} {f d q : Text} (hf : f ∈ files) (h : InFolder bases (backslash f) d) (hq : q ∈ chain d) : Within files q := by
  obtain ⟨b, _, pre, name, e, _, _⟩ := h
  rcases mem_chain.1 hq with rfl | ⟨r, rfl⟩
  · exact ⟨f, hf, pre, name, e⟩
  · exact ⟨f, hf, pre, r ++ '\\' :: name, by rw [e]; simp⟩

theorem safe_folder {bases : List Text} {f d : Text} (hs : Safe f) (h : InFolder bases f d) : Safe d := by
  obtain ⟨b, _, pre, name, e, _, _⟩ := h
  rw [e] at hs
  exact (safe_append.1 (safe_append.1 hs).1).2

/-- C103, filters: if the file of filters can be written, it can be read, and has the files of the project in the same order, each in the folder that it has in one of
  the base paths, or in none if it is in none of them. The folders that are used, and all folders that these are in, are listed once, with identifiers that differ, if
  the numbers made of their names differ. -/
theorem C103_filters_partial {win : Bool} {rel : Text → Text} {hash : Text → BitVec 32} {p : Project} {text filters : Text} (h : Plains win rel p)
    (hs : ∀ f ∈ p.files, Safe (backslash f) ∧ '\\' ∈ backslash f) (hh : ∀ a b, Within p.files a → Within p.files b → hash a = hash b → a = b)
    (ht : projectText win rel p = some text) (hf : filtersText win rel hash p = some filters) :
    ∃ project root, read text = some project ∧ read filters = some root ∧
    ∃ (files : List (Text × Text)) (ds : List Text),
      placesIn root = files.map (fun x => (some x.1, if x.2 = [] then [] else [shown x.2])) ∧
      files.map (fun x => some x.1) = (filesIn project).map (·.1) ∧
      (∀ x ∈ files, ∃ f ∈ p.files, x.1 = relative win rel (backslash f) ∧ (x.2 ≠ [] → InFolder (bases win p) (backslash f) x.2) ∧
        (x.2 = [] → ¬ ∃ d, d ≠ [] ∧ InFolder (bases win p) (backslash f) d)) ∧
      ds.Nodup ∧ (∀ d, d ∈ ds ↔ ∃ x ∈ files, x.2 ≠ [] ∧ (d = x.2 ∨ ∃ r, x.2 = d ++ '\\' :: r)) ∧
      (filtersIn root).map (·.1) = ds.map some ∧ ((filtersIn root).map (·.2)).Nodup := by
  obtain ⟨ns, hn, hr⟩ := read_project h ht
  obtain ⟨u1, u2, u3⟩ := uniqueFiles_spec win rel p.files
  have spec : ∀ x ∈ uniqueFiles win rel p.files, ∃ f ∈ p.files, x = (backslash f, relative win rel (backslash f)) ∧
      (folder win p x ≠ [] → InFolder (bases win p) (backslash f) (folder win p x)) ∧ (folder win p x = [] → ¬ ∃ d, d ≠ [] ∧ InFolder (bases win p) (backslash f) d) := by
    intro x hx
    obtain ⟨f, hf, rfl⟩ := u1 x hx
    obtain ⟨s1, s2⟩ := folderOf_spec (hs f hf).2 (bases := bases win p)
    refine ⟨f, hf, rfl, s1, ?_⟩
    rintro h0 ⟨d, hd, b, hb, pre, name, e⟩
    exact s2 h0 ⟨b, hb, pre, d, name, hd, e⟩
  have hw : ∀ d, (∃ x ∈ uniqueFiles win rel p.files, folder win p x ≠ [] ∧ d ∈ chain (folder win p x)) → Within p.files d := by
    rintro d ⟨x, hx, hne, hm⟩
    obtain ⟨f, hf, _, s1, _⟩ := spec x hx
    exact within_chain hf (s1 hne) hm
  obtain ⟨ds, hd1, hd2, hrf⟩ := read_filters (fun x hx => by
    refine ⟨files_safe h.file u1 x hx, ?_⟩
    obtain ⟨f, hf, _, s1, _⟩ := spec x hx
    by_cases e : folder win p x = []
    · rw [e]
      intro c hc
      cases hc
    · exact safe_folder (hs f hf).1 (s1 e)) (fun a b ha hb => hh a b (hw a ha) (hw b hb)) hf
  refine ⟨_, _, hr, hrf, (uniqueFiles win rel p.files).map (fun f => (f.2, folder win p f)), ds, ?_, ?_, ?_, hd1, ?_, ?_, ?_⟩
  · rw [placesIn_filters, List.map_map]
    rfl
  · rw [filesIn_project hn, List.map_map, List.map_map]
    rfl
  · intro x hx
    obtain ⟨y, hy, rfl⟩ := List.mem_map.1 hx
    obtain ⟨f, hf, rfl, s1, s2⟩ := spec y hy
    exact ⟨f, hf, rfl, s1, s2⟩
  · intro d
    rw [hd2]
    constructor
    · rintro ⟨x, hx, hne, hm⟩
      exact ⟨_, List.mem_map.2 ⟨x, hx, rfl⟩, hne, mem_chain.1 hm⟩
    · rintro ⟨y, hy, hne, hm⟩
      obtain ⟨x, hx, rfl⟩ := List.mem_map.1 hy
      exact ⟨x, hx, hne, mem_chain.2 hm⟩
  · rw [filtersIn_filters, List.map_map]
    rfl
  · rw [filtersIn_filters, List.map_map]
    exact idents_nodup hh hd1 fun d hd => hw d ((hd2 d).1 hd)

/-- C103: the file of filters can be written if no folder starts with a backslash. -/
theorem C103_filters_written {win : Bool} {rel : Text → Text} (hash : Text → BitVec 32) {p : Project} (hs : ∀ f ∈ p.files, '\\' ∈ backslash f)
    (h : ∀ f ∈ p.files, ∀ d, InFolder (bases win p) (backslash f) d → d.head? ≠ some '\\') : ∃ text, filtersText win rel hash p = some text := by
  have : ∀ d ∈ (uniqueFiles win rel p.files).map (folder win p), d.head? ≠ some '\\' := by
    intro d hd
    obtain ⟨x, hx, rfl⟩ := List.mem_map.1 hd
    obtain ⟨f, hf, rfl⟩ := (uniqueFiles_spec win rel p.files).1 x hx
    by_cases e : folder win p (backslash f, relative win rel (backslash f)) = []
    · rw [e]
      exact fun h => nomatch h
    · exact h f hf _ ((folderOf_spec (hs f hf)).1 e)
  obtain ⟨r, e⟩ := foldersOf_some hash (last := []) (acc := []) this
  exact ⟨_, by rw [filtersText, e]; rfl⟩

end Verif.Vcx
