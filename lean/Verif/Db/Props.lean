import Verif.Db.Lemmas
/-! C19, C20, C21, C44: the dependency database. -/
namespace Verif.Db
open Verif.IO

/-! ## C19 dependency lists -/

/-- C19. Saving a list of dependencies on nodes of the graph (`all`) and loading it back gives the same nodes,
stamps and weak flags in the same order, wherever the list is in the file. -/
theorem C19_roundtrip_partial (all : List Nat) (tag : Nat → BitVec 32) (hn : all.Nodup) (hl : all.length < 2 ^ 32) (ds : List (Dep Nat))
    (hd : ∀ d ∈ ds, d.node ∈ all) (hlen : ds.length < 2 ^ 32) (before after : List Byte) :
    ∃ r, loadDeps all.length ds.length ⟨before ++ saveDeps (setTags all 0 tag) ds ++ after, before.length⟩ =
        .ok (r, ⟨before ++ saveDeps (setTags all 0 tag) ds ++ after, (before ++ saveDeps (setTags all 0 tag) ds).length⟩) ∧
      r.map (fun d => (all[d.node]?, d.stamp, d.weak)) = ds.map (fun d => (some d.node, d.stamp, d.weak)) := by
  have hi := indexed_setTags all tag hn hl
  refine ⟨ds.map (Dep.relabel (fun p => all.idxOf p)), ?_, ?_⟩
  · have := (codec_deps hi ds hd hlen).full before after
    rw [rdDeps, BitVec.toNat_ofNat, Nat.mod_eq_of_lt hlen] at this
    split at this
    · rename_i x hx
      rw [hx]
      exact congrArg _ (Option.some.inj this)
    · cases this
  · rw [List.map_map]
    apply List.map_congr_left
    intro d hx
    have hm := hd d hx
    have hlt := List.idxOf_lt_length_of_mem hm
    show (all[all.idxOf d.node]?, d.stamp, d.weak) = _
    rw [List.getElem?_eq_getElem hlt, List.getElem_idxOf hlt]

example : ∃ (all : List Nat) (ds : List (Dep Nat)), all.Nodup ∧ ds.length = 3 ∧ (∀ d ∈ ds, d.node ∈ all) ∧
    saveDeps (setTags all 0 (fun _ => 0)) ds =
      [2, 0, 0, 0, 5, 0, 0, 0, 0, 0, 0, 0, 1, 0, 0, 0, 0, 0, 1, 0, 0, 0, 0, 0, 0, 0, 1, 0, 0, 0, 9, 0, 0, 0, 0, 0, 0, 0, 0] :=
  ⟨[100, 7, 55], [⟨55, 5, true⟩, ⟨100, 256, false⟩, ⟨7, 9, false⟩], by decide, rfl, by decide, by decide⟩

/-- Finding: a list cut off at the end of the file is not rejected: `Load` reads outside the buffer. (The content
hash of the file is what protects against this, C21.) -/
theorem C19_truncated_out_of_bounds (all : List Nat) (tag : Nat → BitVec 32) (hn : all.Nodup) (hl : all.length < 2 ^ 32)
    (ds : List (Dep Nat)) (hd : ∀ d ∈ ds, d.node ∈ all) (before w : List Byte) (h1 : w <+: saveDeps (setTags all 0 tag) ds)
    (h2 : w ≠ saveDeps (setTags all 0 tag) ds) : loadDeps all.length ds.length ⟨before ++ w, before.length⟩ = .error .bounds := by
  have hi := indexed_setTags all tag hn hl
  have h0 : ds.length ≠ 0 := by
    intro c
    obtain rfl := List.length_eq_zero_iff.1 c
    exact h2 (List.prefix_nil.1 h1)
  rw [loadDeps, if_neg h0]
  dsimp only
  rw [List.drop_left, loop_cut hi ds hd w h1 h2]

/-! ## C20 the database -/

/-- settings that can be saved: sizes fit; `LIB` is only recorded with an environment block -/
structure Settings.Ok (s : Settings) : Prop where
  files : s.files.length < 2 ^ 32
  fileNames : ∀ f ∈ s.files, f.name.length < 2 ^ 32
  env : s.env.length < 2 ^ 32
  lib : s.lib.length < 2 ^ 32
  noEnv : s.env = [] → s.lib = []
  imported : s.imported.length < 2 ^ 32
  importedNames : ∀ v ∈ s.imported, v.1.length < 2 ^ 32
  existNames : s.existNames.length < 2 ^ 32
  existName : ∀ n ∈ s.existNames, n.length < 2 ^ 32
  existFlags : s.existFlags.length < 2 ^ 32

theorem codec_usedFile (f : UsedFile) (h : f.name.length < 2 ^ 32) : Codec (wrUsedFile f) rdUsedFile f := by
  refine (codec_str f.name h).bind ?_
  refine (codec_u64 f.time).bind ?_
  exact (codec_u64 f.hash).map (fun h => UsedFile.mk f.name f.time h)

theorem codec_imported (v : List Byte × BitVec 32) (h : v.1.length < 2 ^ 32) : Codec (wrImported v) rdImported v := by
  refine (codec_str v.1 h).bind ?_
  exact (codec_u32 v.2).map (fun h => (v.1, h))

theorem codec_env (env lib : List Byte) (h1 : env.length < 2 ^ 32) (h2 : lib.length < 2 ^ 32) (h3 : env = [] → lib = []) :
    Codec (wrU32 (BitVec.ofNat 32 env.length) ++ (if env = [] then [] else env ++ wrStr lib)) rdEnv (env, lib) := by
  refine (codec_u32 _).bind ?_
  rw [BitVec.toNat_ofNat, Nat.mod_eq_of_lt h1]
  by_cases he : env = []
  · subst he
    rw [h3 rfl, if_pos rfl]
    exact Codec.pure _
  · rw [if_neg he, if_neg (by rw [List.length_eq_zero_iff]; exact he)]
    refine (codec_bytes env).bind ?_
    exact (codec_str lib h2).map (fun l => (env, l))

theorem codec_rest (s : Settings) (h : s.Ok) (files : List UsedFile) : Codec (wrRest s) (rdRest files) { s with files := files } := by
  refine (codec_env s.env s.lib h.env h.lib h.noEnv).bind' (w2 := wrArr wrImported s.imported ++
    (wrU32 s.libHash ++ (wrArr wrStr s.existNames ++ wrArr wrBool s.existFlags))) ?_ (by rw [wrRest, List.append_assoc])
  refine (codec_arr s.imported (fun v hv => codec_imported v (h.importedNames v hv)) h.imported).bind ?_
  refine (codec_u32 s.libHash).bind ?_
  refine (codec_arr s.existNames (fun v hv => codec_str v (h.existName v hv)) h.existNames).bind ?_
  exact (codec_arr s.existFlags (fun b _ => codec_bool b) h.existFlags).map
    (fun fl => Settings.mk files s.env s.lib s.imported s.libHash s.existNames fl)

theorem codec_header (hash : BitVec 64) : Codec (header hash) rdHeader ⟨[0x4E#8, 0x47#8, 0x44#8], version, 0, hash⟩ := by
  refine (codec_bytes [0x4E#8, 0x47#8, 0x44#8]).bind' (w2 := wrU8 version ++ (wrU32 0 ++ wrU64 hash)) ?_ ?_
  · refine (codec_u8 version).bind ?_
    refine (codec_u32 0).bind ?_
    exact (codec_u64 hash).map (fun h => Header.mk [0x4E#8, 0x47#8, 0x44#8] version 0 h)
  · rw [header]; rfl

theorem rdHeader_header (hash : BitVec 64) (body : List Byte) : rdHeader ⟨header hash ++ body, 0⟩ =
    some (⟨[0x4E#8, 0x47#8, 0x44#8], version, 0, hash⟩, ⟨header hash ++ body, (header hash).length⟩) :=
  (codec_header hash).full [] body

theorem header_length (hash : BitVec 64) : (header hash).length = 16 := by
  simp [header, wrU32_length, wrU64_length]

theorem _root_.Verif.IO.Codec.full_at {α : Type} {w : List Byte} {p : Parser α} {a : α} (h : Codec w p a) (pre post data : List Byte)
    (hd : data = pre ++ w ++ post) : p ⟨data, pre.length⟩ = some (a, ⟨data, (pre ++ w).length⟩) := hd ▸ h.full pre post

/-- reading a file whose header is accepted -/
theorem load_body (w : World) {T : Table} {N : Names} (path : List Byte) (s : Settings) (g : Graph T) (tag : Nat → BitVec 32)
    (hp : w.samePath path path = true) (hpl : path.length < 2 ^ 32) (hs : s.Ok) (hg : g.Ok N) (hd : List Byte) (h : Header)
    (hh : rdHeader ⟨hd ++ saveBody path s g tag, 0⟩ = some (h, ⟨hd ++ saveBody path s g tag, hd.length⟩))
    (hid : h.id = [0x4E#8, 0x47#8, 0x44#8]) (hv : h.version = version) (hc : h.hash = w.hash64 (saveBody path s g tag)) :
    load w T N path (hd ++ saveBody path s g tag) =
      match checkFiles w s.files with
      | none => .loadError
      | some (files, ch) =>
        if ch || changed w { s with files := files }
        then .reparse { s with files := files } (g.all.map (fun p => (g.heap p).restored (fun q => g.all.idxOf q)))
        else .ok { s with files := files } (g.all.map (fun p => (g.heap p).restored (fun q => g.all.idxOf q))) := by
  rw [load, hh]
  dsimp only
  rw [if_neg (by rw [hid]; simp), if_neg (by rw [hv]; simp), List.drop_left, if_neg (by rw [hc]; simp)]
  rw [(codec_str path hpl).full_at hd (wrArr wrUsedFile s.files ++ (wrRest s ++ saveNodes g tag)) _ (by simp [saveBody])]
  dsimp only
  rw [if_neg (by rw [hp]; simp)]
  rw [(codec_arr s.files (fun f hf => codec_usedFile f (hs.fileNames f hf)) hs.files).full_at (hd ++ wrStr path) (wrRest s ++ saveNodes g tag) _
    (by simp [saveBody])]
  dsimp only
  cases hck : checkFiles w s.files with
  | none => rfl
  | some x =>
    obtain ⟨files, ch⟩ := x
    dsimp only
    rw [(codec_rest s hs files).full_at (hd ++ wrStr path ++ wrArr wrUsedFile s.files) (saveNodes g tag) _ (by simp [saveBody])]
    dsimp only
    rw [(codec_graph g hg tag).full_at (hd ++ wrStr path ++ wrArr wrUsedFile s.files ++ wrRest s) [] _ (by simp [saveBody])]

/-- loading what was saved -/
theorem load_save (w : World) {T : Table} {N : Names} (path : List Byte) (s : Settings) (g : Graph T) (tag : Nat → BitVec 32)
    (hp : w.samePath path path = true) (hpl : path.length < 2 ^ 32) (hs : s.Ok) (hg : g.Ok N) :
    load w T N path (save w path s g tag) =
      match checkFiles w s.files with
      | none => .loadError
      | some (files, ch) =>
        if ch || changed w { s with files := files }
        then .reparse { s with files := files } (g.all.map (fun p => (g.heap p).restored (fun q => g.all.idxOf q)))
        else .ok { s with files := files } (g.all.map (fun p => (g.heap p).restored (fun q => g.all.idxOf q))) :=
  load_body w path s g tag hp hpl hs hg _ _ ((codec_header (w.hash64 (saveBody path s g tag))).full_at [] (saveBody path s g tag) _ (by rfl))
    rfl rfl rfl

/-- a used file is as recorded: same time stamp, or same content hash -/
def FileSame (w : World) (f : UsedFile) : Prop :=
  w.fileTime f.name = f.time ∨ ∃ data, w.content f.name = some (some data) ∧ w.hash64 data = f.hash

/-- an imported environment variable is as recorded; a recorded hash of 0 stands for a missing variable -/
def VarSame (w : World) (v : List Byte × BitVec 32) : Prop :=
  (w.envVar v.1 = none ∧ v.2 = 0) ∨ ∃ value, w.envVar v.1 = some value ∧ w.hash32 value = v.2

/-- everything the configuration was parsed from is as recorded -/
structure Unchanged (w : World) (s : Settings) : Prop where
  files : ∀ f ∈ s.files, FileSame w f
  vars : ∀ v ∈ s.imported, VarSame w v
  lib : s.libHash = w.hash32 (if s.env = [] then w.lib else s.lib)
  fileExists : ∀ (i : Nat) n b, s.existNames[i]? = some n → s.existFlags[i]? = some b → w.fileExists n = b

theorem checkFiles_spec (w : World) : ∀ (fs : List UsedFile), (∀ f ∈ fs, w.content f.name ≠ some none) →
    ∃ fs' ch, checkFiles w fs = some (fs', ch) ∧ (ch = false ↔ ∀ f ∈ fs, FileSame w f) ∧
      fs'.map (fun f => (f.name, f.hash)) = fs.map (fun f => (f.name, f.hash)) ∧
      (ch = false → ∀ f ∈ fs', f.time = w.fileTime f.name)
  | [], _ => ⟨[], false, rfl, by simp, rfl, by simp⟩
  | f :: fs, h => by
    obtain ⟨fs', ch, e1, e2, e3, e4⟩ := checkFiles_spec w fs (fun x hx => h x (by simp [hx]))
    have hf := h f (by simp)
    rw [checkFiles, checkFile]
    by_cases ht : w.fileTime f.name = f.time
    · rw [if_pos ht, e1]
      refine ⟨f :: fs', ch, rfl, ?_, ?_, ?_⟩
      · rw [e2, List.forall_mem_cons]
        exact ⟨fun c => ⟨Or.inl ht, c⟩, fun c => c.2⟩
      · rw [List.map_cons, List.map_cons, e3]
      · intro c
        rw [List.forall_mem_cons]
        exact ⟨ht.symm, e4 c⟩
    · rw [if_neg ht]
      cases hc : w.content f.name with
      | none =>
        dsimp only
        rw [e1]
        refine ⟨f :: fs', true, rfl, ?_, ?_, ?_⟩
        · rw [List.forall_mem_cons]
          refine ⟨fun c => (Bool.noConfusion c), ?_⟩
          rintro ⟨c | ⟨d, c, _⟩, _⟩
          · exact absurd c ht
          · rw [hc] at c; cases c
        · rw [List.map_cons, List.map_cons, e3]
        · intro c; cases c
      | some x =>
        cases x with
        | none => exact absurd hc hf
        | some data =>
          dsimp only
          by_cases hh : w.hash64 data = f.hash
          · rw [if_pos hh, e1]
            refine ⟨_, ch, rfl, ?_, ?_, ?_⟩
            · rw [e2, List.forall_mem_cons]
              exact ⟨fun c => ⟨Or.inr ⟨data, hc, hh⟩, c⟩, fun c => c.2⟩
            · rw [List.map_cons, List.map_cons, e3]
            · intro c
              rw [List.forall_mem_cons]
              exact ⟨rfl, e4 c⟩
          · rw [if_neg hh, e1]
            refine ⟨f :: fs', true, rfl, ?_, ?_, ?_⟩
            · rw [List.forall_mem_cons]
              refine ⟨fun c => (Bool.noConfusion c), ?_⟩
              rintro ⟨c | ⟨d, c, c2⟩, _⟩
              · exact absurd c ht
              · rw [hc] at c
                obtain rfl := Option.some.inj (Option.some.inj c)
                exact absurd c2 hh
            · rw [List.map_cons, List.map_cons, e3]
            · intro c; cases c

theorem importedChanged_spec (w : World) (v : List Byte × BitVec 32) : importedChanged w v = false ↔ VarSame w v := by
  rw [importedChanged, VarSame]
  cases w.envVar v.1 with
  | none => simp
  | some value => simp

theorem existsChanged_spec (w : World) : ∀ (ns : List (List Byte)) (bs : List Bool),
    existsChanged w ns bs = false ↔ ∀ (i : Nat) n b, ns[i]? = some n → bs[i]? = some b → w.fileExists n = b
  | [], _ => by simp [existsChanged]
  | _ :: _, [] => by simp [existsChanged]
  | n :: ns, b :: bs => by
    rw [existsChanged]
    by_cases h : w.fileExists n = b
    · rw [if_pos h, existsChanged_spec w ns bs]
      constructor
      · intro c i m d h1 h2
        cases i with
        | zero => simp at h1 h2; rw [← h1, ← h2]; exact h
        | succ i => exact c i m d (by simpa using h1) (by simpa using h2)
      · intro c i m d h1 h2
        exact c (i + 1) m d (by simpa using h1) (by simpa using h2)
    · rw [if_neg h]
      constructor
      · intro c; cases c
      · intro c; exact absurd (c 0 n b rfl rfl) h

theorem changed_spec (w : World) (s : Settings) (files : List UsedFile) : changed w { s with files := files } = false ↔
    (∀ v ∈ s.imported, VarSame w v) ∧ s.libHash = w.hash32 (if s.env = [] then w.lib else s.lib) ∧
    ∀ (i : Nat) n b, s.existNames[i]? = some n → s.existFlags[i]? = some b → w.fileExists n = b := by
  have e : (if s.env = [] then w.hash32 w.lib else w.hash32 s.lib) = w.hash32 (if s.env = [] then w.lib else s.lib) := by
    split <;> rfl
  rw [changed, Bool.or_eq_false_iff, Bool.or_eq_false_iff, existsChanged_spec, and_assoc]
  dsimp only
  rw [e, bne_eq_false_iff_eq]
  have e2 : s.imported.any (importedChanged w) = false ↔ ∀ v ∈ s.imported, VarSame w v := by
    rw [List.any_eq_false]
    constructor
    · intro h v hv
      exact (importedChanged_spec w v).1 (by have := h v hv; simpa using this)
    · intro h v hv
      rw [(importedChanged_spec w v).2 (h v hv)]; simp
  rw [e2]

/-- the nodes `ns` are those of the graph: the same number in the same order, with the same type and name; all
references are to nodes of the list. Nodes which are not plain files have everything saved restored; plain files
have no further data. -/
structure SameNodes {T : Table} (g : Graph T) (ns : List (NodeRec T Nat)) : Prop where
  length : ns.length = g.all.length
  node : ∀ (i p : Nat), g.all[i]? = some p → ∃ n, ns[i]? = some n ∧ n.type = (g.heap p).type ∧ n.name = (g.heap p).name ∧
    n.nameHash = (g.heap p).nameHash ∧
    ((g.heap p).type ≠ fileType → n.Fits (· < ns.length) ∧ n.relabel (fun k => g.all.getD k 0) = g.heap p) ∧
    ((g.heap p).type = fileType → n.stamp = 0 ∧ n.time = 0 ∧ n.pre = [] ∧ n.stat = [] ∧ n.dyn = [])

theorem restored_same {T : Table} {N : Names} (g : Graph T) (hg : g.Ok N) :
    SameNodes g (g.all.map (fun p => (g.heap p).restored (fun q => g.all.idxOf q))) := by
  refine ⟨List.length_map .., ?_⟩
  intro i p hp
  have hm : p ∈ g.all := List.mem_of_getElem? hp
  refine ⟨(g.heap p).restored (fun q => g.all.idxOf q), by rw [List.getElem?_map, hp]; rfl, ?_⟩
  by_cases hf : (g.heap p).type = fileType
  · rw [NodeRec.restored, if_pos hf]
    exact ⟨rfl, rfl, rfl, fun c => absurd hf c, fun _ => ⟨rfl, rfl, rfl, rfl, rfl⟩⟩
  · rw [NodeRec.restored, if_neg hf]
    refine ⟨rfl, rfl, rfl, fun _ => ⟨?_, ?_⟩, fun c => absurd c hf⟩
    · rw [List.length_map]
      exact NodeRec.fits_relabel (P := (· ∈ g.all)) (fun q => g.all.idxOf q) (fun q hq => List.idxOf_lt_length_of_mem hq) _ (hg.fits p hm)
    · refine NodeRec.relabel_back (P := (· ∈ g.all)) _ _ ?_ _ (hg.fits p hm)
      intro q hq
      have hlt := List.idxOf_lt_length_of_mem hq
      rw [List.getD_eq_getElem?_getD, List.getElem?_eq_getElem hlt, List.getElem_idxOf hlt]; rfl

/-- the settings are those saved, except that the time stamps of unmodified used files may have been updated -/
structure SameSettings (s s' : Settings) : Prop where
  files : s'.files.map (fun f => (f.name, f.hash)) = s.files.map (fun f => (f.name, f.hash))
  env : s'.env = s.env
  lib : s'.lib = s.lib
  imported : s'.imported = s.imported
  libHash : s'.libHash = s.libHash
  existNames : s'.existNames = s.existNames
  existFlags : s'.existFlags = s.existFlags

/-- C20, C44. Loading a saved database restores every node and all settings, if the files used by the
configuration are readable. The configuration is parsed again exactly if something it depends on has changed
since. -/
theorem C20_roundtrip (w0 w : World) (hH : w0.hash64 = w.hash64) {T : Table} {N : Names} (path : List Byte) (s : Settings) (g : Graph T)
    (tag : Nat → BitVec 32) (hp : w.samePath path path = true) (hpl : path.length < 2 ^ 32) (hs : s.Ok) (hg : g.Ok N)
    (hr : ∀ f ∈ s.files, w.content f.name ≠ some none) :
    ∃ s' ns, load w T N path (save w0 path s g tag) = (open Classical in if Unchanged w s then .ok s' ns else .reparse s' ns) ∧
      SameSettings s s' ∧ SameNodes g ns ∧ (Unchanged w s → ∀ f ∈ s'.files, f.time = w.fileTime f.name) := by
  have e0 : save w0 path s g tag = save w path s g tag := by rw [save, save, hH]
  obtain ⟨fs', ch, e1, e2, e3, e4⟩ := checkFiles_spec w s.files hr
  rw [e0, load_save w path s g tag hp hpl hs hg, e1]
  dsimp only
  have hu : Unchanged w s ↔ (ch || changed w { s with files := fs' }) = false := by
    rw [Bool.or_eq_false_iff, e2, changed_spec]
    exact ⟨fun c => ⟨c.files, c.vars, c.lib, c.fileExists⟩, fun c => ⟨c.1, c.2.1, c.2.2.1, c.2.2.2⟩⟩
  refine ⟨{ s with files := fs' }, _, ?_, ⟨e3, rfl, rfl, rfl, rfl, rfl, rfl⟩, restored_same g hg, ?_⟩
  · by_cases h : Unchanged w s
    · rw [if_pos h, if_neg (by rw [hu.1 h]; simp)]
    · rw [if_neg h, if_pos]
      cases hb : (ch || changed w { s with files := fs' }) with
      | true => rfl
      | false => exact absurd (hu.2 hb) h
  · intro c
    exact e4 (Bool.or_eq_false_iff.1 (hu.1 c)).1

/-! A concrete graph: a file, an object with properties of all kinds, and a settings node. -/
def exTable : Table := fun t =>
  if t = 6 then .cons .str (.cons .strs (.cons .bool (.cons .u8 (.cons .u32 (.cons .u64 (.cons (.struct (.cons .node .nil))
    (.cons (.structs (.cons .str .nil)) (.cons .node (.cons .nodes .nil))))))))) else .nil
def exObject : NodeRec exTable Nat where
  type := 6
  name := [97]
  nameHash := 1
  stamp := 77
  time := 12
  props := ([1], [[2], [3, 4]], true, (5 : BitVec 8), (6 : BitVec 32), (7 : BitVec 64), (some 30, ()), [([8], ()), ([], ())], none, [30, 10], ())
  pre := [⟨30, 1, true⟩]
  stat := [⟨10, 2, false⟩]
  dyn := []
def exGraph : Graph exTable where
  all := [10, 20, 30]
  heap := fun p =>
    if p = 20 then exObject
    else if p = 10 then ⟨4, [98, 99], 2, 9, 9, (), [], [], []⟩ else ⟨20, [100, 101, 102], 3, 1, 1, (), [], [], []⟩
def exNames : Names := ⟨fun n => BitVec.ofNat 32 n.length, fun a b => a == b, fun _ _ => true⟩
def exSettings : Settings where
  files := [⟨[65], 100, 200⟩]
  env := [1, 2]
  lib := [3]
  imported := [([70], 0), ([71], 1)]
  libHash := 1
  existNames := [[80]]
  existFlags := [true]
def exWorld : World where
  hash64 := fun b => BitVec.ofNat 64 (ofLE (b ++ [1]))
  hash32 := fun b => BitVec.ofNat 32 b.length
  fileTime := fun _ => 100
  content := fun _ => none
  fileExists := fun _ => true
  envVar := fun n => if n = [70] then none else some [1]
  lib := []
  samePath := fun a b => a == b
  continueAfterMove := false

example : exGraph.Ok exNames where
  len := by decide
  nodup := by decide
  fits := by
    intro p hp
    have : p = 10 ∨ p = 20 ∨ p = 30 := by simpa [exGraph] using hp
    rcases this with rfl | rfl | rfl
    · exact ⟨by decide, trivial, by decide, by decide, by decide, by decide, by decide, by decide⟩
    · refine ⟨by decide, ?_, by decide, by decide, by decide, by decide, by decide, by decide⟩
      show Schema.Fits (· ∈ exGraph.all) (exTable 6) exObject.props
      refine ⟨(by decide : 1 < 2 ^ 32), ⟨by decide, ?_⟩, trivial, trivial, trivial, trivial, ⟨?_, trivial⟩, ⟨by decide, ?_⟩, ?_, ⟨by decide, ?_⟩, trivial⟩
      · intro s hs
        change s ∈ [[2], [3, 4]] at hs
        revert s; decide
      · intro n hn
        cases hn
        decide
      · intro x hx
        change x ∈ [(([8] : List Byte), ()), ([], ())] at hx
        refine ⟨?_, trivial⟩
        rcases List.mem_cons.1 hx with e | hx
        · rw [e]; exact (by decide : 1 < 2 ^ 32)
        · rw [List.mem_singleton.1 hx]; exact (by decide : 0 < 2 ^ 32)
      · intro n hn
        cases hn
      · intro n hn
        change n ∈ [30, 10] at hn
        revert n; decide
    · exact ⟨by decide, trivial, by decide, by decide, by decide, by decide, by decide, by decide⟩
  valid := by
    intro p hp
    have : p = 10 ∨ p = 20 ∨ p = 30 := by simpa [exGraph] using hp
    rcases this with rfl | rfl | rfl <;> exact ⟨by decide, by decide, by decide, by decide⟩
  names := by decide
example : exSettings.Ok :=
  ⟨by decide, by decide, by decide, by decide, by decide, by decide, by decide, by decide, by decide, by decide⟩
example : Unchanged exWorld exSettings where
  files := by intro f hf; obtain rfl := List.mem_singleton.1 hf; exact Or.inl rfl
  vars := by
    intro v hv
    have : v = ([70], 0) ∨ v = ([71], 1) := by simpa [exSettings] using hv
    rcases this with rfl | rfl
    · exact Or.inl ⟨rfl, rfl⟩
    · exact Or.inr ⟨[1], rfl, rfl⟩
  lib := by decide
  fileExists := by
    intro i n b h1 h2
    match i with
    | 0 => cases h2; rfl
    | i + 1 => cases h2
example : exWorld.samePath [1] [1] = true ∧ exWorld.samePath [1] [2] = false ∧
    (∀ f ∈ exSettings.files, exWorld.content f.name ≠ some none) := ⟨rfl, rfl, fun _ _ => by simp [exWorld]⟩

/-- C44. The database is used without parsing the configuration only if every file of the configuration has the
recorded time or content, every imported environment variable and `LIB` has the recorded value, and every
existence check would give the recorded answer; and then it is. -/
theorem C44_reparse_iff (w0 w : World) (hH : w0.hash64 = w.hash64) {T : Table} {N : Names} (path : List Byte) (s : Settings) (g : Graph T)
    (tag : Nat → BitVec 32) (hp : w.samePath path path = true) (hpl : path.length < 2 ^ 32) (hs : s.Ok) (hg : g.Ok N)
    (hr : ∀ f ∈ s.files, w.content f.name ≠ some none) {γ : Type} (parsed : γ) :
    ((∃ s' ns, start w N path (some (save w0 path s g tag)) (some parsed) = (.loaded s' ns : Start T γ)) ↔ Unchanged w s) ∧
    ((∃ s' ns, start w N path (some (save w0 path s g tag)) (some parsed) = (.migrated parsed s' ns : Start T γ)) ↔ ¬ Unchanged w s) := by
  obtain ⟨s', ns, e, _⟩ := C20_roundtrip w0 w hH path s g tag hp hpl hs hg hr
  rw [start, loadFile]
  rw [e]
  by_cases h : Unchanged w s
  · rw [if_pos h]
    refine ⟨⟨fun _ => h, fun _ => ⟨s', ns, rfl⟩⟩, ⟨?_, fun c => absurd h c⟩⟩
    rintro ⟨_, _, c⟩; cases c
  · rw [if_neg h]
    refine ⟨⟨?_, fun c => absurd c h⟩, ⟨fun _ => h, fun _ => ⟨s', ns, rfl⟩⟩⟩
    rintro ⟨_, _, c⟩; cases c

/-- C44. A database found at another place than where it was saved is never used. -/
theorem C44_moved (w0 w : World) (hH : w0.hash64 = w.hash64) {T : Table} {N : Names} (path path' : List Byte) (s : Settings) (g : Graph T)
    (tag : Nat → BitVec 32) (hp : w.samePath path path' = false) (hpl : path.length < 2 ^ 32) {γ : Type} (parsed : γ) :
    start w N path' (some (save w0 path s g tag)) (some parsed) =
      (if w.continueAfterMove then .clean parsed else .failed : Start T γ) := by
  have e0 : save w0 path s g tag = save w path s g tag := by rw [save, save, hH]
  rw [start, loadFile]
  rw [load, e0, save, rdHeader_header]
  dsimp only
  rw [if_neg (by simp), if_neg (by simp), List.drop_left, if_neg (by simp)]
  rw [(codec_str path hpl).full_at (header (w.hash64 (saveBody path s g tag))) (wrArr wrUsedFile s.files ++ (wrRest s ++ saveNodes g tag)) _
    (by simp [saveBody])]
  dsimp only
  rw [if_pos hp]
  cases hc : w.continueAfterMove <;> simp

/-! ## C21 crashes -/

theorem leBytes_ofLE : ∀ (m : List Byte), leBytes m.length (ofLE m) = m
  | [] => rfl
  | b :: m => by
    rw [List.length_cons, leBytes, ofLE]
    have h1 : BitVec.ofNat 8 (b.toNat + 256 * ofLE m) = b := by
      apply BitVec.eq_of_toNat_eq
      rw [BitVec.toNat_ofNat]
      have := b.isLt
      omega
    have h2 : (b.toNat + 256 * ofLE m) / 256 = ofLE m := by
      have := b.isLt
      omega
    rw [h1, h2, leBytes_ofLE m]

theorem ofLE_lt : ∀ (m : List Byte), ofLE m < 2 ^ (8 * m.length)
  | [] => by simp [ofLE]
  | b :: m => by
    have := ofLE_lt m
    have hb := b.isLt
    rw [ofLE, List.length_cons, show 8 * (m.length + 1) = 8 * m.length + 8 by omega, Nat.pow_add]
    omega

theorem eq_wrU64 (m : List Byte) (hl : m.length = 8) (x : BitVec 64) (h : BitVec.ofNat 64 (ofLE m) = x) : m = wrU64 x := by
  have h1 := leBytes_ofLE m
  have h2 := ofLE_lt m
  rw [hl] at h1 h2
  rw [wrU64, wrWord, ← h, BitVec.toNat_ofNat, Nat.mod_eq_of_lt h2, h1]

theorem rdBytes_eq (n : Nat) (f : List Byte) (pos : Nat) (hp : pos ≤ f.length) :
    rdBytes n ⟨f, pos⟩ = if pos + n ≤ f.length then some ((f.drop pos).take n, ⟨f, pos + n⟩) else none := by
  have e : rdBytes n ⟨f, pos⟩ = if (((f.drop pos).take (min (f.length - pos) n))).length = n then
      some ((f.drop pos).take (min (f.length - pos) n), ⟨f, pos + min (f.length - pos) n⟩) else none := rfl
  rw [e]
  by_cases h : pos + n ≤ f.length
  · rw [if_pos h, Nat.min_eq_right (by omega), if_pos (by simp; omega)]
  · rw [if_neg h, if_neg (by simp; omega)]

/-- the content hash stored in a file -/
def storedHash (f : List Byte) : BitVec 64 := BitVec.ofNat 64 (ofLE ((f.drop 8).take 8))

theorem rdHeader_eq (f : List Byte) : rdHeader ⟨f, 0⟩ = if 16 ≤ f.length then
    some (⟨f.take 3, BitVec.ofNat 8 (ofLE ((f.drop 3).take 1)), BitVec.ofNat 32 (ofLE ((f.drop 4).take 4)), storedHash f⟩, ⟨f, 16⟩) else none := by
  show Parser.bind (rdBytes 3) (fun id => Parser.bind (Parser.bind (rdBytes 1) (fun b => Parser.pure (BitVec.ofNat 8 (ofLE b))))
    (fun v => Parser.bind (Parser.bind (rdBytes 4) (fun b => Parser.pure (BitVec.ofNat 32 (ofLE b)))) (fun p =>
      Parser.bind (Parser.bind (rdBytes 8) (fun b => Parser.pure (BitVec.ofNat 64 (ofLE b)))) (fun h =>
        Parser.pure (Header.mk id v p h))))) ⟨f, 0⟩ = _
  unfold Parser.bind Parser.pure
  by_cases h : 16 ≤ f.length
  · rw [if_pos h, rdBytes_eq 3 f 0 (by omega), if_pos (by omega)]
    dsimp only
    rw [rdBytes_eq 1 f _ (by omega), if_pos (by omega)]
    dsimp only
    rw [rdBytes_eq 4 f _ (by omega), if_pos (by omega)]
    dsimp only
    rw [rdBytes_eq 8 f _ (by omega), if_pos (by omega)]
    rfl
  · rw [if_neg h, rdBytes_eq 3 f 0 (by omega)]
    by_cases h3 : 0 + 3 ≤ f.length
    · rw [if_pos h3]
      dsimp only
      rw [rdBytes_eq 1 f _ (by omega)]
      by_cases h4 : 0 + 3 + 1 ≤ f.length
      · rw [if_pos h4]
        dsimp only
        rw [rdBytes_eq 4 f _ (by omega)]
        by_cases h8 : 0 + 3 + 1 + 4 ≤ f.length
        · rw [if_pos h8]
          dsimp only
          rw [rdBytes_eq 8 f _ (by omega), if_neg (by omega)]
        · rw [if_neg h8]
      · rw [if_neg h4]
    · rw [if_neg h3]

/-- a file whose content is looked at has a header with the right identifier and version, and the stored hash is
that of the content -/
theorem load_accepts (w : World) {T : Table} {N : Names} (path f : List Byte) (h1 : load w T N path f ≠ .loadError)
    (h2 : load w T N path f ≠ .missing) : 16 ≤ f.length ∧ f.take 3 = [0x4E#8, 0x47#8, 0x44#8] ∧ w.hash64 (f.drop 16) = storedHash f := by
  unfold load at h1 h2
  rw [rdHeader_eq] at h1 h2
  by_cases hl : 16 ≤ f.length
  · rw [if_pos hl] at h1 h2
    dsimp only at h1 h2
    by_cases hid : f.take 3 = [0x4E#8, 0x47#8, 0x44#8]
    · rw [if_neg (by rw [hid]; simp)] at h1 h2
      split at h1
      · rename_i hv
        rw [if_pos hv] at h2
        exact absurd rfl h2
      · split at h1
        · exact absurd rfl h1
        · rename_i hh
          exact ⟨hl, hid, Decidable.not_not.1 hh⟩
    · rw [if_pos hid] at h1
      exact absurd rfl h1
  · rw [if_neg hl] at h1
    exact absurd rfl h1

theorem writeAt_split (doneB old data : List Byte) : writeAt (doneB ++ old.drop doneB.length) doneB.length data =
    (doneB ++ data) ++ old.drop (doneB ++ data).length := by
  rw [writeAt, List.take_left, ← List.drop_drop, List.drop_left, List.drop_drop, List.length_append]

theorem crash_form {f : List Byte} {pos : Nat} {ps : List (List Byte)} {g : List Byte} (h : Crash f pos ps g) :
    ∀ (doneB old : List Byte), f = doneB ++ old.drop doneB.length → pos = doneB.length →
      (∃ k, k ≤ (doneB ++ ps.flatten).length ∧ g = (doneB ++ ps.flatten).take k ++ old.drop k) ∨ g = doneB ++ ps.flatten := by
  induction h with
  | partly f pos k p ps =>
    intro doneB old hf hpos
    left
    subst hf hpos
    rw [writeAt_split, List.flatten_cons]
    refine ⟨(doneB ++ p.take k).length, by simp; omega, ?_⟩
    congr 1
    rw [List.length_append, List.take_length_add_append, List.length_take, List.take_append_of_le_length (by omega)]
    rcases Nat.le_total k p.length with hk | hk
    · rw [Nat.min_eq_left hk]
    · rw [Nat.min_eq_right hk, List.take_of_length_le hk, List.take_of_length_le (Nat.le_refl _)]
  | later f pos p ps g _ ih =>
    intro doneB old hf hpos
    subst hf hpos
    have := ih (doneB ++ p) old (writeAt_split doneB old p) (by rw [List.length_append])
    rw [List.append_assoc] at this
    rw [List.flatten_cons]
    exact this
  | before f pos ps =>
    intro doneB old hf hpos
    left
    refine ⟨doneB.length, by simp, ?_⟩
    rw [hf, List.take_left]
  | truncated f pos =>
    intro doneB old hf hpos
    right
    subst hf hpos
    rw [List.take_left]; simp

/-- a database file of this version -/
def dbFile (w : World) (body : List Byte) : List Byte := header (w.hash64 body) ++ body

theorem storedHash_header (pre m b : List Byte) (h1 : pre.length = 8) (h2 : m.length = 8) : storedHash (pre ++ m ++ b) = BitVec.ofNat 64 (ofLE m) := by
  rw [storedHash, List.append_assoc, ← h1, List.drop_left, h1, ← h2, List.take_left]

/-- C21. If the process dies at any point while a database is overwritten by another one, the next run either
rejects the file (and parses the configuration from scratch), or the file is exactly the old or exactly the new
one. `old` is a database of the same version, or any file shorter than a header (for example none at all). The
hash must not collide for the new content and its mixtures with the old one. -/
theorem C21_crash (w : World) {T : Table} {N : Names} (path : List Byte) (old : List Byte) (bodyOld bodyNew : List Byte)
    (hold : old = dbFile w bodyOld ∨ (old.length < 16 ∧ bodyOld = []))
    (ps : List (List Byte)) (hps : ps.flatten = dbFile w bodyNew)
    (hcol : ∀ k, w.hash64 (bodyNew.take k ++ bodyOld.drop k) = w.hash64 bodyNew → bodyNew.take k ++ bodyOld.drop k = bodyNew)
    (f : List Byte) (hf : Crash old 0 ps f) :
    load w T N path f = .loadError ∨ load w T N path f = .missing ∨ f = old ∨ f = dbFile w bodyNew := by
  rcases crash_form hf [] old (by simp) rfl with ⟨k, hk, rfl⟩ | rfl
  · by_cases h1 : load w T N path (([] ++ ps.flatten).take k ++ old.drop k) = .loadError
    · exact Or.inl h1
    by_cases h2 : load w T N path (([] ++ ps.flatten).take k ++ old.drop k) = .missing
    · exact Or.inr (Or.inl h2)
    right; right
    obtain ⟨a1, a2, a3⟩ := load_accepts w path _ h1 h2
    clear h1 h2
    rw [List.nil_append, hps] at *
    have hh := header_length (w.hash64 bodyNew)
    by_cases hk16 : 16 ≤ k
    · right
      have e1 : (dbFile w bodyNew).take k = header (w.hash64 bodyNew) ++ bodyNew.take (k - 16) := by
        rw [dbFile, List.take_append, hh, List.take_of_length_le (by omega)]
      have e2 : old.drop k = bodyOld.drop (k - 16) := by
        rcases hold with rfl | ⟨c1, c2⟩
        · rw [dbFile, List.drop_append, header_length, List.drop_of_length_le (by rw [header_length]; omega), List.nil_append]
        · rw [c2, List.drop_of_length_le (by omega), List.drop_nil]
      rw [e1, e2, List.append_assoc] at a3 ⊢
      rw [List.drop_left' hh] at a3
      have e3 : header (w.hash64 bodyNew) = [0x4E#8, 0x47#8, 0x44#8, version] ++ wrU32 0 ++ wrU64 (w.hash64 bodyNew) := rfl
      rw [e3, storedHash_header _ _ _ (by simp [wrU32_length]) (wrU64_length _), ofLE_wrU64, BitVec.ofNat_toNat, BitVec.setWidth_eq] at a3
      rw [hcol _ a3]; rfl
    · left
      rcases hold with rfl | ⟨c1, c2⟩
      · have hP : ([0x4E#8, 0x47#8, 0x44#8, version] ++ wrU32 0).length = 8 := by simp [wrU32_length]
        have en : dbFile w bodyNew = ([0x4E#8, 0x47#8, 0x44#8, version] ++ wrU32 0) ++ (wrU64 (w.hash64 bodyNew) ++ bodyNew) := by
          simp [dbFile, header]
        have eo : dbFile w bodyOld = ([0x4E#8, 0x47#8, 0x44#8, version] ++ wrU32 0) ++ (wrU64 (w.hash64 bodyOld) ++ bodyOld) := by
          simp [dbFile, header]
        rw [en, eo] at a3 ⊢
        generalize ([0x4E#8, 0x47#8, 0x44#8, version] ++ wrU32 0) = P at *
        have l1 := wrU64_length (w.hash64 bodyNew)
        have l2 := wrU64_length (w.hash64 bodyOld)
        by_cases hk8 : k ≤ 8
        · rw [List.take_append_of_le_length (by omega), List.drop_append_of_le_length (by omega), ← List.append_assoc, List.take_append_drop]
        · have e1 : (P ++ (wrU64 (w.hash64 bodyNew) ++ bodyNew)).take k = P ++ (wrU64 (w.hash64 bodyNew)).take (k - 8) := by
            rw [List.take_append, hP, List.take_of_length_le (by omega), List.take_append_of_le_length (by omega)]
          have e2 : (P ++ (wrU64 (w.hash64 bodyOld) ++ bodyOld)).drop k = (wrU64 (w.hash64 bodyOld)).drop (k - 8) ++ bodyOld := by
            rw [List.drop_append, hP, List.drop_of_length_le (by omega), List.nil_append, List.drop_append_of_le_length (by omega)]
          have e3 : P ++ List.take (k - 8) (wrU64 (w.hash64 bodyNew)) ++ (List.drop (k - 8) (wrU64 (w.hash64 bodyOld)) ++ bodyOld) =
              P ++ (List.take (k - 8) (wrU64 (w.hash64 bodyNew)) ++ List.drop (k - 8) (wrU64 (w.hash64 bodyOld))) ++ bodyOld := by simp
          have lm : (List.take (k - 8) (wrU64 (w.hash64 bodyNew)) ++ List.drop (k - 8) (wrU64 (w.hash64 bodyOld))).length = 8 := by
            simp only [List.length_append, List.length_take, List.length_drop]; omega
          rw [e1, e2, e3] at a3 ⊢
          rw [storedHash_header _ _ _ hP lm, List.drop_left' (by rw [List.length_append, hP, lm])] at a3
          rw [eq_wrU64 _ lm _ a3.symm, List.append_assoc]
      · exfalso
        rw [List.length_append, List.length_take, List.length_drop] at a1
        omega
  · right; right; right
    rw [List.nil_append, hps]

/-- the hypotheses can be met by two different databases, and a crash can leave a mixture of them -/
example : ∃ (f : List Byte), Crash (dbFile exWorld [1, 2, 3]) 0 [dbFile exWorld [4, 5]] f ∧ f ≠ dbFile exWorld [1, 2, 3] ∧
    f ≠ dbFile exWorld [4, 5] ∧
    ∀ k, exWorld.hash64 (([4, 5] : List Byte).take k ++ ([1, 2, 3] : List Byte).drop k) = exWorld.hash64 [4, 5] →
      ([4, 5] : List Byte).take k ++ ([1, 2, 3] : List Byte).drop k = [4, 5] := by
  refine ⟨_, Crash.partly _ 0 17 _ [], by decide, by decide, ?_⟩
  intro k
  match k with
  | 0 => decide
  | 1 => decide
  | 2 => decide
  | k + 3 => simp

/-- C21. So the next run starts exactly as without any database, as with the old one, or as with the new one. -/
theorem C21_start (w : World) {T : Table} {N : Names} (path : List Byte) (old : List Byte) (bodyOld bodyNew : List Byte)
    (hold : old = dbFile w bodyOld ∨ (old.length < 16 ∧ bodyOld = []))
    (ps : List (List Byte)) (hps : ps.flatten = dbFile w bodyNew)
    (hcol : ∀ k, w.hash64 (bodyNew.take k ++ bodyOld.drop k) = w.hash64 bodyNew → bodyNew.take k ++ bodyOld.drop k = bodyNew)
    (f : List Byte) (hf : Crash old 0 ps f) {γ : Type} (parsed : Option γ) :
    (start w N path (some f) parsed : Start T γ) = start w N path none parsed ∨
    (start w N path (some f) parsed : Start T γ) = start w N path (some old) parsed ∨
    (start w N path (some f) parsed : Start T γ) = start w N path (some (dbFile w bodyNew)) parsed := by
  rcases C21_crash (T := T) (N := N) w path old bodyOld bodyNew hold ps hps hcol f hf with h | h | h | h
  · left
    simp only [start, loadFile, h]
  · left
    simp only [start, loadFile, h]
  · right; left; rw [h]
  · right; right; rw [h]

/-- without a database the configuration is parsed and nothing else is used -/
theorem C21_none (w : World) {T : Table} {N : Names} (path : List Byte) {γ : Type} (g : γ) :
    (start w N path none (some g) : Start T γ) = .clean g := rfl

/-- C21. A database with altered, added or missing content after the header is rejected, unless the hash collides. -/
theorem C21_altered_content (w : World) {T : Table} {N : Names} (path : List Byte) (body body' : List Byte)
    (hcol : w.hash64 body' = w.hash64 body → body' = body) (hne : body' ≠ body) :
    load w T N path (header (w.hash64 body) ++ body') = .loadError := by
  rw [load, rdHeader_header]
  dsimp only
  rw [if_neg (by simp), if_neg (by simp), List.drop_left, if_pos (fun c => hne (hcol c))]

/-- C21. A database with an altered header is rejected or loads as the unaltered one. -/
theorem C21_altered_header (w : World) {T : Table} {N : Names} (path : List Byte) (s : Settings) (g : Graph T) (tag : Nat → BitVec 32)
    (hp : w.samePath path path = true) (hpl : path.length < 2 ^ 32) (hs : s.Ok) (hg : g.Ok N) (hd : List Byte) (hl : hd.length = 16) :
    load w T N path (hd ++ saveBody path s g tag) = .loadError ∨ load w T N path (hd ++ saveBody path s g tag) = .missing ∨
    load w T N path (hd ++ saveBody path s g tag) = load w T N path (save w path s g tag) := by
  by_cases hid : (hd ++ saveBody path s g tag).take 3 = [0x4E#8, 0x47#8, 0x44#8]
  · by_cases hv : BitVec.ofNat 8 (ofLE (((hd ++ saveBody path s g tag).drop 3).take 1)) = version
    · by_cases hc : storedHash (hd ++ saveBody path s g tag) = w.hash64 (saveBody path s g tag)
      · right; right
        rw [load_save w path s g tag hp hpl hs hg]
        refine load_body w path s g tag hp hpl hs hg hd ⟨_, _, BitVec.ofNat 32 (ofLE (((hd ++ saveBody path s g tag).drop 4).take 4)), _⟩ ?_ hid hv hc
        · rw [rdHeader_eq, if_pos (by rw [List.length_append]; omega), hl]; rfl
      · left
        rw [load, rdHeader_eq, if_pos (by rw [List.length_append]; omega)]
        dsimp only
        rw [if_neg (by rw [hid]; simp), if_neg (by rw [hv]; simp), List.drop_left' hl, if_pos (fun c => hc c.symm)]
    · right; left
      rw [load, rdHeader_eq, if_pos (by rw [List.length_append]; omega)]
      dsimp only
      rw [if_neg (by rw [hid]; simp), if_pos hv]
  · left
    rw [load, rdHeader_eq, if_pos (by rw [List.length_append]; omega)]
    dsimp only
    rw [if_pos hid]

/-- C21. A database written by another version of the program is never used, whatever it contains. -/
theorem C21_other_version (w : World) {T : Table} {N : Names} (path : List Byte) (v : BitVec 8) (hv : v ≠ 194) (rest : List Byte)
    {γ : Type} (parsed : γ) : start w N path (some ([0x4E#8, 0x47#8, 0x44#8, v] ++ rest)) (some parsed) = (.clean parsed : Start T γ) := by
  have : load w T N path ([0x4E#8, 0x47#8, 0x44#8, v] ++ rest) = .loadError ∨ load w T N path ([0x4E#8, 0x47#8, 0x44#8, v] ++ rest) = .missing := by
    rw [load, rdHeader_eq]
    by_cases hl : 16 ≤ ([0x4E#8, 0x47#8, 0x44#8, v] ++ rest).length
    · rw [if_pos hl]
      dsimp only
      rw [if_neg (by simp), if_pos]
      · exact Or.inr rfl
      · intro c
        apply hv
        rw [show version = 194 from rfl] at c
        rw [← c]
        show v = BitVec.ofNat 8 (v.toNat + 256 * 0)
        simp
    · rw [if_neg hl]
      exact Or.inl rfl
  rcases this with h | h
  · simp only [start, loadFile, h]
  · simp only [start, loadFile, h]

end Verif.Db
