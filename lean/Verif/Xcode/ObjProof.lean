import Verif.Xcode.TreeProof
/-! The objects. -/
namespace Verif.Xcode
open Spec

/-! ### Identifiers -/

private def dval (c : Char) : Nat := "0123456789ABCDEF".toList.idxOf c

private theorem dval_digit : ∀ n, n < 16 → dval (digit n) = n := by decide +kernel

private def value (base : Nat) (t : Text) : Nat := t.foldl (fun v d => v * base + dval d) 0

private theorem value_go {base : Nat} (hb : 2 ≤ base) (hb' : base ≤ 16) : ∀ (fuel n : Nat), n < fuel → value base (numberGo base fuel n) = n
  | 0, _, h => absurd h (Nat.not_lt_zero _)
  | fuel + 1, n, h => by
    rw [numberGo]
    split
    · next h =>
      show 0 * base + dval (digit n) = n
      rw [dval_digit n (by omega)]
      omega
    · next h' =>
      have hlt : n / base < fuel := by
        have := Nat.div_lt_self (n := n) (k := base) (by omega) (by omega)
        omega
      have ih := value_go hb hb' fuel (n / base) hlt
      have hm := Nat.mod_lt n (y := base) (by omega)
      rw [value] at ih ⊢
      rw [List.foldl_append, ih]
      show n / base * base + dval (digit (n % base)) = n
      rw [dval_digit _ (by omega)]
      exact Nat.div_add_mod' n base

private theorem value_zeros (base : Nat) (t : Text) : ∀ k, value base (List.replicate k '0' ++ t) = value base t
  | 0 => rfl
  | k + 1 => by
    have ih := value_zeros base t k
    rw [List.replicate_succ, List.cons_append]
    rw [value, List.foldl_cons]
    have : 0 * base + dval '0' = 0 := by rw [Nat.zero_mul]; rfl
    rw [this]
    exact ih

theorem number_inj {base m n : Nat} (hb : 2 ≤ base) (hb' : base ≤ 16) (h : number base m = number base n) : m = n := by
  have := congrArg (value base) h
  simp only [number, value_zeros, value_go hb hb' _ _ (Nat.lt_succ_self _)] at this
  exact this

theorem lead_length (k : Isa) : (lead k).length = 16 := by cases k <;> rfl

theorem lead_inj {k k' : Isa} (h : lead k = lead k') : k = k' := by
  cases k <;> cases k' <;> first | rfl | exact absurd h (by decide)

theorem ident_inj {k k' : Isa} {n n' : Nat} (h : ident k n = ident k' n') : k = k' ∧ n = n' := by
  have h' := List.append_inj h (by rw [lead_length, lead_length])
  have e := lead_inj h'.1
  subst e
  refine ⟨rfl, number_inj ?_ ?_ h'.2⟩ <;> cases k <;> decide

/-! ### Order -/

theorem le_trans' (key : Nat → Text) (a b c : Nat) (h : le (key a) (key b) = true) (h' : le (key b) (key c) = true) : le (key a) (key c) = true := by
  rw [le, decide_eq_true_eq] at *
  exact List.le_trans h h'

theorem le_total' (key : Nat → Text) (a b : Nat) : (le (key a) (key b) || le (key b) (key a)) = true := by
  rw [Bool.or_eq_true, le, le, decide_eq_true_eq, decide_eq_true_eq]
  exact List.le_total _ _

theorem files_perm (p : Proj) : (files p).Perm (List.range p.files.length) := List.mergeSort_perm _ _

theorem folders_perm (p : Proj) : (folders p).Perm (List.range p.folders.length) := List.mergeSort_perm _ _

theorem files_nodup (p : Proj) : (files p).Nodup := (files_perm p).nodup_iff.2 List.nodup_range

theorem folders_nodup (p : Proj) : (folders p).Nodup := (folders_perm p).nodup_iff.2 List.nodup_range

theorem mem_files {p : Proj} {k : Nat} : k ∈ files p ↔ k < p.files.length := by rw [(files_perm p).mem_iff, List.mem_range]

theorem mem_folders {p : Proj} {k : Nat} : k ∈ folders p ↔ k < p.folders.length := by rw [(folders_perm p).mem_iff, List.mem_range]

theorem idx_inj {l : List Nat} {a b : Nat} (ha : a ∈ l) (hb : b ∈ l) (h : l.idxOf a = l.idxOf b) : a = b := by
  have h1 := List.getElem_idxOf (List.idxOf_lt_length_iff.2 ha)
  have h2 := List.getElem_idxOf (List.idxOf_lt_length_iff.2 hb)
  rw [← h1, ← h2]
  congr 1

/-- the root comes first -/
theorem folderNo_root {p : Proj} (hp : Ok p) : folderNo p 0 = 0 := by
  obtain ⟨f0, h0, e0⟩ := hp.root
  have hm : 0 ∈ folders p := mem_folders.2 (List.getElem?_eq_some_iff.1 h0).1
  have hs : (folders p).Pairwise fun a b => le ((p.folders[a]?.map Folder.path).getD []) ((p.folders[b]?.map Folder.path).getD []) = true :=
    List.pairwise_mergeSort (le_trans' fun i => (p.folders[i]?.map Folder.path).getD []) (le_total' fun i => (p.folders[i]?.map Folder.path).getD []) _
  have hall : ∀ a ∈ folders p, a < p.folders.length := fun a ha => mem_folders.1 ha
  rw [folderNo]
  cases hl : folders p with
  | nil => rw [hl] at hm; exact nomatch hm
  | cons a l =>
    rw [hl] at hm hs hall
    by_cases ha : a = 0
    · rw [ha, List.idxOf_cons]; rfl
    · have h0l : 0 ∈ l := by
        rcases List.mem_cons.1 hm with h | h
        · exact absurd h.symm ha
        · exact h
      have hle := (List.pairwise_cons.1 hs).1 0 h0l
      have ha' := List.getElem?_eq_getElem (hall a (List.mem_cons_self ..))
      have := (hp.sub a _ ha' ha).1
      rw [ha', h0] at hle
      simp only [Option.map_some, Option.getD_some, e0, le, decide_eq_true_eq] at hle
      exact absurd (by simpa using hle) this

/-! ### Sections -/

theorem filter_all {l : List Obj} {k : Isa} (h : ∀ o ∈ l, o.isa = k) : l.filter (fun o => o.isa = k) = l := by
  rw [List.filter_eq_self]
  intro o ho
  simp [h o ho]

theorem filter_none {l : List Obj} {k k' : Isa} (h : ∀ o ∈ l, o.isa = k') (hk : k' ≠ k) : l.filter (fun o => o.isa = k) = [] := by
  rw [List.filter_eq_nil_iff]
  intro o ho
  simp [h o ho, hk]

theorem isa_buildFile (p : Proj) : ∀ o ∈ (files p).map (buildFileObj p), o.isa = .buildFile := by
  intro o ho
  obtain ⟨k, -, rfl⟩ := List.mem_map.1 ho
  rfl

theorem isa_file (p : Proj) : ∀ o ∈ (files p).map (fileObj p), o.isa = .fileReference := by
  intro o ho
  obtain ⟨k, -, rfl⟩ := List.mem_map.1 ho
  rfl

theorem isa_group (p : Proj) : ∀ o ∈ (folders p).map (groupObj p), o.isa = .group := by
  intro o ho
  obtain ⟨k, -, rfl⟩ := List.mem_map.1 ho
  rfl

theorem isa_config (i : Nat) (configs : List Text) : ∀ o ∈ configObjs i configs, o.isa = .configuration := by
  intro o ho
  obtain ⟨k, -, rfl⟩ := List.mem_map.1 ho
  rfl

/-- the objects of a kind -/
def section_ (p : Proj) (name : Text) (configs : List Text) : Isa → List Obj
  | .buildFile => (files p).map (buildFileObj p)
  | .fileReference => (files p).map (fileObj p)
  | .group => (folders p).map (groupObj p)
  | .legacyTarget => (targetObjs name).take 1
  | .nativeTarget => (targetObjs name).drop 1
  | .project => [projectObj]
  | .sourcesPhase => [phaseObj p]
  | .configuration => configObjs 0 configs ++ configObjs 1 configs ++ configObjs 2 configs
  | .configurationList => [listObj 0 configs, listObj 1 configs, listObj 2 configs]

theorem objects_filter (p : Proj) (name : Text) (configs : List Text) (k : Isa) :
    (objects p name configs).filter (fun o => o.isa = k) = section_ p name configs k := by
  rw [objects]
  simp only [List.filter_append]
  cases k <;>
  · first | rw [filter_all (isa_buildFile p)] | rw [filter_none (isa_buildFile p) (by decide)]
    first | rw [filter_all (isa_file p)] | rw [filter_none (isa_file p) (by decide)]
    first | rw [filter_all (isa_group p)] | rw [filter_none (isa_group p) (by decide)]
    first | rw [filter_all (isa_config 0 configs)] | rw [filter_none (isa_config 0 configs) (by decide)]
    first | rw [filter_all (isa_config 1 configs)] | rw [filter_none (isa_config 1 configs) (by decide)]
    first | rw [filter_all (isa_config 2 configs)] | rw [filter_none (isa_config 2 configs) (by decide)]
    simp [targetObjs, projectObj, phaseObj, listObj, section_]

theorem mem_objects {p : Proj} {name : Text} {configs : List Text} {o : Obj} :
    o ∈ objects p name configs ↔ o ∈ section_ p name configs o.isa := by
  rw [← objects_filter, List.mem_filter]
  simp

theorem mem_section {p : Proj} {name : Text} {configs : List Text} {k : Isa} {o : Obj} (h : o ∈ section_ p name configs k) :
    o ∈ objects p name configs ∧ o.isa = k := by
  rw [← objects_filter, List.mem_filter] at h
  simpa using h

/-! ### Fields -/

theorem field_children (p : Proj) (i : Nat) : field (groupObj p i) .children =
    (fileOrder p ((p.folders[i]?).getD ⟨[], [], []⟩).files).map (fun k => ident .fileReference (fileNo p k)) ++
      (folderOrder p ((p.folders[i]?).getD ⟨[], [], []⟩).folders).map (fun c => ident .group (folderNo p c)) := by
  simp only [field, groupObj]
  rw [List.filter_eq_self.2, List.map_append, List.map_map, List.map_map]
  · rfl
  · intro r hr
    rcases List.mem_append.1 hr with h | h <;>
    · obtain ⟨k, -, rfl⟩ := List.mem_map.1 h
      rfl

theorem children_perm (p : Proj) (i : Nat) : (field (groupObj p i) .children).Perm
    (((p.folders[i]?).getD ⟨[], [], []⟩).files.map (fun k => ident .fileReference (fileNo p k)) ++
      ((p.folders[i]?).getD ⟨[], [], []⟩).folders.map (fun c => ident .group (folderNo p c))) := by
  rw [field_children]
  exact ((List.mergeSort_perm _ _).map _).append ((List.mergeSort_perm _ _).map _)

theorem perm_flatMap_append {α β : Type} (f g : α → List β) : ∀ l : List α, (l.flatMap fun x => f x ++ g x).Perm (l.flatMap f ++ l.flatMap g)
  | [] => List.Perm.refl _
  | a :: l => by
    simp only [List.flatMap_cons, List.append_assoc]
    refine List.Perm.append_left _ (((perm_flatMap_append f g l).append_left (g a)).trans ?_)
    rw [← List.append_assoc, ← List.append_assoc]
    exact List.perm_append_comm.append_right _

theorem perm_flatMap_congr {α β : Type} {f g : α → List β} (h : ∀ x, (f x).Perm (g x)) : ∀ l : List α, (l.flatMap f).Perm (l.flatMap g)
  | [] => List.Perm.refl _
  | a :: l => by
    rw [List.flatMap_cons, List.flatMap_cons]
    exact (h a).append (perm_flatMap_congr h l)

theorem flatMap_range {α : Type} (fs : List Folder) (sel : Folder → List α) (d : Folder) :
    (List.range fs.length).flatMap (fun i => sel ((fs[i]?).getD d)) = fs.flatMap sel := by
  have : (List.range fs.length).map (fun i => sel ((fs[i]?).getD d)) = fs.map sel := by
    apply List.ext_getElem
    · simp
    · intro i h1 h2
      have : i < fs.length := by simpa using h2
      simp [List.getElem?_eq_getElem this]
  rw [List.flatMap_def, List.flatMap_def, this]

/-- every file is in one group, every group but the first in one other -/
theorem all_children {p : Proj} (hp : Ok p) : (ident .group 0 :: (folders p).flatMap (fun i => field (groupObj p i) .children)).Perm
    ((files p).map (fun k => ident .fileReference (fileNo p k)) ++ (folders p).map (fun i => ident .group (folderNo p i))) := by
  have h1 : ((folders p).flatMap (fun i => field (groupObj p i) .children)).Perm
      ((List.range p.folders.length).flatMap fun i =>
        ((p.folders[i]?).getD ⟨[], [], []⟩).files.map (fun k => ident .fileReference (fileNo p k)) ++
        ((p.folders[i]?).getD ⟨[], [], []⟩).folders.map (fun c => ident .group (folderNo p c))) :=
    ((folders_perm p).flatMap_right _).trans (perm_flatMap_congr (children_perm p) _)
  have h2 := h1.trans (perm_flatMap_append _ _ _)
  rw [flatMap_range p.folders (fun f => f.files.map (fun k => ident .fileReference (fileNo p k))),
    flatMap_range p.folders (fun f => f.folders.map (fun c => ident .group (folderNo p c))),
    ← List.map_flatMap, ← List.map_flatMap] at h2
  refine (h2.cons _).trans (List.perm_middle.symm.trans ?_)
  refine List.Perm.append ((hp.files.trans (files_perm p).symm).map _) ?_
  have h3 := (hp.folders.trans (folders_perm p).symm).map fun c => ident .group (folderNo p c)
  rw [List.map_cons, folderNo_root hp] at h3
  exact h3

theorem file_child {p : Proj} {i k : Nat} {g : Folder} (hg : p.folders[i]? = some g) (hk : k ∈ g.files) :
    ident .fileReference (fileNo p k) ∈ field (groupObj p i) .children := by
  rw [(children_perm p i).mem_iff, hg]
  exact List.mem_append_left _ (List.mem_map_of_mem hk)

theorem folder_child {p : Proj} {i c : Nat} {g : Folder} (hg : p.folders[i]? = some g) (hc : c ∈ g.folders) :
    ident .group (folderNo p c) ∈ field (groupObj p i) .children := by
  rw [(children_perm p i).mem_iff, hg]
  exact List.mem_append_right _ (List.mem_map_of_mem hc)

theorem group_mem {p : Proj} {name : Text} {configs : List Text} {i : Nat} (h : i < p.folders.length) : groupObj p i ∈ objects p name configs :=
  (mem_section (k := .group) (List.mem_map_of_mem (mem_folders.2 h))).1

theorem file_mem {p : Proj} {name : Text} {configs : List Text} {k : Nat} (h : k < p.files.length) : fileObj p k ∈ objects p name configs :=
  (mem_section (k := .fileReference) (List.mem_map_of_mem (mem_files.2 h))).1

theorem buildFile_mem {p : Proj} {name : Text} {configs : List Text} {k : Nat} (h : k < p.files.length) : buildFileObj p k ∈ objects p name configs :=
  (mem_section (k := .buildFile) (List.mem_map_of_mem (mem_files.2 h))).1

/-! ### Where groups are shown -/

theorem join_append (ds : List Text) (d base : Text) : join (ds ++ [d]) base = join ds d ++ '/' :: base := by
  simp [join]

theorem shortName_join {l : Text} (hl : l = [] ∨ l = ['/']) (ds : List Text) {d : Text} (hd : '/' ∉ d) : shortName (l ++ join ds d) = d := by
  rcases List.eq_nil_or_concat ds with rfl | ⟨es, e, rfl⟩
  · rcases hl with rfl | rfl
    · show shortName d = d
      rw [shortName, afterLast_none hd]; rfl
    · show shortName ([] ++ '/' :: d) = d
      rw [shortName, afterLast_slash [] hd]; rfl
  · rw [List.concat_eq_append, join_append, ← List.append_assoc, shortName, afterLast_slash _ hd]; rfl

theorem cut_join {l : Text} (hl : l = [] ∨ l = ['/']) (ds : List Text) {d base : Text} (hd : d ≠ []) (hb : '/' ∉ base) :
    cut (l ++ join (ds ++ [d]) base) = some (l ++ join ds d) := by
  rw [join_append, ← List.append_assoc, cut_slash _ hb, if_neg]
  simp [join, hd]

theorem cut_join_nil {l : Text} (hl : l = [] ∨ l = ['/']) {base : Text} (hb : '/' ∉ base) : cut (l ++ join [] base) = none := by
  rcases hl with rfl | rfl
  · exact cut_noslash hb
  · exact cut_slash [] hb

theorem shown_group {p : Proj} (hp : Ok p) (name : Text) (configs : List Text) {l : Text} (hl : l = [] ∨ l = ['/']) :
    ∀ (rds : List Text), (∀ d ∈ rds, d ≠ [] ∧ '/' ∉ d) → ∀ (base : Text), '/' ∉ base → ∀ (i : Nat) (f : Folder), p.folders[i]? = some f →
      f.path = (cut (l ++ join rds.reverse base)).getD [] → Shown (objects p name configs) (groupObj p i) rds.reverse
  | [], _, base, hb, i, f, hf, e => by
    rw [List.reverse_nil, cut_join_nil hl hb] at e
    have hi : i = 0 := Decidable.byContradiction fun h => (hp.sub i f hf h).1 e
    subst hi
    have hlt := (List.getElem?_eq_some_iff.1 hf).1
    refine Shown.main (pr := projectObj) (mem_section (k := .project) (List.mem_singleton.2 rfl)).1 rfl (group_mem hlt) rfl ?_
    show [ident .group 0] = [ident .group (folderNo p 0)]
    rw [folderNo_root hp]
  | d :: rds, hds, base, hb, i, f, hf, e => by
    have hd := hds d (List.mem_cons_self ..)
    rw [List.reverse_cons, cut_join hl _ hd.1 hb] at e
    have e : f.path = l ++ join rds.reverse d := e
    have hne : f.path ≠ [] := by rw [e]; simp [join, hd.1]
    have hi : i ≠ 0 := by
      rintro rfl
      obtain ⟨f0, h0, e0⟩ := hp.root
      rw [hf] at h0
      cases h0
      exact hne e0
    obtain ⟨-, j, g, hg, hm, hgp⟩ := hp.sub i f hf hi
    rw [e] at hgp
    have ih := shown_group hp name configs hl rds (fun x hx => hds x (List.mem_cons_of_mem _ hx)) d hd.2 j g hg hgp
    have hlt := (List.getElem?_eq_some_iff.1 hf).1
    have h := Shown.child (c := groupObj p i) ih (group_mem hlt) rfl (folder_child hg hm)
    have hn : (groupObj p i).name = d := by
      simp only [groupObj, hf, Option.getD_some, e]
      exact shortName_join hl _ hd.2
    rw [hn] at h
    rw [List.reverse_cons]
    exact h

end Verif.Xcode
