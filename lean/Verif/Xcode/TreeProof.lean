import Verif.Xcode.Spec
/-! Files and folders form a tree. -/
namespace Verif.Xcode
open Spec

/-! ### Paths -/

theorem dropWhile_ne {c : Char} {n : Text} (h : c ∉ n) (r : Text) : (n ++ c :: r).dropWhile (· != c) = c :: r := by
  induction n with
  | nil => simp
  | cons a n ih =>
    rw [List.mem_cons, not_or] at h
    have ha : (a != c) = true := by simpa using Ne.symm h.1
    rw [List.cons_append, List.dropWhile_cons, if_pos ha, ih h.2]

theorem dropWhile_none {c : Char} {n : Text} (h : c ∉ n) : n.dropWhile (· != c) = [] := by
  induction n with
  | nil => rfl
  | cons a n ih =>
    rw [List.mem_cons, not_or] at h
    have ha : (a != c) = true := by simpa using Ne.symm h.1
    rw [List.dropWhile_cons, if_pos ha, ih h.2]

theorem takeWhile_ne {c : Char} {n : Text} (h : c ∉ n) (r : Text) : (n ++ c :: r).takeWhile (· != c) = n := by
  induction n with
  | nil => simp
  | cons a n ih =>
    rw [List.mem_cons, not_or] at h
    have ha : (a != c) = true := by simpa using Ne.symm h.1
    rw [List.cons_append, List.takeWhile_cons, if_pos ha, ih h.2]

theorem cut_slash (d : Text) {n : Text} (h : '/' ∉ n) : cut (d ++ '/' :: n) = if d = [] then none else some d := by
  have : (d ++ '/' :: n).reverse.dropWhile (· != '/') = '/' :: d.reverse := by
    rw [List.reverse_append, List.reverse_cons, List.append_assoc, List.singleton_append]
    exact dropWhile_ne (by simpa using h) _
  rw [cut, this]
  simp

theorem cut_noslash {n : Text} (h : '/' ∉ n) : cut n = none := by
  rw [cut, dropWhile_none (by simpa using h)]

theorem split_last {p : Text} (h : '/' ∈ p) : ∃ d n, p = d ++ '/' :: n ∧ '/' ∉ n := by
  induction p with
  | nil => exact nomatch h
  | cons a p ih =>
    by_cases hp : '/' ∈ p
    · obtain ⟨d, n, e, hn⟩ := ih hp
      exact ⟨a :: d, n, by rw [e]; rfl, hn⟩
    · have : a = '/' := by
        rcases List.mem_cons.1 h with h | h
        · exact h.symm
        · exact absurd h hp
      exact ⟨[], p, by rw [this]; rfl, hp⟩

theorem cut_some {p d : Text} (h : cut p = some d) : d ≠ [] ∧ ∃ n, p = d ++ '/' :: n ∧ '/' ∉ n := by
  by_cases hp : '/' ∈ p
  · obtain ⟨d', n, rfl, hn⟩ := split_last hp
    rw [cut_slash _ hn] at h
    split at h
    · exact nomatch h
    · next e => cases h; exact ⟨e, n, rfl, hn⟩
  · rw [cut_noslash hp] at h
    exact nomatch h

theorem cut_length {p d : Text} (h : cut p = some d) : d.length < p.length := by
  obtain ⟨-, n, rfl, -⟩ := cut_some h
  simp

theorem afterLast_slash {c : Char} (d : Text) {n : Text} (h : c ∉ n) : afterLast c (d ++ c :: n) = some n := by
  rw [afterLast, if_pos (by simp), List.reverse_append, List.reverse_cons, List.append_assoc, List.singleton_append,
    takeWhile_ne (by simpa using h), List.reverse_reverse]

theorem afterLast_none {c : Char} {n : Text} (h : c ∉ n) : afterLast c n = none := by rw [afterLast, if_neg h]

theorem relative_spec (bases : List Text) (file : Text) : Relative bases file (relative bases file) := by
  have key : ∀ (l : List Text) (b0 : Text), b0 <+: file →
      ∃ b, l.foldl (fun best b => if b.length ≤ best.length then best else if b.isPrefixOf file then b else best) b0 = b ∧
        (b ∈ l ∨ b = b0) ∧ b <+: file ∧ b0.length ≤ b.length ∧ ∀ b' ∈ l, b' <+: file → b'.length ≤ b.length := by
    intro l
    induction l with
    | nil => exact fun b0 h => ⟨b0, rfl, Or.inr rfl, h, Nat.le_refl _, fun _ h => nomatch h⟩
    | cons x l ih =>
      intro b0 h0
      rw [List.foldl_cons]
      split
      · next hl =>
        obtain ⟨b, e, hb, hp, hlen, hall⟩ := ih b0 h0
        refine ⟨b, e, hb.imp (List.mem_cons_of_mem _) id, hp, hlen, fun b' hb' hp' => ?_⟩
        rcases List.mem_cons.1 hb' with rfl | hb'
        · omega
        · exact hall b' hb' hp'
      · next hl =>
        split
        · next hx =>
          have hx' : x <+: file := List.isPrefixOf_iff_prefix.1 hx
          obtain ⟨b, e, hb, hp, hlen, hall⟩ := ih x hx'
          refine ⟨b, e, Or.inl ?_, hp, by omega, fun b' hb' hp' => ?_⟩
          · rcases hb with hb | hb
            · exact List.mem_cons_of_mem _ hb
            · exact hb ▸ List.mem_cons_self ..
          · rcases List.mem_cons.1 hb' with rfl | hb'
            · exact hlen
            · exact hall b' hb' hp'
        · next hx =>
          obtain ⟨b, e, hb, hp, hlen, hall⟩ := ih b0 h0
          refine ⟨b, e, hb.imp (List.mem_cons_of_mem _) id, hp, hlen, fun b' hb' hp' => ?_⟩
          rcases List.mem_cons.1 hb' with rfl | hb'
          · exact absurd (List.isPrefixOf_iff_prefix.2 hp') hx
          · exact hall b' hb' hp'
  obtain ⟨b, e, hb, ⟨r, hr⟩, -, hall⟩ := key bases [] (List.nil_prefix)
  refine ⟨b, hb, ?_, hall⟩
  rw [relative, e, ← hr, List.drop_left]

theorem relative_unique {bases : List Text} {file r r' : Text} (h : Relative bases file r) (h' : Relative bases file r') : r = r' := by
  obtain ⟨b, hb, e, hall⟩ := h
  obtain ⟨b', hb', e', hall'⟩ := h'
  have l1 : b.length ≤ b'.length := by
    rcases hb with hb | rfl
    · exact hall' b hb ⟨r, e.symm⟩
    · exact Nat.zero_le _
  have l2 : b'.length ≤ b.length := by
    rcases hb' with hb' | rfl
    · exact hall b' hb' ⟨r', e'.symm⟩
    · exact Nat.zero_le _
  exact (List.append_inj (e.symm.trans e') (by omega)).2

/-! ### Lists -/

theorem flatMap_modify {α : Type} {u : α → α} {sel : α → List Nat} {x : Nat} (hu : ∀ f, sel (u f) = sel f ++ [x]) :
    ∀ {l : List α} {i : Nat} {g : α}, l[i]? = some g → ((l.modify i u).flatMap sel).Perm (x :: l.flatMap sel)
  | [], _, _, h => nomatch h
  | a :: l, 0, _, _ => by
    rw [List.modify_zero_cons, List.flatMap_cons, List.flatMap_cons, hu, List.append_assoc]
    exact List.perm_middle
  | a :: l, i + 1, g, h => by
    rw [List.modify_succ_cons, List.flatMap_cons, List.flatMap_cons]
    exact ((flatMap_modify hu (l := l) (i := i) (g := g) h).append_left _).trans List.perm_middle

theorem map_modify {α β : Type} {u : α → α} {sel : α → β} (hu : ∀ f, sel (u f) = sel f) : ∀ (l : List α) (i : Nat), (l.modify i u).map sel = l.map sel
  | [], i => by cases i <;> rfl
  | a :: l, 0 => by rw [List.modify_zero_cons, List.map_cons, List.map_cons, hu]
  | a :: l, i + 1 => by rw [List.modify_succ_cons, List.map_cons, List.map_cons, map_modify hu l i]

theorem flatMap_modify_same {α : Type} {u : α → α} {sel : α → List Nat} (hu : ∀ f, sel (u f) = sel f) (l : List α) (i : Nat) :
    (l.modify i u).flatMap sel = l.flatMap sel := by
  rw [List.flatMap_def, List.flatMap_def, map_modify hu]

theorem modify_get {α : Type} {u : α → α} {l : List α} {i j : Nat} {g : α} (h : l[j]? = some g) :
    (l.modify i u)[j]? = some (if i = j then u g else g) := by
  rw [List.getElem?_modify, h]
  simp

theorem modify_get' {α : Type} {u : α → α} {l : List α} {i j : Nat} {g : α} (h : (l.modify i u)[j]? = some g) :
    ∃ g', l[j]? = some g' ∧ g = if i = j then u g' else g' := by
  rw [List.getElem?_modify] at h
  cases e : l[j]? with
  | none => rw [e] at h; simp at h
  | some g' => rw [e] at h; exact ⟨g', rfl, by simpa using h.symm⟩

/-! ### The tree -/

/-- files and folders form a tree -/
structure Ok (p : Proj) : Prop where
  root : ∃ f, p.folders[0]? = some f ∧ f.path = []
  sub : ∀ (i : Nat) (f : Folder), p.folders[i]? = some f → i ≠ 0 →
    f.path ≠ [] ∧ ∃ (j : Nat) (g : Folder), p.folders[j]? = some g ∧ i ∈ g.folders ∧ g.path = (cut f.path).getD []
  nodup : (p.folders.map Folder.path).Nodup
  files : (p.folders.flatMap Folder.files).Perm (List.range p.files.length)
  folders : (0 :: p.folders.flatMap Folder.folders).Perm (List.range p.folders.length)

theorem ok_start : Ok start where
  root := ⟨_, rfl, rfl⟩
  sub i f h hi := by
    cases i with
    | zero => exact absurd rfl hi
    | succ i => exact nomatch h
  nodup := by decide
  files := List.Perm.refl _
  folders := List.Perm.refl _

/-- what is kept when folders are added -/
def Keeps (p q : Proj) : Prop :=
  q.files = p.files ∧ ∀ (i : Nat) (g : Folder), p.folders[i]? = some g → ∃ g', q.folders[i]? = some g' ∧ g'.path = g.path ∧ g'.files = g.files

theorem getFolder_ok : ∀ (fuel : Nat) (p : Proj) (path : Text), Ok p → path.length < fuel →
    Ok (getFolder fuel p path).1 ∧ Keeps p (getFolder fuel p path).1 ∧
      (∃ g, (getFolder fuel p path).1.folders[(getFolder fuel p path).2]? = some g ∧ g.path = (cut path).getD []) ∧
      ∀ f ∈ (getFolder fuel p path).1.folders, f.path ∈ p.folders.map Folder.path ∨ f.path.length < path.length
  | 0, _, _, _, h => absurd h (Nat.not_lt_zero _)
  | fuel + 1, p, path, hp, hl => by
    have keep : Keeps p p := ⟨rfl, fun i g h => ⟨g, h, rfl, rfl⟩⟩
    rw [getFolder]
    cases hc : cut path with
    | none => exact ⟨hp, keep, by simpa using hp.root, fun f hf => Or.inl (List.mem_map_of_mem hf)⟩
    | some d =>
      simp only
      cases hi : p.folders.findIdx? (fun f => f.path == d) with
      | some i =>
        simp only
        rw [List.findIdx?_eq_some_iff_getElem] at hi
        obtain ⟨h1, h2, -⟩ := hi
        exact ⟨hp, keep, ⟨_, List.getElem?_eq_getElem h1, by simpa using h2⟩, fun f hf => Or.inl (List.mem_map_of_mem hf)⟩
      | none =>
        simp only
        have hlen := cut_length hc
        obtain ⟨hok, hkeep, ⟨g, hg, hgp⟩, hnew⟩ := getFolder_ok fuel p d hp (by omega)
        generalize getFolder fuel p d = r at hok hkeep hg hnew ⊢
        obtain ⟨q, j⟩ := r
        simp only at hok hkeep hg hnew ⊢
        have hnone : ∀ f ∈ p.folders, f.path ≠ d := by
          rw [List.findIdx?_eq_none_iff] at hi
          intro f hf e
          have := hi f hf
          simp [e] at this
        have hfresh : d ∉ q.folders.map Folder.path := by
          intro hm
          obtain ⟨f, hf, e⟩ := List.mem_map.1 hm
          rcases hnew f hf with h | h
          · obtain ⟨f', hf', e'⟩ := List.mem_map.1 h
            exact hnone f' hf' (e'.trans e)
          · rw [e] at h; omega
        have hd := (cut_some hc).1
        have upath : ∀ f : Folder, ({ f with folders := f.folders ++ [q.folders.length] } : Folder).path = f.path := fun _ => rfl
        have ufiles : ∀ f : Folder, ({ f with folders := f.folders ++ [q.folders.length] } : Folder).files = f.files := fun _ => rfl
        have ufolders : ∀ f : Folder, ({ f with folders := f.folders ++ [q.folders.length] } : Folder).folders = f.folders ++ [q.folders.length] := fun _ => rfl
        generalize hM : q.folders.modify j (fun f => { f with folders := f.folders ++ [q.folders.length] }) = M
        have hMlen : M.length = q.folders.length := by rw [← hM, List.length_modify]
        have old : ∀ (i : Nat) (f : Folder), q.folders[i]? = some f → ∃ f', (M ++ [⟨d, [], []⟩])[i]? = some f' ∧ f'.path = f.path ∧ f'.files = f.files ∧
            (∀ x ∈ f.folders, x ∈ f'.folders) ∧ (i = j → q.folders.length ∈ f'.folders) := by
          intro i f hf
          have h := modify_get (u := fun f => { f with folders := f.folders ++ [q.folders.length] }) (i := j) hf
          rw [hM] at h
          have hlt : i < M.length := by
            rw [hMlen]
            exact (List.getElem?_eq_some_iff.1 hf).1
          rw [List.getElem?_append_left hlt]
          refine ⟨_, h, ?_, ?_, ?_, ?_⟩
          · split <;> rfl
          · split <;> rfl
          · intro x hx
            split
            · exact List.mem_append_left _ hx
            · exact hx
          · rintro rfl
            rw [if_pos rfl]
            simp
        refine ⟨?_, ?_, ?_, ?_⟩
        · refine ⟨?_, ?_, ?_, ?_, ?_⟩
          · obtain ⟨f, hf, e⟩ := hok.root
            obtain ⟨f', hf', e', -⟩ := old 0 f hf
            exact ⟨f', hf', e'.trans e⟩
          · intro i f hf hi0
            show f.path ≠ [] ∧ ∃ (j : Nat) (g : Folder), (M ++ [⟨d, [], []⟩])[j]? = some g ∧ _
            have hf : (M ++ [⟨d, [], []⟩])[i]? = some f := hf
            by_cases hlt : i < M.length
            · rw [List.getElem?_append_left hlt] at hf
              rw [← hM] at hf
              obtain ⟨f0, hf0, e0⟩ := modify_get' hf
              have ep : f.path = f0.path := by rw [e0]; split <;> rfl
              obtain ⟨h1, j', g', hg', hmem, hpath⟩ := hok.sub i f0 hf0 hi0
              obtain ⟨g'', hg'', p'', -, m'', -⟩ := old j' g' hg'
              exact ⟨ep ▸ h1, j', g'', hg'', m'' i hmem, by rw [p'', hpath, ep]⟩
            · rw [List.getElem?_append_right (by omega)] at hf
              have hi : i = M.length := by
                have := (List.getElem?_eq_some_iff.1 hf).1
                simp at this
                omega
              subst hi
              simp at hf
              subst hf
              obtain ⟨g'', hg'', p'', -, -, m''⟩ := old j g hg
              exact ⟨hd, j, g'', hg'', hMlen ▸ m'' rfl, by rw [p'', hgp]⟩
          · show ((M ++ [(⟨d, [], []⟩ : Folder)]).map Folder.path).Nodup
            rw [List.map_append, ← hM, map_modify upath]
            exact List.nodup_append.2 ⟨hok.nodup, by simp, fun a ha b hb e => by
              simp at hb
              exact hfresh (hb ▸ e ▸ ha)⟩
          · show ((M ++ [(⟨d, [], []⟩ : Folder)]).flatMap Folder.files).Perm _
            rw [List.flatMap_append, ← hM, flatMap_modify_same ufiles]
            simpa using hok.files
          · show (0 :: (M ++ [(⟨d, [], []⟩ : Folder)]).flatMap Folder.folders).Perm (List.range (M ++ [(⟨d, [], []⟩ : Folder)]).length)
            rw [List.flatMap_append, List.length_append, hMlen]
            have h1 := flatMap_modify (sel := Folder.folders) ufolders hg
            rw [hM] at h1
            have h2 : (0 :: M.flatMap Folder.folders).Perm (q.folders.length :: (0 :: q.folders.flatMap Folder.folders)) :=
              (h1.cons 0).trans (List.Perm.swap _ _ _)
            have h3 := h2.trans (hok.folders.cons q.folders.length)
            have e : List.range (q.folders.length + [(⟨d, [], []⟩ : Folder)].length) = List.range q.folders.length ++ [q.folders.length] := by
              simp [List.range_succ]
            rw [e]
            have h4 : (0 :: (M.flatMap Folder.folders ++ [(⟨d, [], []⟩ : Folder)].flatMap Folder.folders)) = 0 :: M.flatMap Folder.folders := by simp
            rw [h4]
            exact h3.trans (List.perm_append_singleton _ _).symm
        · refine ⟨hkeep.1, fun i f hf => ?_⟩
          obtain ⟨f', hf', p', q'⟩ := hkeep.2 i f hf
          obtain ⟨f'', hf'', p'', q'', -⟩ := old i f' hf'
          exact ⟨f'', hf'', p''.trans p', q''.trans q'⟩
        · refine ⟨⟨d, [], []⟩, ?_, rfl⟩
          show (M ++ [⟨d, [], []⟩])[q.folders.length]? = _
          rw [← hMlen]
          simp
        · intro f hf
          have hf : f ∈ M ++ [⟨d, [], []⟩] := hf
          rcases List.mem_append.1 hf with hf | hf
          · have : f.path ∈ q.folders.map Folder.path := by
              rw [← map_modify (u := fun f => { f with folders := f.folders ++ [q.folders.length] }) upath q.folders j, hM]
              exact List.mem_map_of_mem hf
            obtain ⟨f', hf', e⟩ := List.mem_map.1 this
            rcases hnew f' hf' with h | h
            · exact Or.inl (e ▸ h)
            · exact Or.inr (by rw [← e]; omega)
          · simp at hf
            subst hf
            exact Or.inr hlen

/-- where the files are -/
def Placed (bases : List Text) (fs : List Text) (p : Proj) : Prop :=
  p.files.length = fs.length ∧ ∀ (k : Nat) x, fs[k]? = some x → ∃ f g, p.files[k]? = some f ∧ f.full = x ∧ f.name = nameOf (relative bases x) ∧
    p.folders[f.folder]? = some g ∧ k ∈ g.files ∧ g.path = (cut (relative bases x)).getD []

theorem addFile_ok {bases fs : List Text} {p : Proj} (x : Text) (hp : Ok p) (hf : Placed bases fs p) :
    Ok (addFile bases p x) ∧ Placed bases (fs ++ [x]) (addFile bases p x) := by
  obtain ⟨hok, hkeep, ⟨g, hg, hgp⟩, -⟩ := getFolder_ok ((relative bases x).length + 1) p (relative bases x) hp (by omega)
  rw [addFile]
  generalize getFolder ((relative bases x).length + 1) p (relative bases x) = r at hok hkeep hg
  obtain ⟨q, j⟩ := r
  simp only at hok hkeep hg ⊢
  have upath : ∀ f : Folder, ({ f with files := f.files ++ [q.files.length] } : Folder).path = f.path := fun _ => rfl
  have ufolders : ∀ f : Folder, ({ f with files := f.files ++ [q.files.length] } : Folder).folders = f.folders := fun _ => rfl
  have ufiles : ∀ f : Folder, ({ f with files := f.files ++ [q.files.length] } : Folder).files = f.files ++ [q.files.length] := fun _ => rfl
  generalize hM : q.folders.modify j (fun f => { f with files := f.files ++ [q.files.length] }) = M
  have hMlen : M.length = q.folders.length := by rw [← hM, List.length_modify]
  have old : ∀ (i : Nat) (f : Folder), q.folders[i]? = some f → ∃ f', M[i]? = some f' ∧ f'.path = f.path ∧ f'.folders = f.folders ∧
      (∀ x ∈ f.files, x ∈ f'.files) ∧ (i = j → q.files.length ∈ f'.files) := by
    intro i f hf
    have h := modify_get (u := fun f => { f with files := f.files ++ [q.files.length] }) (i := j) hf
    rw [hM] at h
    refine ⟨_, h, ?_, ?_, ?_, ?_⟩
    · split <;> rfl
    · split <;> rfl
    · intro x hx
      split
      · exact List.mem_append_left _ hx
      · exact hx
    · rintro rfl
      rw [if_pos rfl]
      simp
  refine ⟨⟨?_, ?_, ?_, ?_, ?_⟩, ?_, ?_⟩
  · obtain ⟨f, hf, e⟩ := hok.root
    obtain ⟨f', hf', e', -⟩ := old 0 f hf
    exact ⟨f', hf', e'.trans e⟩
  · intro i f hf hi0
    have hf : M[i]? = some f := hf
    rw [← hM] at hf
    obtain ⟨f0, hf0, e0⟩ := modify_get' hf
    have ep : f.path = f0.path := by rw [e0]; split <;> rfl
    obtain ⟨h1, j', g', hg', hmem, hpath⟩ := hok.sub i f0 hf0 hi0
    obtain ⟨g'', hg'', p'', m'', -⟩ := old j' g' hg'
    exact ⟨ep ▸ h1, j', g'', hg'', m'' ▸ hmem, by rw [p'', hpath, ep]⟩
  · show (M.map Folder.path).Nodup
    rw [← hM, map_modify upath]
    exact hok.nodup
  · show (M.flatMap Folder.files).Perm (List.range (q.files ++ [_]).length)
    have h1 := flatMap_modify (sel := Folder.files) ufiles hg
    rw [hM] at h1
    rw [List.length_append, List.length_singleton, List.range_succ]
    exact (h1.trans (hok.files.cons _)).trans (List.perm_append_singleton _ _).symm
  · show (0 :: M.flatMap Folder.folders).Perm (List.range M.length)
    rw [← hM, flatMap_modify_same ufolders, List.length_modify]
    exact hok.folders
  · show (q.files ++ [_]).length = _
    rw [hkeep.1, List.length_append, List.length_append, hf.1]
    rfl
  · intro k y hy
    have hlen : q.files.length = fs.length := by rw [hkeep.1, hf.1]
    by_cases hk : k < fs.length
    · rw [List.getElem?_append_left hk] at hy
      obtain ⟨f, g0, h1, h2, h3, h4, h5, h6⟩ := hf.2 k y hy
      obtain ⟨g1, hg1, p1, q1⟩ := hkeep.2 _ _ h4
      obtain ⟨g2, hg2, p2, -, m2, -⟩ := old _ _ hg1
      refine ⟨f, g2, ?_, h2, h3, hg2, m2 k (q1 ▸ h5), by rw [p2, p1, h6]⟩
      show (q.files ++ [_])[k]? = _
      rw [List.getElem?_append_left (by omega), hkeep.1, h1]
    · rw [List.getElem?_append_right (by omega)] at hy
      have hk' : k = fs.length := by
        have := (List.getElem?_eq_some_iff.1 hy).1
        simp at this
        omega
      subst hk'
      simp at hy
      subst hy
      obtain ⟨g2, hg2, p2, -, -, m2⟩ := old j g hg
      refine ⟨⟨nameOf (relative bases x), x, j⟩, g2, ?_, rfl, rfl, hg2, hlen ▸ m2 rfl, by rw [p2, hgp]⟩
      show (q.files ++ [_])[fs.length]? = _
      rw [← hlen]
      simp

theorem build_ok (bases fs : List Text) : Ok (build bases fs) ∧ Placed bases fs (build bases fs) := by
  have key : ∀ (fs done : List Text) (p : Proj), Ok p → Placed bases done p →
      Ok (fs.foldl (addFile bases) p) ∧ Placed bases (done ++ fs) (fs.foldl (addFile bases) p) := by
    intro fs
    induction fs with
    | nil => intro done p h1 h2; rw [List.append_nil]; exact ⟨h1, h2⟩
    | cons x fs ih =>
      intro done p h1 h2
      have h := addFile_ok x h1 h2
      have := ih (done ++ [x]) _ h.1 h.2
      rw [List.append_assoc] at this
      exact this
  exact key fs [] start ok_start ⟨rfl, fun k x h => nomatch h⟩

end Verif.Xcode
