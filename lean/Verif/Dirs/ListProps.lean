import Verif.Dirs.Stamp
/-! Properties C82 (what a directory list contains) and C83 (what its stamp notices). -/
namespace Verif.Dirs
open Unity (Name nameLt)

/-! ### C82 -/

/-- C82 (partial: directories whose names begin with two dots are left out, see `C82_dotdot`). A directory list contains exactly the
files of the directory, and of the directories below it when it is recursive, that match one of the patterns, that are not in
a directory below an excluded path and that are not excluded by name or pattern; with the state of their read only flags. -/
theorem C82_files_partial (c : Config) (root : Name) (e : Entries) (hn : NoDotDot e) : ∃ l, dirList c root e = some l ∧
    ∀ full ro, (full, ro) ∈ l.1 ↔ ∃ ds n, FileAt e ds n ro ∧ full = dirPath c.sl root ds ++ n ∧ Entered c root ds ∧ Wanted c n full := by
  obtain ⟨l, h1, h2, _⟩ := dirList_spec c root e
  exact ⟨l, h1, fun full ro => by rw [h2.mem_iff]; exact walk_files c e root full ro hn⟩

/-- C82 (partial for the same reason). The directories of a list, when it asks for them: all directories in the directories looked into,
excluded or not. -/
theorem C82_dirs_partial (c : Config) (root : Name) (e : Entries) (hn : NoDotDot e) : ∃ l, dirList c root e = some l ∧
    ∀ full, full ∈ l.2 ↔ c.includeDirs = true ∧ ∃ ds n, DirAt e ds n ∧ full = dirPath c.sl root (ds ++ [n]) ∧ Entered c root ds := by
  obtain ⟨l, h1, _, h2, _⟩ := dirList_spec c root e
  exact ⟨l, h1, fun full => by rw [h2.mem_iff]; exact walk_dirs c e root full hn⟩

/-- C82. No file and no directory is listed twice, and both lists are sorted. -/
theorem C82_sorted (c : Config) (root : Name) (e : Entries) (hn : NoDotDot e) (hv : Valid c.sl e) : ∃ l, dirList c root e = some l ∧
    (l.1.map Prod.fst).Nodup ∧ l.2.Nodup ∧
    l.1.Pairwise (fun x y => nameLt y.1 x.1 = false) ∧ l.2.Pairwise (fun x y => nameLt y x = false) := by
  obtain ⟨l, h1, h2, h3, h4, h5⟩ := dirList_spec c root e
  exact ⟨l, h1, (h2.map _).nodup_iff.mpr (walk_nodup c e root hn hv), h3.nodup_iff.mpr (walk_dirs_nodup c e root hn hv), h4, h5⟩

/-- C82. The list depends on what is in the directories only, not on the order in which the file system returns it. -/
theorem C82_order (c : Config) (root : Name) (e e' : Entries) (hs : c.sl ≠ '\x00') (hr : '\x00' ∉ root)
    (hn : NoDotDot e) (hn' : NoDotDot e') (hv : Valid c.sl e) (hv' : Valid c.sl e')
    (hf : ∀ ds n ro, FileAt e ds n ro ↔ FileAt e' ds n ro) (hd : ∀ ds n, DirAt e ds n ↔ DirAt e' ds n) :
    dirList c root e = dirList c root e' := by
  have p1 : (walk c root e).1.Perm (walk c root e').1 := by
    refine (List.perm_ext_iff_of_nodup (nodup_of_map (walk_nodup c e root hn hv)) (nodup_of_map (walk_nodup c e' root hn' hv'))).mpr ?_
    rintro ⟨full, ro⟩
    rw [walk_files c e root full ro hn, walk_files c e' root full ro hn']
    simp only [hf]
  have p2 : (walk c root e).2.Perm (walk c root e').2 := by
    refine (List.perm_ext_iff_of_nodup (walk_dirs_nodup c e root hn hv) (walk_dirs_nodup c e' root hn' hv')).mpr ?_
    intro full
    rw [walk_dirs c e root full hn, walk_dirs c e' root full hn']
    simp only [hd]
  have nulF : ∀ f ∈ (walk c root e).1, '\x00' ∉ f.1 := by
    rintro ⟨f, ro⟩ hm
    obtain ⟨ds, n, h1, h2, _⟩ := (walk_files c e root f ro hn).mp hm
    obtain ⟨h3, _, h4, _⟩ := h1.names hv
    simp only [h2, List.mem_append, not_or]
    exact ⟨dirPath_noNul hr hs fun d hd => (h3 d hd).2.1, h4⟩
  have nulD : ∀ f ∈ (walk c root e).2, '\x00' ∉ f := by
    intro f hm
    obtain ⟨_, ds, n, h1, h2, _⟩ := (walk_dirs c e root f hn).mp hm
    obtain ⟨h3, _, h4, _⟩ := h1.names hv
    rw [h2]
    refine dirPath_noNul hr hs fun d hd => ?_
    rcases List.mem_append.mp hd with hd | hd
    · exact (h3 d hd).2.1
    · rw [List.mem_singleton.mp hd]; exact h4
  have s1 := Unity.sort_unique Unity.nameLt_weak p1 (by
    intro a ha b hb h1 h2
    have he : a.1 = b.1 := Unity.nameLt_equiv (nulF a ha) (nulF b hb) h1 h2
    have hnd := walk_nodup c e root hn hv
    rw [List.Nodup, List.pairwise_map] at hnd
    refine Classical.byContradiction fun hne => ?_
    rcases List.getElem_of_mem ha with ⟨i, hi, rfl⟩
    rcases List.getElem_of_mem hb with ⟨j, hj, rfl⟩
    rw [List.pairwise_iff_getElem] at hnd
    rcases Nat.lt_trichotomy i j with h | h | h
    · exact hnd i j hi hj h he
    · subst h; exact hne rfl
    · exact hnd j i hj hi h he.symm)
  have s2 := Unity.sort_unique nameLt_weak' p2 (fun a ha b hb h1 h2 => Unity.nameLt_equiv (nulD a ha) (nulD b hb) h1 h2)
  unfold dirList
  rw [s1, s2]

/-! ### C83 -/

/-- a list on Windows: the path begins with a drive, and there is no other colon (Windows allows none in names) -/
structure Drive (root : Name) (e : Entries) : Prop where
  drive : ∃ d r, root = d :: ':' :: r ∧ d ≠ ':' ∧ ':' ∉ r
  files : ∀ ds n ro, FileAt e ds n ro → ':' ∉ n ∧ ∀ d ∈ ds, ':' ∉ d
  dirs : ∀ ds n, DirAt e ds n → ':' ∉ n ∧ ∀ d ∈ ds, ':' ∉ d

theorem chunks_eq {root : Name} {d : Char} {r : Name} (h : root = d :: ':' :: r) : ∀ (l : List Name), (∀ x ∈ l, ∃ t, x = root ++ t) →
    l.flatten = (l.map fun x => x.drop 2).flatMap fun t => d :: ':' :: t
  | [], _ => by simp
  | x :: l, hx => by
    obtain ⟨t, ht⟩ := hx x (by simp)
    simp only [List.flatten_cons, List.map_cons, List.flatMap_cons]
    rw [chunks_eq h l (fun y hy => hx y (by simp [hy])), ht, h]
    simp

theorem drop_inj {root : Name} {d : Char} {r : Name} (h : root = d :: ':' :: r) : ∀ (l l' : List Name), (∀ x ∈ l, ∃ t, x = root ++ t) →
    (∀ x ∈ l', ∃ t, x = root ++ t) → (l.map fun x => x.drop 2) = (l'.map fun x => x.drop 2) → l = l'
  | [], [], _, _, _ => rfl
  | [], _ :: _, _, _, h => by simp at h
  | _ :: _, [], _, _, h => by simp at h
  | x :: l, y :: l', hx, hy, he => by
    simp only [List.map_cons, List.cons.injEq] at he
    obtain ⟨t, ht⟩ := hx x (by simp)
    obtain ⟨t', ht'⟩ := hy y (by simp)
    rw [drop_inj h l l' (fun z hz => hx z (by simp [hz])) (fun z hz => hy z (by simp [hz])) he.2]
    have h1 := he.1
    rw [ht, ht', h] at h1
    rw [ht, ht', h]
    simp at h1
    simp [h1]

/-- the texts of the files and directories of a list -/
theorem texts (c : Config) (root : Name) (e : Entries) (l : List (Name × Bool) × List Name) (hn : NoDotDot e) (hv : Valid c.sl e)
    (hs0 : c.sl ≠ '\x00') (hs1 : c.sl ≠ '\x01') (hl : dirList c root e = some l) :
    (∀ x ∈ l.1.map (fileText c), (∃ ds n ro b, FileAt e ds n ro ∧ x = root ++ ((ds.flatMap fun d => d ++ [c.sl]) ++ n) ++ b ∧
      (b = [] ∨ b = ['\x00'] ∨ b = ['\x01'])) ∧ (x.getLast? == some c.sl) = false) ∧
    (∀ x ∈ l.2, (∃ ds n, DirAt e ds n ∧ x = root ++ (ds ++ [n]).flatMap fun d => d ++ [c.sl]) ∧ (x.getLast? == some c.sl) = true) := by
  obtain ⟨l', h1, h2, h3, _⟩ := dirList_spec c root e
  rw [h1] at hl; cases hl
  refine ⟨?_, ?_⟩
  · intro x hx
    obtain ⟨⟨f, ro⟩, hf, rfl⟩ := List.mem_map.mp hx
    obtain ⟨ds, n, h4, rfl, _⟩ := (walk_files c e root f ro hn).mp (h2.mem_iff.mp hf)
    refine ⟨⟨ds, n, ro, if c.includeReadOnly then [if ro then '\x01' else '\x00'] else [], h4, ?_, ?_⟩, fileText_last c hs0 hs1 _ n ro (h4.names hv).2.2.2 (h4.names hv).2.1⟩
    · simp [fileText, dirPath]
    · split
      · cases ro <;> simp
      · simp
  · intro x hx
    obtain ⟨_, ds, n, h4, rfl, _⟩ := (walk_dirs c e root x hn).mp (h3.mem_iff.mp hx)
    refine ⟨⟨ds, n, h4, rfl⟩, ?_⟩
    have : dirPath c.sl root (ds ++ [n]) = (dirPath c.sl root ds ++ n) ++ [c.sl] := by simp [dirPath]
    rw [this]
    simp

/-- C83 on Windows. Two lists of a path (with the same options) whose hashed texts are equal contain the same files and the same
directories, and files with the same state of the read only flag when that is asked for. So when the hash tells the texts
apart, every change is noticed. -/
theorem C83_windows (c : Config) (root : Name) (e e' : Entries) (l l' : List (Name × Bool) × List Name)
    (hs0 : c.sl ≠ '\x00') (hs1 : c.sl ≠ '\x01') (hsc : c.sl ≠ ':') (hn : NoDotDot e) (hn' : NoDotDot e') (hv : Valid c.sl e) (hv' : Valid c.sl e')
    (hD : Drive root e) (hD' : Drive root e') (hl : dirList c root e = some l) (hl' : dirList c root e' = some l')
    (h : stampText c l = stampText c l') :
    l.1.map Prod.fst = l'.1.map Prod.fst ∧ l.2 = l'.2 ∧ (c.includeReadOnly = true → l = l') := by
  obtain ⟨d, r, hr, hd, hcr⟩ := hD.drive
  obtain ⟨t1, t2⟩ := texts c root e l hn hv hs0 hs1 hl
  obtain ⟨t1', t2'⟩ := texts c root e' l' hn' hv' hs0 hs1 hl'
  have form : ∀ (e : Entries) (l : List (Name × Bool) × List Name), Drive root e →
      (∀ x ∈ l.1.map (fileText c), (∃ ds n ro b, FileAt e ds n ro ∧ x = root ++ ((ds.flatMap fun d => d ++ [c.sl]) ++ n) ++ b ∧
        (b = [] ∨ b = ['\x00'] ∨ b = ['\x01'])) ∧ (x.getLast? == some c.sl) = false) →
      (∀ x ∈ l.2, (∃ ds n, DirAt e ds n ∧ x = root ++ (ds ++ [n]).flatMap fun d => d ++ [c.sl]) ∧ (x.getLast? == some c.sl) = true) →
      ∀ x ∈ l.1.map (fileText c) ++ l.2, ∃ t, x = root ++ t ∧ ':' ∉ t := by
    intro e l hD t1 t2 x hx
    rcases List.mem_append.mp hx with hx | hx
    · obtain ⟨⟨ds, n, ro, b, h1, h2, h3⟩, _⟩ := t1 x hx
      refine ⟨((ds.flatMap fun d => d ++ [c.sl]) ++ n) ++ b, by rw [h2, List.append_assoc], ?_⟩
      obtain ⟨h4, h5⟩ := hD.files ds n ro h1
      simp only [List.mem_append, List.mem_flatMap, List.mem_singleton, not_or, not_exists, not_and]
      refine ⟨⟨fun x hx => ⟨h5 x hx, hsc.symm⟩, h4⟩, ?_⟩
      rcases h3 with rfl | rfl | rfl <;> simp
    · obtain ⟨⟨ds, n, h1, h2⟩, _⟩ := t2 x hx
      refine ⟨_, h2, ?_⟩
      obtain ⟨h4, h5⟩ := hD.dirs ds n h1
      simp only [List.mem_append, List.mem_flatMap, List.mem_singleton, not_or, not_exists, not_and]
      refine fun x hx => ⟨?_, hsc.symm⟩
      rcases hx with hx | rfl
      · exact h5 x hx
      · exact h4
  have f := form e l hD t1 t2
  have f' := form e' l' hD' t1' t2'
  rw [stampText_eq, stampText_eq, chunks_eq hr _ (fun x hx => (f x hx).imp fun _ h => h.1),
    chunks_eq hr _ (fun x hx => (f' x hx).imp fun _ h => h.1)] at h
  have hc : ∀ (m : List Name), (∀ x ∈ m, ∃ t, x = root ++ t ∧ ':' ∉ t) → ∀ t ∈ m.map fun x => x.drop 2, ':' ∉ t := by
    intro m hm t ht
    obtain ⟨x, hx, rfl⟩ := List.mem_map.mp ht
    obtain ⟨t, rfl, ht'⟩ := hm x hx
    simp only [hr, List.cons_append, List.drop_succ_cons, List.drop_zero, List.mem_append, not_or]
    exact ⟨hcr, ht'⟩
  have e1 := colon_inj hd _ _ (hc _ f) (hc _ f') h
  have e2 := drop_inj hr _ _ (fun x hx => (f x hx).imp fun _ h => h.1) (fun x hx => (f' x hx).imp fun _ h => h.1) e1
  obtain ⟨e3, e4⟩ := split_inj (fun x : Name => x.getLast? == some c.sl) (fun x hx => (t1 x hx).2) (fun x hx => (t2 x hx).2)
    (fun x hx => (t1' x hx).2) (fun x hx => (t2' x hx).2) e2
  obtain ⟨e5, e6⟩ := fileText_inj c l.1 l'.1 e3
  exact ⟨e5, e4, fun hi => Prod.ext (e6 hi) e4⟩

/-- C83 on Windows, for stamps: when the hash of one list is neither that of the other by accident nor 1, different lists have different
stamps. -/
theorem C83_stamp (hash : Name → Nat) (c : Config) (root : Name) (e e' : Entries) (l l' : List (Name × Bool) × List Name)
    (hs0 : c.sl ≠ '\x00') (hs1 : c.sl ≠ '\x01') (hsc : c.sl ≠ ':') (hn : NoDotDot e) (hn' : NoDotDot e') (hv : Valid c.sl e) (hv' : Valid c.sl e')
    (hD : Drive root e) (hD' : Drive root e') (hl : dirList c root e = some l) (hl' : dirList c root e' = some l')
    (hh : hash (stampText c l) = hash (stampText c l') → stampText c l = stampText c l')
    (h1 : hash (stampText c l) ≠ 1) (h1' : hash (stampText c l') ≠ 1) (h : stamp hash c l = stamp hash c l') :
    l.1.map Prod.fst = l'.1.map Prod.fst ∧ l.2 = l'.2 ∧ (c.includeReadOnly = true → l = l') := by
  unfold stamp at h
  by_cases he : (l.1.isEmpty && l.2.isEmpty) = true
  · rw [if_pos he] at h
    by_cases he' : (l'.1.isEmpty && l'.2.isEmpty) = true
    · obtain ⟨a, b⟩ := l
      obtain ⟨a', b'⟩ := l'
      simp only [Bool.and_eq_true, List.isEmpty_iff] at he he'
      obtain ⟨rfl, rfl⟩ := he
      obtain ⟨rfl, rfl⟩ := he'
      exact ⟨rfl, rfl, fun _ => rfl⟩
    · rw [if_neg he'] at h
      exact absurd h.symm h1'
  · rw [if_neg he] at h
    by_cases he' : (l'.1.isEmpty && l'.2.isEmpty) = true
    · rw [if_pos he'] at h
      exact absurd h h1
    · rw [if_neg he'] at h
      exact C83_windows c root e e' l l' hs0 hs1 hsc hn hn' hv hv' hD hD' hl hl' (hh h)

/-- C83 on other platforms (partial: lists of a single directory, without its directories; see `C83_collision` for recursive lists).
Equal texts mean equal files. -/
theorem C83_flat_partial (c : Config) (r : Name) (e e' : Entries) (l l' : List (Name × Bool) × List Name)
    (hs0 : c.sl ≠ '\x00') (hs1 : c.sl ≠ '\x01') (hrec : c.recursive = false) (hinc : c.includeDirs = false)
    (hn : NoDotDot e) (hn' : NoDotDot e') (hv : Valid c.sl e) (hv' : Valid c.sl e')
    (hl : dirList c (c.sl :: r) e = some l) (hl' : dirList c (c.sl :: r) e' = some l') (h : stampText c l = stampText c l') :
    l.1.map Prod.fst = l'.1.map Prod.fst ∧ l.2 = l'.2 ∧ (c.includeReadOnly = true → l = l') := by
  have nodirs : ∀ e l, NoDotDot e → dirList c (c.sl :: r) e = some l → l.2 = [] := by
    intro e l hn hl
    obtain ⟨l', h1, h2, h3, _⟩ := dirList_spec c (c.sl :: r) e
    rw [h1] at hl; cases hl
    refine List.eq_nil_iff_forall_not_mem.mpr fun x hx => ?_
    have := ((walk_dirs c e _ x hn).mp (h3.mem_iff.mp hx)).1
    rw [hinc] at this; cases this
  have flat : ∀ e l, NoDotDot e → Valid c.sl e → dirList c (c.sl :: r) e = some l →
      ∀ x ∈ l.1.map (fileText c), ∃ t, x = (c.sl :: r) ++ t ∧ c.sl ∉ t := by
    intro e l hn hv hl x hx
    obtain ⟨l', h1, h2, h3, _⟩ := dirList_spec c (c.sl :: r) e
    rw [h1] at hl; cases hl
    obtain ⟨⟨f, ro⟩, hf, rfl⟩ := List.mem_map.mp hx
    obtain ⟨ds, n, h4, rfl, h5, _⟩ := (walk_files c e _ f ro hn).mp (h2.mem_iff.mp hf)
    have : ds = [] := by
      cases ds with
      | nil => rfl
      | cons d ds => have := (h5 (by simp)).1; rw [hrec] at this; cases this
    subst this
    refine ⟨fileText c (n, ro), by simp [fileText, dirPath], ?_⟩
    simp only [fileText, List.mem_append, not_or]
    refine ⟨(h4.names hv).2.1, ?_⟩
    split
    · cases ro <;> simp [hs0, hs1]
    · simp
  have cut : ∀ (m : List Name), (∀ x ∈ m, ∃ t, x = (c.sl :: r) ++ t ∧ c.sl ∉ t) →
      ∃ ts : List Name, m = ts.map ((c.sl :: r) ++ ·) ∧ ∀ t ∈ ts, c.sl ∉ t := by
    intro m
    induction m with
    | nil => intro _; exact ⟨[], rfl, by simp⟩
    | cons x m ih =>
      intro hm
      obtain ⟨t, h1, h2⟩ := hm x (by simp)
      obtain ⟨ts, h3, h4⟩ := ih fun y hy => hm y (by simp [hy])
      refine ⟨t :: ts, by simp [h1, h3], ?_⟩
      intro y hy
      rcases List.mem_cons.mp hy with rfl | hy
      · exact h2
      · exact h4 y hy
  obtain ⟨ts, e1, e2⟩ := cut _ (flat e l hn hv hl)
  obtain ⟨ts', e1', e2'⟩ := cut _ (flat e' l' hn' hv' hl')
  have d1 := nodirs e l hn hl
  have d2 := nodirs e' l' hn' hl'
  rw [stampText_eq, stampText_eq, d1, d2, List.append_nil, List.append_nil, e1, e1'] at h
  have : ts = ts' := slash_inj ts ts' e2 e2' (by simpa [List.flatMap] using h)
  have e3 : l.1.map (fileText c) = l'.1.map (fileText c) := by rw [e1, e1', this]
  obtain ⟨e5, e6⟩ := fileText_inj c l.1 l'.1 e3
  exact ⟨e5, by rw [d1, d2], fun hi => Prod.ext (e6 hi) (by rw [d1, d2])⟩

end Verif.Dirs
