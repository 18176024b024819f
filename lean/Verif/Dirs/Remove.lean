import Verif.Dirs.ListProps
/-! Property C86: removing directories. -/
namespace Verif.Dirs
open Unity (Name nameLt charsLt)

/-- the file system lost nothing but the given files and directories, and gained nothing -/
def LostOnly (s s' : Fs) (F D : Name → Prop) : Prop :=
  (∀ f, f ∈ s'.files → f ∈ s.files) ∧ (∀ d, d ∈ s'.dirs → d ∈ s.dirs) ∧
  (∀ f ∈ s.files, f ∉ s'.files → F f) ∧ (∀ d ∈ s.dirs, d ∉ s'.dirs → D d)

theorem LostOnly.refl (s : Fs) (F D : Name → Prop) : LostOnly s s F D :=
  ⟨fun _ h => h, fun _ h => h, fun _ h h' => absurd h h', fun _ h h' => absurd h h'⟩

theorem LostOnly.trans {s t u : Fs} {F D F' D' F'' D'' : Name → Prop} (h : LostOnly s t F D) (h' : LostOnly t u F' D')
    (h1 : ∀ f, F f → F'' f) (h2 : ∀ f, F' f → F'' f) (h3 : ∀ f, D f → D'' f) (h4 : ∀ f, D' f → D'' f) : LostOnly s u F'' D'' := by
  refine ⟨fun f hf => h.1 f (h'.1 f hf), fun d hd => h.2.1 d (h'.2.1 d hd), ?_, ?_⟩
  · intro f hf hn
    by_cases ht : f ∈ t.files
    · exact h2 f (h'.2.2.1 f ht hn)
    · exact h1 f (h.2.2.1 f hf ht)
  · intro f hf hn
    by_cases ht : f ∈ t.dirs
    · exact h4 f (h'.2.2.2 f ht hn)
    · exact h3 f (h.2.2.2 f hf ht)

theorem fileDelete_lost {locked : Name → Bool} {s t : Fs} {f : Name} (h : fileDelete locked s f = some t) :
    LostOnly s t (· = f) (fun _ => False) ∧ f ∉ t.files := by
  unfold fileDelete at h
  split at h
  · cases h
    refine ⟨⟨fun x hx => (List.mem_filter.mp hx).1, fun _ h => h, ?_, fun _ h h' => absurd h h'⟩, by simp⟩
    intro x hx hn
    refine Classical.byContradiction fun hne => hn ?_
    exact List.mem_filter.mpr ⟨hx, by simpa using hne⟩
  · cases h

theorem directoryDelete_lost {locked : Name → Bool} {s t : Fs} {d : Name} (h : directoryDelete locked s d = some t) :
    LostOnly s t (fun _ => False) (· = d) ∧ d ∉ t.dirs := by
  unfold directoryDelete at h
  split at h
  · cases h
    refine ⟨⟨fun _ h => h, fun x hx => (List.mem_filter.mp hx).1, fun _ h h' => absurd h h', ?_⟩, by simp⟩
    intro x hx hn
    refine Classical.byContradiction fun hne => hn ?_
    exact List.mem_filter.mpr ⟨hx, by simpa using hne⟩
  · cases h

theorem deleteFiles_lost (locked : Name → Bool) : ∀ (l : List Name) (s : Fs),
    LostOnly s (deleteAll (fileDelete locked) s l).1 (· ∈ l) (fun _ => False) ∧
    ((deleteAll (fileDelete locked) s l).2 = true → ∀ f ∈ l, f ∉ (deleteAll (fileDelete locked) s l).1.files)
  | [], s => ⟨LostOnly.refl _ _ _, by simp⟩
  | x :: l, s => by
    simp only [deleteAll]
    cases h : fileDelete locked s x with
    | none => exact ⟨LostOnly.refl _ _ _, by simp⟩
    | some t =>
      simp only
      obtain ⟨h1, h2⟩ := fileDelete_lost h
      obtain ⟨h3, h4⟩ := deleteFiles_lost locked l t
      refine ⟨h1.trans h3 (fun f hf => by simp [hf]) (fun f hf => by simp [hf]) (fun _ h => h) (fun _ h => h), ?_⟩
      intro hok f hf
      rcases List.mem_cons.mp hf with rfl | hf
      · exact fun hm => h2 (h3.1 _ hm)
      · exact h4 hok f hf

theorem deleteDirs_lost (locked : Name → Bool) : ∀ (l : List Name) (s : Fs),
    LostOnly s (deleteAll (directoryDelete locked) s l).1 (fun _ => False) (· ∈ l) ∧
    ((deleteAll (directoryDelete locked) s l).2 = true → ∀ f ∈ l, f ∉ (deleteAll (directoryDelete locked) s l).1.dirs)
  | [], s => ⟨LostOnly.refl _ _ _, by simp⟩
  | x :: l, s => by
    simp only [deleteAll]
    cases h : directoryDelete locked s x with
    | none => exact ⟨LostOnly.refl _ _ _, by simp⟩
    | some t =>
      simp only
      obtain ⟨h1, h2⟩ := directoryDelete_lost h
      obtain ⟨h3, h4⟩ := deleteDirs_lost locked l t
      refine ⟨h1.trans h3 (fun _ h => h) (fun _ h => h) (fun f hf => by simp [hf]) (fun f hf => by simp [hf]), ?_⟩
      intro hok f hf
      rcases List.mem_cons.mp hf with rfl | hf
      · exact fun hm => h2 (h3.2.1 _ hm)
      · exact h4 hok f hf

theorem removeOne_lost (locked : Name → Bool) (rd rr : Bool) (s : Fs) (root : Name) (l : List Name × List Name) :
    LostOnly s (removeOne locked rd rr s root l).1 (· ∈ l.1) (fun d => rd = true ∧ (d ∈ l.2 ∨ rr = true ∧ d = root)) ∧
    ((removeOne locked rd rr s root l).2 = true → (∀ f ∈ l.1, f ∉ (removeOne locked rd rr s root l).1.files) ∧
      (rd = true → (∀ d ∈ l.2, d ∉ (removeOne locked rd rr s root l).1.dirs) ∧ (rr = true → root ∉ (removeOne locked rd rr s root l).1.dirs))) := by
  unfold removeOne
  obtain ⟨h1, h2⟩ := deleteFiles_lost locked l.1 s
  rcases hF : deleteAll (fileDelete locked) s l.1 with ⟨t, ok⟩
  rw [hF] at h1 h2
  cases ok with
  | false => exact ⟨h1.trans (LostOnly.refl t (fun _ => False) (fun _ => False)) (fun _ h => h) (fun _ h => h.elim) (fun _ h => h.elim) (fun _ h => h.elim), by simp⟩
  | true =>
    simp only
    cases rd with
    | false =>
      simp only [Bool.false_eq_true, if_false, Bool.false_and]
      exact ⟨h1.trans (LostOnly.refl t (fun _ => False) (fun _ => False)) (fun _ h => h) (fun _ h => h.elim) (fun _ h => h.elim) (fun _ h => h.elim),
        fun _ => ⟨h2 rfl, fun h => by cases h⟩⟩
    | true =>
      simp only [if_true, Bool.true_and, Bool.and_eq_true]
      obtain ⟨h3, h4⟩ := deleteDirs_lost locked l.2.reverse t
      rcases hD : deleteAll (directoryDelete locked) t l.2.reverse with ⟨u, ok⟩
      rw [hD] at h3 h4
      have h5 : LostOnly s u (· ∈ l.1) (fun d => True ∧ (d ∈ l.2 ∨ rr = true ∧ d = root)) :=
        h1.trans h3 (fun _ h => h) (fun _ h => h.elim) (fun _ h => h.elim) (fun d h => ⟨trivial, .inl (List.mem_reverse.mp h)⟩)
      cases ok with
      | false => exact ⟨by simpa using h5, by simp⟩
      | true =>
        simp only
        have h6 : ∀ f ∈ l.1, f ∉ u.files := fun f hf hm => h2 rfl f hf (h3.1 f hm)
        have h7 : ∀ d ∈ l.2, d ∉ u.dirs := fun d hd => h4 rfl d (List.mem_reverse.mpr hd)
        split
        · next hr =>
          cases hx : directoryDelete locked u root with
          | none => exact ⟨by simpa using h5, by simp⟩
          | some v =>
            obtain ⟨h8, h9⟩ := directoryDelete_lost hx
            refine ⟨h5.trans h8 (fun _ h => h) (fun _ h => h.elim) (fun d h => ?_) (fun d h => ⟨trivial, .inr ⟨hr.1, h⟩⟩), fun _ => ⟨fun f hf hm => h6 f hf (h8.1 f hm), fun _ => ⟨fun d hd hm => h7 d hd (h8.2.1 d hm), fun _ => h9⟩⟩⟩
            simpa using h
        · next hr =>
          refine ⟨by simpa using h5, fun _ => ⟨h6, fun _ => ⟨h7, fun hrr hm => hr ⟨hrr, by simpa using hm⟩⟩⟩⟩

/-- C86. Whether or not it succeeds, removing directories deletes nothing but the files listed and, when directories are to be removed,
the directories listed and the paths themselves if asked for. -/
theorem C86_only (locked : Name → Bool) (rd rr : Bool) : ∀ (ls : List (Name × List Name × List Name)) (s : Fs),
    LostOnly s (removeDir locked rd rr s ls).1 (fun f => ∃ l ∈ ls, f ∈ l.2.1)
      (fun d => rd = true ∧ ∃ l ∈ ls, d ∈ l.2.2 ∨ rr = true ∧ d = l.1)
  | [], s => LostOnly.refl _ _ _
  | (root, l) :: ls, s => by
    simp only [removeDir]
    have h1 := (removeOne_lost locked rd rr s root l).1
    rcases hO : removeOne locked rd rr s root l with ⟨t, ok⟩
    rw [hO] at h1
    cases ok with
    | false =>
      exact h1.trans (LostOnly.refl t (fun _ => False) (fun _ => False)) (fun f hf => ⟨(root, l), by simp, hf⟩) (fun _ h => h.elim)
        (fun d hd => ⟨hd.1, (root, l), by simp, hd.2⟩) (fun _ h => h.elim)
    | true =>
      exact h1.trans (C86_only locked rd rr ls t) (fun f hf => ⟨(root, l), by simp, hf⟩) (fun f ⟨x, hx, hf⟩ => ⟨x, by simp [hx], hf⟩)
        (fun d hd => ⟨hd.1, (root, l), by simp, hd.2⟩) (fun d ⟨h, x, hx, hf⟩ => ⟨h, x, by simp [hx], hf⟩)

/-- C86. When it succeeds, all of these are gone. -/
theorem C86_gone (locked : Name → Bool) (rd rr : Bool) : ∀ (ls : List (Name × List Name × List Name)) (s : Fs),
    (removeDir locked rd rr s ls).2 = true → ∀ l ∈ ls, (∀ f ∈ l.2.1, f ∉ (removeDir locked rd rr s ls).1.files) ∧
      (rd = true → (∀ d ∈ l.2.2, d ∉ (removeDir locked rd rr s ls).1.dirs) ∧ (rr = true → l.1 ∉ (removeDir locked rd rr s ls).1.dirs))
  | [], s => by simp
  | (root, l) :: ls, s => by
    simp only [removeDir]
    have h1 := (removeOne_lost locked rd rr s root l).2
    rcases hO : removeOne locked rd rr s root l with ⟨t, ok⟩
    rw [hO] at h1
    cases ok with
    | false => simp
    | true =>
      simp only
      intro hok x hx
      rcases List.mem_cons.mp hx with rfl | hx
      · have h2 := C86_only locked rd rr ls t
        obtain ⟨h3, h4⟩ := h1 rfl
        exact ⟨fun f hf hm => h3 f hf (h2.1 f hm), fun hr => ⟨fun d hd hm => (h4 hr).1 d hd (h2.2.1 d hm), fun hrr hm => (h4 hr).2 hrr (h2.2.1 _ hm)⟩⟩
      · exact C86_gone locked rd rr ls t hok x hx

/-! ### completeness -/

theorem deleteFiles_ok {locked : Name → Bool} : ∀ (l : List Name) (s : Fs), l.Nodup → (∀ f ∈ l, f ∈ s.files ∧ locked f = false) →
    deleteAll (fileDelete locked) s l = ({ s with files := s.files.filter (· ∉ l) }, true)
  | [], s, _, _ => by
    have : s.files.filter (fun _ => true) = s.files := List.filter_eq_self.mpr fun _ _ => rfl
    simp [deleteAll, this]
  | x :: l, s, hn, h => by
    have hx := h x (by simp)
    rw [List.nodup_cons] at hn
    simp only [deleteAll, fileDelete, if_pos hx]
    rw [deleteFiles_ok l _ hn.2 (by
      intro f hf
      refine ⟨List.mem_filter.mpr ⟨(h f (by simp [hf])).1, ?_⟩, (h f (by simp [hf])).2⟩
      simp only [decide_not, Bool.not_eq_eq_eq_not, Bool.not_true, decide_eq_false_iff_not]
      rintro rfl; exact hn.1 hf)]
    simp only [List.filter_filter]
    congr 2
    apply List.filter_congr
    intro y _
    by_cases h1 : y = x <;> by_cases h2 : y ∈ l <;> simp [h1, h2]

/-- `x` is below `d` -/
def Below (d x : Name) : Prop := ∃ t, t ≠ [] ∧ x = d ++ t

theorem nonEmpty_iff (s : Fs) (d : Name) : nonEmpty s d = true ↔ ∃ x, (x ∈ s.files ∨ x ∈ s.dirs) ∧ Below d x := by
  simp only [nonEmpty, List.any_eq_true, List.mem_append, Bool.and_eq_true, decide_eq_true_eq, List.isPrefixOf_iff_prefix]
  constructor
  · rintro ⟨x, h1, ⟨t, rfl⟩, h3⟩
    exact ⟨_, h1, t, fun h => h3 (by simp [h]), rfl⟩
  · rintro ⟨x, h1, t, ht, rfl⟩
    exact ⟨_, h1, ⟨t, rfl⟩, fun h => ht (by simpa using h)⟩

theorem deleteDirs_ok {locked : Name → Bool} : ∀ (l : List Name) (s : Fs), l.Nodup → (∀ d ∈ l, d ∈ s.dirs ∧ locked d = false) →
    l.Pairwise (fun d x => ¬ Below d x) → (∀ d ∈ l, ∀ x ∈ s.files, ¬ Below d x) → (∀ d ∈ l, ∀ x ∈ s.dirs, Below d x → x ∈ l) →
    deleteAll (directoryDelete locked) s l = ({ s with dirs := s.dirs.filter (· ∉ l) }, true)
  | [], s, _, _, _, _, _ => by
    have : s.dirs.filter (fun _ => true) = s.dirs := List.filter_eq_self.mpr fun _ _ => rfl
    simp [deleteAll, this]
  | x :: l, s, hn, h, hp, hf, hd => by
    have hx := h x (by simp)
    rw [List.nodup_cons] at hn
    rw [List.pairwise_cons] at hp
    have hne : nonEmpty s x = false := by
      cases hq : nonEmpty s x with
      | false => rfl
      | true =>
        exfalso
        obtain ⟨y, hy, hb⟩ := (nonEmpty_iff s x).mp hq
        rcases hy with hy | hy
        · exact hf x (by simp) y hy hb
        · rcases List.mem_cons.mp (hd x (by simp) y hy hb) with rfl | hm
          · obtain ⟨t, h1, h2⟩ := hb
            exact h1 (by simpa using h2.symm)
          · exact hp.1 y hm hb
    simp only [deleteAll, directoryDelete, if_pos (⟨hx.1, hx.2, hne⟩ : x ∈ s.dirs ∧ locked x = false ∧ nonEmpty s x = false)]
    rw [deleteDirs_ok l { s with dirs := s.dirs.filter (· ≠ x) } hn.2 (by
      intro f hfm
      refine ⟨List.mem_filter.mpr ⟨(h f (by simp [hfm])).1, ?_⟩, (h f (by simp [hfm])).2⟩
      simp only [decide_not, Bool.not_eq_eq_eq_not, Bool.not_true, decide_eq_false_iff_not]
      rintro rfl; exact hn.1 hfm) hp.2 (fun d hm => hf d (by simp [hm])) (by
      intro d hm y hy hb
      have hy := List.mem_filter.mp hy
      rcases List.mem_cons.mp (hd d (by simp [hm]) y hy.1 hb) with rfl | hm
      · exact absurd hy.2 (by simp)
      · exact hm)]
    simp only [List.filter_filter]
    congr 2
    apply List.filter_congr
    intro y _
    by_cases h1 : y = x <;> by_cases h2 : y ∈ l <;> simp [h1, h2]

theorem charsLt_prefix : ∀ (d t : Name), t ≠ [] → charsLt d (d ++ t) = true
  | [], [], h => absurd rfl h
  | [], _ :: _, _ => rfl
  | x :: d, t, h => by simp only [List.cons_append, charsLt, if_true]; exact charsLt_prefix d t h

theorem nameLt_below {d x : Name} (hx : '\x00' ∉ x) (h : Below d x) : nameLt d x = true := by
  obtain ⟨t, ht, rfl⟩ := h
  unfold nameLt
  rw [Unity.takeWhile_noNul hx, Unity.takeWhile_noNul (a := d) fun hm => hx (by simp [hm])]
  exact charsLt_prefix d t ht

/-- what is below `root` in the file system are the files and directories of `e` -/
structure Holds (s : Fs) (sl : Char) (root : Name) (e : Entries) : Prop where
  files : ∀ f, (f ∈ s.files ∧ Below root f) ↔ ∃ ds n ro, FileAt e ds n ro ∧ f = dirPath sl root ds ++ n
  dirs : ∀ d, (d ∈ s.dirs ∧ Below root d) ↔ ∃ ds n, DirAt e ds n ∧ d = dirPath sl root (ds ++ [n])

/-- C86. Removing one directory with everything in it works when the system refuses nothing: afterwards there is nothing left below its path
(nor is the path when its removal is asked for), and everything else is as before. -/
theorem C86_all (locked : Name → Bool) (hlock : ∀ x, locked x = false) (rr : Bool) (c : Config) (root : Name) (e : Entries) (s : Fs) (l : List (Name × Bool) × List Name)
    (hs : c.sl ≠ '\x00') (hr : '\x00' ∉ root) (hn : NoDotDot e) (hv : Valid c.sl e) (hrec : c.recursive = true) (hinc : c.includeDirs = true)
    (hpat : c.patterns = [] ∨ ['*'] ∈ c.patterns) (hx1 : c.excludePaths = []) (hx2 : c.filesToExclude = []) (hx3 : c.excludePatterns = [])
    (hh : Holds s c.sl root e) (hl : dirList c root e = some l) :
    (removeDir locked true rr s [(root, l.1.map Prod.fst, l.2)]).2 = true ∧
    (∀ f, f ∈ (removeDir locked true rr s [(root, l.1.map Prod.fst, l.2)]).1.files ↔ f ∈ s.files ∧ ¬ Below root f) ∧
    (∀ d, d ∈ (removeDir locked true rr s [(root, l.1.map Prod.fst, l.2)]).1.dirs ↔ d ∈ s.dirs ∧ ¬ Below root d ∧ ¬ (rr = true ∧ d = root)) := by
  obtain ⟨l0, a1, a2, a3, a4, a5⟩ := C82_sorted c root e hn hv
  rw [a1] at hl; cases hl
  obtain ⟨l1, b1, b2⟩ := C82_files_partial c root e hn
  rw [a1] at b1; cases b1
  obtain ⟨l1, d1, d2⟩ := C82_dirs_partial c root e hn
  rw [a1] at d1; cases d1
  have hent : ∀ ds, Entered c root ds := fun ds _ => ⟨hrec, by simp [hx1]⟩
  have hw : ∀ n full, Wanted c n full := by
    intro n full
    refine ⟨?_, by simp [hx2], by simp [hx3]⟩
    rcases hpat with h | h
    · exact .inl h
    · refine .inr ⟨_, h, ?_⟩
      have := Str.Matches.star (eq := fun a b => fold c.linux a == fold c.linux b) n .nil
      simpa [Describes] using this
  have hF : ∀ f, f ∈ l.1.map Prod.fst ↔ f ∈ s.files ∧ Below root f := by
    intro f
    rw [hh.files f]
    have he : f ∈ l.1.map Prod.fst ↔ ∃ ro, (f, ro) ∈ l.1 := by simp
    rw [he]
    constructor
    · rintro ⟨ro, hm⟩
      obtain ⟨ds, n, h1, h2, _⟩ := (b2 f ro).mp hm
      exact ⟨ds, n, ro, h1, h2⟩
    · rintro ⟨ds, n, ro, h1, h2⟩
      exact ⟨ro, (b2 f ro).mpr ⟨ds, n, h1, h2, hent ds, hw n f⟩⟩
  have hD : ∀ d, d ∈ l.2 ↔ d ∈ s.dirs ∧ Below root d := by
    intro d
    rw [hh.dirs d, d2 d]
    constructor
    · rintro ⟨_, ds, n, h1, h2, _⟩; exact ⟨ds, n, h1, h2⟩
    · rintro ⟨ds, n, h1, h2⟩; exact ⟨hinc, ds, n, h1, h2, hent ds⟩
  have nulD : ∀ d ∈ l.2, '\x00' ∉ d := by
    intro d hd
    obtain ⟨_, ds, n, h1, h2, _⟩ := (d2 d).mp hd
    obtain ⟨h3, _, h4, _⟩ := h1.names hv
    rw [h2]
    refine dirPath_noNul hr hs fun x hx => ?_
    rcases List.mem_append.mp hx with hx | hx
    · exact (h3 x hx).2.1
    · rw [List.mem_singleton.mp hx]; exact h4
  have below_trans : ∀ {a b x : Name}, Below a b → Below b x → Below a x := by
    rintro a _ _ ⟨t, h1, rfl⟩ ⟨u, h2, rfl⟩
    exact ⟨t ++ u, by simp [h1], by simp⟩
  have r1 := deleteFiles_ok (locked := locked) (l.1.map Prod.fst) s a2 (fun f hf => ⟨((hF f).mp hf).1, hlock f⟩)
  have r2 := deleteDirs_ok (locked := locked) l.2.reverse { s with files := s.files.filter (· ∉ l.1.map Prod.fst) }
    ((List.reverse_perm l.2).nodup_iff.mpr a3)
    (fun d hd => ⟨((hD d).mp (List.mem_reverse.mp hd)).1, hlock d⟩)
    (by
      rw [List.pairwise_reverse]
      rw [List.pairwise_iff_getElem] at a5 ⊢
      intro i j hi hj hij hb
      have := a5 i j hi hj hij
      rw [nameLt_below (nulD _ (List.getElem_mem hi)) hb] at this
      cases this)
    (by
      intro d hd x hx hb
      have hx := List.mem_filter.mp hx
      have hd := (hD d).mp (List.mem_reverse.mp hd)
      have := (hF x).mpr ⟨hx.1, below_trans hd.2 hb⟩
      simp [this] at hx)
    (by
      intro d hd x hx hb
      exact List.mem_reverse.mpr ((hD x).mpr ⟨hx, below_trans ((hD d).mp (List.mem_reverse.mp hd)).2 hb⟩))
  simp only [removeDir, removeOne, r1, r2, if_true, Bool.true_and, Bool.and_eq_true]
  have rfiles : ∀ f, f ∈ s.files.filter (· ∉ l.1.map Prod.fst) ↔ f ∈ s.files ∧ ¬ Below root f := by
    intro f
    rw [List.mem_filter, decide_eq_true_eq, hF f]
    constructor
    · rintro ⟨h1, h2⟩; exact ⟨h1, fun h => h2 ⟨h1, h⟩⟩
    · rintro ⟨h1, h2⟩; exact ⟨h1, fun h => h2 h.2⟩
  have rdirs : ∀ f, f ∈ s.dirs.filter (· ∉ l.2.reverse) ↔ f ∈ s.dirs ∧ ¬ Below root f := by
    intro f
    rw [List.mem_filter, decide_eq_true_eq, List.mem_reverse, hD f]
    constructor
    · rintro ⟨h1, h2⟩; exact ⟨h1, fun h => h2 ⟨h1, h⟩⟩
    · rintro ⟨h1, h2⟩; exact ⟨h1, fun h => h2 h.2⟩
  have notself : ¬ Below root root := by
    rintro ⟨t, h1, h2⟩; exact h1 (by simpa using h2.symm)
  by_cases hroot : rr = true ∧ (s.dirs.filter (· ∉ l.2.reverse)).contains root = true
  · simp only [hroot, and_self, if_true, directoryDelete]
    have hne : nonEmpty { files := s.files.filter (· ∉ l.1.map Prod.fst), dirs := s.dirs.filter (· ∉ l.2.reverse) } root = false := by
      cases hq : nonEmpty { files := s.files.filter (· ∉ l.1.map Prod.fst), dirs := s.dirs.filter (· ∉ l.2.reverse) } root with
      | false => rfl
      | true =>
        exfalso
        obtain ⟨x, hx, hb⟩ := (nonEmpty_iff _ _).mp hq
        rcases hx with hx | hx
        · exact ((rfiles x).mp hx).2 hb
        · exact ((rdirs x).mp hx).2 hb
    rw [if_pos ⟨by simpa using hroot.2, hlock root, hne⟩]
    refine ⟨rfl, rfiles, fun d => ?_⟩
    rw [List.mem_filter, rdirs d]
    simp only [decide_not, Bool.not_eq_eq_eq_not, Bool.not_true, decide_eq_false_iff_not, true_and, and_assoc]
  · rw [if_neg (by simpa using hroot)]
    refine ⟨rfl, rfiles, fun d => ?_⟩
    rw [rdirs d]
    constructor
    · rintro ⟨h1, h2⟩
      refine ⟨h1, h2, ?_⟩
      rintro ⟨h3, rfl⟩
      exact hroot ⟨h3, by simpa using (rdirs d).mpr ⟨h1, h2⟩⟩
    · rintro ⟨h1, h2, _⟩; exact ⟨h1, h2⟩

/-- C86. What is excluded from a directory list, or does not match its patterns, is never deleted, whatever else happens. -/
theorem C86_excluded (locked : Name → Bool) (rd rr : Bool) (c : Config) (root : Name) (e : Entries) (s : Fs) (l : List (Name × Bool) × List Name)
    (hn : NoDotDot e) (hl : dirList c root e = some l) (f : Name) (hf : f ∈ s.files)
    (hnot : ∀ ds n ro, FileAt e ds n ro → f = dirPath c.sl root ds ++ n → ¬ (Entered c root ds ∧ Wanted c n f)) :
    f ∈ (removeDir locked rd rr s [(root, l.1.map Prod.fst, l.2)]).1.files := by
  refine Classical.byContradiction fun hgone => ?_
  obtain ⟨x, hx, hm⟩ := (C86_only locked rd rr [(root, l.1.map Prod.fst, l.2)] s).2.2.1 f hf hgone
  rw [List.mem_singleton] at hx
  subst hx
  obtain ⟨⟨f', ro⟩, hm', rfl⟩ := List.mem_map.mp hm
  obtain ⟨l1, b1, b2⟩ := C82_files_partial c root e hn
  rw [hl] at b1; cases b1
  obtain ⟨ds, n, h1, h2, h3, h4⟩ := (b2 f' ro).mp hm'
  exact hnot ds n ro h1 h2 ⟨h3, h4⟩

end Verif.Dirs
