import Verif.Dirs.Lists
/-! Paths can be told apart, no file is listed twice. -/
namespace Verif.Dirs
open Unity (Name nameLt)

theorem cut_inj {sl : Char} : ∀ {a b x y : Name}, sl ∉ a → sl ∉ b → a ++ sl :: x = b ++ sl :: y → a = b ∧ x = y
  | [], [], _, _, _, _, h => by simpa using h
  | [], c :: b, x, y, _, hb, h => by
    simp only [List.nil_append, List.cons_append, List.cons.injEq] at h
    exact absurd (by simp [h.1]) hb
  | c :: a, [], x, y, ha, _, h => by
    simp only [List.nil_append, List.cons_append, List.cons.injEq] at h
    exact absurd (by simp [h.1]) ha
  | c :: a, d :: b, x, y, ha, hb, h => by
    simp only [List.cons_append, List.cons.injEq] at h
    simp only [List.mem_cons, not_or] at ha hb
    obtain ⟨h1, h2⟩ := cut_inj ha.2 hb.2 h.2
    exact ⟨by rw [h.1, h1], h2⟩

/-- the way to a file can be read off its path -/
theorem path_inj {sl : Char} : ∀ {ds ds' : List Name} {n n' : Name}, (∀ d ∈ ds, sl ∉ d) → (∀ d ∈ ds', sl ∉ d) → sl ∉ n → sl ∉ n' →
    (ds.flatMap fun d => d ++ [sl]) ++ n = (ds'.flatMap fun d => d ++ [sl]) ++ n' → ds = ds' ∧ n = n'
  | [], [], _, _, _, _, _, _, h => ⟨rfl, by simpa using h⟩
  | [], d :: ds', n, n', _, _, hn, _, h => by
    refine absurd ?_ hn
    simp only [List.flatMap_nil, List.nil_append] at h
    rw [h]; simp
  | d :: ds, [], n, n', _, _, _, hn, h => by
    refine absurd ?_ hn
    simp only [List.flatMap_nil, List.nil_append] at h
    rw [← h]; simp
  | d :: ds, d' :: ds', n, n', h1, h2, hn, hn', h => by
    simp only [List.flatMap_cons, List.append_assoc, List.singleton_append] at h
    obtain ⟨he, ht⟩ := cut_inj (h1 d (by simp)) (h2 d' (by simp)) h
    obtain ⟨h3, h4⟩ := path_inj (fun x hx => h1 x (by simp [hx])) (fun x hx => h2 x (by simp [hx])) hn hn' ht
    exact ⟨by rw [he, h3], h4⟩

theorem FileAt.names {sl : Char} {e : Entries} {ds : List Name} {n : Name} {ro : Bool} (h : FileAt e ds n ro) : Valid sl e →
    (∀ d ∈ ds, sl ∉ d ∧ '\x00' ∉ d ∧ d ≠ []) ∧ sl ∉ n ∧ '\x00' ∉ n ∧ n ≠ [] := by
  induction h with
  | here => intro hv; exact ⟨by simp, hv.2.1, hv.2.2.1, hv.1⟩
  | skipFile _ ih => intro hv; exact ih hv.2.2.2.2
  | skipDir _ ih => intro hv; exact ih hv.2.2.2.2.2
  | inside hd _ ih =>
    intro hv
    obtain ⟨h1, h2⟩ := ih (hv.2.2.2.2.1 hd)
    refine ⟨?_, h2⟩
    intro x hx
    rcases List.mem_cons.mp hx with rfl | hx
    · exact ⟨hv.2.1, hv.2.2.1, hv.1⟩
    · exact h1 x hx

theorem DirAt.names {sl : Char} {e : Entries} {ds : List Name} {n : Name} (h : DirAt e ds n) : Valid sl e →
    (∀ d ∈ ds, sl ∉ d ∧ '\x00' ∉ d ∧ d ≠ []) ∧ sl ∉ n ∧ '\x00' ∉ n ∧ n ≠ [] := by
  induction h with
  | here => intro hv; exact ⟨by simp, hv.2.1, hv.2.2.1, hv.1⟩
  | skipFile _ ih => intro hv; exact ih hv.2.2.2.2
  | skipDir _ ih => intro hv; exact ih hv.2.2.2.2.2
  | inside hd _ ih =>
    intro hv
    obtain ⟨h1, h2⟩ := ih (hv.2.2.2.2.1 hd)
    refine ⟨?_, h2⟩
    intro x hx
    rcases List.mem_cons.mp hx with rfl | hx
    · exact ⟨hv.2.1, hv.2.2.1, hv.1⟩
    · exact h1 x hx

theorem FileAt.head {e : Entries} {ds : List Name} {n : Name} {ro : Bool} (h : FileAt e ds n ro) :
    (ds ++ [n]).head (by simp) ∈ Dirs.names e := by
  induction h with
  | here => simp [Dirs.names]
  | skipFile _ ih => simp only [Dirs.names, List.mem_cons]; exact .inr ih
  | skipDir _ ih => simp only [Dirs.names, List.mem_cons]; exact .inr ih
  | inside _ _ _ => simp [Dirs.names]

theorem DirAt.head {e : Entries} {ds : List Name} {n : Name} (h : DirAt e ds n) :
    (ds ++ [n]).head (by simp) ∈ Dirs.names e := by
  induction h with
  | here => simp [Dirs.names]
  | skipFile _ ih => simp only [Dirs.names, List.mem_cons]; exact .inr ih
  | skipDir _ ih => simp only [Dirs.names, List.mem_cons]; exact .inr ih
  | inside _ _ _ => simp [Dirs.names]

theorem FileAt.path_inj {sl : Char} {e e' : Entries} {ds ds' : List Name} {n n' root : Name} {ro ro' : Bool} (hv : Valid sl e)
    (hv' : Valid sl e') (h : FileAt e ds n ro) (h' : FileAt e' ds' n' ro') (he : dirPath sl root ds ++ n = dirPath sl root ds' ++ n') :
    ds = ds' ∧ n = n' := by
  unfold dirPath at he
  rw [List.append_assoc, List.append_assoc, List.append_cancel_left_eq] at he
  exact Dirs.path_inj (fun d hd => ((h.names hv).1 d hd).1) (fun d hd => ((h'.names hv').1 d hd).1) (h.names hv).2.1 (h'.names hv').2.1 he

theorem dirPath_inj {sl : Char} {root : Name} {ds ds' : List Name} (h1 : ∀ d ∈ ds, sl ∉ d) (h2 : ∀ d ∈ ds', sl ∉ d)
    (he : dirPath sl root ds = dirPath sl root ds') : ds = ds' := by
  unfold dirPath at he
  rw [List.append_cancel_left_eq] at he
  exact (Dirs.path_inj (n := []) (n' := []) h1 h2 (by simp) (by simp) (by simpa using he)).1

theorem DirAt.path_inj {sl : Char} {e e' : Entries} {ds ds' : List Name} {n n' root : Name} (hv : Valid sl e) (hv' : Valid sl e')
    (h : DirAt e ds n) (h' : DirAt e' ds' n') (he : dirPath sl root (ds ++ [n]) = dirPath sl root (ds' ++ [n'])) :
    ds = ds' ∧ n = n' := by
  have := dirPath_inj (sl := sl) (by
    intro d hd
    rcases List.mem_append.mp hd with hd | hd
    · exact ((h.names hv).1 d hd).1
    · rw [List.mem_singleton.mp hd]; exact (h.names hv).2.1) (by
    intro d hd
    rcases List.mem_append.mp hd with hd | hd
    · exact ((h'.names hv').1 d hd).1
    · rw [List.mem_singleton.mp hd]; exact (h'.names hv').2.1) he
  exact ⟨(List.append_inj' this rfl).1, by simpa using (List.append_inj' this rfl).2⟩

/-- no file is found twice -/
theorem walk_nodup (c : Config) (e : Entries) : ∀ (root : Name), NoDotDot e → Valid c.sl e →
    ((walk c root e).1.map Prod.fst).Nodup := by
  induction e with
  | nil => intro root _ _; simp [walk]
  | file m r rest ih =>
    intro root hn hv
    simp only [walk]
    have ih := ih root hn hv.2.2.2.2
    split
    · rw [List.map_cons, List.nodup_cons]
      refine ⟨?_, ih⟩
      intro hm
      obtain ⟨⟨x, ro⟩, hx, he⟩ := List.mem_map.mp hm
      simp only at he
      subst he
      obtain ⟨ds, n, h1, h2, _⟩ := (walk_files c rest root _ ro hn).mp hx
      have h0 : FileAt (.file m r rest) [] m r := .here
      obtain ⟨rfl, rfl⟩ := h0.path_inj hv hv (.skipFile h1) (root := root) (by rw [dirPath_nil]; exact h2)
      exact hv.2.2.2.1 (by simpa using h1.head)
    · exact ih
  | dir d sub rest ihs ihr =>
    intro root hn hv
    simp only [walk]
    have ihr := ihr root hn.2.2 hv.2.2.2.2.2
    split
    · exact ihr
    · next hmag =>
      have hdot : ¬ Dot d := fun h => hmag ((isMagic_iff hn.1).mpr h)
      rw [List.map_append, List.nodup_append]
      refine ⟨?_, ihr, ?_⟩
      · split
        · exact ihs _ hn.2.1 (hv.2.2.2.2.1 hdot)
        · simp
      · intro x hx y hy hxy
        subst hxy
        obtain ⟨⟨x', ro⟩, hx1, rfl⟩ := List.mem_map.mp hx
        obtain ⟨⟨y', ro'⟩, hy1, hy2⟩ := List.mem_map.mp hy
        simp only at hy2; subst hy2
        obtain ⟨ds', n', h1', h2', _⟩ := (walk_files c rest root _ ro' hn.2.2).mp hy1
        split at hx1
        · obtain ⟨ds, n, h1, h2, _⟩ := (walk_files c sub _ _ ro hn.2.1).mp hx1
          have h0 : FileAt (.dir d sub rest) (d :: ds) n ro := .inside hdot h1
          obtain ⟨rfl, rfl⟩ := h0.path_inj hv hv (.skipDir h1') (root := root) (by
            rw [dirPath_cons, ← h2]; simpa using h2')
          exact hv.2.2.2.1 (by simpa using h1'.head)
        · simp at hx1

theorem walk_dirs_nodup (c : Config) (e : Entries) : ∀ (root : Name), NoDotDot e → Valid c.sl e → (walk c root e).2.Nodup := by
  induction e with
  | nil => intro root _ _; simp [walk]
  | file m r rest ih =>
    intro root hn hv
    have h1 : (walk c root (.file m r rest)).2 = (walk c root rest).2 := by
      simp only [walk]; split <;> rfl
    rw [h1]; exact ih root hn hv.2.2.2.2
  | dir d sub rest ihs ihr =>
    intro root hn hv
    simp only [walk]
    have ihr := ihr root hn.2.2 hv.2.2.2.2.2
    split
    · exact ihr
    · next hmag =>
      have hdot : ¬ Dot d := fun h => hmag ((isMagic_iff hn.1).mpr h)
      have hp : root ++ d ++ [c.sl] = dirPath c.sl root ([] ++ [d]) := by simp [dirPath]
      have h0 : DirAt (.dir d sub rest) [] d := .here hdot
      rw [List.nodup_append, List.nodup_append]
      refine ⟨⟨by split <;> simp, ?_, ?_⟩, ihr, ?_⟩
      · split
        · exact ihs _ hn.2.1 (hv.2.2.2.2.1 hdot)
        · simp
      · intro x hx y hy hxy
        subst hxy
        split at hx
        · split at hy
          · obtain ⟨_, ds, n, h1, h2, _⟩ := (walk_dirs c sub _ _ hn.2.1).mp hy
            have hi : DirAt (.dir d sub rest) (d :: ds) n := .inside hdot h1
            rw [List.mem_singleton] at hx
            have := (h0.path_inj hv hv hi (root := root) (by
              rw [← hp, ← hx, h2, List.cons_append, dirPath_cons])).1
            cases this
          · simp at hy
        · simp at hx
      · intro x hx y hy hxy
        subst hxy
        obtain ⟨hI, ds', n', h1', h2', _⟩ := (walk_dirs c rest root _ hn.2.2).mp hy
        have hi' : DirAt (.dir d sub rest) ds' n' := .skipDir h1'
        rcases List.mem_append.mp hx with hx | hx
        · rw [if_pos hI, List.mem_singleton] at hx
          obtain ⟨rfl, rfl⟩ := h0.path_inj hv hv hi' (root := root) (by rw [← hp, ← hx, h2'])
          exact hv.2.2.2.1 (by simpa using h1'.head)
        · split at hx
          · obtain ⟨_, ds, n, h1, h2, _⟩ := (walk_dirs c sub _ _ hn.2.1).mp hx
            have hi : DirAt (.dir d sub rest) (d :: ds) n := .inside hdot h1
            obtain ⟨rfl, rfl⟩ := hi.path_inj hv hv hi' (root := root) (by
              rw [List.cons_append, dirPath_cons, ← h2, h2'])
            exact hv.2.2.2.1 (by simpa using h1'.head)
          · simp at hx

theorem nameLt_weak' : Sort.StrictWeak nameLt where
  asymm := fun a b h => Unity.nameLt_weak.asymm (a, true) (b, true) h
  negtrans := fun a b c h h' => Unity.nameLt_weak.negtrans (a, true) (b, true) (c, true) h h'

/-- what a directory list is: the files and directories found, sorted -/
theorem dirList_spec (c : Config) (root : Name) (e : Entries) : ∃ l, dirList c root e = some l ∧
    l.1.Perm (walk c root e).1 ∧ l.2.Perm (walk c root e).2 ∧
    l.1.Pairwise (fun x y => nameLt y.1 x.1 = false) ∧ l.2.Pairwise (fun x y => nameLt y x = false) := by
  obtain ⟨s, h1, h2, h3⟩ := Sort.C35_shellSort_sorts _ Unity.nameLt_weak (walk c root e).1
  obtain ⟨t, h4, h5, h6⟩ := Sort.C35_shellSort_sorts _ nameLt_weak' (walk c root e).2
  exact ⟨(s, t), by simp [dirList, h1, h4], h2, h5, h3, h6⟩

theorem dirPath_noNul {sl : Char} {root : Name} {ds : List Name} (hr : '\x00' ∉ root) (hs : sl ≠ '\x00')
    (hd : ∀ d ∈ ds, '\x00' ∉ d) : '\x00' ∉ dirPath sl root ds := by
  simp only [dirPath, List.mem_append, List.mem_flatMap, not_or]
  refine ⟨hr, ?_⟩
  rintro ⟨d, h1, h2⟩
  rcases h2 with h2 | h2
  · exact hd d h1 h2
  · simp only [List.mem_singleton] at h2; exact hs h2.symm

theorem nodup_of_map {α β : Type} {f : α → β} : ∀ {l : List α}, (l.map f).Nodup → l.Nodup
  | [], _ => by simp
  | x :: xs, h => by
    rw [List.map_cons, List.nodup_cons] at h
    rw [List.nodup_cons]
    exact ⟨fun hx => h.1 (List.mem_map.mpr ⟨x, hx, rfl⟩), nodup_of_map h.2⟩

end Verif.Dirs
