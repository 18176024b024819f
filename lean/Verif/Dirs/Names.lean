import Verif.Dirs.NodeProps
/-! Property C85: the names of objects. -/
namespace Verif.Dirs
open Unity (Name)

/-- a path: empty, or ending with a slash -/
def Folder (sl : Char) (p : Name) : Prop := p = [] ∨ ∃ q, p = q ++ [sl]

/-- what is left of the name of a file: all, or what comes before its last dot (unless that is nothing) -/
def IsStem (keep : Bool) (n s : Name) : Prop :=
  (keep = true ∧ s = n) ∨
  (keep = false ∧ ((∃ e, '.' ∉ e ∧ s ≠ [] ∧ n = s ++ '.' :: e) ∨ (s = n ∧ ∀ a e, a ≠ [] → n ≠ a ++ '.' :: e)))

theorem takeWhile_stop {p : Char → Bool} {a b : Name} (ha : ∀ x ∈ a, p x = true) (hb : b = [] ∨ ∃ x y, b = x :: y ∧ p x = false) :
    (a ++ b).takeWhile p = a := by
  rw [List.takeWhile_append_of_pos ha]
  rcases hb with rfl | ⟨x, y, rfl, h⟩
  · simp
  · simp [h]

theorem fileStart_eq {sl : Char} {p n : Name} (hp : Folder sl p) (hn : sl ∉ n) : fileStart sl (p ++ n) = p.length := by
  unfold fileStart
  have : (p ++ n).reverse.takeWhile (· ≠ sl) = n.reverse := by
    rw [List.reverse_append]
    apply takeWhile_stop
    · intro x hx
      rw [List.mem_reverse] at hx
      exact decide_eq_true (fun h => hn (h ▸ hx))
    · rcases hp with rfl | ⟨q, rfl⟩
      · left; rfl
      · right; exact ⟨sl, q.reverse, by simp, by simp⟩
  rw [this]
  simp

theorem last_dot {n : Name} (h : '.' ∈ n) : ∃ a e, n = a ++ '.' :: e ∧ '.' ∉ e := by
  obtain ⟨x, y, h1, h2⟩ := List.eq_append_cons_of_mem (List.mem_reverse.mpr h)
  refine ⟨y.reverse, x.reverse, ?_, by simpa using h2⟩
  have := congrArg List.reverse h1
  simpa using this

theorem baseName_stem (c : ObjConfig) {p n : Name} (hp : Folder c.sl p) (hn : c.sl ∉ n) :
    IsStem c.keepBaseExtension n (baseName c (p ++ n)) := by
  unfold baseName
  rw [fileStart_eq hp hn]
  simp only [List.drop_left]
  cases hk : c.keepBaseExtension with
  | true => simp [IsStem]
  | false =>
    right
    refine ⟨rfl, ?_⟩
    simp only [Bool.false_eq_true, if_false]
    by_cases hd : '.' ∈ n
    · obtain ⟨a, e, rfl, he⟩ := last_dot hd
      have ht : (a ++ '.' :: e).reverse.takeWhile (· ≠ '.') = e.reverse := by
        rw [List.reverse_append, List.reverse_cons, List.append_assoc]
        apply takeWhile_stop
        · intro x hx
          rw [List.mem_reverse] at hx
          exact decide_eq_true (fun h => he (h ▸ hx))
        · right; exact ⟨'.', a.reverse, by simp, by simp⟩
      rw [ht]
      simp only [List.length_reverse, List.length_append, List.length_cons]
      by_cases ha : a = []
      · subst ha
        rw [if_neg (by simp)]
        right
        refine ⟨rfl, ?_⟩
        intro b f hb h
        cases b with
        | nil => exact hb rfl
        | cons x b =>
          simp only [List.nil_append, List.cons_append, List.cons.injEq] at h
          exact he (by rw [h.2]; simp)
      · have hl := List.length_pos_iff.mpr ha
        rw [if_pos (by omega)]
        left
        refine ⟨e, he, ?_, ?_⟩
        · rw [show a.length + (e.length + 1) - e.length - 1 = a.length by omega]
          simpa using ha
        · rw [show a.length + (e.length + 1) - e.length - 1 = a.length by omega]
          simp
    · have ht : n.reverse.takeWhile (· ≠ '.') = n.reverse := by
        have := takeWhile_stop (p := (· ≠ '.')) (a := n.reverse) (b := []) (by
          intro x hx
          rw [List.mem_reverse] at hx
          exact decide_eq_true (fun h => hd (h ▸ hx))) (.inl rfl)
        simpa using this
      rw [ht, if_neg (by simp)]
      right
      exact ⟨rfl, fun a e _ h => hd (by rw [h]; simp)⟩

/-- C85. The object of a file below the path of its list has the same place below the output path; its name is the prefix, the name
of the file (without its extension, unless that is kept) and the extension of objects. -/
theorem C85_name (c : ObjConfig) (base q n : Name) (hb : base ≠ []) (hbs : Folder c.sl base) (hq : Folder c.sl q) (hn : c.sl ∉ n) :
    ∃ s, IsStem c.keepBaseExtension n s ∧
      objectName c (base ++ q ++ n) base = some (c.outputPath ++ q ++ c.outputPrefix ++ s ++ c.extension) := by
  have hf : Folder c.sl (base ++ q) := by
    rcases hq with rfl | ⟨r, rfl⟩
    · simpa using hbs
    · exact .inr ⟨base ++ r, by simp⟩
  refine ⟨_, baseName_stem c hf hn, ?_⟩
  have hbeg : beginsWith c.linux (base ++ q ++ n) base = true :=
    (beginsWith_iff ..).mpr ⟨base, q ++ n, by simp, rfl⟩
  unfold objectName subPath
  rw [if_pos hb, if_pos hbeg, fileStart_eq hf hn, if_pos (by simp), List.take_left, List.drop_left]
  simp

/-- C85. A file that does not come from a list has its object right below the output path, or at its place below the root of input
files when there is one and the file is below it. -/
theorem C85_loose_name (c : ObjConfig) (p n : Name) (hp : Folder c.sl p) (hn : c.sl ∉ n) :
    ∃ s, IsStem c.keepBaseExtension n s ∧
      (∀ q, Folder c.sl q → Folder c.sl c.filesRoot → c.filesRoot ≠ [] → p = c.filesRoot ++ q →
        objectName c (p ++ n) [] = some (c.outputPath ++ q ++ c.outputPrefix ++ s ++ c.extension)) ∧
      (c.filesRoot = [] ∨ ¬ Begins c.linux (p ++ n) c.filesRoot →
        objectName c (p ++ n) [] = some (c.outputPath ++ c.outputPrefix ++ s ++ c.extension)) := by
  refine ⟨_, baseName_stem c hp hn, ?_, ?_⟩
  · rintro q hq hr hne rfl
    have hbeg : beginsWith c.linux (c.filesRoot ++ q ++ n) c.filesRoot = true :=
      (beginsWith_iff ..).mpr ⟨c.filesRoot, q ++ n, by simp, rfl⟩
    unfold objectName subPath
    rw [if_neg (by simp), if_pos ⟨hne, hbeg⟩, fileStart_eq hp hn, if_pos (by simp), List.take_left, List.drop_left]
    simp
  · intro h
    unfold objectName
    rw [if_neg (by simp), if_neg]
    · simp
    · rintro ⟨h1, h2⟩
      rcases h with h | h
      · exact h1 h
      · exact h ((beginsWith_iff ..).mp h2)

theorem folder_inj {sl : Char} {q q' a a' : Name} (hq : Folder sl q) (hq' : Folder sl q') (ha : sl ∉ a) (ha' : sl ∉ a')
    (h : q ++ a = q' ++ a') : q = q' ∧ a = a' := by
  have h1 := fileStart_eq hq ha
  have h2 := fileStart_eq hq' ha'
  rw [h, h2] at h1
  exact List.append_inj h h1.symm

theorem stem_noSlash {sl : Char} {keep : Bool} {n s : Name} (h : IsStem keep n s) (hn : sl ∉ n) : sl ∉ s := by
  rcases h with ⟨_, rfl⟩ | ⟨_, ⟨e, _, _, rfl⟩ | ⟨rfl, _⟩⟩
  · exact hn
  · exact fun hm => hn (by simp [hm])
  · exact hn

/-- C85. When extensions are kept, files of one list have different objects. Otherwise files have the same object only when they are
in the same directory and have the same name without extension. -/
theorem C85_distinct (c : ObjConfig) (base q n q' n' o : Name) (hb : base ≠ []) (hbs : Folder c.sl base) (hq : Folder c.sl q)
    (hq' : Folder c.sl q') (hn : c.sl ∉ n) (hn' : c.sl ∉ n') (hpre : c.sl ∉ c.outputPrefix)
    (h : objectName c (base ++ q ++ n) base = some o) (h' : objectName c (base ++ q' ++ n') base = some o) :
    q = q' ∧ (∃ s, IsStem c.keepBaseExtension n s ∧ IsStem c.keepBaseExtension n' s) ∧ (c.keepBaseExtension = true → n = n') := by
  obtain ⟨s, h1, h2⟩ := C85_name c base q n hb hbs hq hn
  obtain ⟨s', h1', h2'⟩ := C85_name c base q' n' hb hbs hq' hn'
  rw [h2] at h; rw [h2'] at h'
  have e : c.outputPath ++ q ++ c.outputPrefix ++ s ++ c.extension = c.outputPath ++ q' ++ c.outputPrefix ++ s' ++ c.extension := by
    rw [← h'] at h; simpa using h
  rw [List.append_cancel_right_eq] at e
  simp only [List.append_assoc, List.append_cancel_left_eq] at e
  obtain ⟨e1, e2⟩ := folder_inj hq hq' (by simp [hpre, stem_noSlash h1 hn]) (by simp [hpre, stem_noSlash h1' hn']) e
  rw [List.append_cancel_left_eq] at e2
  subst e2
  refine ⟨e1, ⟨s, h1, h1'⟩, fun hk => ?_⟩
  rcases h1 with ⟨_, rfl⟩ | ⟨h, _⟩
  · rcases h1' with ⟨_, rfl⟩ | ⟨h, _⟩
    · rfl
    · rw [hk] at h; cases h
  · rw [hk] at h; cases h

/-- C85. The range taken from the path of a file is never inverted: paths of lists, and the root of input files, end with a slash. -/
theorem C85_defined (c : ObjConfig) (file base : Name) (hs : c.sl = '/' ∨ c.sl = '\\') (hb : Folder c.sl base) (hr : Folder c.sl c.filesRoot) :
    ∃ o, objectName c file base = some o := by
  have key : ∀ b : Name, b ≠ [] → Folder c.sl b → beginsWith c.linux file b = true → ∃ s, subPath c.sl file b = some s := by
    intro b hne hf hbeg
    obtain ⟨x, y, rfl, hsm⟩ := (beginsWith_iff ..).mp hbeg
    rcases hf with rfl | ⟨r, rfl⟩
    · exact absurd rfl hne
    have hx : ∃ x', x = x' ++ [c.sl] ∧ x'.length = r.length := by
      have hl := hsm.length
      simp only [List.length_append, List.length_singleton] at hl
      have hxn : x ≠ [] := by rintro rfl; simp at hl
      refine ⟨x.dropLast, ?_, by simp; omega⟩
      have e := congrArg List.getLast? hsm
      rw [List.getLast?_map, List.getLast?_map] at e
      simp only [List.getLast?_append, List.getLast?_singleton, Option.some_or, Option.map_some] at e
      rw [List.getLast?_eq_some_getLast hxn] at e
      simp only [Option.map_some, Option.some.injEq] at e
      have hlast : x.getLast hxn = c.sl := by
        generalize x.getLast hxn = z at e
        generalize c.sl = t at e hs
        unfold fold at e
        cases hlin : c.linux with
        | true => simpa [hlin] using e
        | false =>
          simp only [hlin, Bool.false_eq_true, if_false] at e
          have ht : ¬ ('A' ≤ t ∧ t ≤ 'Z') := by rcases hs with rfl | rfl <;> decide
          rw [if_neg ht] at e
          by_cases hz : 'A' ≤ z ∧ z ≤ 'Z'
          · rw [if_pos hz] at e
            exfalso
            have h1 : 65 ≤ z.toNat := by have := hz.1; rw [Char.le_def, UInt32.le_iff_toNat_le] at this; exact this
            have h2 : z.toNat ≤ 90 := by have := hz.2; rw [Char.le_def, UInt32.le_iff_toNat_le] at this; exact this
            generalize z.toNat = m at e h1 h2
            have h3 : ∀ m < 91, 65 ≤ m → Char.ofNat (m + 32) ≠ '/' ∧ Char.ofNat (m + 32) ≠ '\\' := by decide
            have h4 := h3 m (by omega) h1
            rcases hs with rfl | rfl
            · exact h4.1 e
            · exact h4.2 e
          · rwa [if_neg hz] at e
      rw [← hlast]; exact (List.dropLast_concat_getLast hxn).symm
    obtain ⟨x', rfl, hx'⟩ := hx
    unfold subPath
    rw [if_pos]
    · exact ⟨_, rfl⟩
    · unfold fileStart
      have : ((x' ++ [c.sl] ++ y).reverse.takeWhile (· ≠ c.sl)).length ≤ y.length := by
        rw [List.reverse_append, List.reverse_append]
        by_cases hy : c.sl ∈ y
        · have : (y.reverse ++ ([c.sl].reverse ++ x'.reverse)).takeWhile (· ≠ c.sl) = y.reverse.takeWhile (· ≠ c.sl) := by
            rw [List.takeWhile_append]
            split
            · next hall =>
              exfalso
              have h1 : y.reverse.takeWhile (· ≠ c.sl) = y.reverse := List.takeWhile_prefix _ |>.eq_of_length hall
              have h2 : c.sl ∈ y.reverse.takeWhile (· ≠ c.sl) := by rw [h1]; simpa using hy
              have := List.all_eq_true.mp (List.all_takeWhile (p := (· ≠ c.sl)) (l := y.reverse)) _ h2
              simp at this
            · rfl
          rw [this]
          have := (List.takeWhile_sublist (l := y.reverse) (· ≠ c.sl)).length_le
          simpa using this
        · rw [takeWhile_stop]
          · simp
          · intro z hz
            rw [List.mem_reverse] at hz
            exact decide_eq_true (fun h => hy (h ▸ hz))
          · right; exact ⟨c.sl, x'.reverse, by simp, by simp⟩
      simp only [List.length_append, List.length_singleton] at this ⊢
      omega
  unfold objectName
  split
  · next hne =>
    split
    · next hbeg => obtain ⟨s, hs⟩ := key base hne hb hbeg; exact ⟨_, by rw [hs]; rfl⟩
    · exact ⟨_, rfl⟩
  · split
    · next h => obtain ⟨s, hs⟩ := key _ h.1 hr h.2; exact ⟨_, by rw [hs]; rfl⟩
    · exact ⟨_, rfl⟩

end Verif.Dirs
