import Verif.Dirs.Spec
import Verif.Str.MatchProps
import Verif.Unity.Theorems
/-! Lemmas about texts, walking a directory and paths. -/
namespace Verif.Dirs
open Unity (Name sameChar sameChars endsWithFile nameLt)

theorem sameChars_iff (linux : Bool) : ∀ a b : Name, sameChars linux a b = true ↔ Same linux a b
  | [], [] => by simp [sameChars, Same]
  | [], _ :: _ => by simp [sameChars, Same]
  | _ :: _, [] => by simp [sameChars, Same]
  | x :: a, y :: b => by
    simp only [sameChars, Bool.and_eq_true, sameChars_iff linux a b, Same, List.map_cons, List.cons.injEq]
    refine and_congr_left fun _ => ?_
    cases linux <;> simp [sameChar, fold, Unity.lower]

theorem Same.length {linux : Bool} {a b : Name} (h : Same linux a b) : a.length = b.length := by
  simpa using congrArg List.length h

theorem beginsWith_iff (linux : Bool) (a b : Name) : beginsWith linux a b = true ↔ Begins linux a b := by
  simp only [beginsWith, Bool.and_eq_true, decide_eq_true_eq, sameChars_iff]
  constructor
  · rintro ⟨_, h⟩
    exact ⟨_, _, (List.take_append_drop b.length a).symm, h⟩
  · rintro ⟨x, y, rfl, h⟩
    have := h.length
    rw [List.take_left' this]
    exact ⟨by simp; omega, h⟩

theorem endsWithFile_iff (linux : Bool) (sl : Char) (a b : Name) :
    endsWithFile linux sl a b = true ↔ EndsWithFile linux sl a b := by
  unfold endsWithFile EndsWithFile
  by_cases h1 : a.length < b.length
  · simp only [h1, if_true, Bool.false_eq_true, false_iff, not_or]
    refine ⟨fun h => by have := h.length; omega, ?_⟩
    rintro ⟨x, y, rfl, h⟩
    have := h.length
    simp at h1; omega
  · simp only [h1, if_false]
    by_cases h2 : Same linux (a.drop (a.length - b.length)) b
    · have := (sameChars_iff linux _ _).mpr h2
      simp only [this, Bool.not_true, Bool.false_eq_true, if_false]
      by_cases h3 : a.length = b.length
      · simp only [h3, if_true, true_iff]
        left
        rw [h3] at h2; simpa using h2
      · simp only [h3, if_false, beq_iff_eq]
        constructor
        · intro h
          right
          refine ⟨a.take (a.length - b.length - 1), a.drop (a.length - b.length), ?_, h2⟩
          obtain ⟨hi, he⟩ := List.getElem?_eq_some_iff.mp h
          have e : a.drop (a.length - b.length - 1) = sl :: a.drop (a.length - b.length) := by
            rw [List.drop_eq_getElem_cons hi, he]
            congr 2; omega
          rw [← e, List.take_append_drop]
        · rintro (h | ⟨x, y, rfl, h⟩)
          · exact absurd h.length h3
          · have hl := h.length
            simp only [List.length_append, List.length_cons]
            rw [List.getElem?_append_right (by omega)]
            have : x.length + (y.length + 1) - b.length - 1 - x.length = 0 := by omega
            simp [this]
    · have : sameChars linux (a.drop (a.length - b.length)) b = false := by
        cases hs : sameChars linux (a.drop (a.length - b.length)) b
        · rfl
        · exact absurd ((sameChars_iff linux _ _).mp hs) h2
      simp only [this, Bool.not_false, if_true, Bool.false_eq_true, false_iff, not_or]
      constructor
      · intro h
        have hl := h.length
        rw [hl] at h2; simp at h2; exact h2 h
      · rintro ⟨x, y, rfl, h⟩
        have hl := h.length
        apply h2
        have : (x ++ sl :: y).length - b.length = x.length + 1 := by simp; omega
        rw [this]
        have e : (x ++ sl :: y).drop (x.length + 1) = y := by
          rw [List.drop_append]; simp
        rw [e]; exact h

theorem wildcard_iff (linux : Bool) (p t : Name) : wildcard linux p t = true ↔ Describes linux p t := by
  obtain ⟨b, h1, h2⟩ := Str.C25_isWildcardMatch linux p t
  unfold wildcard Describes
  rw [h1]
  have : (fun a b => fold linux a == fold linux b) =
      (fun a b : Char => if linux then a == b else Str.lower a == Str.lower b) := by
    funext a b
    have hl : ∀ x, Str.lower x = fold false x := by
      intro x
      simp only [Str.lower, fold, Bool.false_eq_true, if_false]
      by_cases h : 'A' ≤ x ∧ x ≤ 'Z'
      · have hx : 65 ≤ x.toNat := by
          have := h.1
          rw [Char.le_def, UInt32.le_iff_toNat_le] at this
          exact this
        simp only [h, and_self, if_true]
        congr 1
        have : 'A'.toNat = 65 := rfl
        have : 'a'.toNat = 97 := rfl
        omega
      · simp [h]
    cases linux
    · simp [hl]
    · simp [fold]
  rw [this]
  simpa using h2

/-- the tests on a file -/
theorem wanted_iff (c : Config) (n full : Name) :
    (isMatch c.linux c.patterns n && onFile c full) = true ↔ Wanted c n full := by
  simp [isMatch, onFile, Wanted, wildcard_iff, endsWithFile_iff, Bool.eq_false_iff]

theorem onDirectory_iff (c : Config) (root : Name) (ds : List Name) (hd : ds ≠ []) :
    onDirectory c (dirPath c.sl root ds) = true ↔ Entered c root ds := by
  simp [onDirectory, Entered, hd, beginsWith_iff, Bool.eq_false_iff]

theorem isMagic_dot {n : Name} (h : Dot n) : isMagic n = true := by
  rcases h with rfl | rfl <;> rfl

theorem isMagic_iff {n : Name} (h : ¬ Dot n → ∀ t, n ≠ '.' :: '.' :: t) : isMagic n = true ↔ Dot n := by
  refine ⟨fun hm => ?_, isMagic_dot⟩
  refine Classical.byContradiction fun hd => ?_
  have := h hd
  unfold isMagic at hm
  split at hm
  · exact hd (.inl rfl)
  · exact this _ rfl
  · simp at hm

/-- a path that is a prefix of another -/
theorem Begins.append {linux : Bool} {a b : Name} (h : Begins linux a b) (t : Name) : Begins linux (a ++ t) b := by
  obtain ⟨x, y, rfl, h⟩ := h
  exact ⟨x, y ++ t, by simp, h⟩

theorem dirPath_cons (sl : Char) (root : Name) (d : Name) (ds : List Name) :
    dirPath sl root (d :: ds) = dirPath sl (root ++ d ++ [sl]) ds := by
  simp [dirPath]

theorem dirPath_nil (sl : Char) (root : Name) : dirPath sl root [] = root := by simp [dirPath]

/-- entering a deeper directory means entering those above it -/
theorem entered_cons (c : Config) (root d : Name) (ds : List Name) :
    Entered c root (d :: ds) ↔ Entered c root [d] ∧ Entered c (root ++ d ++ [c.sl]) ds := by
  cases ds with
  | nil => simp [Entered]
  | cons d' ds =>
    simp only [Entered, ne_eq, reduceCtorEq, not_false_eq_true, forall_const]
    rw [dirPath_cons, dirPath_cons]
    constructor
    · rintro ⟨h1, h2⟩
      refine ⟨⟨h1, fun x hx hb => h2 x hx ?_⟩, h1, h2⟩
      rw [dirPath_cons, dirPath_nil] at hb
      have := hb.append (d' ++ [c.sl] ++ ds.flatMap fun d => d ++ [c.sl])
      simpa [dirPath] using this
    · rintro ⟨_, h⟩; exact h

/-- C82, before sorting: the files -/
theorem walk_files (c : Config) (e : Entries) : ∀ (root full : Name) (ro : Bool), NoDotDot e →
    ((full, ro) ∈ (walk c root e).1 ↔ ∃ ds n, FileAt e ds n ro ∧ full = dirPath c.sl root ds ++ n ∧
      Entered c root ds ∧ Wanted c n full) := by
  induction e with
  | nil =>
    intro root full ro _
    simp only [walk, List.not_mem_nil, false_iff]
    rintro ⟨ds, n, h, _⟩; cases h
  | file m r rest ih =>
    intro root full ro hn
    simp only [walk]
    have ih := ih root full ro hn
    have key : (∃ ds n, FileAt (.file m r rest) ds n ro ∧ full = dirPath c.sl root ds ++ n ∧ Entered c root ds ∧ Wanted c n full) ↔
        (r = ro ∧ full = root ++ m ∧ Wanted c m full) ∨ ∃ ds n, FileAt rest ds n ro ∧ full = dirPath c.sl root ds ++ n ∧
          Entered c root ds ∧ Wanted c n full := by
      constructor
      · rintro ⟨ds, n, h, h2, h3, h4⟩
        cases h with
        | here => exact .inl ⟨rfl, by rw [h2, dirPath_nil], h4⟩
        | skipFile h => exact .inr ⟨ds, n, h, h2, h3, h4⟩
      · rintro (⟨rfl, rfl, h⟩ | ⟨ds, n, h, h2⟩)
        · exact ⟨[], m, .here, by rw [dirPath_nil], fun h => absurd rfl h, h⟩
        · exact ⟨ds, n, .skipFile h, h2⟩
    rw [key]
    by_cases hw : Wanted c m (root ++ m)
    · rw [if_pos ((wanted_iff _ _ _).mpr hw)]
      simp only [List.mem_cons, Prod.mk.injEq, ih]
      constructor
      · rintro (⟨rfl, rfl⟩ | h)
        · exact .inl ⟨rfl, rfl, hw⟩
        · exact .inr h
      · rintro (⟨rfl, rfl, _⟩ | h)
        · exact .inl ⟨rfl, rfl⟩
        · exact .inr h
    · rw [if_neg (fun h => hw ((wanted_iff _ _ _).mp h)), ih]
      constructor
      · exact .inr
      · rintro (⟨rfl, rfl, h⟩ | h)
        · exact absurd h hw
        · exact h
  | dir d sub rest ihs ihr =>
    intro root full ro hn
    obtain ⟨hd, hns, hnr⟩ := hn
    simp only [walk]
    have ihr := ihr root full ro hnr
    have hm := isMagic_iff hd
    by_cases hdot : Dot d
    · rw [if_pos (hm.mpr hdot), ihr]
      constructor
      · rintro ⟨ds, n, h, h2⟩; exact ⟨ds, n, .skipDir h, h2⟩
      · rintro ⟨ds, n, h, h2⟩
        cases h with
        | skipDir h => exact ⟨ds, n, h, h2⟩
        | inside hnd _ => exact absurd hdot hnd
    · rw [if_neg (fun h => hdot (hm.mp h))]
      have hp : root ++ d ++ [c.sl] = dirPath c.sl root [d] := by simp [dirPath]
      simp only [List.mem_append, ihr]
      have hs : ((full, ro) ∈ (if onDirectory c (root ++ d ++ [c.sl]) then walk c (root ++ d ++ [c.sl]) sub else ([], [])).1) ↔
          Entered c root [d] ∧ ∃ ds n, FileAt sub ds n ro ∧ full = dirPath c.sl (root ++ d ++ [c.sl]) ds ++ n ∧
            Entered c (root ++ d ++ [c.sl]) ds ∧ Wanted c n full := by
        by_cases he : Entered c root [d]
        · have := (onDirectory_iff c root [d] (by simp)).mpr he
          rw [← hp] at this
          rw [if_pos this, ihs _ full ro hns]
          simp [he]
        · have : ¬ onDirectory c (root ++ d ++ [c.sl]) = true := by
            rw [hp]; exact fun h => he ((onDirectory_iff c root [d] (by simp)).mp h)
          rw [if_neg this]
          simp [he]
      rw [hs]
      constructor
      · rintro (⟨he, ds, n, h1, h2, h3, h4⟩ | ⟨ds, n, h, h2⟩)
        · exact ⟨d :: ds, n, .inside hdot h1, by rw [dirPath_cons]; exact h2, (entered_cons ..).mpr ⟨he, h3⟩, h4⟩
        · exact ⟨ds, n, .skipDir h, h2⟩
      · rintro ⟨ds, n, h, h2, h3, h4⟩
        cases h with
        | skipDir h => exact .inr ⟨ds, n, h, h2, h3, h4⟩
        | inside _ h =>
          obtain ⟨h5, h6⟩ := (entered_cons ..).mp h3
          exact .inl ⟨h5, _, n, h, by rw [dirPath_cons] at h2; exact h2, h6, h4⟩

/-- C82, before sorting: the directories -/
theorem walk_dirs (c : Config) (e : Entries) : ∀ (root full : Name), NoDotDot e →
    (full ∈ (walk c root e).2 ↔ c.includeDirs = true ∧ ∃ ds n, DirAt e ds n ∧ full = dirPath c.sl root (ds ++ [n]) ∧
      Entered c root ds) := by
  induction e with
  | nil =>
    intro root full _
    simp only [walk, List.not_mem_nil, false_iff]
    rintro ⟨_, ds, n, h, _⟩; cases h
  | file m r rest ih =>
    intro root full hn
    have ih := ih root full hn
    have h1 : (walk c root (.file m r rest)).2 = (walk c root rest).2 := by
      simp only [walk]; split <;> rfl
    rw [h1, ih]
    refine and_congr_right fun _ => ?_
    constructor
    · rintro ⟨ds, n, h, h2⟩; exact ⟨ds, n, .skipFile h, h2⟩
    · rintro ⟨ds, n, h, h2⟩
      cases h with
      | skipFile h => exact ⟨ds, n, h, h2⟩
  | dir d sub rest ihs ihr =>
    intro root full hn
    obtain ⟨hd, hns, hnr⟩ := hn
    simp only [walk]
    have ihr := ihr root full hnr
    have hm := isMagic_iff hd
    by_cases hdot : Dot d
    · rw [if_pos (hm.mpr hdot), ihr]
      refine and_congr_right fun _ => ?_
      constructor
      · rintro ⟨ds, n, h, h2⟩; exact ⟨ds, n, .skipDir h, h2⟩
      · rintro ⟨ds, n, h, h2⟩
        cases h with
        | skipDir h => exact ⟨ds, n, h, h2⟩
        | here hnd => exact absurd hdot hnd
        | inside hnd _ => exact absurd hdot hnd
    · rw [if_neg (fun h => hdot (hm.mp h))]
      have hp : root ++ d ++ [c.sl] = dirPath c.sl root [d] := by simp [dirPath]
      simp only [List.mem_append, ihr]
      have hs : (full ∈ (if onDirectory c (root ++ d ++ [c.sl]) then walk c (root ++ d ++ [c.sl]) sub else ([], [])).2) ↔
          Entered c root [d] ∧ c.includeDirs = true ∧ ∃ ds n, DirAt sub ds n ∧
            full = dirPath c.sl (root ++ d ++ [c.sl]) (ds ++ [n]) ∧ Entered c (root ++ d ++ [c.sl]) ds := by
        by_cases he : Entered c root [d]
        · have := (onDirectory_iff c root [d] (by simp)).mpr he
          rw [← hp] at this
          rw [if_pos this, ihs _ full hns]
          simp [he]
        · have : ¬ onDirectory c (root ++ d ++ [c.sl]) = true := by
            rw [hp]; exact fun h => he ((onDirectory_iff c root [d] (by simp)).mp h)
          rw [if_neg this]
          simp [he]
      rw [hs]
      have hi : (full ∈ if c.includeDirs = true then [root ++ d ++ [c.sl]] else []) ↔
          c.includeDirs = true ∧ full = dirPath c.sl root [d] := by
        rw [hp]; split <;> simp [*]
      rw [hi]
      constructor
      · rintro ((⟨hI, he⟩ | ⟨he, hI, ds, n, h1, h2, h3⟩) | ⟨hI, ds, n, h, h2⟩)
        · exact ⟨hI, [], d, .here hdot, he, fun h => absurd rfl h⟩
        · exact ⟨hI, d :: ds, n, .inside hdot h1, by rw [List.cons_append, dirPath_cons]; exact h2, (entered_cons ..).mpr ⟨he, h3⟩⟩
        · exact ⟨hI, ds, n, .skipDir h, h2⟩
      · rintro ⟨hI, ds, n, h, h2, h3⟩
        cases h with
        | here _ => exact .inl (.inl ⟨hI, h2⟩)
        | skipDir h => exact .inr ⟨hI, ds, n, h, h2, h3⟩
        | inside _ h =>
          obtain ⟨h5, h6⟩ := (entered_cons ..).mp h3
          exact .inl (.inr ⟨h5, hI, _, n, h, by rw [List.cons_append, dirPath_cons] at h2; exact h2, h6⟩)

end Verif.Dirs
