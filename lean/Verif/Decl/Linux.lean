import Verif.Decl.Define
import Verif.Str.CleanProps
/-
The assumptions about cleaning names hold for `NodeGraph::CleanPath` on Linux.
-/
namespace Verif.Decl
open Verif.Bff (Val)
open Verif.Str

/-- letters in upper case -/
theorem lower_cases (c : Char) : lower c = c ∨ ∃ n, n < 26 ∧ c.toNat = 65 + n ∧ lower c = Char.ofNat (97 + n) := by
  unfold lower
  by_cases h : 'A' ≤ c ∧ c ≤ 'Z'
  · rw [if_pos h]
    right
    have h1 : 65 ≤ c.toNat := by have := h.1; exact this
    have h2 : c.toNat ≤ 90 := by have := h.2; exact this
    refine ⟨c.toNat - 65, by omega, by omega, rfl⟩
  · rw [if_neg h]; exact Or.inl rfl

theorem lower_test (p : Char → Bool) (h : ∀ n, n < 26 → p (Char.ofNat (97 + n)) = false) (h' : ∀ n, n < 26 → p (Char.ofNat (65 + n)) = false) (c : Char) :
    p (lower c) = p c := by
  rcases lower_cases c with e | ⟨n, hn, hc, e⟩
  · rw [e]
  · rw [e, h n hn]
    have : c = Char.ofNat (65 + n) := by rw [← hc]; exact (Char.ofNat_toNat c).symm
    rw [this, h' n hn]

theorem isSlash_lower (c : Char) : isSlash (lower c) = isSlash c := lower_test isSlash (by decide) (by decide) c

theorem isDot_lower (c : Char) : lower c = '.' ↔ c = '.' := by
  have := lower_test (fun x => decide (x = '.')) (by decide) (by decide) c
  simpa using this

theorem isSl_lower (c : Char) : lower c = '/' ↔ c = '/' := by
  have := lower_test (fun x => decide (x = '/')) (by decide) (by decide) c
  simpa using this

theorem skipSlashes_key : ∀ s : Name, skipSlashes (key s) = key (skipSlashes s)
  | [] => rfl
  | c :: s => by
    show skipSlashes (lower c :: key s) = _
    rw [skipSlashes, skipSlashes, isSlash_lower]
    split
    · exact skipSlashes_key s
    · rfl

theorem atSep_key (s : Name) : atSep (key s) = atSep s := by
  cases s with
  | nil => rfl
  | cons c s => exact isSlash_lower c

theorem key_length (s : Name) : (key s).length = s.length := by simp [key]

theorem popBack_key (low : Nat) : ∀ r : Name, popBack '/' low (key r) = key (popBack '/' low r)
  | [] => rfl
  | c :: r => by
    show popBack '/' low (lower c :: key r) = _
    rw [popBack, popBack, key_length]
    simp only [isSl_lower]
    split
    · split
      · rfl
      · exact popBack_key low r
    · rfl

theorem key_head (s : Name) : (key s).head? = some '.' ↔ s.head? = some '.' := by
  cases s with
  | nil => simp [key]
  | cons c s => simp [key, isDot_lower]

theorem key_tail (s : Name) : (key s).tail = key s.tail := by cases s <;> rfl

theorem cleanGo_key (full : Bool) : ∀ (fuel : Nat) (ls : Bool) (low : Nat) (rout src : Name),
    cleanGo '/' full fuel ls low (key rout) (key src) = (cleanGo '/' full fuel ls low rout src).map key
  | 0, _, _, _, _ => rfl
  | fuel + 1, ls, low, rout, [] => rfl
  | fuel + 1, ls, low, rout, c :: src => by
    show cleanGo '/' full (fuel + 1) ls low (key rout) (lower c :: key src) = _
    have hsl : ∀ r : Name, '/' :: key r = key ('/' :: r) := fun _ => rfl
    have hdd : ∀ r : Name, '/' :: '.' :: '.' :: key r = key ('/' :: '.' :: '.' :: r) := fun _ => rfl
    rw [cleanGo, cleanGo]
    simp only [isSlash_lower, isDot_lower, atSep_key, key_head, key_tail, skipSlashes_key, key_length, popBack_key, hsl, hdd]
    split
    · exact cleanGo_key full fuel _ _ _ _
    · split
      · exact cleanGo_key full fuel _ _ _ _
      · split
        · split
          · exact cleanGo_key full fuel _ _ _ _
          · split
            · exact cleanGo_key full fuel _ _ _ _
            · exact cleanGo_key full fuel _ _ _ _
        · exact cleanGo_key full fuel _ _ (c :: rout) _

theorem cleanPath_key (wd s : Name) : (cleanPath .linux wd s true).map key = cleanPath .linux (key wd) (key s) true := by
  have hfull : isFullPath .linux (key s) = isFullPath .linux s := by
    unfold isFullPath
    cases s with
    | nil => rfl
    | cons c s =>
      show (some (lower c) == some '/') = (some c == some '/')
      have := isSl_lower c
      by_cases h : c = '/'
      · rw [h]; rfl
      · have h' : ¬ lower c = '/' := fun hh => h (this.1 hh)
        have e1 : (lower c == '/') = false := beq_eq_false_iff_ne.2 h'
        have e2 : (c == '/') = false := beq_eq_false_iff_ne.2 h
        simp only [Option.some_beq_some, e1, e2]
  unfold cleanPath
  rw [hfull]
  have hnil : key wd = [] ↔ wd = [] := by simp [key]
  have hn : native .linux = '/' := rfl
  simp only [hnil, hn, reduceCtorEq, if_false, key_length]
  generalize hx : (if isFullPath .linux s = false ∧ True then (if wd = [] then ([] : Name) else wd ++ ['/'], true) else ([], isFullPath .linux s)) = x
  have hx' : (if isFullPath .linux s = false ∧ True then (if wd = [] then ([] : Name) else key wd ++ ['/'], true) else ([], isFullPath .linux s)) =
      (key x.1, x.2) := by
    rw [← hx]
    split
    · split
      · rfl
      · simp [key, lower]
    · rfl
  rw [hx']
  obtain ⟨out, full⟩ := x
  dsimp only
  have hrev : (key out).reverse = key out.reverse := by simp [key]
  rw [hrev, cleanGo_key]
  cases cleanGo '/' full (s.length + 1) true (if full then 1 else 0) out.reverse s with
  | none => rfl
  | some r => simp [key, List.map_take]

/-- the functions for paths on Linux, with a working directory; `IsFolderPath`, PathUtils.cpp:11-26 -/
def linux (wd : Name) (var : Name → Option Val) : Ctx where
  clean s := (cleanPath .linux wd s true).getD []
  slash s := ensureTrailingSlash .linux s
  fixFolder s := (fixupFolderPath .linux s).getD []
  fixFile s := (fixupFilePath .linux s).getD []
  isFolder s := s.getLast?.any isSlash
  var := var

/-- the path a name is cleaned to, apart from its length -/
def cleaned (wd s : Name) : Name := render ['/'] '/' (resolve [] (comps (fullName wd s))) (endsOpen (fullName wd s))

/-- names that do not start with a backslash and are shorter than 65536 characters when they are cleaned -/
def Short (wd s : Name) : Prop := s.head? ≠ some '\\' ∧ (cleaned wd s).length < 65536

theorem clean_eq {wd : Name} (hwd : WorkDir ['/'] '/' wd) (var : Name → Option Val) {s : Name} (h : Short wd s) : (linux wd var).clean s = cleaned wd s := by
  obtain ⟨r, hr, hc⟩ := clean_linux wd s (fun _ => hwd) h.1
  show (cleanPath .linux wd s true).getD [] = _
  have hlen := h.2
  unfold cleaned at *
  rw [← hr] at hlen
  rw [hc, Nat.mod_eq_of_lt hlen, List.take_length, hr]
  rfl

theorem cleaned_twice (wd s : Name) : cleaned wd (cleaned wd s) = cleaned wd s := by
  have hh : (cleaned wd s).head? = some '/' := rfl
  have hsl : isSlash '/' = true := rfl
  have hgood := resolve_comps (comps (fullName wd s)) [] (comps_isComp _) (by simp)
  have hcomp : comps (cleaned wd s) = resolve [] (comps (fullName wd s)) := by
    unfold cleaned
    rw [render, List.singleton_append, comps_cons '/' hsl]
    exact comps_render_tail '/' hsl _ (fun c hc => (hgood c hc).1) _
  have hopen : endsOpen (cleaned wd s) = (endsOpen (fullName wd s) && !(resolve [] (comps (fullName wd s))).isEmpty) := by
    unfold cleaned
    rw [render, List.singleton_append, ← endsOpen_skip, skipSlashes, if_pos hsl, endsOpen_skip]
    exact endsOpen_tail '/' hsl _ hgood _
  have hfn : fullName wd (cleaned wd s) = cleaned wd s := by simp [fullName, hh]
  have e : cleaned wd (cleaned wd s) = render ['/'] '/' (resolve [] (comps (cleaned wd s))) (endsOpen (cleaned wd s)) := by
    conv => lhs; rw [cleaned, hfn]
  rw [e, hcomp, resolve_id _ [] (fun c hc => (hgood c hc).2), List.nil_append, hopen]
  conv => rhs; rw [cleaned]
  unfold render
  cases hcs : resolve [] (comps (fullName wd s)) with
  | nil => cases endsOpen (fullName wd s) <;> rfl
  | cons a l => simp

/-- The assumptions about cleaning hold on Linux for all names of reasonable length that do not start with a backslash. -/
theorem C95_linux {wd : Name} (hwd : WorkDir ['/'] '/' wd) (var : Name → Option Val) :
    Tidy (linux wd var) (Short wd) ∧ CleanNe (linux wd var) (Short wd) := by
  have hcl : ∀ s, Short wd s → Short wd (cleaned wd s) := by
    intro s h
    exact ⟨by show some '/' ≠ some '\\'; decide, by rw [cleaned_twice]; exact h.2⟩
  refine ⟨⟨?_, ?_, ?_⟩, ?_⟩
  · intro s h; rw [clean_eq hwd var h]; exact hcl s h
  · intro s t hs ht hk
    have h1 := cleanPath_key wd s
    have h2 := cleanPath_key wd t
    rw [hk, ← h2] at h1
    show key ((cleanPath .linux wd s true).getD []) = key ((cleanPath .linux wd t true).getD [])
    cases e1 : cleanPath .linux wd s true <;> cases e2 : cleanPath .linux wd t true <;> rw [e1, e2] at h1 <;> simp at h1 ⊢
    exact h1
  · intro s h
    rw [clean_eq hwd var h, clean_eq hwd var (hcl s h), cleaned_twice]
  · intro s h _
    rw [clean_eq hwd var h]
    simp [cleaned, render]

end Verif.Decl
