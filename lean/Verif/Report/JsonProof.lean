import Verif.Report.JsonSpec
import Verif.Profile.Proof
/-!
Lemmas for the report in JSON.
-/
namespace Verif.Report
open Spec
open Verif.Compdb (escape Plain)
open Verif.Profile.Spec (IsStr Clean)
open Verif.Profile (clean_str esc_str key)

def join : List (List Tok) → List Tok
  | [] => []
  | a :: l => a ++ l.flatMap (.comma :: ·)

theorem join_cons (a b : List Tok) (l : List (List Tok)) : join (a :: b :: l) = a ++ .comma :: join (b :: l) := by
  simp [join]

/-! ### loops -/

def loop {α : Type} (row : α → List Tok) (n : Nat) : Nat → List α → List Tok
  | _, [] => []
  | k, x :: l => row x ++ (if k < n - 1 then [.comma] else []) ++ loop row n (k + 1) l

theorem loop_join {α : Type} (row : α → List Tok) (n : Nat) : ∀ (k : Nat) (l : List α), k + l.length = n → loop row n k l = join (l.map row)
  | _, [], _ => rfl
  | k, [x], h => by
    have h1 : ¬ k < n - 1 := by simp at h; omega
    simp [loop, join, h1]
  | k, x :: y :: l, h => by
    have h1 : k < n - 1 := by simp at h; omega
    have ih := loop_join row n (k + 1) (y :: l) (by simp at h ⊢; omega)
    rw [loop, ih, if_pos h1]
    simp only [List.map_cons, join_cons]
    simp

theorem typeRows_loop (n : Nat) : ∀ (k : Nat) (l : List TypeRow), typeRows n k l = loop typeRow n k l
  | _, [] => rfl
  | k, t :: l => by rw [typeRows, loop, typeRows_loop]

theorem itemRows_loop (sg c : Bool) (n : Nat) : ∀ (k : Nat) (l : List Item), itemRows sg c n k l = loop (itemRow sg c) n k l
  | _, [] => rfl
  | k, t :: l => by rw [itemRows, loop, itemRows_loop]

theorem incRows_loop (sg : Bool) (o n : Nat) : ∀ (k : Nat) (l : List Inc), incRows sg o n k l = loop (incRow sg o) n k l
  | _, [] => rfl
  | k, t :: l => by rw [incRows, loop, incRows_loop]

theorem details_pos : ∀ (k : Nat) (l : List Lib), details (k + 1) l = ((worked l).map detail).flatMap (.comma :: ·)
  | _, [] => rfl
  | k, l :: ls => by
    rw [details]
    by_cases h : l.outOfDate = 0
    · rw [if_pos h, details_pos]; simp [worked, h]
    · rw [if_neg h, details_pos]; simp [worked, h]

theorem details_join : ∀ (l : List Lib), details 0 l = join ((worked l).map detail)
  | [] => rfl
  | l :: ls => by
    rw [details]
    by_cases h : l.outOfDate = 0
    · rw [if_pos h, details_join]; simp [worked, h]
    · rw [if_neg h, details_pos]; simp [worked, h, join]

def timed (libs : List Lib) : List Lib := libs.filter fun l => l.time ≠ 0

theorem libRows_join (sg : Bool) (n : Nat) : ∀ (l : List Lib) (k : Nat), k + (timed l).length ≤ n →
    libRows sg n k l = join ((timed l).map (libRow sg)) ++ (if timed l ≠ [] ∧ k + (timed l).length < n then [.comma] else [])
  | [], _, _ => by simp [libRows, timed, join]
  | l :: ls, k, h => by
    rw [libRows]
    by_cases h0 : l.time = 0
    · have e : timed (l :: ls) = timed ls := by simp [timed, h0]
      rw [e] at h
      rw [if_pos h0, libRows_join sg n ls k h, e]
    · have e : timed (l :: ls) = l :: timed ls := by simp [timed, h0]
      rw [e] at h
      have ih := libRows_join sg n ls (k + 1) (by simp at h; omega)
      rw [if_neg h0, ih, e]
      match ht : timed ls with
      | [] =>
        by_cases hk : k + 1 < n
        · have : k < n - 1 := by omega
          simp [join, hk, this]
        · have : ¬ k < n - 1 := by omega
          simp [join, hk, this]
      | a :: b =>
        rw [ht] at h
        have : k < n - 1 := by simp at h; omega
        rw [if_pos this]
        simp only [List.map_cons, join_cons]
        have e2 : k + 1 + (a :: b).length = k + (l :: a :: b).length := by simp; omega
        rw [e2]
        simp

def incHead (l : Lib) : List Tok := [.lb, S "Library name", .colon, .str l.name, .comma, S "Includes", .colon, .ls]

def incLib (sg : Bool) (l : Lib) : List Tok := incHead l ++ join (l.incs.map (incRow sg l.objects)) ++ [.rs, .rb]

def full (l : List Lib) : Nat := l.countP fun l => !l.incs.isEmpty

theorem full_le (l : List Lib) : full l ≤ l.length := List.countP_le_length

theorem incLibs_cons (sg : Bool) (n c : Nat) (l : Lib) (ls : List Lib) (h : l.outOfDate ≠ 0) :
    incLibs sg n c (l :: ls) = incLib sg l ++ (if c < n - 1 then [.comma] else []) ++ incLibs sg n (c + full [l]) ls := by
  rw [incLibs, if_neg h]
  by_cases h1 : l.incs.isEmpty
  · rw [if_pos h1]
    have : l.incs = [] := by simpa using h1
    simp [incLib, incHead, full, this, join]
  · rw [if_neg h1, incRows_loop, loop_join _ _ _ _ (by simp)]
    simp [incLib, incHead, full, h1]

theorem incLibs_join (sg : Bool) (n : Nat) : ∀ (l : List Lib) (c : Nat), c + (worked l).length ≤ n →
    incLibs sg n c l = join ((worked l).map (incLib sg)) ++
      (if worked l ≠ [] ∧ c + full (worked l).dropLast < n - 1 then [.comma] else [])
  | [], _, _ => by simp [incLibs, worked, join]
  | l :: ls, c, h => by
    by_cases h0 : l.outOfDate = 0
    · have e : worked (l :: ls) = worked ls := by simp [worked, h0]
      rw [e] at h
      rw [incLibs, if_pos h0, incLibs_join sg n ls c h, e]
    · have e : worked (l :: ls) = l :: worked ls := by simp [worked, h0]
      rw [e] at h
      have f1 : full [l] ≤ 1 := full_le [l]
      have ih := incLibs_join sg n ls (c + full [l]) (by simp at h; omega)
      rw [incLibs_cons _ _ _ _ _ h0, ih, e]
      match ht : worked ls with
      | [] => simp [join, full]
      | a :: b =>
        rw [ht] at h
        have : c < n - 1 := by simp at h; omega
        rw [if_pos this]
        simp only [List.map_cons, join_cons]
        have e2 : full (l :: a :: b).dropLast = full [l] + full (a :: b).dropLast := by
          simp only [full, List.dropLast_cons₂, List.countP_cons, List.countP_nil]; omega
        rw [e2, Nat.add_assoc]
        simp

/-! ### JSON -/

theorem recast {v : J} {t t' : List Tok} (h : Den v t) (e : t = t') : Den v t' := e ▸ h

theorem elems_join {α : Type} {f : α → J} {g : α → List Tok} : ∀ {l : List α}, l ≠ [] → (∀ x ∈ l, Den (f x) (g x)) →
    Elems (l.map f) (join (l.map g))
  | [x], _, h => by
    have := Elems.one (h x (by simp))
    simpa [join] using this
  | x :: y :: l, _, h => by
    have ih := elems_join (f := f) (g := g) (l := y :: l) (by simp) (fun z hz => h z (List.mem_cons_of_mem _ hz))
    rw [List.map_cons, List.map_cons, List.map_cons, List.map_cons, join_cons]
    exact .more (h x (by simp)) ih

theorem arr_join {α : Type} {f : α → J} {g : α → List Tok} {l : List α} (h : ∀ x ∈ l, Den (f x) (g x)) :
    Den (.arr (l.map f)) (.ls :: join (l.map g) ++ [.rs]) := by
  by_cases e : l = []
  · subst e; exact .arr0
  · exact .arr (elems_join e h)

theorem members_join {α : Type} {f : α → Text × J} {g : α → List Tok} : ∀ {l : List α}, l ≠ [] →
    (∀ x ∈ l, Members [f x] (g x)) → Members (l.map f) (join (l.map g))
  | [x], _, h => by simpa [join] using h x (by simp)
  | x :: y :: l, _, h => by
    have ih := members_join (f := f) (g := g) (l := y :: l) (by simp) (fun z hz => h z (List.mem_cons_of_mem _ hz))
    rw [List.map_cons, List.map_cons, List.map_cons, List.map_cons, join_cons]
    have hx := h x (by simp)
    generalize g x = t at hx
    generalize f x = v at hx
    rw [List.map_cons, List.map_cons] at ih
    cases hx with
    | one a b => exact .more a b ih
    | more a b c => cases c

theorem obj_join {α : Type} {f : α → Text × J} {g : α → List Tok} {l : List α} (h : ∀ x ∈ l, Members [f x] (g x)) :
    Den (.obj (l.map f)) (.lb :: join (l.map g) ++ [.rb]) := by
  by_cases e : l = []
  · subst e; exact .obj0
  · exact .obj (members_join e h)

theorem mem1 {k : String} {v : J} {t : List Tok} (hv : Den v t) (hk : Clean k.toList := by decide +kernel) :
    Members [m k v] (S k :: .colon :: t) := .one (clean_str hk) hv

theorem mem {k : String} {v : J} {t t' : List Tok} {l : List (Text × J)} (hv : Den v t) (hl : Members l t')
    (hk : Clean k.toList := by decide +kernel) : Members (m k v :: l) (S k :: .colon :: t ++ .comma :: t') := .more (clean_str hk) hv hl

theorem lit {k : String} (hk : Clean k.toList := by decide +kernel) : Den (s k) [S k] := .str (clean_str hk)

/-! ### what is not JSON -/

/-- a comma before the end of an array -/
def bad : List Tok → Bool
  | .comma :: .rs :: _ => true
  | _ :: t => bad t
  | [] => false

theorem bad_cons (x : Tok) (t : List Tok) : bad (x :: t) = ((x == .comma && t.head? == some .rs) || bad t) := by
  cases x <;> first | (cases t with | nil => rfl | cons y t => cases y <;> rfl)

theorem bad_append : ∀ (x y : List Tok), bad (x ++ y) = (bad x || bad y || (x.getLast? == some .comma && y.head? == some .rs))
  | [], y => by simp [bad]
  | [a], y => by
    rw [List.singleton_append, bad_cons]
    simp only [bad_cons, bad, List.getLast?_singleton, List.head?_nil]
    cases bad y <;> cases a <;> simp
  | a :: b :: x, y => by
    rw [List.cons_append, bad_cons, bad_append (b :: x) y, bad_cons a (b :: x)]
    simp [Bool.or_assoc]

structure Fine (t : List Tok) : Prop where
  head : ∃ a l, t = a :: l ∧ a ≠ .rs
  last : ∃ a l, t = l ++ [a] ∧ a ≠ .comma
  none : bad t = false
  strs : ∀ k, Tok.str k ∈ t → ∃ s, IsStr s k

theorem Fine.app {t t' : List Tok} (h : Fine t) (h' : Fine t') : Fine (t ++ .comma :: t') := by
  obtain ⟨a, l, e, ha⟩ := h.head
  obtain ⟨a', l', e', ha'⟩ := h'.last
  obtain ⟨b, k, e1, hb⟩ := h'.head
  refine ⟨⟨a, l ++ .comma :: t', by simp [e], ha⟩, ⟨a', t ++ .comma :: l', by simp [e'], ha'⟩, ?_, ?_⟩
  · rw [bad_append, h.none, bad_cons, h'.none, e1]
    simp [hb]
  · intro k hk
    simp at hk
    exact hk.elim (h.strs k) (h'.strs k)

theorem Fine.wrap {t : List Tok} (h : Fine t) (x y : Tok) (hx : x ≠ .comma) (hx2 : x ≠ .rs) (hy : y ≠ .comma) (hs : ∀ k, x ≠ .str k) (hs' : ∀ k, y ≠ .str k) :
    Fine (x :: t ++ [y]) := by
  obtain ⟨a', l', e', ha'⟩ := h.last
  refine ⟨⟨x, t ++ [y], rfl, hx2⟩, ⟨y, x :: t, rfl, hy⟩, ?_, ?_⟩
  · have hy1 : bad [y] = false := by cases y <;> rfl
    rw [List.cons_append, bad_cons, bad_append, h.none, hy1, e']
    simp [hx, ha']
  · intro k hk
    simp at hk
    rcases hk with hk | hk | hk
    · exact absurd hk.symm (hs k)
    · exact h.strs k hk
    · exact absurd hk.symm (hs' k)

theorem Fine.key {t : List Tok} {k x : Text} (h : Fine t) (hk : IsStr x k) : Fine (.str k :: .colon :: t) := by
  obtain ⟨a', l', e', ha'⟩ := h.last
  refine ⟨⟨_, _, rfl, by simp⟩, ⟨a', .str k :: .colon :: l', by simp [e'], ha'⟩, ?_, ?_⟩
  · rw [bad_cons, bad_cons, h.none]; rfl
  · intro z hz
    simp at hz
    rcases hz with hz | hz
    · subst hz; exact ⟨x, hk⟩
    · exact h.strs z hz

mutual
theorem den_fine : ∀ {v : J} {t : List Tok}, Den v t → Fine t
  | _, _, .str (t := t) h => ⟨⟨_, _, rfl, by simp⟩, ⟨_, [], rfl, by simp⟩, rfl, fun k hk => by simp at hk; subst hk; exact ⟨_, h⟩⟩
  | _, _, .num => ⟨⟨_, _, rfl, by simp⟩, ⟨_, [], rfl, by simp⟩, rfl, fun k hk => by simp at hk⟩
  | _, _, .dec => ⟨⟨_, _, rfl, by simp⟩, ⟨_, [], rfl, by simp⟩, rfl, fun k hk => by simp at hk⟩
  | _, _, .arr0 => ⟨⟨_, _, rfl, by simp⟩, ⟨_, [.ls], rfl, by simp⟩, rfl, fun k hk => by simp at hk⟩
  | _, _, .arr h => (elems_fine h).wrap .ls .rs (by simp) (by simp) (by simp) (by simp) (by simp)
  | _, _, .obj0 => ⟨⟨_, _, rfl, by simp⟩, ⟨_, [.lb], rfl, by simp⟩, rfl, fun k hk => by simp at hk⟩
  | _, _, .obj h => (members_fine h).wrap .lb .rb (by simp) (by simp) (by simp) (by simp) (by simp)
theorem elems_fine : ∀ {l : List J} {t : List Tok}, Elems l t → Fine t
  | _, _, .one h => den_fine h
  | _, _, .more h h' => (den_fine h).app (elems_fine h')
theorem members_fine : ∀ {l : List (Text × J)} {t : List Tok}, Members l t → Fine t
  | _, _, .one k h => (den_fine h).key k
  | _, _, .more k h h' => ((den_fine h).key k).app (members_fine h')
end

end Verif.Report
