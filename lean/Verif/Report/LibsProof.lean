import Verif.Report.LibsSpec
import Verif.Compdb.Dfs
/-!
Lemmas for C122.
-/
namespace Verif.Report

theorem isLib_iff (g : Nat → Node) (n : Nat) : isLibrary (g n) = true ↔ IsLib g n := by
  unfold isLibrary IsLib
  cases (g n).kind <;> simp

def succ' (g : Nat → Node) (n : Nat) : List Nat :=
  if (g n).kind = .object then [] else (g n).preBuild ++ (g n).static_ ++ (g n).dynamic_

theorem mem_succ' {g : Nat → Node} {n m : Nat} : m ∈ succ' g n ↔ Dep g n m := by
  unfold succ' Dep
  by_cases h : (g n).kind = .object
  · simp [h]
  · simp [h, or_assoc]

theorem all_append (f : Nat → St → Option St) (l m : List Nat) (s : St) :
    all f (l ++ m) s = match all f l s with | none => none | some s => all f m s := by
  induction l generalizing s with
  | nil => rfl
  | cons n l ih =>
    rw [List.cons_append, all, all]
    cases f n s with
    | none => rfl
    | some t => exact ih t

/-- nodes seen with the library at hand, the last first -/
abbrev Log := List (Nat × Option Nat)

abbrev nodes (E : Log) : List Nat := E.map (·.1)

/-- the state after these -/
def view (g : Nat → Node) : Log → St
  | [] => {}
  | (n, cur) :: E =>
    let s := view g E
    let s := { s with seen := n :: s.seen }
    if (g n).kind = .object then onObject (g n) cur s
    else if isLibrary (g n) then { s with libs := s.libs ++ [newLib n (g n)] } else s

theorem view_seen (g : Nat → Node) : ∀ E : Log, (view g E).seen = nodes E
  | [] => rfl
  | (n, cur) :: E => by
    have ih := view_seen g E
    simp only [view, nodes, List.map_cons]
    split
    · cases cur <;> simp [onObject, ih]
    · split <;> simp [ih]

/-- what holds when `n` is visited with the library at hand `cur` -/
structure Ok (g : Nat → Node) (root : Nat) (cur : Option Nat) (n : Nat) (E : Log) : Prop where
  lib : ∀ L, cur = some L → IsLib g L ∧ L ∈ nodes E ∧ Needs g L n
  top : cur = none → n = root ∨ ∃ p ∈ nodes E, Dep g p n ∧ ¬ IsLib g p

theorem Ok.mono {g : Nat → Node} {root n : Nat} {cur : Option Nat} {E E' : Log} (h : Ok g root cur n E) (he : ∀ x ∈ nodes E, x ∈ nodes E') :
    Ok g root cur n E' :=
  ⟨fun L e => ⟨(h.lib L e).1, he _ (h.lib L e).2.1, (h.lib L e).2.2⟩,
    fun e => (h.top e).imp id fun ⟨p, hp, q⟩ => ⟨p, he p hp, q⟩⟩

def WF (g : Nat → Node) (root : Nat) : Log → Prop
  | [] => True
  | (n, cur) :: E => n ∉ nodes E ∧ Ok g root cur n E ∧ WF g root E

theorem all_sim {g : Nat → Node} {root fuel : Nat} {cur : Option Nat}
    (hf : ∀ n E out s, Dfs.visit (succ' g) fuel n ⟨nodes E, out⟩ = some s → WF g root E → Ok g root cur n E →
      ∃ E', gather g fuel cur n (view g E) = some (view g E') ∧ nodes E' = s.seen ∧ WF g root E' ∧ ∀ x ∈ nodes E, x ∈ nodes E') (l : List Nat) :
    ∀ E out s, Dfs.all (Dfs.visit (succ' g) fuel) l ⟨nodes E, out⟩ = some s → WF g root E → (∀ m ∈ l, Ok g root cur m E) →
      ∃ E', all (gather g fuel cur) l (view g E) = some (view g E') ∧ nodes E' = s.seen ∧ WF g root E' ∧ ∀ x ∈ nodes E, x ∈ nodes E' := by
  induction l with
  | nil =>
    intro E out s h hw _
    simp only [Dfs.all, Option.some.injEq] at h
    subst h
    exact ⟨E, rfl, rfl, hw, fun _ h => h⟩
  | cons n l ih =>
    intro E out s h hw hm
    rw [Dfs.all] at h
    cases hv : Dfs.visit (succ' g) fuel n ⟨nodes E, out⟩ with
    | none => rw [hv] at h; cases h
    | some t =>
      rw [hv] at h
      obtain ⟨E1, e1, n1, w1, m1⟩ := hf n E out t hv hw (hm n (by simp))
      have ht : t = ⟨nodes E1, t.out⟩ := by rw [n1]
      simp only at h
      rw [ht] at h
      obtain ⟨E2, e2, n2, w2, m2⟩ := ih E1 _ s h w1 fun m h => (hm m (List.mem_cons_of_mem _ h)).mono m1
      refine ⟨E2, ?_, n2, w2, fun x hx => m2 x (m1 x hx)⟩
      rw [all, e1]
      exact e2

theorem gather_sim {g : Nat → Node} {root : Nat} (fuel : Nat) : ∀ cur n E out s, Dfs.visit (succ' g) fuel n ⟨nodes E, out⟩ = some s →
    WF g root E → Ok g root cur n E →
      ∃ E', gather g fuel cur n (view g E) = some (view g E') ∧ nodes E' = s.seen ∧ WF g root E' ∧ ∀ x ∈ nodes E, x ∈ nodes E' := by
  induction fuel with
  | zero => intro cur n E out s h; simp [Dfs.visit] at h
  | succ fuel ih =>
    intro cur n E out s h hw hok
    rw [Dfs.visit] at h
    rw [gather, view_seen]
    by_cases hn : n ∈ nodes E
    · simp only [if_pos hn, Option.some.injEq] at h
      subst h
      exact ⟨E, if_pos hn, rfl, hw, fun _ h => h⟩
    · simp only [if_neg hn] at h
      rw [if_neg hn]
      have w1 : WF g root ((n, cur) :: E) := ⟨hn, hok, hw⟩
      have m1 : ∀ x ∈ nodes E, x ∈ nodes ((n, cur) :: E) := fun x hx => List.mem_cons_of_mem _ hx
      cases hall : Dfs.all (Dfs.visit (succ' g) fuel) (succ' g n) ⟨n :: nodes E, out⟩ with
      | none => rw [hall] at h; cases h
      | some t =>
        rw [hall] at h
        simp only [Option.some.injEq] at h
        subst h
        by_cases ho : (g n).kind = .object
        · have : succ' g n = [] := by simp [succ', ho]
          rw [this] at hall
          simp only [Dfs.all, Option.some.injEq] at hall
          subst hall
          refine ⟨(n, cur) :: E, ?_, rfl, w1, m1⟩
          simp only [ho, if_true, view, view_seen]
        · have es : succ' g n = (g n).preBuild ++ (g n).static_ ++ (g n).dynamic_ := by simp [succ', ho]
          have hch : ∀ m ∈ succ' g n, Ok g root (if isLibrary (g n) then some n else cur) m ((n, cur) :: E) := by
            intro m hm
            have hd := mem_succ'.1 hm
            by_cases hl : isLibrary (g n) = true
            · rw [if_pos hl]
              refine ⟨fun L e => ?_, fun e => by cases e⟩
              cases e
              exact ⟨(isLib_iff g n).1 hl, by simp, .step .refl hd⟩
            · rw [if_neg hl]
              refine ⟨fun L e => ?_, fun e => .inr ⟨n, by simp, hd, fun h => hl ((isLib_iff g n).2 h)⟩⟩
              obtain ⟨a, b, c⟩ := hok.lib L e
              exact ⟨a, m1 L b, .step c hd⟩
          obtain ⟨E2, e2, n2, w2, m2⟩ := all_sim (fun m E out s => ih _ m E out s) (succ' g n) ((n, cur) :: E) out t hall w1 hch
          refine ⟨E2, ?_, n2, w2, fun x hx => m2 x (m1 x hx)⟩
          have ev : view g ((n, cur) :: E) =
              (if isLibrary (g n) = true then
                { (view g E) with seen := n :: nodes E, libs := (view g E).libs ++ [newLib n (g n)] }
              else { (view g E) with seen := n :: nodes E }) := by
            simp only [view, if_neg ho, view_seen]
          rw [← e2, es, all_append, all_append, ev]
          simp only [if_neg ho]
          split <;> (split <;> first | rfl | simp_all)

/-! ### the graph -/

theorem needs_of_reach {g : Nat → Node} {a b : Nat} (h : Dfs.Reach (succ' g) a b) : ∀ r, Needs g r a → Needs g r b := by
  induction h with
  | refl => exact fun _ h => h
  | step h1 _ ih => exact fun r h => ih r (.step h (mem_succ'.1 h1))

theorem visited {g : Nat → Node} {N root : Nat} (hc : Closed g N) (hr : root < N) :
    ∃ E, gather g (N + 1) none root {} = some (view g E) ∧ WF g root E ∧ ∀ n, n ∈ nodes E ↔ Needs g root n := by
  have hs : ∀ n < N, ∀ m ∈ succ' g n, m < N := fun n hn m hm => hc n hn m (mem_succ'.1 hm).2
  obtain ⟨s, h⟩ := Dfs.visit_some hs (N + 1) root ⟨[], []⟩ hr (by
    have := List.length_filter_le (fun n => decide (n ∉ ([] : List Nat))) (List.range N)
    simp only [Dfs.left]
    simp at this ⊢
    omega)
  obtain ⟨E, e, n, w, _⟩ := gather_sim (root := root) (N + 1) none root [] [] s h trivial ⟨fun L e => (by cases e), fun _ => .inl rfl⟩
  refine ⟨E, e, w, fun m => ?_⟩
  obtain ⟨new, a⟩ := Dfs.visit_adds _ _ _ _ _ h
  rw [n]
  constructor
  · intro hm
    obtain hm | hm := (a.seen m).1 hm
    · simp at hm
    · obtain ⟨r, hr, hp⟩ := a.reach m hm
      simp at hr
      subst hr
      exact needs_of_reach hp _ .refl
  · intro hm
    induction hm with
    | refl => exact a.roots root (by simp)
    | step _ hd ih =>
      obtain ih | ih := (a.seen _).1 ih
      · simp at ih
      · exact a.closed _ ih _ (mem_succ'.2 hd)

theorem wf_nodup {g : Nat → Node} {root : Nat} : ∀ {E : Log}, WF g root E → (nodes E).Nodup
  | [], _ => by simp
  | (n, cur) :: E, h => List.nodup_cons.2 ⟨h.1, wf_nodup h.2.2⟩

theorem wf_mem {g : Nat → Node} {root n L : Nat} : ∀ {E : Log}, WF g root E → (n, some L) ∈ E → IsLib g L ∧ L ∈ nodes E ∧ Needs g L n
  | [], _, h => by simp at h
  | (k, cur) :: E, h, hm => by
    rcases List.mem_cons.1 hm with e | hm
    · cases e
      obtain ⟨a, b, c⟩ := h.2.1.lib L rfl
      exact ⟨a, List.mem_cons_of_mem _ b, c⟩
    · obtain ⟨a, b, c⟩ := wf_mem h.2.2 hm
      exact ⟨a, List.mem_cons_of_mem _ b, c⟩

theorem wf_top {g : Nat → Node} {root n : Nat} : ∀ {E : Log}, WF g root E → (n, none) ∈ E → n = root ∨ ∃ p ∈ nodes E, Dep g p n ∧ ¬ IsLib g p
  | [], _, h => by simp at h
  | (k, cur) :: E, h, hm => by
    rcases List.mem_cons.1 hm with e | hm
    · cases e
      exact (h.2.1.top rfl).imp id fun ⟨p, hp, q⟩ => ⟨p, List.mem_cons_of_mem _ hp, q⟩
    · exact (wf_top h.2.2 hm).imp id fun ⟨p, hp, q⟩ => ⟨p, List.mem_cons_of_mem _ hp, q⟩

/-! ### the libraries -/

/-- the objects counted for `L` -/
def objsOf (g : Nat → Node) (E : Log) (L : Nat) : List Nat :=
  (E.filter fun e => decide ((g e.1).kind = .object ∧ e.2 = some L)).map (·.1)

theorem mem_objsOf {g : Nat → Node} {E : Log} {L o : Nat} : o ∈ objsOf g E L ↔ (o, some L) ∈ E ∧ IsObject g o := by
  unfold objsOf IsObject
  simp only [List.mem_map, List.mem_filter, decide_eq_true_eq]
  constructor
  · rintro ⟨⟨a, b⟩, ⟨h1, h2, h3⟩, rfl⟩
    simp only at h2 h3
    subst h3
    exact ⟨h1, h2⟩
  · rintro ⟨h1, h2⟩
    exact ⟨_, ⟨h1, h2, rfl⟩, rfl⟩

theorem count_row (g : Nat → Node) (n L : Nat) (O : List Nat) : countObject (g n) (row g L O) = row g L (n :: O) := by
  unfold countObject row number timeOf Cacheable OutOfDate
  simp only [List.filter_cons]
  rcases Bool.eq_false_or_eq_true (g n).hit with h1 | h1 <;> rcases Bool.eq_false_or_eq_true (g n).miss with h2 | h2 <;>
    rcases Bool.eq_false_or_eq_true (g n).built with h3 | h3 <;> rcases Bool.eq_false_or_eq_true (g n).store with h4 | h4 <;>
    simp [h1, h2, h3, h4] <;> omega

theorem new_row (g : Nat → Node) (n : Nat) : newLib n (g n) = row g n [] := by
  unfold newLib row number timeOf
  cases (g n).built <;> cases (g n).failed <;> simp

theorem view_libs {g : Nat → Node} {root : Nat} : ∀ {E : Log}, WF g root E →
    (view g E).libs = ((nodes E).filter fun n => isLibrary (g n)).reverse.map fun L => row g L (objsOf g E L)
  | [], _ => rfl
  | (n, cur) :: E, h => by
    have ih := view_libs h.2.2
    simp only [view]
    by_cases ho : (g n).kind = .object
    · have hl : isLibrary (g n) = false := by simp [isLibrary, ho]
      rw [if_pos ho]
      have ef : (nodes ((n, cur) :: E)).filter (fun n => isLibrary (g n)) = (nodes E).filter fun n => isLibrary (g n) := by
        simp [hl]
      rw [ef]
      cases cur with
      | none =>
        simp only [onObject, ih]
        apply List.map_congr_left
        intro L _
        congr 1
        simp [objsOf]
      | some K =>
        simp only [onObject, ih, List.map_map]
        apply List.map_congr_left
        intro L _
        simp only [Function.comp]
        by_cases e : L = K
        · subst e
          rw [if_pos (by rfl), count_row]
          congr 1
          simp [objsOf, ho]
        · have : ¬ (row g L (objsOf g E L)).node = K := e
          rw [if_neg this]
          congr 1
          have e' : K ≠ L := fun h => e h.symm
          simp [objsOf, e']
    · rw [if_neg ho]
      have eo : ∀ L, objsOf g ((n, cur) :: E) L = objsOf g E L := fun L => by simp [objsOf, ho]
      simp only [eo]
      by_cases hl : isLibrary (g n) = true
      · rw [if_pos hl]
        have ef : (nodes ((n, cur) :: E)).filter (fun n => isLibrary (g n)) = n :: (nodes E).filter fun n => isLibrary (g n) := by
          simp [hl]
        have e0 : objsOf g E n = [] := by
          apply List.eq_nil_iff_forall_not_mem.2
          intro o hm
          exact h.1 (wf_mem h.2.2 (mem_objsOf.1 hm).1).2.1
        rw [ef, List.reverse_cons, List.map_append, ← ih, List.map_cons, e0, new_row]
        rfl
      · rw [if_neg hl]
        have ef : (nodes ((n, cur) :: E)).filter (fun n => isLibrary (g n)) = (nodes E).filter fun n => isLibrary (g n) := by
          simp [hl]
        rw [ef, ← ih]

theorem view_bad {g : Nat → Node} : ∀ {E : Log}, (view g E).bad = true ↔ ∃ n, (n, none) ∈ E ∧ IsObject g n
  | [] => by simp [view]
  | (n, cur) :: E => by
    have ih := view_bad (g := g) (E := E)
    simp only [view]
    by_cases ho : (g n).kind = .object
    · rw [if_pos ho]
      cases cur with
      | none => simp only [onObject, true_iff]; exact ⟨n, by simp, ho⟩
      | some K =>
        simp only [onObject, ih, List.mem_cons, Prod.mk.injEq, reduceCtorEq, and_false, false_or]
    · rw [if_neg ho]
      have : ((if isLibrary (g n) = true then ({ seen := n :: (view g E).seen, libs := (view g E).libs ++ [newLib n (g n)], bad := (view g E).bad } : St)
          else { seen := n :: (view g E).seen, libs := (view g E).libs, bad := (view g E).bad }).bad) = (view g E).bad := by
        split <;> rfl
      rw [this, ih]
      constructor
      · rintro ⟨m, h1, h2⟩; exact ⟨m, List.mem_cons_of_mem _ h1, h2⟩
      · rintro ⟨m, h1, h2⟩
        rcases List.mem_cons.1 h1 with e | h1
        · cases e; exact absurd h2 ho
        · exact ⟨m, h1, h2⟩

end Verif.Report
