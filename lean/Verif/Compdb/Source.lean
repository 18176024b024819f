import Verif.Compdb.Dfs
/-
`-sourcefile`: Code/Tools/FBuild/FBuildCore/Helpers/SourceFileTargetResolver.cpp ("R" below) with `FBuild::Build`,
FBuild.cpp:287-316. Nodes are numbers; the lookup of a cleaned path (R:48-52) has taken place: `none` if there is no such node.
Building by name (FBuild.cpp:315) is building the node, as no two nodes have the same name (C95).
-/
namespace Verif.Source
open Verif.Dfs (Reach)

structure Nd where
  static : List Nat
  dynamic : List Nat

abbrev Graph := List Nd

def deps (g : Graph) (n : Nat) : List Nat := (g[n]?.map fun d => d.static ++ d.dynamic).getD []

/-- `m_BuildPassTag` of the nodes, and `newTargets` -/
structure St where
  seen : List Nat
  found : List Nat

/-- a loop of calls -/
def all (f : Nat → St → Option St) : List Nat → St → Option St
  | [], s => some s
  | n :: l, s => match f n s with
    | some s => all f l s
    | none => none

/-- `FindTargetsRecurse`, R:95-142. `none`: the stack is used up -/
def find (g : Graph) (src : Nat) : Nat → Nat → St → Option St
  | 0, _, _ => none
  | fuel + 1, n, s =>
    if n ∈ s.seen then some s
    else if src ∈ deps g n then some ⟨n :: s.seen, s.found ++ [n]⟩
    else all (find g src fuel) (deps g n) ⟨n :: s.seen, s.found⟩

/-- `finalTargets` and `failedToFindATarget` -/
structure Res where
  seen : List Nat
  final : List Nat
  failed : Bool

/-- the loop over the source files, R:41-70 -/
def sources (g : Graph) (hints : List Nat) : List (Option Nat) → Res → Option Res
  | [], r => some r
  | none :: l, r => sources g hints l { r with failed := true }
  | some src :: l, r => match all (find g src (g.length + 1)) hints ⟨r.seen, []⟩ with
    | none => none
    | some s =>
      if s.found = [] then sources g hints l { r with seen := s.seen, failed := true }
      else sources g hints l { r with seen := s.seen, final := r.final ++ s.found }

/-- `Resolve`, R:25-91 -/
def resolve (g : Graph) (hints : List Nat) (srcs : List (Option Nat)) : Option (List Nat) :=
  (sources g hints srcs ⟨[], [], false⟩).map fun r => if r.failed then hints else r.final

/-! ### specification -/

/-- all nodes are nodes of the graph -/
def Closed (g : Graph) (hints : List Nat) : Prop := (∀ n, ∀ m ∈ deps g n, m < g.length) ∧ ∀ h ∈ hints, h < g.length

/-- `n` is used to build one of the hints -/
def Under (g : Graph) (hints : List Nat) (n : Nat) : Prop := ∃ h ∈ hints, Reach (deps g) h n

/-- The first nodes that use the source, on the ways down from `n`. -/
inductive First (g : Graph) (src : Nat) : Nat → Nat → Prop
  | here {n : Nat} : src ∈ deps g n → First g src n n
  | down {n m k : Nat} : src ∉ deps g n → m ∈ deps g n → First g src m k → First g src n k

/-! ### proof -/

/-- dependencies that are followed -/
def pruned (g : Graph) (src n : Nat) : List Nat := if src ∈ deps g n then [] else deps g n

def hits (g : Graph) (src : Nat) (l : List Nat) : List Nat := l.filter fun n => src ∈ deps g n

theorem all_sim {g : Graph} {src : Nat} {f : Nat → St → Option St} {v : Nat → Dfs.St → Option Dfs.St} {pre : List Nat}
    (h : ∀ n s, f n ⟨s.seen, pre ++ hits g src s.out⟩ = (v n s).map fun s => ⟨s.seen, pre ++ hits g src s.out⟩) :
    ∀ l s, all f l ⟨s.seen, pre ++ hits g src s.out⟩ = (Dfs.all v l s).map fun s => ⟨s.seen, pre ++ hits g src s.out⟩ := by
  intro l
  induction l with
  | nil => intro s; rfl
  | cons n l ih =>
    intro s
    rw [all, Dfs.all, h]
    cases v n s with
    | none => rfl
    | some s => exact ih s

theorem find_sim (g : Graph) (src : Nat) (pre : List Nat) : ∀ fuel n s, find g src fuel n ⟨s.seen, pre ++ hits g src s.out⟩ =
    (Dfs.visit (pruned g src) fuel n s).map fun s => ⟨s.seen, pre ++ hits g src s.out⟩ := by
  intro fuel
  induction fuel with
  | zero => intro n s; rfl
  | succ fuel ih =>
    intro n s
    rw [find, Dfs.visit]
    split
    · rfl
    · by_cases hh : src ∈ deps g n
      · simp [pruned, hh, Dfs.all, hits]
      · rw [if_neg hh, show pruned g src n = deps g n by simp [pruned, hh], all_sim (s := ⟨n :: s.seen, s.out⟩) ih]
        cases Dfs.all (Dfs.visit (pruned g src) fuel) (deps g n) ⟨n :: s.seen, s.out⟩ with
        | none => rfl
        | some t => simp [hits, hh]

theorem first_iff {g : Graph} {src n k : Nat} : First g src n k ↔ Reach (pruned g src) n k ∧ src ∈ deps g k := by
  constructor
  · intro h
    induction h with
    | here h => exact ⟨.refl _, h⟩
    | down h1 h2 _ ih => exact ⟨.step (by simp [pruned, h1, h2]) ih.1, ih.2⟩
  · rintro ⟨h1, h2⟩
    induction h1 with
    | refl => exact .here h2
    | @step n m k h _ ih =>
      by_cases hh : src ∈ deps g n
      · simp [pruned, hh] at h
      · exact .down hh (by simpa [pruned, hh] using h) (ih h2)

theorem first_reach {g : Graph} {src n k : Nat} (h : First g src n k) : Reach (deps g) n k ∧ src ∈ deps g k := by
  induction h with
  | here h => exact ⟨.refl _, h⟩
  | down _ h2 _ ih => exact ⟨.step h2 ih.1, ih.2⟩

theorem reach_first {g : Graph} {src n d : Nat} (h : Reach (deps g) n d) (hd : src ∈ deps g d) :
    ∃ t, First g src n t ∧ Reach (deps g) t d := by
  induction h with
  | refl => exact ⟨_, .here hd, .refl _⟩
  | @step n m k h h' ih =>
    by_cases hh : src ∈ deps g n
    · exact ⟨n, .here hh, .step h h'⟩
    · obtain ⟨t, h1, h2⟩ := ih hd
      exact ⟨t, .down hh h h1, h2⟩

theorem search {g : Graph} {hints : List Nat} (hg : Closed g hints) (src : Nat) :
    ∃ s, all (find g src (g.length + 1)) hints ⟨[], []⟩ = some s ∧ s.found.Nodup ∧ (∀ t, t ∈ s.found ↔ ∃ h ∈ hints, First g src h t) ∧
      ∀ h ∈ hints, h ∈ s.seen := by
  obtain ⟨s, h1, h2, h3, h4⟩ := Dfs.all_spec (succ := pruned g src) (N := g.length) (roots := hints)
    (fun n _ m hm => by
      unfold pruned at hm
      split at hm
      · cases hm
      · exact hg.1 n m hm) hg.2
  refine ⟨⟨s.seen, hits g src s.out⟩, ?_, h2.filter _, ?_, ?_⟩
  · have := all_sim (pre := []) (find_sim g src [] (g.length + 1)) hints ⟨[], []⟩
    simp only [List.nil_append, hits, List.filter_nil] at this
    rw [this, h1]
    rfl
  · intro t
    simp only [hits, List.mem_filter, decide_eq_true_eq, h3]
    constructor
    · rintro ⟨⟨h, hh, hr⟩, ht⟩
      exact ⟨h, hh, first_iff.2 ⟨hr, ht⟩⟩
    · rintro ⟨h, hh, hf⟩
      exact ⟨⟨h, hh, (first_iff.1 hf).1⟩, (first_iff.1 hf).2⟩
  · intro h hh
    exact (h4 h).2 ((h3 h).2 ⟨h, hh, .refl _⟩)

/-- With the tags of an earlier search nothing is found. -/
theorem search_again {g : Graph} {hints : List Nat} {src : Nat} {seen : List Nat} (h : ∀ h ∈ hints, h ∈ seen) :
    all (find g src (g.length + 1)) hints ⟨seen, []⟩ = some ⟨seen, []⟩ := by
  induction hints with
  | nil => rfl
  | cons a l ih =>
    have e : find g src (g.length + 1) a ⟨seen, []⟩ = some ⟨seen, []⟩ := by simp [find, h a (by simp)]
    rw [all, e]
    exact ih (fun x hx => h x (by simp [hx]))

theorem sources_seen {g : Graph} {hints : List Nat} : ∀ (l : List (Option Nat)) (r : Res), (∀ h ∈ hints, h ∈ r.seen) →
    ∃ r', sources g hints l r = some r' ∧ (l ≠ [] ∨ r.failed = true → r'.failed = true) := by
  intro l
  induction l with
  | nil => intro r _; exact ⟨r, rfl, by simp⟩
  | cons a l ih =>
    intro r hr
    cases a with
    | none =>
      obtain ⟨r', h1, h2⟩ := ih { r with failed := true } hr
      exact ⟨r', h1, fun _ => h2 (.inr rfl)⟩
    | some src =>
      obtain ⟨r', h1, h2⟩ := ih { r with failed := true } hr
      refine ⟨r', ?_, fun _ => h2 (.inr rfl)⟩
      rw [sources, search_again hr]
      simpa using h1

theorem sources_failed {g : Graph} {hints : List Nat} (hg : Closed g hints) : ∀ (l : List (Option Nat)) (r : Res), r.failed = true → (r.seen = [] ∨ ∀ h ∈ hints, h ∈ r.seen) →
    ∃ r', sources g hints l r = some r' ∧ r'.failed = true := by
  intro l
  induction l with
  | nil => intro r h _; exact ⟨r, rfl, h⟩
  | cons a l ih =>
    intro r hf hr
    cases a with
    | none => exact ih { r with failed := true } rfl hr
    | some src =>
      rcases hr with hr | hr
      · obtain ⟨s, h1, _, _, h4⟩ := search hg src
        rw [sources, hr, h1]
        simp only
        split
        · exact ih _ rfl (.inr h4)
        · exact ih _ hf (.inr h4)
      · obtain ⟨r', h1, h2⟩ := sources_seen (g := g) (some src :: l) r hr
        exact ⟨r', h1, h2 (.inl (by simp))⟩

/-! ### the property -/

/-- A single source file that something below the hints uses: exactly the first users of it are built, each named once. They use
it, they are needed for the hints, and all users of it below the hints are built with them. -/
theorem C97_one_partial {g : Graph} {hints : List Nat} {src : Nat} (hg : Closed g hints) (hu : ∃ d, Under g hints d ∧ src ∈ deps g d) :
    ∃ ts, resolve g hints [some src] = some ts ∧ ts ≠ [] ∧ ts.Nodup ∧ (∀ t, t ∈ ts ↔ ∃ h ∈ hints, First g src h t) ∧
      (∀ t ∈ ts, Under g hints t ∧ src ∈ deps g t) ∧ ∀ d, Under g hints d → src ∈ deps g d → Under g ts d := by
  obtain ⟨s, h1, h2, h3, _⟩ := search hg src
  have hall : ∀ d, Under g hints d → src ∈ deps g d → Under g s.found d := by
    rintro d ⟨h, hh, hr⟩ hd
    obtain ⟨t, ht, htd⟩ := reach_first hr hd
    exact ⟨t, (h3 t).2 ⟨h, hh, ht⟩, htd⟩
  have hne : s.found ≠ [] := by
    obtain ⟨d, hd, hs⟩ := hu
    obtain ⟨t, ht, _⟩ := hall d hd hs
    exact List.ne_nil_of_mem ht
  refine ⟨s.found, ?_, hne, h2, h3, ?_, hall⟩
  · simp [resolve, sources, h1, hne]
  · intro t ht
    obtain ⟨h, hh, hf⟩ := (h3 t).1 ht
    exact ⟨⟨h, hh, (first_reach hf).1⟩, (first_reach hf).2⟩

/-- If nothing below the hints uses a source file, or there is no such node, the hints are built. -/
theorem C97_unknown {g : Graph} {hints : List Nat} {srcs : List (Option Nat)} (hg : Closed g hints)
    (h : ∃ o ∈ srcs, ∀ src, o = some src → ¬ ∃ d, Under g hints d ∧ src ∈ deps g d) : resolve g hints srcs = some hints := by
  have key : ∀ (l : List (Option Nat)) (r : Res), (r.seen = [] ∨ ∀ h ∈ hints, h ∈ r.seen) →
      (∃ o ∈ l, ∀ src, o = some src → ¬ ∃ d, Under g hints d ∧ src ∈ deps g d) → ∃ r', sources g hints l r = some r' ∧ r'.failed = true := by
    intro l
    induction l with
    | nil => rintro r _ ⟨o, ho, _⟩; cases ho
    | cons a l ih =>
      rintro r hr ⟨o, ho, hn⟩
      rcases hr with hr | hr
      · cases a with
        | none => exact sources_failed hg l { r with failed := true } rfl (.inl hr)
        | some src =>
          obtain ⟨s, h1, _, h3, h4⟩ := search hg src
          rw [sources, hr, h1]
          simp only
          split
          · exact sources_failed hg l _ rfl (.inr h4)
          · next hne =>
            rcases List.mem_cons.1 ho with rfl | ho
            · exfalso
              obtain ⟨t, ht⟩ := List.exists_mem_of_ne_nil _ hne
              obtain ⟨h, hh, hf⟩ := (h3 t).1 ht
              exact hn src rfl ⟨t, ⟨h, hh, (first_reach hf).1⟩, (first_reach hf).2⟩
            · exact ih _ (.inr h4) ⟨o, ho, hn⟩
      · obtain ⟨r', h1, h2⟩ := sources_seen (g := g) (a :: l) r hr
        exact ⟨r', h1, h2 (.inl (by simp))⟩
  obtain ⟨r', h1, h2⟩ := key srcs ⟨[], [], false⟩ (.inl rfl) h
  simp [resolve, h1, h2]

/-- For any source files, all users of them below the hints are built. -/
theorem C97_covers {g : Graph} {hints : List Nat} {srcs : List (Option Nat)} (hg : Closed g hints) (hne : srcs ≠ []) :
    ∃ ts, resolve g hints srcs = some ts ∧ ∀ src, some src ∈ srcs → ∀ d, Under g hints d → src ∈ deps g d → Under g ts d := by
  by_cases hn : ∃ o ∈ srcs, ∀ src, o = some src → ¬ ∃ d, Under g hints d ∧ src ∈ deps g d
  · exact ⟨hints, C97_unknown hg hn, fun _ _ d hd _ => hd⟩
  · match srcs, hne with
    | none :: l, _ => exact absurd ⟨none, by simp, by simp⟩ hn
    | [some src], _ =>
      have hu : ∃ d, Under g hints d ∧ src ∈ deps g d := by
        refine Classical.byContradiction fun h => hn ⟨some src, by simp, ?_⟩
        intro x hx
        simp only [Option.some.injEq] at hx
        subst hx
        exact h
      obtain ⟨ts, h1, _, _, _, _, h6⟩ := C97_one_partial hg hu
      refine ⟨ts, h1, ?_⟩
      intro x hx
      simp only [List.mem_singleton, Option.some.injEq] at hx
      subst hx
      exact h6
    | some src :: b :: l, _ =>
      obtain ⟨s, h1, _, _, h4⟩ := search hg src
      have : ∃ r', sources g hints (some src :: b :: l) ⟨[], [], false⟩ = some r' ∧ r'.failed = true := by
        rw [sources, h1]
        simp only
        split
        · exact sources_failed hg _ _ rfl (.inr h4)
        · obtain ⟨r', e1, e2⟩ := sources_seen (g := g) (b :: l) ⟨s.seen, [] ++ s.found, false⟩ h4
          exact ⟨r', e1, e2 (.inl (by simp))⟩
      obtain ⟨r', e1, e2⟩ := this
      exact ⟨hints, by simp [resolve, e1, e2], fun _ _ d hd _ => hd⟩

/-- With more than one source file the hints are always built, whatever uses the files: the tags of the first search are left, and
the search for the second finds nothing. -/
theorem C97_two {g : Graph} {hints : List Nat} {a b : Option Nat} {l : List (Option Nat)} (hg : Closed g hints) :
    resolve g hints (a :: b :: l) = some hints := by
  cases a with
  | none => exact C97_unknown hg ⟨none, by simp, by simp⟩
  | some src =>
    obtain ⟨s, h1, _, _, h4⟩ := search hg src
    have : ∃ r', sources g hints (some src :: b :: l) ⟨[], [], false⟩ = some r' ∧ r'.failed = true := by
      rw [sources, h1]
      simp only
      split
      · exact sources_failed hg _ _ rfl (.inr h4)
      · obtain ⟨r', e1, e2⟩ := sources_seen (g := g) (b :: l) ⟨s.seen, [] ++ s.found, false⟩ h4
        exact ⟨r', e1, e2 (.inl (by simp))⟩
    obtain ⟨r', e1, e2⟩ := this
    simp [resolve, e1, e2]

/-! ### an example -/

/-- 0: all, of the libraries 1 and 2; objects 3, 4 (in 1) and 5 (in 2), of sources 6, 7, 8; header 9 in 3 and 5 -/
def exGraph : Graph := [⟨[1, 2], []⟩, ⟨[], [3, 4]⟩, ⟨[], [5]⟩, ⟨[6], [9]⟩, ⟨[7], []⟩, ⟨[8], [9]⟩, ⟨[], []⟩, ⟨[], []⟩, ⟨[], []⟩, ⟨[], []⟩]

theorem exClosed : Closed exGraph [0] := by
  refine ⟨?_, by decide⟩
  intro n m hm
  match n with
  | 0 | 1 | 2 | 3 | 4 | 5 | 6 | 7 | 8 | 9 => revert m; decide
  | n + 10 => simp [deps, exGraph] at hm

example : resolve exGraph [0] [some 9] = some [3, 5] := by decide
example : resolve exGraph [0] [some 7] = some [4] := by decide
example : resolve exGraph [0] [some 0] = some [0] := by decide

example : ∃ ts, resolve exGraph [0] [some 9] = some ts ∧ ts ≠ [] ∧ ts.Nodup ∧ (∀ t, t ∈ ts ↔ ∃ h ∈ [0], First exGraph 9 h t) ∧
    (∀ t ∈ ts, Under exGraph [0] t ∧ 9 ∈ deps exGraph t) ∧ ∀ d, Under exGraph [0] d → 9 ∈ deps exGraph d → Under exGraph ts d :=
  C97_one_partial exClosed ⟨3, ⟨0, by simp, .step (m := 1) (by decide) (.step (m := 3) (by decide) (.refl _))⟩, by decide⟩

/-- Two sources with users of their own: all is built, not the two objects. -/
theorem C97_two_sources : resolve exGraph [0] [some 6, some 7] = some [0] ∧ resolve exGraph [0] [some 6] = some [3] ∧
    resolve exGraph [0] [some 7] = some [4] ∧ ¬ (6 ∈ deps exGraph 0 ∨ 7 ∈ deps exGraph 0) := by decide

end Verif.Source
