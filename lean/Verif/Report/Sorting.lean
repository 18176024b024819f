import Verif.Report.InclProps
import Verif.Report.LibsProps
import Verif.Stats.Props
import Verif.Sort.Props
/-!
The sort that C115, C122 and C126 take as given is `ShellSort` (Core/Containers/Sort.h:35-63, Array.h:72-78) with the comparisons of the report.
-/
namespace Verif.Report.Sorting

/-- the array after `Sort` -/
def sorted {α : Type} (lt : α → α → Bool) (l : List α) : List α := (Sort.shellSort lt l).getD l

/-- `IncludeStats::operator<`, Report.h:65 -/
def incLt (a b : Incl.Inc) : Bool := decide (a.count > b.count)

/-- `LibraryStats::operator<`, Report.h:55 -/
def libLt (a b : LibStats) : Bool := decide (a.time > b.time)

/-- `NodeCostSorter`, FBuildStats.cpp:25-32 -/
def costLt (g : Nat → Stats.Node) (a b : Nat) : Bool := decide ((g a).time > (g b).time)

theorem sorted_perm {α : Type} (lt : α → α → Bool) (l : List α) : (sorted lt l).Perm l := by
  obtain ⟨b, h1, h2⟩ := Sort.C35_shellSort_perm lt l
  simp [sorted, h1, h2]

theorem sorted_ordered {α : Type} {lt : α → α → Bool} (W : Sort.StrictWeak lt) (l : List α) : (sorted lt l).Pairwise fun x y => lt y x = false := by
  obtain ⟨b, h1, _, h3⟩ := Sort.C35_shellSort_sorts lt W l
  simp only [sorted, h1, Option.getD_some]
  exact h3

/-- C126: the sort of the includes -/
theorem C126_sort : Incl.Sorts (sorted incLt) where
  perm := sorted_perm _
  ordered l := (sorted_ordered ⟨by simp [incLt]; omega, by simp [incLt]; omega⟩ l).imp (by simp [incLt])

/-- C122: the sort of the libraries -/
theorem C122_sort : Sorts (sorted libLt) where
  perm := sorted_perm _
  ordered l := (sorted_ordered ⟨by simp [libLt]; omega, by simp [libLt]; omega⟩ l).imp (by simp [libLt])

/-- C115: the sort of the nodes -/
theorem C115_sort (g : Nat → Stats.Node) : Stats.Sorts g (sorted (costLt g)) where
  perm := sorted_perm _
  ordered l := (sorted_ordered ⟨by simp only [costLt, decide_eq_true_eq, decide_eq_false_iff_not, gt_iff_lt, BitVec.lt_def]; intros; omega,
    by simp only [costLt, decide_eq_false_iff_not, gt_iff_lt, BitVec.lt_def]; intros; omega⟩ l).imp (by simp [costLt])

/-- C126 with the sort of the code: in a graph without cycles there is a list, and it is as in `C126_list`. -/
theorem C126_report (g : Nat → Node) (pch : Nat → Bool) (hash : Nat → Nat) (rank : Nat → Nat) (hrank : ∀ n m, Incl.DepOf g n m → rank m < rank n)
    (lib : Nat) : ∃ L r, Incl.Ways g lib L ∧ Incl.includes g pch hash (sorted incLt) (rank lib + 1) lib = some r ∧ (r.map (·.node)).Nodup ∧
      r.Pairwise (fun a b => b.count ≤ a.count) ∧
      ∀ i, i ∈ r ↔ 0 < Incl.times g L i.node ∧ i.count = Incl.times g L i.node ∧ (i.pch = true ↔ Incl.InPch g pch L i.node) := by
  obtain ⟨r, hr⟩ := Option.isSome_iff_exists.1 (Incl.C126_total g pch hash (sorted incLt) rank hrank lib (rank lib + 1) (by omega))
  obtain ⟨L, h1, h2, h3, h4⟩ := Incl.C126_list g pch hash _ C126_sort _ lib r hr
  exact ⟨L, r, h1, hr, h2, h3, h4⟩

example : sorted incLt [⟨1, 2, true⟩, ⟨2, 7, false⟩, ⟨3, 2, false⟩] = [⟨2, 7, false⟩, ⟨3, 2, false⟩, ⟨1, 2, true⟩] ∨
    sorted incLt [⟨1, 2, true⟩, ⟨2, 7, false⟩, ⟨3, 2, false⟩] = [⟨2, 7, false⟩, ⟨1, 2, true⟩, ⟨3, 2, false⟩] := by decide

end Verif.Report.Sorting
