import Verif.Sort.Lemmas
/-! Property C35: sorting. -/
namespace Verif.Sort
variable {α : Type}

/-- C35. For every array and every strict weak order `ShellSort` stays inside the array and terminates,
and the result is a permutation of the input in which no element is smaller than an earlier one. -/
theorem C35_shellSort_sorts (lt : α → α → Bool) (W : StrictWeak lt) (a : List α) :
    ∃ b, shellSort lt a = some b ∧ b.Perm a ∧ b.Pairwise (fun x y => lt y x = false) := by
  obtain ⟨b, h1, h2⟩ := sortGaps_perm lt gaps (by decide) a
  refine ⟨b, h1, h2, ?_⟩
  have hs : SortedTo lt b.length b :=
    sortGaps_sorted W
      [510774, 227011, 100894, 44842, 19930, 8858, 3937, 1750, 701, 301, 132, 57, 23, 10, 4]
      (by decide) a b h1
  rw [List.pairwise_iff_getElem]
  intro i j hi hj hij
  exact hs i j hi hj hij hj

/-- C35. Even with an inconsistent comparer the result is a permutation of the input (no element is
lost or duplicated) and no access is out of bounds. -/
theorem C35_shellSort_perm (lt : α → α → Bool) (a : List α) :
    ∃ b, shellSort lt a = some b ∧ b.Perm a := sortGaps_perm lt gaps (by decide) a

theorem ltNat_weak : StrictWeak (fun a b : Nat => decide (a < b)) where
  asymm := by simp; omega
  negtrans := by simp; omega

/-- the order by cost used for jobs: different elements may be equivalent -/
theorem ltFst_weak : StrictWeak (fun a b : Nat × Nat => decide (a.1 < b.1)) where
  asymm := by simp; omega
  negtrans := by simp; omega

example : StrictWeak (fun a b : Nat × Nat => decide (a.1 < b.1)) ∧
    shellSort (fun a b : Nat × Nat => decide (a.1 < b.1)) [(3, 0), (1, 1), (2, 2), (1, 3), (9, 4), (0, 5)] =
      some [(0, 5), (1, 3), (1, 1), (2, 2), (3, 0), (9, 4)] := ⟨ltFst_weak, by decide⟩

end Verif.Sort
