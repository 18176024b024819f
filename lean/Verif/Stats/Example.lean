import Verif.Stats.Props
/-! A build with a library shared by two programs: C115 applies to it. -/
namespace Verif.Stats

private def g : Nat → Node
  | 0 => { type := 7, static_ := [1, 2] }
  | 1 => { type := 8, built := true, time := 30, preBuild := [4], static_ := [3] }
  | 2 => { type := 8, time := 0, static_ := [3], dynamic_ := [5] }
  | 3 => { type := 5, built := true, time := 10, remote := true, lastBuild := 90 }
  | 4 => { type := 0, time := 5, static_ := [5] }
  | 5 => { type := 4, time := 2 }
  | _ => { type := 6 }

private theorem closed : Closed g 6 := by
  intro n hn m hm
  have : ∀ n < 6, ∀ m, m ∈ (g n).preBuild ++ ((g n).static_ ++ (g n).dynamic_) → m < 6 := by decide
  apply this n hn
  simpa using hm

private theorem lists : Lists g 0 [0, 1, 2, 3, 4, 5] := by
  refine ⟨by decide, fun n => ⟨fun h => ?_, fun h => ?_⟩⟩
  · have n1 : Needed g 0 1 := .static_ (n := 0) .root (by decide)
    have n2 : Needed g 0 2 := .static_ (n := 0) .root (by decide)
    simp only [List.mem_cons, List.not_mem_nil, or_false] at h
    rcases h with rfl | rfl | rfl | rfl | rfl | rfl
    · exact .root
    · exact n1
    · exact n2
    · exact .static_ n1 (by decide)
    · exact .preBuild n1 (by decide)
    · exact .dynamic_ n2 (by decide)
  · have step : ∀ n ∈ [0, 1, 2, 3, 4, 5], ∀ m, m ∈ (g n).preBuild ++ ((g n).static_ ++ (g n).dynamic_) → m ∈ [0, 1, 2, 3, 4, 5] := by decide
    induction h with
    | root => decide
    | preBuild _ hm ih => exact step _ ih _ (by simp [hm])
    | static_ _ hm ih => exact step _ ih _ (by simp [hm])
    | dynamic_ _ hm ih => exact step _ ih _ (by simp [hm])

private def sort (l : List Nat) : List Nat := l.mergeSort fun a b => decide ((g b).time ≤ (g a).time)

private theorem sorts : Sorts g sort where
  perm l := List.mergeSort_perm l _
  ordered l := by
    have := List.pairwise_mergeSort (le := fun a b : Nat => decide ((g b).time ≤ (g a).time))
      (fun a b c h1 h2 => by simp only [decide_eq_true_eq] at *; exact BitVec.le_trans h2 h1)
      (fun a b => by simp only [Bool.or_eq_true, decide_eq_true_eq]; exact (BitVec.le_total (g b).time (g a).time)) l
    simpa [sort] using this

example : ∃ a, statistics g sort 7 0 = some a ∧ (a.perType 8).processed = 2#32 ∧ (a.perType 8).built = 1#32 ∧ (a.perType 4).processed = 1#32 ∧
    a.perType proxyNode = {} ∧ a.totals.processed = 5#32 ∧ a.localTime = 42#32 ∧ a.remoteTime = 90#32 ∧
    (∀ n ∈ expensive a, n ∈ [0, 1, 2, 3, 4, 5]) := by
  obtain ⟨a, h⟩ := C115_ends closed (by decide : 0 < 6) sort
  refine ⟨a, h, ?_, ?_, ?_, C115_proxy closed (by decide) h, ?_, ?_, ?_, ?_⟩
  · rw [C115_row closed (by decide) lists h (by decide)]; decide +kernel
  · rw [C115_row closed (by decide) lists h (by decide)]; decide +kernel
  · rw [C115_row closed (by decide) lists h (by decide)]; decide +kernel
  · rw [C115_totals closed (by decide) lists h]; decide +kernel
  · rw [(C115_time closed (by decide) lists h).1]; decide +kernel
  · rw [(C115_time closed (by decide) lists h).2]; decide +kernel
  · exact fun n hn => ((C115_expensive closed (by decide) sorts lists h).2.2.1 n hn).1

example : (shown true true false false).1 = false := by decide

end Verif.Stats
