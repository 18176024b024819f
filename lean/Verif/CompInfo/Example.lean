import Verif.CompInfo.Props
/-! The hypotheses of C113 hold for what clang writes. -/
namespace Verif.CompInfo

private def list : Text :=
  "#include \"...\" search starts here:".toList ++ '\n' :: ("#include <...> search starts here:".toList ++ '\n' ::
    ((List.replicate (0 + 1) ' ' ++ "/usr/include/c++/13".toList ++ List.replicate 0 ' ') ++ '\n' ::
      ((List.replicate (1 + 1) ' ' ++ "/usr/my include".toList ++ List.replicate 2 ' ') ++ '\n' :: [])))

private theorem lines : Lines list ["/usr/include/c++/13".toList, "/usr/my include".toList] :=
  .head .headA (.head .headB (.path (.path 0 0 (by decide) (by decide) (by decide) (by decide) (by decide))
    (.path (.path 1 2 (by decide) (by decide) (by decide) (by decide) (by decide)) .nil)))

private theorem heads : Heads list := .inl ⟨_, rfl⟩

private theorem before {pre rest : Text} (h : '#' ∉ pre) : Before pre rest := by
  intro p q e hq hh
  cases q with
  | nil => exact hq rfl
  | cons c q =>
    have hc : c = '#' := by
      rcases hh with ⟨r, h⟩ | ⟨r, h⟩ <;> exact List.head_eq_of_cons_eq h
    exact h (by rw [e, hc]; simp)

private def pre : Text := "clang version 17\nignoring nothing\n".toList
private def rest : Text := "End of search list.".toList ++ '\n' :: "and \"more\n".toList
private def node : Node := ⟨false, true, [], 0⟩
private theorem before_list : Before pre (list ++ rest) := before (by decide +kernel)

-- a usual case of `C113_paths_partial`, and through it of `C113_added`
example : (doBuild (fun _ => 7) node (.exited 0 (pre ++ (list ++ rest)))).1.paths =
    ["/usr/include/c++/13".toList, "/usr/my include".toList] :=
  by
  have hr : rest = [] ∨ ∃ r, rest = "End of search list.".toList ++ '\n' :: r := .inr ⟨_, rfl⟩
  have h0 : ((fun _ => 7) : List Text → Nat) ["/usr/include/c++/13".toList, "/usr/my include".toList] ≠ 0 := by simp
  have h1 : ¬ (node.noStdInc = true ∧ node.noStdIncPP = true) := by simp [node]
  have h2 : node.paths = [] := rfl
  have h := C113_paths_partial (hash := fun _ => 7) h1 h2 lines heads hr before_list h0
  exact h.2.1

-- of `C113_unexpected`
example : (doBuild (fun _ => 7) ⟨false, true, [], 0⟩ (.exited 0 ([] ++ (list ++ ("oops".toList ++ '\n' :: []))))).2 = .failed :=
  C113_unexpected (by simp) lines heads ⟨by decide, by decide, by decide, by decide, by
    rintro (⟨r, h⟩ | ⟨r, h⟩) <;> exact absurd (List.head_eq_of_cons_eq h) (by decide),
    by rintro ⟨r, h⟩; exact absurd (List.head_eq_of_cons_eq h) (by decide)⟩ (before (by decide))

-- of `C113_none` and `C113_failed`
example : (doBuild (fun _ => 7) ⟨true, true, ["/a".toList], 5⟩ .stopped).1.paths = [] := by rw [C113_none _ rfl rfl]
example : (doBuild (fun _ => 7) ⟨true, false, ["/a".toList], 5⟩ (.exited 1 [])).2 = .failed := by
  rw [(C113_failed _ (by simp)).2.1 1 [] (by decide)]

-- of `C113_asked`
example : arguments ⟨true, false, [], 0⟩ false false = " -v -fsyntax-only -Werror -Wfatal-errors -nostdinc -x c++ /dev/null".toList := by
  rw [C113_asked]; decide +kernel

end Verif.CompInfo
