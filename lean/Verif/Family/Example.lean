import Verif.Family.Props
/-! The hypotheses of C114 hold for usual compilers. -/
namespace Verif.Family

private theorem same {a b : Text} (h : a.map lower = b.map lower) : Same a b := (same_iff a b).2 h

-- of `C114_given` and `C114_unknown`
example : family "Clang-CL".toList "/opt/bin/anything".toList = some .clangCl :=
  C114_given (s := "clang-cl") (by decide) (same (by decide))
example : family "tcc".toList "/usr/bin/gcc".toList = none := by
  refine C114_unknown (fun h => absurd ((same_iff _ _).1 h) (by decide)) ?_
  intro s f hm h
  have : ∀ p ∈ names, "tcc".toList.map lower ≠ p.1.toList.map lower := by decide
  exact this _ hm ((same_iff _ _).1 h)

-- of `C114_usual`
example : family "auto".toList ("C:\\VS-2022\\gcc-4\\bin".toList ++ '\\' :: "CL.exe".toList) = some .msvc :=
  C114_usual (same rfl) (by decide : ("cl.exe", Family.msvc) ∈ compilers) ⟨_, _, _, rfl, .inr rfl, same (by decide)⟩

-- of `C114_others_partial`
private theorem noGccCuda : NoGcc ("/usr/local/cuda-12/bin".toList ++ '/' :: "nvcc".toList) := by
  intro a b e hb d n en
  have hw := withoutVersion_spec (a := a) hb
  rw [← e] at hw
  have ha : a = "/usr/local/cuda".toList := by rw [← hw]; decide
  have key : ∀ g : Text, endsWithI a g = false → ¬ Same n g := by
    intro g hg hs
    rw [same_iff] at hs
    have : endsWithI a g = true := by
      rw [en, endsWithI_rev, List.isPrefixOf_iff_prefix, List.map_reverse, List.map_reverse, List.map_append, hs, List.reverse_append]
      exact List.prefix_append _ _
    rw [this] at hg; exact nomatch hg
  rw [ha] at key
  exact ⟨key _ (by decide), key _ (by decide)⟩

example : family "AUTO".toList ("/usr/local/cuda-12/bin".toList ++ '/' :: "nvcc".toList) = some .cuda :=
  C114_others_partial (same (by decide)) (by decide : ("nvcc", Family.cuda) ∈ others) ⟨_, _, _, rfl, .inl rfl, same (by decide)⟩ noGccCuda

-- of `C114_lower_partial`
example : family "auto".toList ("/opt/Qt".toList ++ '/' :: "rcc".toList) = some .qtRcc :=
  C114_lower_partial (same rfl) (by decide : ("rcc", Family.qtRcc) ∈ lowerOnly) (.inl rfl) (by
    intro a b e _
    exact absurd (e ▸ (by simp : '-' ∈ a ++ '-' :: b)) (by decide))

-- of `C114_gcc_version`
example : family "auto".toList ("/usr/bin/x86_64-linux-gnu-".toList ++ "g++".toList ++ '-' :: ("12.".toList ++ ['2'])) = some .gcc :=
  C114_gcc_version (same rfl) (.inr (same rfl)) (by decide) (by decide)

end Verif.Family
