import Verif.Settings.EnvProps
/-! Cases that meet the hypotheses of C117. -/
namespace Verif.Settings
open Spec

private def ones : Garbage := ⟨fun n => List.replicate n 1, fun n => by simp⟩

/-- `A=B` and `LIB=C` -/
private def two : List Text := [[65, 61, 66], [76, 73, 66, 61, 67]]

private theorem two_env : Env two := by
  intro s hs
  simp only [two, List.mem_cons, List.not_mem_nil, or_false] at hs
  rcases hs with rfl | rfl <;> exact ⟨by unfold CText; decide, by decide⟩

example : (settings ones ones two).bind (given ones []) = some (some two) := C117_settings_partial ones ones ones (by decide) two_env

example : given ones two none = some (some two) := C117_own_partial ones none (by decide) two_env

example : (settings ones ones two).map (Option.map Held.str) = some (some [65, 61, 66, 0, 76, 73, 66, 61, 67, 0, 0]) := by decide +kernel

example : ∃ held, settings ones ones two = some held ∧ (given ones two held).isSome = true :=
  C117_safe ones ones ones two two (fun s h => (two_env s h).1) (fun s h => (two_env s h).1)

example : ∃ held, settings ones ones two = some held ∧ (save held).bind (load ones) = some held := C117_loaded ones ones ones two

example : Getenv two LIB [67] := by
  refine ⟨[[65, 61, 66]], [], rfl, ?_⟩
  intro s hs
  rw [List.mem_singleton.1 hs]
  decide

example : (settings ones ones two).map (libVar · []) = some [67] := by decide +kernel

example : (settings ones ones [[65, 61, 66]]).map (libVar · [70]) = some [] :=
  C117_nolib ones ones [70] (by intro s hs; rw [List.mem_singleton.1 hs]; decide)

end Verif.Settings
