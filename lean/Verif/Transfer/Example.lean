import Verif.Transfer.Props
/-! Concrete cases for C112. -/
namespace Verif.Transfer
open Verif.IO

/-- an object with a database and an alternative object -/
def exJob : Job :=
  { id := 7#32, obj := ⟨lit "C:\\p\\a.cpp.obj", [], 0x8001000#32⟩, source := lit "C:\\p\\a.cpp", args := lit "/c %1", compressed := true,
    data := [1, 2, 3] }

def exContent : Kind → List Byte
  | .obj => [10, 11]
  | .pdb => []
  | .xml => [12]
  | .alt => [13, 14, 15]

/-- the worker's files -/
def exFiles (n : Name) : FileView :=
  if n = lit "T:\\w\\a.cpp.obj" then some (2, [10, 11])
  else if n = lit "T:\\w\\a.cpp.obj.pdb" then some (0, [])
  else if n = lit "T:\\w\\a.cpp.alt.obj" then some (3, [13, 14, 15])
  else none

theorem exMade : ∀ k, Asked exJob.obj.flags k → ∀ n, Made (lit "T:\\w\\" ++ lit "a.cpp.obj") k n → exFiles n = some ((exContent k).length, exContent k) := by
  intro k hk n hm
  rw [show lit "T:\\w\\" ++ lit "a.cpp.obj" = (⟨lit "T:\\w\\a.cpp.obj", [], 0⟩ : Obj).name by decide] at hm
  rw [made_iff _ rfl] at hm
  subst hm
  cases k with
  | obj => decide +kernel
  | pdb => decide +kernel
  | xml => exact absurd hk (by simp [Asked, exJob])
  | alt => decide +kernel

/-- the hypotheses of the theorem are met -/
example (level : Int) (zstd : Bool) : ∃ rj r1 o d res r2 w, rdJob ⟨wrJob exJob (lit "C:\\p"), 0⟩ = some (rj, r1) ∧
      workerObj 0x5C#8 (lit "T:\\w\\") rj = some o ∧ o.name = lit "T:\\w\\" ++ lit "a.cpp.obj" ∧
      readResults exCodecs exFiles o level zstd [] id = some d ∧
      rdResult ⟨wrResult rj.id o.name d 5 1, 0⟩ = some (res, r2) ∧ res.id = exJob.id ∧ res.messages = [] ∧
      receive exCodecs exJob.obj (decide (level ≠ 0)) res 0 = some (w, .done) ∧
      ∀ n y, (n, y) ∈ w ↔ ∃ k, Asked exJob.obj.flags k ∧ Made exJob.obj.name k n ∧ y = exContent k :=
  C112_files_partial exCodecs exCodecs_good exJob (lit "C:\\p") (lit "T:\\w\\") (lit "C:\\p") (lit "a.cpp.obj") 0x5C#8 exContent exFiles level zstd
    [] id 5 1 0 (by decide) (by decide) (by decide) (by decide) (by decide) (by decide) (by decide) (by simp) (by decide) (by decide) rfl exMade (by decide)

/-- the files written -/
example : receive exCodecs exJob.obj false ⟨7, [], true, false, [], 5, 1,
      wrU32 3 ++ (wrU64 2 ++ wrU64 0 ++ wrU64 3) ++ [10, 11, 13, 14, 15]⟩ 0 =
    some ([(lit "C:\\p\\a.cpp.obj", [10, 11]), (lit "C:\\p\\a.cpp.obj.pdb", []), (lit "C:\\p\\a.cpp.alt.obj", [13, 14, 15])], .done) := by
  decide +kernel

/-- too few files in the message -/
example : receive exCodecs exJob.obj false ⟨7, [], true, false, [], 5, 1, wrU32 1 ++ wrU64 2 ++ [10, 11]⟩ 0 =
    some ([(lit "C:\\p\\a.cpp.obj", [10, 11])], .fails) := by
  decide +kernel

/-- a source of 20 bytes is compressed to two and comes back -/
example : packSource exCodecs 1 (List.replicate 20 7) = some (true, wrHeader 1 20 2 ++ [20, 7]) ∧
    writeTmp exCodecs true (wrHeader 1 20 2 ++ [20, 7]) = .wrote (List.replicate 20 7) := by decide +kernel

/-- names for GCC -/
example : tmpName true (lit "main.v2.cxx") = lit "main.v2.cxx.ii" ∧ tmpName true (lit "x.ii") = lit "x.ii" ∧
    tmpName false (lit "x.c") = lit "x.c" ∧ tmpName true (lit "x.") = lit "x." ∧ tmpName true (lit "Makefile") = lit "Makefile" := by
  decide +kernel

example : SeenAs (lit "main.v2.cxx") .cpp true := ⟨lit "main.v2", "cxx", by decide, by decide, by decide⟩
example : SeenAs (tmpName true (lit "main.v2.cxx")) .cpp false := C112_language (lit "main.v2.cxx") .cpp true ⟨lit "main.v2", "cxx", by decide, by decide, by decide⟩
example : tmpName true (lit "a.d") = lit "a.d" := by
  refine (C112_same_name (lit "a.d")).2 ?_
  intro s e l h hm
  have key : ∀ x ∈ languages, x.2.2 = true → ∀ s ∈ [[], lit "a", lit "a."], lit "a.d" ≠ s ++ dot :: lit x.1 := by decide +kernel
  have h1 : s.length + 1 + (lit e).length = 3 := by
    have := congrArg List.length h
    simp only [List.length_append, List.length_cons] at this
    have e3 : (lit "a.d").length = 3 := by decide
    omega
  have hs : s = [] ∨ s = lit "a" ∨ s = lit "a." := by
    have hp : s <+: lit "a.d" := ⟨_, h.symm⟩
    have := List.prefix_iff_eq_take.1 hp
    rw [this]
    have h2 : s.length = 0 ∨ s.length = 1 ∨ s.length = 2 := by omega
    rcases h2 with e | e | e <;> rw [e] <;> decide
  exact key _ hm rfl s (by rcases hs with rfl | rfl | rfl <;> simp) h

/-- system errors are retried twice -/
example : (receive exCodecs exJob.obj true ⟨7, [], false, true, [], 5, 1, []⟩ 1, receive exCodecs exJob.obj true ⟨7, [], false, true, [], 5, 1, []⟩ 3,
    receive exCodecs exJob.obj true ⟨7, [], false, false, [], 5, 1, []⟩ 0) = (some ([], .retried), some ([], .fails), some ([], .fails)) := rfl

/-- the worker can't read the object -/
example : ∃ d, readResults exCodecs (fun _ => none) exJob.obj 0 false [] id = some d ∧ d.result = .failed ∧ d.systemErrors = 0 :=
  C112_unread_false _ _ _ _ _ _ _ rfl

/-- data that doesn't decompress -/
example : receive exCodecs exJob.obj true ⟨1, [], true, false, [], 0, 0, wrHeader 1 5 2 ++ [0, 0]⟩ 0 = none ∨ exCodecs.lz4Dec [0, 0] 5 ≠ none := by
  decide +kernel
example : receive { exCodecs with lz4Dec := fun _ _ => none } exJob.obj true ⟨1, [], true, false, [], 0, 0, wrHeader 1 5 2 ++ [0, 0]⟩ 0 = none :=
  C112_corrupt_false _ _ rfl

/-- an object that is cached and distributed, with an alternative object -/
example : let f := Cache.determineFlags ⟨.msvc, true, true, false⟩ "/c %1 /dynamicdeopt".toList false true
    f.distributed = true ∧ f.cached = true ∧ f.deopt = true := by decide +kernel

end Verif.Transfer
