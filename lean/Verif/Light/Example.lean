import Verif.Light.Props
/-
A case which meets the hypotheses of C74 and C75.
-/
namespace Verif.Light
open Verif.Str

def goodFiles : List (List Char) := ["/w/a.cpp".toList, "/w/b.h".toList, "/w/d.h".toList, "/i/c.h".toList]

/-- the text and the parser's view of the files -/
theorem good_text (f : List Char) (hf : f ∈ goodFiles) (text : List Char) (ht : good.fs f = some text) :
    (f = "/w/a.cpp".toList ∧ text = "#include \"b.h\"\n#include <c.h>\n".toList) ∨ (f = "/w/b.h".toList ∧ text = "#define H \"d.h\"\n#include H\n".toList) ∨
      (f = "/w/d.h".toList ∧ text = []) ∨ (f = "/i/c.h".toList ∧ text = "int c;\n".toList) := by
  have e1 : good.fs "/w/a.cpp".toList = some "#include \"b.h\"\n#include <c.h>\n".toList := by decide +kernel
  have e2 : good.fs "/w/b.h".toList = some "#define H \"d.h\"\n#include H\n".toList := by decide +kernel
  have e3 : good.fs "/w/d.h".toList = some [] := by decide +kernel
  have e4 : good.fs "/i/c.h".toList = some "int c;\n".toList := by decide +kernel
  simp only [goodFiles, List.mem_cons, List.not_mem_nil, or_false] at hf
  rcases hf with rfl | rfl | rfl | rfl
  · rw [e1] at ht; cases ht; exact Or.inl ⟨rfl, rfl⟩
  · rw [e2] at ht; cases ht; exact Or.inr (Or.inl ⟨rfl, rfl⟩)
  · rw [e3] at ht; cases ht; exact Or.inr (Or.inr (Or.inl ⟨rfl, rfl⟩))
  · rw [e4] at ht; cases ht; exact Or.inr (Or.inr (Or.inr ⟨rfl, rfl⟩))

theorem good_tame : ∀ f ∈ goodFiles, ∀ text, good.fs f = some text → Tame text := by
  intro f hf text ht
  rcases good_text f hf text ht with ⟨_, rfl⟩ | ⟨_, rfl⟩ | ⟨_, rfl⟩ | ⟨_, rfl⟩ <;> exact tame_of _ (by decide)

theorem good_parse : parse "#include \"b.h\"\n#include <c.h>\n".toList = some { includes := [("b.h".toList, .quote), ("c.h".toList, .angle)] } ∧
    parse "#define H \"d.h\"\n#include H\n".toList = some { includes := [("H".toList, .macro)], incDefs := [("H".toList, "d.h".toList, .quote)] } ∧
    parse [] = some {} ∧ parse "int c;\n".toList = some {} := by decide +kernel

theorem good_local : Local good goodFiles := by
  obtain ⟨p1, p2, p3, p4⟩ := good_parse
  intro f hf g hg text r q ht hr hq hfull hsome
  rcases good_text f hf text ht with ⟨rfl, rfl⟩ | ⟨rfl, rfl⟩ | ⟨rfl, rfl⟩ | ⟨rfl, rfl⟩
  · rw [p1] at hr; cases hr
    simp only [List.mem_cons, Prod.mk.injEq, reduceCtorEq, and_false, and_true, List.not_mem_nil, or_false, exists_false] at hq
    subst hq
    decide +kernel
  · rw [p2] at hr; cases hr
    simp only [List.mem_cons, Prod.mk.injEq, reduceCtorEq, and_false, and_true, List.not_mem_nil, or_false, false_or] at hq
    obtain ⟨m, _, rfl⟩ := hq
    decide +kernel
  · rw [p3] at hr; cases hr; simp at hq
  · rw [p4] at hr; cases hr; simp at hq

theorem good_one : OneValue good goodFiles := by
  obtain ⟨p1, p2, p3, p4⟩ := good_parse
  intro f hf text m ht hs
  have htame := good_tame f hf text ht
  rcases good_text f hf text ht with ⟨rfl, rfl⟩ | ⟨rfl, rfl⟩ | ⟨rfl, rfl⟩ | ⟨rfl, rfl⟩
  · have := C73_macro_partial _ _ _ htame p1 hs; simp at this
  · have := C73_macro_partial _ _ _ htame p2 hs
    simp only [List.mem_cons, Prod.mk.injEq, and_true, List.not_mem_nil, or_false, Bool.true_eq_false, false_or] at this
    subst this
    refine ⟨"d.h".toList, .quote, ?_, ?_⟩
    · exact ⟨[], " ".toList, "H \"d.h\"\n#include H\n".toList, " ".toList, "\"d.h\"\n#include H\n".toList, Steps.refl _, by decide, .ws _ (by decide), .ws _ (by decide),
        Names.mk 'H' [] " \"d.h\"\n#include H\n".toList (by decide) (by simp) (by simp; decide), .quote "d.h".toList "\n#include H\n".toList (by decide)⟩
    · intro g hg text' r d ht' hr hd hm
      rcases good_text g hg text' ht' with ⟨_, rfl⟩ | ⟨_, rfl⟩ | ⟨_, rfl⟩ | ⟨_, rfl⟩
      · rw [p1] at hr; cases hr; simp at hd
      · rw [p2] at hr; cases hr
        simp only [List.mem_cons, List.not_mem_nil, or_false] at hd
        rw [hd]
      · rw [p3] at hr; cases hr; simp at hd
      · rw [p4] at hr; cases hr; simp at hd
  · have := C73_macro_partial _ _ _ htame p3 hs; simp at this
  · have := C73_macro_partial _ _ _ htame p4 hs; simp at this

/-- C74 applies to the example. -/
example (S : List (List Char)) (f : List Char) (h : Opens good plain.paths ["/w/a.cpp".toList] S f) : f ∈ goodFiles := by
  obtain ⟨st, h1, h2, h3⟩ := visited_some (w := good) (s := plain) (fuel := 10) (root := "/w/a.cpp") (l := goodFiles) (b := true) (by decide +kernel)
  have := C74_closed_partial good plain 10 [] _ st (fun _ h => by simp at h) (fun _ h => by simp at h) h1 (by rw [h3]; rfl)
    (by rw [h2]; exact good_tame) (by rw [h2]; exact good_local) (by rw [h2]; exact good_one) S f h
  rwa [h2] at this

/-- hashes which are numbers in a large base -/
def wide : Hashes where
  name := fun l => l.foldl (fun n c => n * 2097152 + c.toNat + 1) 0
  content := fun l => l.foldl (fun n c => n * 2097152 + c.toNat + 1) 0
  all := fun l => l.foldl (fun n c => n * 10 ^ 1000 + c + 1) 0

example : (hash wide good 10 [] false "-I/i".toList [] "/w/a.cpp".toList).map (fun r => match r.1 with | .hashed _ deps => deps | _ => []) = some goodFiles := by decide +kernel

/-- the same files and one which is not used -/
def other : World := { good with fs := fun n => if n = "/w/z.h".toList then some [] else good.fs n }

theorem outcome_of {w : World} (h : (hash wide w 10 [] false "-I/i".toList [] "/w/a.cpp".toList).map (·.1) = some (.hashed (wide.all (numbersOf wide good false goodFiles)) goodFiles)) :
    ∃ c, hash wide w 10 [] false "-I/i".toList [] "/w/a.cpp".toList = some (.hashed (wide.all (numbersOf wide good false goodFiles)) goodFiles, c) := by
  cases hh : hash wide w 10 [] false "-I/i".toList [] "/w/a.cpp".toList with
  | none => rw [hh] at h; simp at h
  | some r =>
    rw [hh] at h
    simp only [Option.map_some, Option.some.injEq] at h
    exact ⟨r.2, by rw [← h]⟩

theorem other_same (f : List Char) (hf : f ∈ goodFiles) : other.fs f = good.fs f := by
  have : f ≠ "/w/z.h".toList := by
    rintro rfl
    revert hf; decide
  exact if_neg this

/-- C75 applies to the example and another file system. -/
example (S : List (List Char)) (f : List Char) : Opens good (includePaths .linux "-I/i".toList []) (rootsOf "-I/i".toList "/w/a.cpp".toList) S f ↔
    Opens other (includePaths .linux "-I/i".toList []) (rootsOf "-I/i".toList "/w/a.cpp".toList) S f := by
  obtain ⟨c1, r1⟩ := outcome_of (w := good) (by decide +kernel)
  obtain ⟨c2, r2⟩ := outcome_of (w := other) (by decide +kernel)
  have hc : ∀ a ∈ goodFiles, contentOf other a = contentOf good a := fun a ha => by rw [contentOf, contentOf, other_same a ha]
  refine (C75_sound_partial wide good other rfl rfl 10 10 [] [] false "-I/i".toList [] "/w/a.cpp".toList _ goodFiles goodFiles c1 c2
    ⟨fun _ h => by simp at h, fun _ h => by simp at h⟩ ⟨fun _ h => by simp at h, fun _ h => by simp at h⟩ r1 r2 ?_ ?_ ?_ good_tame good_local good_one ?_ ?_ ?_).2.2 S f
  · decide +kernel
  · intro a ha b hb
    rw [hc b hb]
    revert a b
    decide +kernel
  · intro _
    decide +kernel
  · intro f hf text ht
    rw [other_same f hf] at ht
    exact good_tame f hf text ht
  · intro f hf g hg text r q ht hr hq hfull hsome
    rw [other_same f hf] at ht
    obtain ⟨p1, p2, p3, p4⟩ := good_parse
    rcases good_text f hf text ht with ⟨rfl, rfl⟩ | ⟨rfl, rfl⟩ | ⟨rfl, rfl⟩ | ⟨rfl, rfl⟩
    · rw [p1] at hr; cases hr
      simp only [List.mem_cons, Prod.mk.injEq, reduceCtorEq, and_false, and_true, List.not_mem_nil, or_false, exists_false] at hq
      subst hq
      decide +kernel
    · rw [p2] at hr; cases hr
      simp only [List.mem_cons, Prod.mk.injEq, reduceCtorEq, and_false, and_true, List.not_mem_nil, or_false, false_or] at hq
      obtain ⟨m, _, rfl⟩ := hq
      decide +kernel
    · rw [p3] at hr; cases hr; simp at hq
    · rw [p4] at hr; cases hr; simp at hq
  · intro f hf text m ht hs
    rw [other_same f hf] at ht
    obtain ⟨p, t, h1, h2⟩ := good_one f hf text m ht hs
    refine ⟨p, t, h1, ?_⟩
    intro g hg text' r d ht' hr hd hm
    rw [other_same g hg] at ht'
    exact h2 g hg text' r d ht' hr hd hm

end Verif.Light
