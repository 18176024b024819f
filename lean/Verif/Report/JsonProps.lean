import Verif.Report.JsonSections
/-!
C123: the report of a build in JSON.
-/
namespace Verif.Report
open Spec
open Verif.Compdb (escape Plain)
open Verif.Profile.Spec (IsStr Clean)

/-- the whole report is the six sections -/
theorem json_den {r : In} (h : Texts r) (hn : Numbers r) (hc : Commas r) : Den (value r) (json r) := by
  obtain ⟨t1, e1, d1⟩ := overview_den h
  obtain ⟨t2, e2, d2⟩ := byType_den h
  obtain ⟨t3, e3, d3⟩ := cache_den h hn
  obtain ⟨t5, e5, d5⟩ := byItem_den h
  have d4 : Den (.arr ((r.libs.filter fun l => l.time ≠ 0).map libOf)) (.ls :: join ((timed r.libs).map (libRow r.signed)) ++ [.rs]) :=
    arr_join fun x hx => libRow_den ((h.libs x (List.mem_filter.1 hx).1).2)
  have d6 : Den (.arr ((worked r.libs).map incLibOf)) (.ls :: join ((worked r.libs).map (incLib r.signed)) ++ [.rs]) :=
    arr_join fun x hx => by
      have hx : x ∈ r.libs := (List.mem_filter.1 hx).1
      exact incLib_den (h.libs x hx).1 (h.incs x hx)
  have dd := Den.obj (mem (k := "Overview") d1 (mem (k := "CPU Time by Node Type") d2 (mem (k := "Cache Stats") d3
    (mem (k := "CPU Time by Library") d4 (mem (k := "CPU Time by Item") d5 (mem1 (k := "Includes") d6))))))
  rw [json, e1, e2, e3, byLibrary_eq hn, e5, includes_eq, (tail1_iff r).2 hc.time, (tail2_iff r).2 hc.incs]
  exact recast dd (by simp)

/-- C123, when the commas are right: the report is JSON, of a value that names each type with its numbers, each library that took time, each node,
and each library that had work with its includes.
Missing: reports in which some libraries are left out (see `C123_exact`), and names that need escapes (see `C123_names_false`). -/
theorem C123_json_partial {r : In} (h : Texts r) (hn : Numbers r) (hc : Commas r) : Den (value r) (json r) := json_den h hn hc

theorem bad_mid (a b : List Tok) : bad (a ++ .comma :: .rs :: b) = true := by
  rw [bad_append]
  simp [bad]

/-- C123: exactly when the report is JSON, where names need no escapes. Either all libraries took time or none did; and either no library had
objects out of date, or all had and each but the last includes some file. -/
theorem C123_exact {r : In} (h : Texts r) (hn : Numbers r) : IsJson (json r) ↔ Commas r := by
  refine ⟨fun ⟨v, hv⟩ => ?_, fun hc => ⟨_, json_den h hn hc⟩⟩
  have hf := (den_fine hv).none
  constructor
  · rw [← tail1_iff]
    by_cases ht : tail1 r = []
    · exact ht
    · have e : tail1 r = [.comma] := by unfold tail1 at ht ⊢; split at ht <;> simp_all
      have : ∃ a b, json r = a ++ .comma :: .rs :: b := by
        refine ⟨[.lb] ++ overview r ++ [.comma] ++ byType r ++ [.comma] ++ cacheStats r ++ [.comma] ++
          S "CPU Time by Library" :: .colon :: (.ls :: join ((timed r.libs).map (libRow r.signed))), [.comma] ++
          byItem r ++ [.comma] ++ includes r ++ [.rb], ?_⟩
        rw [json, byLibrary_eq hn, e]
        simp
      obtain ⟨a, b, e⟩ := this
      rw [e, bad_mid] at hf
      cases hf
  · rw [← tail2_iff]
    by_cases ht : tail2 r = []
    · exact ht
    · have e : tail2 r = [.comma] := by unfold tail2 at ht ⊢; split at ht <;> simp_all
      have : ∃ a b, json r = a ++ .comma :: .rs :: b := by
        refine ⟨[.lb] ++ overview r ++ [.comma] ++ byType r ++ [.comma] ++ cacheStats r ++ [.comma] ++ byLibrary r ++ [.comma] ++
          byItem r ++ [.comma] ++
          S "Includes" :: .colon :: (.ls :: join ((worked r.libs).map (incLib r.signed))), [.rb], ?_⟩
        rw [json, includes_eq, e]
        simp
      obtain ⟨a, b, e⟩ := this
      rw [e, bad_mid] at hf
      cases hf

/-- C123: each string of a report that is JSON can be read; so the names of targets and libraries, written as they are, must be the inside of a string. -/
theorem C123_strings {r : In} (h : IsJson (json r)) (k : Text) (hk : Tok.str k ∈ json r) : ∃ s, IsStr s k :=
  h.elim fun _ hv => (den_fine hv).strs k hk

/-! ### cases -/

def inc0 : Inc := ⟨"a.h".toList, 2, true⟩
def lib0 : Lib := ⟨"libA".toList, "Static".toList, 5, 3, 2, 1, 1, 0, [inc0]⟩
def lib1 : Lib := ⟨"libB".toList, "DLL".toList, 4, 1, 1, 0, 0, 0, []⟩
/-- a library that was up to date -/
def lib2 : Lib := ⟨"libC".toList, "Static".toList, 0, 3, 0, 0, 0, 0, [inc0]⟩
def report (libs : List Lib) (target : Text) : In :=
  ⟨true, "-report=json".toList, [target, "b".toList], true, "1.0s".toList, "2.0s".toList, "0.0s".toList, "v1".toList, "now".toList,
    [⟨"Object".toList, 4, 3, 1, true⟩, ⟨"Library".toList, 1, 1, 0, false⟩], true, libs,
    [⟨"Object".toList, "x\\y.obj".toList, "1.000s".toList, true, false⟩, ⟨"Library".toList, "libA".toList, "0.000s".toList, false, false⟩]⟩

instance (sg : Bool) (x : Text) : Decidable (Plain sg x) :=
  inferInstanceAs (Decidable (∀ c ∈ x, 0 < c.toNat ∧ c.toNat < 256 ∧ (sg = true → c.toNat < 128)))

theorem texts0 (l : List Lib) (h : l = [lib0, lib1] ∨ l = [lib0, lib2]) : Texts (report l "all".toList) := by
  rcases h with e | e <;> subst e <;>
    exact ⟨by decide +kernel, by decide +kernel, by decide +kernel, by decide +kernel, by decide +kernel, by decide +kernel, by decide +kernel⟩

theorem numbers0 (l : List Lib) (t : Text) (h : l = [lib0, lib1] ∨ l = [lib0, lib2]) : Numbers (report l t) := by
  rcases h with e | e <;> subst e <;> exact ⟨by simp [report, lib0, lib1, lib2], by simp [report, lib0, lib1, lib2], by simp [report, lib0, lib1, lib2]⟩

/-- two libraries that both took time, the last without includes -/
theorem commas0 : Commas (report [lib0, lib1] "all".toList) :=
  ⟨.inl (by simp [report, lib0, lib1]), .inr (by simp [report, lib0, lib1])⟩

example : Den (value (report [lib0, lib1] "all".toList)) (json (report [lib0, lib1] "all".toList)) :=
  C123_json_partial (texts0 _ (.inl rfl)) (numbers0 _ _ (.inl rfl)) commas0

example : IsJson (json (report [lib0, lib1] "all".toList)) :=
  (C123_exact (texts0 _ (.inl rfl)) (numbers0 _ _ (.inl rfl))).2 commas0

/-- C123 does not hold in general: a build in which one library was made and another was up to date writes a report that is not JSON. -/
theorem C123_commas_false : ∃ r : In, Texts r ∧ Numbers r ∧ ¬ IsJson (json r) := by
  refine ⟨report [lib0, lib2] "all".toList, texts0 _ (.inr rfl), numbers0 _ _ (.inr rfl), ?_⟩
  rw [C123_exact (texts0 _ (.inr rfl)) (numbers0 _ _ (.inr rfl))]
  intro h
  have := h.time
  simp [report, lib0, lib2] at this

/-- nor where a name needs escapes: with a target `C:\lib.dll` the report is not JSON, though its commas are right. -/
theorem C123_names_false : ∃ r : In, Commas r ∧ Numbers r ∧ (∀ t ∈ r.targets, Plain r.signed t) ∧ ¬ IsJson (json r) := by
  refine ⟨report [lib0, lib1] "C:\\lib.dll".toList, ⟨commas0.time, commas0.incs⟩, numbers0 _ _ (.inl rfl), by decide +kernel, ?_⟩
  intro h
  have hk : Tok.str (targetsOf ["C:\\lib.dll".toList, "b".toList]) ∈ json (report [lib0, lib1] "C:\\lib.dll".toList) := by
    simp only [json, List.mem_append]
    iterate 11 apply Or.inl
    refine .inr ?_
    simp [overview, report]
  obtain ⟨s, hs⟩ := C123_strings h _ hk
  have : Compdb.pstr (targetsOf ["C:\\lib.dll".toList, "b".toList] ++ ['"']) = none := by decide +kernel
  unfold IsStr at hs
  rw [this] at hs
  cases hs

end Verif.Report
