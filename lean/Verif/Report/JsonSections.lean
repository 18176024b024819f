import Verif.Report.JsonProof
/-!
The sections of the report in JSON.
-/
namespace Verif.Report
open Spec
open Verif.Compdb (escape Plain)
open Verif.Profile.Spec (IsStr Clean)
open Verif.Profile (clean_str esc_str)

theorem targets_spec : ∀ l : List Text, targetsOf l = List.intercalate [',', ' '] l
  | [] => rfl
  | [t] => by simp [targetsOf, List.intercalate]
  | t :: u :: l => by
    have ih := targets_spec (u :: l)
    rw [targetsOf, ih]
    · simp [List.intercalate]
    · simp

theorem targets_clean : ∀ l : List Text, (∀ t ∈ l, Clean t) → Clean (targetsOf l)
  | [], _ => by intro c hc; simp [targetsOf] at hc
  | [t], h => h t (by simp)
  | t :: u :: l, h => by
    have ih := targets_clean (u :: l) fun x hx => h x (List.mem_cons_of_mem _ hx)
    rw [targetsOf]
    · intro c hc
      simp only [List.mem_append, List.mem_cons, List.not_mem_nil, or_false] at hc
      rcases hc with (hc | hc | hc) | hc
      · exact h t (by simp) c hc
      · subst hc; decide
      · subst hc; decide
      · exact ih c hc
    · simp

theorem strC {x : Text} (h : Clean x) : Den (.str x) [.str x] := .str (clean_str h)
theorem strP {sg : Bool} {x : Text} (h : Plain sg x) : Den (.str x) [.str (escape sg x)] := .str (esc_str h)

theorem overview_den {r : In} (h : Texts r) : ∃ t, overview r = S "Overview" :: .colon :: t ∧ Den (overviewOf r) t := by
  refine ⟨_, rfl, ?_⟩
  obtain ⟨h1, h2, h3, h4, h5⟩ := h.times
  have hr : Den (s (if r.ok then "OK" else "FAILED")) [if r.ok then S "OK" else S "FAILED"] := by
    cases r.ok
    · exact lit (k := "FAILED")
    · exact lit (k := "OK")
  have ht := strC (targets_clean _ h.targets)
  unfold overviewOf
  rw [← targets_spec]
  exact recast (.obj (mem (strP h.cmd) (mem ht (mem hr (mem (strC h1) (mem (strC h2) (mem (strC h3) (mem (strC h4) (mem1 (strC h5))))))))) ) rfl

theorem typeRow_den {t : TypeRow} (h : Clean t.label) : Members [typeOf t] (typeRow t) := by
  refine .one (clean_str h) ?_
  have hr : Den (if t.isObject then .num t.hits else s "-") [if t.isObject then Tok.num t.hits else S "-"] := by
    cases t.isObject
    · exact lit (k := "-")
    · exact .num
  exact recast (.obj (mem .dec (mem .num (mem .num (mem hr (mem1 .dec)))))) rfl

theorem byType_den {r : In} (h : Texts r) : ∃ t, byType r = S "CPU Time by Node Type" :: .colon :: t ∧ Den (.obj (r.types.map typeOf)) t := by
  refine ⟨.lb :: join (r.types.map typeRow) ++ [.rb], ?_, obj_join fun x hx => typeRow_den (h.types x hx)⟩
  rw [byType, typeRows_loop, loop_join _ _ _ _ (by simp)]
  rfl

theorem share_den {k : String} {n : Nat} : ∃ t, share k n = S k :: .colon :: t ∧ Den (shareOf n) t :=
  ⟨_, rfl, recast (.obj (mem .num (mem1 .dec))) rfl⟩

theorem summary_den {k : String} : ∃ t, summary k = S k :: .colon :: t ∧ Den summaryOf t :=
  ⟨_, rfl, recast (.obj (mem .dec (mem1 .dec))) rfl⟩

theorem sub32_eq {a b : Nat} (h : b ≤ a) (ha : a < 2 ^ 32) : sub32 a b = a - b := by
  unfold sub32; omega

theorem detail_den {l : Lib} (h : Clean l.name) (hh : l.hits ≤ l.cacheable) (hc : l.cacheable < 2 ^ 32) : Den (detailOf l) (detail l) := by
  obtain ⟨t1, e1, d1⟩ := share_den (k := "Out-of-Date") (n := l.outOfDate)
  obtain ⟨t2, e2, d2⟩ := share_den (k := "Cacheable") (n := l.cacheable)
  obtain ⟨t3, e3, d3⟩ := share_den (k := "Hits") (n := l.hits)
  obtain ⟨t4, e4, d4⟩ := share_den (k := "Misses") (n := l.cacheable - l.hits)
  rw [detail, sub32_eq hh hc, e1, e2, e3, e4]
  exact recast (.obj (mem (strC h) (mem .num (mem d1 (mem d2 (mem d3 (mem d4 (mem .num (mem1 .dec))))))))) (by simp)

theorem sum_worked (l : List Lib) : (l.map (·.outOfDate)).sum = 0 ↔ worked l = [] := by
  induction l with
  | nil => simp [worked]
  | cons a l ih =>
    by_cases h : a.outOfDate = 0
    · have e : worked (a :: l) = worked l := by simp [worked, h]
      rw [e, ← ih]; simp [h]
    · have e : worked (a :: l) = a :: worked l := by simp [worked, h]
      rw [e]; simp [h]

theorem sum_timed (l : List Lib) : (l.map (·.time)).sum = 0 ↔ timed l = [] := by
  induction l with
  | nil => simp [timed]
  | cons a l ih =>
    by_cases h : a.time = 0
    · have e : timed (a :: l) = timed l := by simp [timed, h]
      rw [e, ← ih]; simp [h]
    · have e : timed (a :: l) = a :: timed l := by simp [timed, h]
      rw [e]; simp [h]

theorem cache_den {r : In} (h : Texts r) (hn : Numbers r) : ∃ t, cacheStats r = S "Cache Stats" :: .colon :: t ∧ Den (cacheOf r) t := by
  unfold cacheStats cacheOf
  rw [Nat.mod_eq_of_lt hn.outOfDate]
  by_cases hc : r.cache
  · by_cases hw : worked r.libs = []
    · rw [if_pos hc, if_pos ((sum_worked _).2 hw), if_neg (by simp [hw])]
      exact ⟨_, rfl, .obj0⟩
    · rw [if_pos hc, if_neg (mt (sum_worked _).1 hw), if_pos ⟨hc, hw⟩, details_join]
      obtain ⟨t1, e1, d1⟩ := summary_den (k := "Uncacheable")
      obtain ⟨t2, e2, d2⟩ := summary_den (k := "Cache Miss")
      obtain ⟨t3, e3, d3⟩ := summary_den (k := "Cache Hit")
      have da : Den (.arr ((worked r.libs).map detailOf)) (.ls :: join ((worked r.libs).map detail) ++ [.rs]) :=
        arr_join fun x hx => by
          have hx : x ∈ r.libs := (List.mem_filter.1 hx).1
          exact detail_den (h.libs x hx).1 (hn.hits x hx).1 (hn.hits x hx).2
      have dd := Den.obj (mem (k := "summary") (.obj (mem (k := "Uncacheable") d1 (mem (k := "Cache Miss") d2 (mem1 (k := "Cache Hit") d3)))) (mem1 (k := "details") da))
      rw [e1, e2, e3]
      exact ⟨_, by simp, recast dd rfl⟩
  · rw [if_neg hc, if_neg (by simp [hc])]
    exact ⟨_, rfl, .obj0⟩

theorem libRow_den {sg : Bool} {l : Lib} (h : Clean l.kind ∧ Plain sg l.name) : Den (libOf l) (libRow sg l) :=
  recast (.obj (mem .dec (mem .dec (mem .num (mem (strC h.1) (mem1 (strP h.2))))))) rfl

theorem itemRow_den {sg c : Bool} {i : Item} (h : Clean i.kind ∧ Clean i.secs ∧ Plain sg i.name) : Den (itemOf c i) (itemRow sg c i) := by
  cases c
  · exact recast (.obj (mem (strC h.2.1) (mem (strC h.1) (mem1 (strP h.2.2))))) rfl
  · have hr : Den (s (if i.hit then "HIT" else if i.store then "STORE" else "N/A"))
        [if i.hit then S "HIT" else if i.store then S "STORE" else S "N/A"] := by
      cases i.hit
      · cases i.store
        · exact lit (k := "N/A")
        · exact lit (k := "STORE")
      · exact lit (k := "HIT")
    exact recast (.obj (mem .dec (mem (strC h.1) (mem hr (mem1 (strP h.2.2)))))) rfl

theorem byItem_den {r : In} (h : Texts r) : ∃ t, byItem r = S "CPU Time by Item" :: .colon :: t ∧ Den (.arr (r.items.map (itemOf r.cache))) t := by
  refine ⟨.ls :: join (r.items.map (itemRow r.signed r.cache)) ++ [.rs], ?_, arr_join fun x hx => itemRow_den (h.items x hx)⟩
  rw [byItem, itemRows_loop, loop_join _ _ _ _ (by simp)]
  rfl

theorem incRow_den {sg : Bool} {o : Nat} {i : Inc} (h : Plain sg i.name) : Den (incOf o i) (incRow sg o i) := by
  have hr : Den (s (if i.pch then "YES" else "no")) [if i.pch then S "YES" else S "no"] := by
    cases i.pch
    · exact lit (k := "no")
    · exact lit (k := "YES")
  exact recast (.obj (mem .num (mem .num (mem hr (mem1 (strP h)))))) rfl

theorem incLib_den {sg : Bool} {l : Lib} (h : Clean l.name) (hi : ∀ i ∈ l.incs, Plain sg i.name) : Den (incLibOf l) (incLib sg l) := by
  have da : Den (.arr (l.incs.map (incOf l.objects))) (.ls :: join (l.incs.map (incRow sg l.objects)) ++ [.rs]) :=
    arr_join fun x hx => incRow_den (hi x hx)
  exact recast (.obj (mem (k := "Library name") (strC h) (mem1 (k := "Includes") da))) (by simp [incLib, incHead])

/-- the comma left at the end of the libraries by time -/
def tail1 (r : In) : List Tok := if timed r.libs ≠ [] ∧ (timed r.libs).length < r.libs.length then [.comma] else []

theorem byLibrary_eq {r : In} (hn : Numbers r) :
    byLibrary r = S "CPU Time by Library" :: .colon :: (.ls :: join ((timed r.libs).map (libRow r.signed)) ++ tail1 r ++ [.rs]) := by
  unfold byLibrary tail1
  rw [Nat.mod_eq_of_lt hn.time]
  by_cases h : timed r.libs = []
  · rw [if_pos ((sum_timed _).2 h), if_neg (by simp [h]), h]
    rfl
  · rw [if_neg (mt (sum_timed _).1 h), libRows_join _ _ _ _ (by rw [Nat.zero_add]; exact List.length_filter_le _ _)]
    simp

/-- the comma left at the end of the includes -/
def tail2 (r : In) : List Tok := if worked r.libs ≠ [] ∧ full (worked r.libs).dropLast < r.libs.length - 1 then [.comma] else []

theorem includes_eq (r : In) :
    includes r = S "Includes" :: .colon :: (.ls :: join ((worked r.libs).map (incLib r.signed)) ++ tail2 r ++ [.rs]) := by
  unfold includes tail2
  rw [incLibs_join _ _ _ _ (by rw [Nat.zero_add]; exact List.length_filter_le _ _)]
  simp

theorem tail1_iff (r : In) : tail1 r = [] ↔ ((∀ l ∈ r.libs, l.time ≠ 0) ∨ (∀ l ∈ r.libs, l.time = 0)) := by
  unfold tail1
  have h1 : timed r.libs = [] ↔ ∀ l ∈ r.libs, l.time = 0 := by simp [timed, List.filter_eq_nil_iff]
  have h2 : (timed r.libs).length = r.libs.length ↔ ∀ l ∈ r.libs, l.time ≠ 0 := by
    simp [timed, List.length_filter_eq_length_iff]
  have h3 : (timed r.libs).length ≤ r.libs.length := List.length_filter_le _ _
  rw [← h1, ← h2]
  by_cases h : timed r.libs = []
  · simp [h]
  · by_cases h' : (timed r.libs).length < r.libs.length
    · simp [h, h']; omega
    · simp [h, h']; omega

theorem tail2_iff (r : In) : tail2 r = [] ↔
    ((∀ l ∈ r.libs, l.outOfDate = 0) ∨ ((∀ l ∈ r.libs, l.outOfDate ≠ 0) ∧ ∀ l ∈ r.libs.dropLast, l.incs ≠ [])) := by
  unfold tail2
  have h1 : worked r.libs = [] ↔ ∀ l ∈ r.libs, l.outOfDate = 0 := by simp [worked, List.filter_eq_nil_iff]
  have h2 : (worked r.libs).length = r.libs.length ↔ ∀ l ∈ r.libs, l.outOfDate ≠ 0 := by
    simp [worked, List.length_filter_eq_length_iff]
  have h3 : (worked r.libs).length ≤ r.libs.length := List.length_filter_le _ _
  have h4 : full (worked r.libs).dropLast ≤ (worked r.libs).length - 1 := by simpa using full_le (worked r.libs).dropLast
  have h5 : full r.libs.dropLast = r.libs.length - 1 ↔ ∀ l ∈ r.libs.dropLast, l.incs ≠ [] := by
    have := List.countP_eq_length (p := fun l : Lib => !l.incs.isEmpty) (l := r.libs.dropLast)
    unfold full
    simpa using this
  rw [← h1, ← h2]
  by_cases h : worked r.libs = []
  · simp [h]
  · have hp : 0 < (worked r.libs).length := List.length_pos_iff.2 h
    by_cases h' : (worked r.libs).length = r.libs.length
    · have e : worked r.libs = r.libs := List.filter_eq_self.2 (fun x hx => by simpa using h2.1 h' x hx)
      rw [← h5]
      rw [e] at h ⊢
      have h6 : full r.libs.dropLast ≤ r.libs.length - 1 := by simpa using full_le r.libs.dropLast
      by_cases h7 : full r.libs.dropLast < r.libs.length - 1
      · simp [h, h7]; omega
      · simp [h, h7]; omega
    · have : full (worked r.libs).dropLast < r.libs.length - 1 := by omega
      simp [h, this, h']

end Verif.Report
