import Verif.Sln.Props
/-
C101: an example, and what goes wrong.
-/
namespace Verif.Sln

/-! ### An example -/

def exTuples : List (Text × Text) := [(win32, debug), (x64, debug), (x64, release)]
def exA : Project := ⟨"p\\a.vcxproj".toList, "{aaaa}".toList, "{8bc9}".toList, exTuples⟩
def exB : Project := ⟨"p\\b.vcxproj".toList, "{bbbb}".toList, "{8bc9}".toList, exTuples⟩
def exFind (n : Text) : Option Project :=
  if lowerText n = exA.name ∨ n = "alias".toList then some exA else if lowerText n = exB.name then some exB else none
def exIn : Input :=
  { projects := ["alias".toList, exA.name, exB.name]
    configs := [{ platform := win32, config := debug, build := [exA.name] }, { platform := x64, config := debug, solConfig := "D2".toList, deploy := [exB.name] }]
    folders := [{ path := "x/y/".toList, projects := [exA.name], items := ["i.txt".toList] }, { path := "x\\y".toList, projects := [exB.name] }]
    deps := [{ projects := [exA.name], deps := [exB.name] }] }

def exSln : Sln := ⟨[], [], (configsOf exIn).reverse, [{ path := "x\\y".toList, projects := [exA.name, exB.name], items := ["i.txt".toList] }], exIn.deps, [exA, exB]⟩

theorem exInit : init exFind exIn = some exSln := by decide +kernel

theorem exPlains : Plains id exSln := by
  refine ⟨by decide, by decide, ?_, ?_, ?_⟩ <;> decide +kernel

theorem exText : (text true id exSln).isSome = true := by decide +kernel

theorem exProjects (p : Project) (h : IsProject exFind exIn p) : p = exA ∨ p = exB := by
  obtain ⟨n, _, h⟩ := h
  unfold exFind at h
  split at h
  · exact .inl (Option.some.inj h).symm
  · split at h
    · exact .inr (Option.some.inj h).symm
    · cases h

example : ∃ t, text true id exSln = some t ∧ ∃ d, read t = some d ∧ d.entries.map (·.name) = ["a".toList, "b".toList, "x".toList, "y".toList] := by
  obtain ⟨t, ht⟩ := Option.isSome_iff_exists.1 exText
  refine ⟨t, ht, _, read_text exPlains ht, ?_⟩
  decide +kernel

example {t : Text} (ht : text true id exSln = some t) := C101_entries exInit exPlains ht

example {t : Text} (ht : text true id exSln = some t) := C101_configs_partial exInit exPlains ht
  (by
    intro p q hp hq h
    rcases exProjects p hp with rfl | rfl <;> rcases exProjects q hq with rfl | rfl <;> first | exact absurd h (by decide +kernel) | rfl)
  (by
    intro p hp
    rcases exProjects p hp with rfl | rfl <;> decide)
  (by decide +kernel) (by decide +kernel)

example {t : Text} (ht : text true id exSln = some t) := C101_folders_partial exInit exPlains ht

example {t : Text} (ht : text true id exSln = some t) := C101_items exInit exPlains ht

example {t : Text} (ht : text true id exSln = some t) := C101_dependencies_partial exInit exPlains ht
  (by
    intro p q hp hq h
    rcases exProjects p hp with rfl | rfl <;> rcases exProjects q hq with rfl | rfl <;> first | exact absurd h (by decide +kernel) | rfl)

/-! ### Two names with the same GUID -/

theorem foldl_xor (x : List (BitVec 8)) : ∀ c : BitVec 32, x.foldl Crc.byteStep c = Crc.shiftSteps (8 * x.length) c ^^^ x.foldl Crc.byteStep 0 := by
  induction x with
  | nil => intro c; simp [Crc.shiftSteps]
  | cons b x ih =>
    intro c
    rw [List.foldl_cons, List.foldl_cons, ih (Crc.byteStep c b), ih (Crc.byteStep 0 b), Crc.byteStep_eq, Crc.byteStep_eq, List.length_cons, Crc.shiftSteps_xor 8 c, Crc.shiftSteps_xor,
      ← Crc.shiftSteps_add, show 8 + 8 * x.length = 8 * (x.length + 1) by omega, show (0 : BitVec 32) ^^^ Crc.ext b = Crc.ext b from BitVec.zero_xor, BitVec.xor_assoc]

/-- Two texts of the same length have the same CRC behind and before the same text if this is so for one start. -/
theorem crc_collide (a b x y : List (BitVec 8)) (hl : x.length = y.length) (h : x.foldl Crc.byteStep 0 = y.foldl Crc.byteStep 0) :
    Crc.crcCalc 0 (a ++ x ++ b) = Crc.crcCalc 0 (a ++ y ++ b) := by
  rw [Crc.C28_calc, Crc.C28_calc]
  unfold Crc.crc32
  rw [← Crc.foldl_bits, ← Crc.foldl_bits, List.foldl_append, List.foldl_append, List.foldl_append, List.foldl_append, foldl_xor x, foldl_xor y, hl, h]

/-- Two projects whose names differ, or two folders, can have the same GUID: whatever is before and behind the parts that differ. -/
theorem C101_guid_false (win : Bool) (a b : Text) : formatGuid win (a ++ "plumless".toList ++ b) = formatGuid win (a ++ "buckeroo".toList ++ b) := by
  have h : ∀ f : Char → BitVec 8, (f = fun c => BitVec.ofNat 8 c.toNat) →
      ("plumless".toList.map f).foldl Crc.byteStep 0 = ("buckeroo".toList.map f).foldl Crc.byteStep 0 := by
    rintro f rfl
    decide +kernel
  have hs1 : ("plumless".toList.map fun c => if c = '/' then '\\' else c) = "plumless".toList := by decide
  have hs2 : ("buckeroo".toList.map fun c => if c = '/' then '\\' else c) = "buckeroo".toList := by decide
  unfold formatGuid
  cases win
  · simp only [Bool.false_eq_true, if_false, List.map_append, hs1, hs2]
    rw [crc_collide _ _ _ _ (by rfl) (h _ rfl)]
  · simp only [if_true, List.map_append]
    rw [crc_collide _ _ _ _ (by rfl) (h _ rfl)]

/-! ### What is not in a folder -/

theorem slash_not_mem (t : Text) : '/' ∉ fixPath t := by
  have h : '/' ∉ t.map fun c => if c = '/' then '\\' else c := by
    intro h
    obtain ⟨c, _, e⟩ := List.mem_map.1 h
    split at e
    · exact absurd e (by decide)
    · rename_i hn; exact hn e
  unfold fixPath
  dsimp only
  split
  · exact fun hm => h (List.dropLast_subset _ hm)
  · exact h

/-- Outside of Windows no folder is in a folder: paths have backslashes, and slashes are looked for. -/
theorem C101_folders_false {find : Text → Option Project} {inp : Input} {s : Sln} {rel : Text → Text} {t : Text}
    (h : init find inp = some s) (hp : Plains rel s) (ht : text false rel s = some t) :
    ∃ d, read t = some d ∧ ∀ a b, (a, b) ∈ pairsOf d.globals "NestedProjects".toList → ∃ p, IsProject find inp p ∧ a = upper p.guid := by
  obtain ⟨_, _, h2, _, _, hF, _⟩ := init_spec h
  refine ⟨docOf false rel s, read_text hp ht, fun a b hab => ?_⟩
  have em : "NestedProjects".toList = sNested := rfl
  rw [em, pairs_nested] at hab
  simp only [nestedPairs, projectsToFolders, folderParents, List.mem_append, List.mem_flatMap, List.mem_map, List.mem_filterMap, Option.map_eq_some_iff, List.mem_filter,
      Prod.mk.injEq, show slash false = '/' from rfl, mem_beforeLast] at hab
  rcases hab with ⟨p, hp, f, _, rfl, rfl⟩ | ⟨x, hx, q, ⟨r, rfl, _⟩, _⟩
  · exact ⟨p, (h2 p).1 hp, rfl⟩
  · exfalso
    obtain ⟨f, hf, h1⟩ := (isFolder_iff h _).1 hx
    have := slash_not_mem f.path
    rw [fixPath_eq] at this
    rcases h1 with h1 | ⟨r', h1⟩
    · rw [← h1] at this
      simp at this
    · rw [h1] at this
      simp at this

/-- A project given with another case is found, and it is not in the folder; nor does anything depend on it. To build it works. -/
def caseIn : Input :=
  { configs := [{ platform := win32, config := debug, build := ["P\\A.vcxproj".toList] }]
    folders := [{ path := "x".toList, projects := ["P\\A.vcxproj".toList] }]
    deps := [{ projects := [exB.name], deps := ["P\\A.vcxproj".toList] }] }

theorem C101_case_false : ∃ s, init exFind caseIn = some s ∧ s.projects = [exA, exB] ∧ projectsToFolders true s = [] ∧ dependencyGuids s exB = [] ∧
    (mappingPairs s).map (·.1) = ["{AAAA}.Debug|x86.ActiveCfg".toList, "{AAAA}.Debug|x86.Build.0".toList, "{BBBB}.Debug|x86.ActiveCfg".toList] := by
  refine ⟨⟨[], [], configsOf caseIn, caseIn.folders, caseIn.deps, [exA, exB]⟩, ?_, rfl, ?_, ?_, ?_⟩ <;> decide +kernel

/-- `Win32` and `x86` are one platform of the solution: it gets two mappings that contradict each other. -/
def platIn : Input :=
  { projects := [exA.name]
    configs := [{ platform := win32, config := debug }, { platform := x64, config := debug, solPlatform := x86 }] }

theorem C101_configs_false : ∃ s, init exFind platIn = some s ∧
    mappingPairs s = [("{AAAA}.Debug|x86.ActiveCfg".toList, "Debug|Win32".toList), ("{AAAA}.Debug|x86.ActiveCfg".toList, "Debug|x64".toList)] := by
  refine ⟨⟨[], [], configsOf platIn, [], [], [exA]⟩, ?_, ?_⟩ <;> decide +kernel

/-- A project without an extension in a directory with a dot: the end of its name is before its start. -/
theorem C101_name_false : projectName true "out.dir\\proj".toList = none := by decide +kernel

/-- Otherwise the name is the file's, without what is behind the last dot. -/
theorem C101_name_partial (win : Bool) (dir n e : Text) (hn : slash win ∉ n) (he : slash win ∉ e) (hd : '.' ∉ e) :
    projectName win (dir ++ slash win :: (n ++ '.' :: e)) = some n := by
  have key : ∀ (c : Char) (a r : Text), c ∉ r → afterLast c (a ++ c :: r) = some r := by
    intro c a r hr
    unfold afterLast
    rw [if_pos (by simp)]
    congr 1
    rw [List.reverse_append, List.reverse_cons, List.append_assoc]
    have : ∀ (u w : Text), c ∉ u → (u ++ c :: w).takeWhile (· ≠ c) = u := by
      intro u w
      induction u with
      | nil => intro _; simp
      | cons x u ih =>
        intro hu
        simp only [List.mem_cons, not_or] at hu
        rw [List.cons_append, List.takeWhile_cons_of_pos (by simpa using fun h => hu.1 h.symm), ih hu.2]
    have h2 := this r.reverse a.reverse (by simpa using hr)
    simp only [List.singleton_append]
    rw [h2, List.reverse_reverse]
  have h1 : afterLast (slash win) (dir ++ slash win :: (n ++ '.' :: e)) = some (n ++ '.' :: e) := key _ _ _ (by
    have : slash win ≠ '.' := by cases win <;> decide
    simp [hn, he, this])
  have h2 : beforeLast '.' (dir ++ slash win :: (n ++ '.' :: e)) = some (dir ++ slash win :: n) := mem_beforeLast.2 ⟨e, by simp, hd⟩
  have e3 : (dir ++ slash win :: (n ++ '.' :: e)).length - (n ++ '.' :: e).length = (dir ++ [slash win]).length := by
    have : ∀ a b : Nat, a + (b + 1) - b = a + 1 := by omega
    simp [this]
  have e2 : (dir ++ slash win :: n).length = (dir ++ [slash win]).length + n.length := by simp; omega
  have e4 : dir ++ slash win :: n = (dir ++ [slash win]) ++ n := by simp
  have e1 : dir ++ slash win :: (n ++ '.' :: e) = (dir ++ slash win :: n) ++ '.' :: e := by simp
  unfold projectName
  rw [h1, h2]
  dsimp only
  rw [e3]
  unfold cut
  rw [if_neg (by rw [e2]; exact Nat.not_lt.2 (Nat.le_add_right _ _))]
  congr 1
  rw [e1, List.take_left, e4, List.drop_left]

example : projectName true "a.b\\c.d.vcxproj".toList = some "c.d".toList := C101_name_partial true "a.b".toList "c.d".toList "vcxproj".toList (by decide) (by decide) (by decide)

end Verif.Sln
