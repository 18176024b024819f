import Verif.Decl.Linux
/-
Findings about definitions, and cases that meet the assumptions of the theorems.
-/
namespace Verif.Decl
open Verif.Bff (Val)
open Verif.Str

/-! ### findings -/

/-- `Alias( 'X' ) { .Targets = 'X' }` is not refused as a cycle: the alias is there before its targets are looked up and stands for
nothing yet, so it is an alias of nothing. -/
theorem C95_self (K : Ctx) (h : K.var ".Targets".toList = some (.str "X".toList)) (hh : K.var ".Hidden".toList = none) :
    define K (aliasFn "X".toList) [] = .ok [⟨"X".toList, .alias, [], []⟩] := by
  have e1 : K.var ('.' :: "Targets".toList) = some (.str "X".toList) := h
  have e2 : K.var ('.' :: "Hidden".toList) = none := hh
  have hp : populate K aliasCls (fun m => K.var ('.' :: m.name)) ([] ++ [⟨"X".toList, .alias, [], []⟩]) =
      .ok ([⟨"X".toList, .alias, [], []⟩], [("Targets".toList, .nodes [])]) := by
    refine (C93_class K aliasCls _ _ _ _).2 (.set rfl (h := [⟨"X".toList, .alias, [], []⟩]) ?_ (.keep rfl (h := [⟨"X".toList, .alias, [], []⟩]) ?_ (.nil _)))
    · show property K .nodes _ (K.var ('.' :: "Targets".toList)) _ = _
      rw [e1]
      refine ((C93_nodes K _ _ _ _ _).1).2 ⟨[], ?_, rfl⟩
      show listProp K customOpts ('.' :: "Targets".toList) true _ = _
      unfold listProp
      rw [e1]
      rfl
    · show property K .bool _ (K.var ('.' :: "Hidden".toList)) _ = _
      rw [e2]
      exact (C93_missing K .bool (by intro c h; cases h) _ _ _ _).2 ⟨rfl, rfl, rfl⟩
  unfold define commit
  simp only [aliasFn, nameFor, if_true]
  rw [if_neg (by decide), if_neg (by simp [find, exact])]
  rw [show ([] : Graph) ++ [⟨"X".toList, .alias, [], []⟩] = [] ++ [⟨"X".toList, .alias, [], []⟩] from rfl, hp]
  rfl

/-- A required list of targets may be empty: `Alias( 'X' ) { .Targets = {} }`. -/
theorem C94_no_targets (K : Ctx) (g : Graph) (prop : Name) (h : K.var prop = some (.strs [])) :
    listProp K customOpts prop true g = .ok (g, []) := by
  unfold listProp; rw [h]; rfl

/-- A target that is named twice is there twice, though repetitions are meant to be removed: they are removed within an alias only. -/
theorem C94_repeated (K : Ctx) (prop : Name) (h : K.var prop = some (.strs ["A".toList, "A".toList])) :
    listProp K customOpts prop true [⟨"A".toList, .file, [], []⟩] = .ok ([⟨"A".toList, .file, [], []⟩], [0, 0]) := by
  unfold listProp; rw [h]; rfl

/-- A string property that is an alias of nothing is set to nothing, if it is not required. -/
theorem C93_empty_alias (K : Ctx) (m : Meta) (hf : m.file = some false) (hr : m.required = false) :
    property K .str m (some (.str "X".toList)) [⟨"X".toList, .alias, [], []⟩] = .ok ([⟨"X".toList, .alias, [], []⟩], some (.str [])) := by
  rw [property]
  unfold popStr strings
  rw [hf, hr]
  rfl

/-! ### a graph and names on Linux -/

local instance {α : Type} [DecidableEq α] : DecidableEq (Res α)
  | .ok a, .ok b => if h : a = b then isTrue (by rw [h]) else isFalse (by intro e; cases e; exact h rfl)
  | .error a, .error b => if h : a = b then isTrue (by rw [h]) else isFalse (by intro e; cases e; exact h rfl)
  | .ok _, .error _ => isFalse (by intro e; cases e)
  | .error _, .ok _ => isFalse (by intro e; cases e)

def wd : Name := "/w".toList

theorem wd_ok : WorkDir ['/'] '/' wd :=
  ⟨["w".toList], by simp, by
    intro c hc
    simp at hc
    subst hc
    refine ⟨⟨by simp, by simp; decide⟩, by simp, by simp⟩, by decide⟩

/-- a library, an alias of it and of a file, and the file -/
def graph : Graph := [⟨"/w/a.lib".toList, .library, [], []⟩, ⟨"All".toList, .alias, [0, 2], []⟩, ⟨"/w/x.txt".toList, .file, [], []⟩]

instance (g : Graph) : Decidable (WF g) :=
  decidable_of_iff ((∀ i : Fin g.length, ∀ j : Fin g.length, key g[i].name = key g[j].name → i.val = j.val) ∧ (∀ d ∈ g, d.name ≠ []) ∧
    (∀ d ∈ g, ∀ n ∈ d.deps, n < g.length) ∧ (∀ d ∈ g, ∀ n ∈ d.pre, n < g.length) ∧
    (∀ d ∈ g, d.type = .alias → ∀ n ∈ d.deps, ∀ e ∈ g[n]?, e.type ≠ .alias)) (by
  constructor
  · rintro ⟨h1, h2, h3, h4, h5⟩
    refine ⟨?_, h2, h3, h4, fun d hd ha n hn e he => h5 d hd ha n hn e (Option.mem_def.2 he)⟩
    intro i j a b hi hj hk
    obtain ⟨hi', rfl⟩ := List.getElem?_eq_some_iff.1 hi
    obtain ⟨hj', rfl⟩ := List.getElem?_eq_some_iff.1 hj
    exact h1 ⟨i, hi'⟩ ⟨j, hj'⟩ hk
  · rintro ⟨h1, h2, h3, h4, h5⟩
    refine ⟨?_, h2, h3, h4, fun d hd ha n hn e he => h5 d hd ha n hn e (Option.mem_def.1 he)⟩
    intro i j hk
    exact h1 i j _ _ (List.getElem?_eq_getElem i.2) (List.getElem?_eq_getElem j.2) hk)

theorem graph_ok : WF graph := by decide +kernel

instance (wd s : Name) : Decidable (Short wd s) := inferInstanceAs (Decidable (_ ∧ _))

/-- names as they are written in a build file -/
def written : List Name := ["all".toList, "sub/../b.txt".toList, "A.LIB".toList, "B.txt".toList]

theorem written_short : ∀ s ∈ written, Short wd s := by decide +kernel

def vars (n : Name) : Option Val := if n = ".Targets".toList then some (.strs written) else if n = ".Output".toList then some (.str "out/p.exe".toList) else none

/-- the alias gives its two targets, `b.txt` is new and a file, upper and lower case do not matter -/
example : listProp (linux wd vars) customOpts ".Targets".toList true graph =
    .ok (graph ++ [⟨"/w/b.txt".toList, .file, [], []⟩], [0, 2, 3, 0, 3]) := by
  have h : (linux wd vars).var ".Targets".toList = some (.strs written) := rfl
  unfold listProp
  rw [h]
  show listEach (linux wd vars) customOpts written graph [] = _
  decide +kernel

/-- the assumptions of `C94_accepted` and `C94_list` for it -/
example : Tidy (linux wd vars) (Short wd) ∧ CleanNe (linux wd vars) (Short wd) ∧ WF graph ∧ Strs (.strs written) written ∧ ∀ s ∈ written, Short wd s :=
  ⟨(C95_linux wd_ok vars).1, (C95_linux wd_ok vars).2, graph_ok, Or.inl rfl, written_short⟩

theorem vars_ok : Vars (linux wd vars) (Short wd) := by
  intro n v h
  have h' : vars n = some v := h
  unfold vars at h'
  split at h'
  · cases h'
    exact ⟨fun s hs => (by cases hs), fun l hl => (by cases hl; exact written_short)⟩
  · split at h'
    · cases h'
      exact ⟨fun s hs => (by cases hs; decide +kernel), fun l hl => (by cases hl)⟩
    · cases h'

/-- a file property that is given an alias: two paths -/
example : property (linux wd vars) .strs { name := "Files".toList, file := some false, required := true } (some (.strs ["all".toList, "c//d.h".toList])) graph =
    .ok (graph, some (.strs ["/w/a.lib".toList, "/w/x.txt".toList, "/w/c/d.h".toList])) := by
  have h : popStrs (linux wd vars) graph { name := "Files".toList, file := some false, required := true } (.strs ["all".toList, "c//d.h".toList]) =
      .ok (.strs ["/w/a.lib".toList, "/w/x.txt".toList, "/w/c/d.h".toList]) := by
    have hs : strings (linux wd vars) graph none (some false) none (.strs ["all".toList, "c//d.h".toList]) =
        .ok ["/w/a.lib".toList, "/w/x.txt".toList, "/w/c/d.h".toList] := by decide +kernel
    unfold popStrs
    rw [hs]
    rfl
  rw [property, h]

/-- a folder where a file is expected, and a library that is a list of objects where it is not allowed -/
example : strings (linux wd vars) graph none (some false) none (.str "c/".toList) = .error .folder ∧
    strings (linux wd vars) [⟨"L".toList, .objectList, [], []⟩] none (some false) none (.str "L".toList) = .error .notFile ∧
    strings (linux wd vars) [⟨"L".toList, .objectList, [], []⟩] none (some false) (some none) (.str "L".toList) = .ok ["L".toList] := by
  refine ⟨?_, ?_, ?_⟩ <;> decide +kernel

/-- a number out of range -/
example (K : Ctx) (g : Graph) : property K .uint { name := "TestTimeOut".toList, range := some (0, 14400) } (some (.int 14401)) g = .error .range := by
  rw [property_uint]; rfl

/-- a struct that inherits -/
example : property (linux wd vars) (.structs (.cons { name := "Config".toList, required := true } .str (.cons { name := "Output".toList, inherit := true } .str .nil)))
    { name := "Configs".toList } (some (.struct [(".Config".toList, .str "Debug".toList)])) graph =
    .ok (graph, some (.objs [[("Config".toList, .str "Debug".toList), ("Output".toList, .str "out/p.exe".toList)]])) := by
  rw [property_structs]
  rfl

/-- `Exec( 'Make' ) { .Output = 'out/p.exe' }`, with an `Initialize` that depends on the first node -/
def execFn : Fn := ⟨.exec, .nil, some ("Output".toList, some false), "Make".toList, fun g i _ => .ok (setDeps g i [0])⟩

theorem exec_defined : define (linux wd vars) execFn graph =
    .ok (graph ++ [⟨"/w/out/p.exe".toList, .exec, [0], []⟩, ⟨"Make".toList, .alias, [3], []⟩]) := by
  have hn : nameFor (linux wd vars) graph execFn.nameOf = .ok "/w/out/p.exe".toList := by
    have hs : strings (linux wd vars) graph none (some false) none (.str "out/p.exe".toList) = .ok ["/w/out/p.exe".toList] := by decide +kernel
    have hf : find (linux wd vars) graph "/w/out/p.exe".toList = none := by decide +kernel
    have hv : (linux wd vars).var ('.' :: "Output".toList) = some (.str "out/p.exe".toList) := rfl
    unfold nameFor execFn
    simp only [hv, hs]
    rw [if_neg (by decide), hf]
    rfl
  have hf : find (linux wd vars) graph "/w/out/p.exe".toList = none := by decide +kernel
  have hf2 : find (linux wd vars) (graph ++ [⟨"/w/out/p.exe".toList, .exec, [0], []⟩]) "Make".toList = none := by decide +kernel
  unfold define commit
  rw [hn]
  dsimp only
  rw [if_neg (by decide : ¬ "/w/out/p.exe".toList = []), if_neg (by decide : ¬ "/w/out/p.exe".toList = []), hf, if_neg (by simp)]
  have hp : populate (linux wd vars) execFn.cls (fun m => (linux wd vars).var ('.' :: m.name)) (graph ++ [⟨"/w/out/p.exe".toList, execFn.type, [], []⟩]) =
      .ok (graph ++ [⟨"/w/out/p.exe".toList, .exec, [], []⟩], []) := by
    show populate _ Cls.nil _ _ = _
    rw [populate]; rfl
  rw [hp]
  have hi : execFn.init (graph ++ [⟨"/w/out/p.exe".toList, .exec, [], []⟩]) graph.length [] = .ok (graph ++ [⟨"/w/out/p.exe".toList, .exec, [0], []⟩]) := rfl
  dsimp only
  rw [hi]
  have ha : processAlias (linux wd vars) (graph ++ [⟨"/w/out/p.exe".toList, .exec, [0], []⟩]) execFn.header [graph.length] =
      .ok (graph ++ [⟨"/w/out/p.exe".toList, .exec, [0], []⟩] ++ [⟨"Make".toList, .alias, [3], []⟩]) := by
    unfold processAlias
    rw [show execFn.header = "Make".toList from rfl, if_neg (by decide), hf2]
    rfl
  dsimp only
  rw [if_neg (by decide : ¬ "/w/out/p.exe".toList = []), ha]
  rfl

/-- `Alias( 'Everything' )` with the names above, and the assumptions of `C95_define` and `C95_file` for it -/
example : define (linux wd vars) (aliasFn "Everything".toList) graph =
    .ok (graph ++ [⟨"Everything".toList, .alias, [0, 2, 4, 0, 4], []⟩, ⟨"/w/b.txt".toList, .file, [], []⟩]) := by
  decide +kernel

example : FnOK (linux wd vars) (Short wd) (vars, aliasFn "Everything".toList) :=
  ⟨vars_ok, C95_alias_init _ _ _, fun h => absurd rfl h, fun _ => (by decide +kernel : Short wd "Everything".toList), fun g n hn hne => (by
    rw [show (aliasFn "Everything".toList).nameOf = none from rfl] at hn
    cases hn; exact absurd rfl hne)⟩

/-- the same name again is refused, whatever its case -/
example : define (linux wd vars) (aliasFn "ALL".toList) graph = .error .defined := by decide +kernel

end Verif.Decl
