import Verif.Bff.LexProps
import Verif.Bff.CondTheorems
/-
C57: the tokenizer ends, and a file with `#once` is read once. C59: what it records is all it depends on.
-/
namespace Verif.Bff.Lex

theorem Ext.refl (a : St) : Ext a a := ⟨List.prefix_refl _, fun _ f h => ⟨f, h, rfl, rfl, id⟩, fun _ => id, fun _ => id⟩

theorem Ext.trans {a b c : St} (h : Ext a b) (h' : Ext b c) : Ext a c where
  toks := h.toks.trans h'.toks
  files := fun i f hf => by
    obtain ⟨f1, h1, h2, h3, h4⟩ := h.files i f hf
    obtain ⟨f2, g1, g2, g3, g4⟩ := h'.files i f1 h1
    exact ⟨f2, g1, g2.trans h2, g3.trans h3, fun x => g4 (h4 x)⟩
  envs := fun e he => h'.envs e (h.envs e he)
  exist := fun e he => h'.exist e (h.exist e he)

theorem Rec.mono {W : World} {a b : St} (h : Rec W b) (he : Ext a b) : Rec W a where
  files := fun f hf => by
    obtain ⟨i, hi⟩ := List.mem_iff_getElem?.mp hf
    obtain ⟨f', h1, h2, h3, _⟩ := he.files i f hi
    have := h.files f' (List.mem_iff_getElem?.mpr ⟨i, h1⟩)
    rwa [h2, h3] at this
  envs := fun e h' => h.envs e (he.envs e h')
  exist := fun e h' => h.exist e (he.exist e h')

/-- `x` runs in `W` and `y` in `W'` -/
def Sim {α : Type} (W W' : World) (get : α → St) (st : St) (x y : Res α) : Prop :=
  ∀ a, x = .ok a → Ext st (get a) ∧ (Rec W st → Rec W (get a) ∧
    (NoZeroHash W → NoCollision W W' → Rec W' (get a) → y = .ok a))

namespace Sim
variable {W W' : World} {α β : Type} {get : α → St} {get' : β → St} {st : St}

theorem ok {a : α} (h : get a = st) : Sim W W' get st (.ok a) (.ok a) := by
  intro b hb
  cases hb
  rw [h]
  exact ⟨.refl _, fun hr => ⟨hr, fun _ _ _ => rfl⟩⟩

theorem err {y : Res α} : Sim W W' get st .err y := by intro b hb; cases hb
theorem assert {y : Res α} : Sim W W' get st .assert y := by intro b hb; cases hb
theorem fuel {y : Res α} : Sim W W' get st .fuel y := by intro b hb; cases hb

theorem bind {x y : Res α} {f g : α → Res β} (hx : Sim W W' get st x y) (hf : ∀ a, x = .ok a → Sim W W' get' (get a) (f a) (g a)) :
    Sim W W' get' st (x >>= f) (y >>= g) := by
  intro b hb
  rw [Res.bind_eq_ok] at hb
  obtain ⟨a, ha, hb⟩ := hb
  obtain ⟨h1, h2⟩ := hx a ha
  obtain ⟨g1, g2⟩ := hf a ha b hb
  refine ⟨h1.trans g1, fun hr => ?_⟩
  obtain ⟨h3, h4⟩ := h2 hr
  obtain ⟨g3, g4⟩ := g2 h3
  refine ⟨g3, fun hz hc hr' => ?_⟩
  rw [h4 hz hc (hr'.mono g1), Res.bind_ok]
  exact g4 hz hc hr'

theorem same {x : Res α} {f g : α → Res β} (hf : ∀ a, x = .ok a → Sim W W' get' st (f a) (g a)) : Sim W W' get' st (x >>= f) (x >>= g) := by
  intro b hb
  rw [Res.bind_eq_ok] at hb
  obtain ⟨a, ha, hb⟩ := hb
  obtain ⟨h1, h2⟩ := hf a ha b hb
  refine ⟨h1, fun hr => ⟨(h2 hr).1, fun hz hc hr' => ?_⟩⟩
  rw [ha, Res.bind_ok]
  exact (h2 hr).2 hz hc hr'

/-- a first step that only adds to what is recorded -/
theorem step {x y : Res α} {st' : St} (he : Ext st st') (hr : Rec W st → Rec W st') (h : Sim W W' get st' x y) : Sim W W' get st x y := by
  intro a ha
  obtain ⟨h1, h2⟩ := h a ha
  exact ⟨he.trans h1, fun h => h2 (hr h)⟩

end Sim

section
variable {W W' : World} (hh : SameHost W W')

theorem importVar_ext (st : St) (x : Str) (h : Nat) : Ext st (importVar st x h).2 := by
  unfold importVar
  split
  · exact .refl _
  · exact ⟨List.prefix_refl _, fun _ f h => ⟨f, h, rfl, rfl, id⟩, fun e he => by simp [he], fun _ => id⟩

theorem importVar_rec {st : St} {x : Str} (hr : Rec W st) : Rec W (importVar st x (envHash W x)).2 := by
  unfold importVar
  split
  · exact hr
  · refine ⟨hr.files, fun e he => ?_, hr.exist⟩
    rcases List.mem_append.mp he with he | he
    · exact hr.envs e he
    · simp only [List.mem_singleton] at he
      subst he; rfl

theorem importVar_mem {st : St} {x : Str} (hr : Rec W st) : (x, envHash W x) ∈ (importVar st x (envHash W x)).2.envs := by
  unfold importVar
  split
  · rename_i e he
    have h1 := List.mem_of_find?_eq_some he
    have h2 := List.find?_some he
    simp only [decide_eq_true_eq] at h2
    have h3 := hr.envs e h1
    rw [h2] at h3
    rw [h3, ← h2]
    exact h1
  · simp

theorem checkFile_ext (st : St) (p : Str) : Ext st (checkFile W st p).2 := by
  unfold checkFile
  split
  · exact .refl _
  · exact ⟨List.prefix_refl _, fun _ f h => ⟨f, h, rfl, rfl, id⟩, fun _ => id, fun e he => by simp [he]⟩

theorem checkFile_rec {st : St} {p : Str} (hr : Rec W st) : Rec W (checkFile W st p).2 := by
  unfold checkFile
  split
  · exact hr
  · refine ⟨hr.files, hr.envs, fun e he => ?_⟩
    rcases List.mem_append.mp he with he | he
    · exact hr.exist e he
    · simp only [List.mem_singleton] at he
      subst he; rfl

theorem checkFile_mem {st : St} {p : Str} : (p, (checkFile W st p).1) ∈ (checkFile W st p).2.exist := by
  unfold checkFile
  split
  · rename_i e he
    have h1 := List.mem_of_find?_eq_some he
    have h2 := List.find?_some he
    simp only [decide_eq_true_eq] at h2
    rw [← h2]
    exact h1
  · simp

theorem checkFile_agree {st : St} {p : Str} (hr : Rec W' (checkFile W st p).2) : checkFile W' st p = checkFile W st p := by
  have := hr.exist _ checkFile_mem
  simp only at this
  unfold checkFile at this ⊢
  split
  · rfl
  · rename_i h
    rw [h] at this
    simp only at this
    rw [this]

include hh

theorem term_sim (file : Str) (ev : Bool) (st : St) (ts : List Tok) :
    Sim W W' (fun r => r.2.2) st (term W file ev st ts) (term W' file ev st ts) := by
  unfold term
  split
  · rename_i b x c ts
    split
    · split
      · intro a ha
        cases ha
        refine ⟨importVar_ext _ _ _, fun hr => ⟨importVar_rec hr, fun _ _ hr' => ?_⟩⟩
        have : envHash W' x = envHash W x := hr'.envs _ (importVar_mem hr)
        rw [this]; rfl
      · exact .ok rfl
    · exact .err
  · rename_i b x c ts
    split
    · split
      · intro a ha
        cases ha
        refine ⟨checkFile_ext _ _, fun hr => ⟨checkFile_rec hr, fun _ _ hr' => ?_⟩⟩
        rw [hh.expand, checkFile_agree hr']; rfl
      · exact .ok rfl
    · exact .err
  · have : ∀ x, defined W' st x = defined W st x := by intro x; simp [defined, hh.builtin]
    rw [this]
    exact .ok rfl
  · exact .err

theorem negTerm_sim (file : Str) (ev : Bool) (st : St) (ts : List Tok) :
    Sim W W' (fun r => r.2.2) st (negTerm W file ev st ts) (negTerm W' file ev st ts) :=
  Sim.bind (term_sim hh file ev st _) (fun _ _ => .ok rfl)

theorem terms_sim (file : Str) (ev : Bool) : ∀ (n : Nat) (st : St) (h : List Nat) (ts : List Tok),
    Sim W W' (fun r => r.2.2) st (terms W file ev n st h ts) (terms W' file ev n st h ts) := by
  intro n
  induction n with
  | zero =>
    intro st h ts
    unfold terms
    split
    · rename_i hc; cases hc
    · rename_i hc; cases hc
    · exact .fuel
    · exact .fuel
    · exact .ok rfl
  | succ n ih =>
    intro st h ts
    unfold terms
    split
    · rename_i hc; cases hc
      exact Sim.bind (negTerm_sim hh _ _ _ _) (fun a _ => Sim.same (fun h' _ => ih _ _ _))
    · rename_i hc; cases hc
      exact Sim.bind (negTerm_sim hh _ _ _ _) (fun a _ => Sim.same (fun h' _ => ih _ _ _))
    · exact .fuel
    · exact .fuel
    · exact .ok rfl

theorem ifExpr_sim (file : Str) (ev : Bool) (st : St) (ts : List Tok) :
    Sim W W' (fun r => r.2.2) st (ifExpr W file ev st ts) (ifExpr W' file ev st ts) :=
  Sim.bind (negTerm_sim hh _ _ _ _) (fun _ _ => Sim.bind (terms_sim hh _ _ _ _ _ _) (fun _ _ => .ok rfl))

theorem branches_sim (file : Str) : ∀ (n : Nat) (st : St) (v : Bool) (blk : Option Str) (e : End) (s : Str),
    Sim W W' (fun r => r.2.2) st (branches W file n st v blk e s) (branches W' file n st v blk e s) := by
  intro n
  induction n with
  | zero =>
    intro st v blk e s
    cases e with
    | endif => simp only [branches]; exact .ok rfl
    | else_ => simp only [branches]; exact Sim.same (fun _ _ => .ok rfl)
    | elif => simp only [branches]; exact .fuel
  | succ n ih =>
    intro st v blk e s
    cases e with
    | endif => simp only [branches]; exact .ok rfl
    | else_ => simp only [branches]; exact Sim.same (fun _ _ => .ok rfl)
    | elif =>
      simp only [branches]
      refine Sim.same (fun args _ => Sim.bind (ifExpr_sim hh _ _ _ _) (fun r _ => Sim.same (fun b _ => ?_)))
      split
      · exact .err
      · exact ih _ _ _ _ _

theorem directive_sim {inc inc' : St → Str → Res St} (hinc : ∀ st x, Sim W W' id st (inc st x) (inc' st x)) (i : Nat) (st : St) (s : Str) :
    Sim W W' Left.st st (directive W inc i st s) (directive W' inc' i st s) := by
  unfold directive
  refine Sim.same (fun args _ => ?_)
  cases hf : st.files[i]? with
  | none => exact .assert
  | some f =>
    simp only
    split
    · rename_i x ts _
      have : defined W' st x = defined W st x := by simp [defined, hh.builtin]
      rw [this]
      split
      · exact .err
      · exact Sim.step (st' := { st with macros := st.macros ++ [x] })
          ⟨List.prefix_refl _, fun _ f h => ⟨f, h, rfl, rfl, id⟩, fun _ => id, fun _ => id⟩ (fun h => ⟨h.files, h.envs, h.exist⟩) (.ok rfl)
    · rename_i x ts _
      split
      · exact Sim.step (st' := { st with macros := st.macros.erase x })
          ⟨List.prefix_refl _, fun _ f h => ⟨f, h, rfl, rfl, id⟩, fun _ => id, fun _ => id⟩ (fun h => ⟨h.files, h.envs, h.exist⟩) (.ok rfl)
      · exact .err
    · split
      · exact .assert
      · refine Sim.step (st' := { st with files := setOnce i st.files })
          ⟨List.prefix_refl _, fun j g h => ?_, fun _ => id, fun _ => id⟩ (fun h => ⟨fun g hg => ?_, h.envs, h.exist⟩) (.ok rfl)
        · refine ⟨if i = j then { g with once := true } else g, ?_, ?_⟩
          · simp only [setOnce, List.getElem?_modify, h]; rfl
          · by_cases hij : i = j <;> simp [hij]
        · obtain ⟨j, hj⟩ := List.mem_iff_getElem?.mp hg
          simp only [setOnce, List.getElem?_modify] at hj
          have hj : ∃ g', st.files[j]? = some g' ∧ (if i = j then { g' with once := true } else g') = g := by
            cases hg' : st.files[j]? with
            | none => rw [hg'] at hj; cases hj
            | some g' => rw [hg'] at hj; cases hj; exact ⟨g', rfl, rfl⟩
          obtain ⟨g', hg', rfl⟩ := hj
          have := h.files g' (List.mem_iff_getElem?.mpr ⟨j, hg'⟩)
          by_cases hij : i = j <;> simp [hij, this]
    · rename_i x ts _
      cases hv : W.env x with
      | none => exact .err
      | some v =>
        simp only
        have hE : W.hash v = envHash W x := by simp [envHash, hv]
        cases hi : (importVar st x (W.hash v)).1 with
        | false => simp only [Bool.false_eq_true, if_false]; exact .err
        | true =>
          simp only [if_true]
          intro a ha
          cases ha
          simp only
          have e1 := importVar_ext st x (W.hash v)
          refine ⟨⟨List.prefix_append _ _, e1.files, e1.envs, e1.exist⟩, fun hr => ⟨?_, fun hz hc hr' => ?_⟩⟩
          · rw [hE]
            have := importVar_rec (x := x) hr
            exact ⟨this.files, this.envs, this.exist⟩
          · have hm : envHash W' x = envHash W x := hr'.envs _ (by simp only [hE]; exact importVar_mem hr)
            cases hv' : W'.env x with
            | none =>
              have h0 : envHash W' x = 0 := by simp [envHash, hv']
              rw [h0, ← hE] at hm
              exact absurd hm.symm (hz x v hv)
            | some v' =>
              have h1 : envHash W' x = W.hash v' := by simp [envHash, hv', hh.hash]
              have := hc x v v' hv hv' (by rw [← h1, hm, hE])
              subst this
              simp only [hh.hash, hi, if_true]
              rfl
    · rename_i x ts _
      rw [hh.expand]
      exact Sim.bind (hinc _ _) (fun _ _ => .ok rfl)
    · exact Sim.bind (ifExpr_sim hh _ _ _ _) (fun r _ => Sim.same (fun b _ => Sim.bind (branches_sim hh _ _ _ _ _ _ _) (fun _ _ => .ok rfl)))
    · exact .err

theorem range_sim {inc inc' : St → Str → Res St} (hinc : ∀ st x, Sim W W' id st (inc st x) (inc' st x)) (i : Nat) :
    ∀ (n : Nat) (st : St) (s : Str), Sim W W' id st (range W inc i n st s) (range W' inc' i n st s) := by
  intro n
  induction n with
  | zero =>
    intro st s
    cases s with
    | nil => simp only [range]; exact .ok rfl
    | cons => simp only [range]; exact .fuel
  | succ n ih =>
    intro st s
    cases s with
    | nil => simp only [range]; exact .ok rfl
    | cons c s =>
      simp only [range]
      split
      · exact ih _ _
      · exact Sim.step (st' := { st with toks := st.toks ++ [_] })
          ⟨List.prefix_append _ _, fun _ f h => ⟨f, h, rfl, rfl, id⟩, fun _ => id, fun _ => id⟩ (fun h => ⟨h.files, h.envs, h.exist⟩) (ih _ _)
      · exact .err
      · exact .assert
      · refine Sim.bind (directive_sim hh hinc _ _ _) (fun l _ => ?_)
        split
        · split
          · exact ih _ _
          · exact .err
        · refine Sim.bind (ih _ _) (fun st' _ => ?_)
          split
          · exact ih _ _
          · exact .err

omit hh in
/-- `#include` in a file with `k` levels left -/
def incOf (W : World) : Nat → St → Str → Res St
  | 0, _, _ => .err
  | k + 1, st, y => tokFile W k st y

omit hh in
theorem tokFile_eq (W : World) (k : Nat) (st : St) (x : Str) : tokFile W k st x =
    match findFile W (W.clean x) st.files with
    | some (i, f) => if f.once then .ok st else range W (incOf W k) i f.text.length st f.text
    | none =>
      match W.load (W.clean x) with
      | none => .err
      | some t => range W (incOf W k) st.files.length t.length { st with files := st.files ++ [⟨W.clean x, t, false⟩] } t := by
  cases k <;> rfl

theorem findFile_host (x : Str) : ∀ fs : List File, findFile W' x fs = findFile W x fs
  | [] => rfl
  | f :: fs => by simp only [findFile, hh.same, findFile_host x fs]

omit hh in
theorem getElem?_append_some {l m : List File} {i : Nat} {f : File} (h : l[i]? = some f) : (l ++ m)[i]? = some f := by
  rw [List.getElem?_append_left]
  · exact h
  · exact (List.getElem?_eq_some_iff.mp h).1

theorem load_sim {k : Nat} (hinc : ∀ st y, Sim W W' id st (incOf W k st y) (incOf W' k st y)) (st : St) (x : Str) :
    Sim W W' id st (tokFile W k st x) (tokFile W' k st x) := by
  rw [tokFile_eq W, tokFile_eq W', hh.clean, findFile_host hh]
  split
  · split
    · exact .ok rfl
    · exact range_sim hh hinc _ _ _ _
  · cases hl : W.load (W.clean x) with
    | none => exact .err
    | some t =>
      intro st' h'
      have hs := range_sim hh hinc _ _ _ _ st' h'
      have he : Ext st { st with files := st.files ++ [⟨W.clean x, t, false⟩] } :=
        ⟨List.prefix_refl _, fun i f hf => ⟨f, getElem?_append_some hf, rfl, rfl, id⟩, fun _ => id, fun _ => id⟩
      refine ⟨he.trans hs.1, fun hr => ?_⟩
      have hr1 : Rec W { st with files := st.files ++ [⟨W.clean x, t, false⟩] } := by
        refine ⟨fun f hf => ?_, hr.envs, hr.exist⟩
        rcases List.mem_append.mp hf with hf | hf
        · exact hr.files f hf
        · simp only [List.mem_singleton] at hf; subst hf; exact hl
      refine ⟨(hs.2 hr1).1, fun hz hc hr' => ?_⟩
      have : W'.load (W.clean x) = some t := (hr'.mono hs.1).files ⟨W.clean x, t, false⟩ (by simp)
      rw [this]
      exact (hs.2 hr1).2 hz hc hr'

theorem tokFile_sim : ∀ (k : Nat) (st : St) (x : Str), Sim W W' id st (tokFile W k st x) (tokFile W' k st x)
  | 0 => load_sim hh (fun _ _ => .err)
  | k + 1 => load_sim hh (fun st y => tokFile_sim k st y)

theorem incOf_sim (k : Nat) (st : St) (y : Str) : Sim W W' id st (incOf W k st y) (incOf W' k st y) := by
  cases k with
  | zero => exact .err
  | succ k => exact tokFile_sim hh k st y

end

/-! ### C57 -/

/-- Reading a build file ends, whatever is in it and in the files it includes (which may include one another). -/
theorem C57_terminates (W : World) (x : Str) : tokenize W x ≠ .fuel :=
  bind_ne_fuel (tokFile_fuel W _ _ _) (fun _ _ => by simp)

/-- Reading a file forgets nothing that was read before. -/
theorem C57_extends (W : World) (k : Nat) (st st' : St) (x : Str) (h : tokFile W k st x = .ok st') : Ext st st' :=
  (tokFile_sim (W := W) (W' := W) ⟨rfl, rfl, rfl, rfl, rfl⟩ k st x st' h).1

theorem findFile_ext {W : World} {x : Str} : ∀ {fs gs : List File} {i : Nat} {f : File},
    (∀ (i : Nat) (f : File), fs[i]? = some f → ∃ f', gs[i]? = some f' ∧ f'.name = f.name ∧ f'.text = f.text ∧ (f.once = true → f'.once = true)) →
    findFile W x fs = some (i, f) → ∃ f', findFile W x gs = some (i, f') ∧ gs[i]? = some f' ∧ (f.once = true → f'.once = true)
  | [], _, _, _, _, h => by simp [findFile] at h
  | g :: fs, gs, i, f, he, h => by
    obtain ⟨g', h1, h2, h3, h4⟩ := he 0 g rfl
    cases gs with
    | nil => simp at h1
    | cons g1 gs =>
      simp only [List.getElem?_cons_zero, Option.some.injEq] at h1
      subst h1
      simp only [findFile] at h ⊢
      rw [h2]
      split at h
      · rename_i hs
        cases h
        exact ⟨g1, by rw [if_pos hs], rfl, h4⟩
      · rename_i hs
        simp only [Option.map_eq_some_iff] at h
        obtain ⟨⟨j, f1⟩, hj, hjf⟩ := h
        cases hjf
        obtain ⟨f', k1, k2, k3⟩ := findFile_ext (gs := gs) (fun i f hf => by simpa using he (i + 1) f (by simpa using hf)) hj
        exact ⟨f', by rw [if_neg hs, k1]; rfl, by simpa using k2, k3⟩

theorem findFile_get {W : World} {x : Str} : ∀ {fs : List File} {i : Nat} {f : File}, findFile W x fs = some (i, f) → fs[i]? = some f
  | [], _, _, h => by simp [findFile] at h
  | g :: fs, i, f, h => by
    simp only [findFile] at h
    split at h
    · cases h; rfl
    · simp only [Option.map_eq_some_iff] at h
      obtain ⟨⟨j, f1⟩, hj, hjf⟩ := h
      cases hjf
      simpa using findFile_get hj

theorem findFile_snoc {W : World} {x : Str} {g : File} (hg : W.same g.name x = true) : ∀ {fs : List File}, findFile W x fs = none →
    findFile W x (fs ++ [g]) = some (fs.length, g)
  | [], _ => by simp [findFile, hg]
  | f :: fs, h => by
    simp only [findFile] at h
    split at h
    · cases h
    · rename_i hn
      simp only [Option.map_eq_none_iff] at h
      simp only [List.cons_append, findFile, if_neg hn]
      rw [findFile_snoc hg h]
      rfl

theorem setOnce_get {i : Nat} {fs : List File} {f : File} (h : fs[i]? = some f) : (setOnce i fs)[i]? = some { f with once := true } := by
  simp only [setOnce, List.getElem?_modify, h]
  simp

/-- the first line `#once` -/
theorem range_once {W : World} {inc : St → Str → Res St} {i n : Nat} {st st' : St} {s : Str} {f : File} (hf : st.files[i]? = some f)
    (h : range W inc i n st ("#once\n".toList ++ s) = .ok st') :
    ∃ m, range W inc i m { st with files := setOnce i st.files } s = .ok st' := by
  cases n with
  | zero => cases h
  | succ n =>
    have hl : lex '#' ("once\n".toList ++ s) = .hash ("once\n".toList ++ s) := by
      simp [lex, isWs, isIdStart, isUpper, isLower, isQuote, op2, lexRest, op1, isDigit, bracket]
    have hs : "#once\n".toList ++ s = '#' :: ("once\n".toList ++ s) := rfl
    rw [hs] at h
    simp only [range, hl] at h
    have hline : lineOf ("once\n".toList ++ s) = "once\n".toList := by
      simp [lineOf]
    have hskip : skipLine ("once\n".toList ++ s) = s := by
      simp [skipLine]
    have hlen : ("once\n".toList ++ s).length = s.length + 5 := by simp
    have hlex : lexLine (s.length + 5) "once\n".toList = .ok [.kw .once] := by
      have e1 : lex 'o' "nce\n".toList = .tok (.kw .once) ['\n'] := by decide +kernel
      have e2 : lex '\n' [] = .skip [] := by decide +kernel
      have e0 : "once\n".toList = 'o' :: "nce\n".toList := rfl
      rw [e0]
      simp only [lexLine, e1, e2]
      rfl
    have hd : directive W inc i st ("once\n".toList ++ s) =
        if f.once then .assert else .ok ⟨{ st with files := setOnce i st.files }, none, [], s⟩ := by
      unfold directive
      rw [hline, hlen, hlex, hskip, Res.bind_ok, hf]
      rfl
    rw [hd] at h
    split at h
    · cases h
    · simp only [Res.bind_ok, if_true] at h
      exact ⟨n, h⟩

/-- A file that begins with `#once` is read once: after it has been read, and whatever has been read since then, an
`#include` of it does nothing. -/
theorem C57_once (W : World) (hsame : ∀ x, W.same x x = true) (k k' : Nat) (st st' st'' : St) (x s : Str)
    (hold : ∀ i f, findFile W (W.clean x) st.files = some (i, f) → f.text = "#once\n".toList ++ s)
    (hnew : W.load (W.clean x) = some ("#once\n".toList ++ s)) (h : tokFile W k st x = .ok st') (he : Ext st' st'') :
    tokFile W k' st'' x = .ok st'' := by
  have key : ∃ i f, findFile W (W.clean x) st'.files = some (i, f) ∧ f.once = true := by
    rw [tokFile_eq] at h
    have run : ∀ (inc : St → Str → Res St) (hinc : ∀ st x, Sim W W id st (inc st x) (inc st x)) (i n : Nat) (st1 : St) (f : File),
        findFile W (W.clean x) st1.files = some (i, f) → range W inc i n st1 ("#once\n".toList ++ s) = .ok st' →
        ∃ i f, findFile W (W.clean x) st'.files = some (i, f) ∧ f.once = true := by
      intro inc hinc i n st1 f hf hr
      have hfi := findFile_get hf
      obtain ⟨m, hm⟩ := range_once hfi hr
      have e2 := (range_sim (W := W) (W' := W) ⟨rfl, rfl, rfl, rfl, rfl⟩ hinc i m _ _ st' hm).1
      have e1 : Ext st1 { st1 with files := setOnce i st1.files } := by
        refine ⟨List.prefix_refl _, fun j g h => ⟨if i = j then { g with once := true } else g, ?_, ?_⟩, fun _ => id, fun _ => id⟩
        · simp only [setOnce, List.getElem?_modify, h]; rfl
        · by_cases hij : i = j <;> simp [hij]
      obtain ⟨f1, g1, g2, _⟩ := findFile_ext e1.files hf
      have : f1.once = true := by
        have := setOnce_get hfi
        rw [g2] at this
        cases this
        rfl
      obtain ⟨f2, k1, _, k3⟩ := findFile_ext e2.files g1
      exact ⟨i, f2, k1, k3 this⟩
    have hinc := fun k => incOf_sim (W := W) (W' := W) ⟨rfl, rfl, rfl, rfl, rfl⟩ k
    split at h
    · rename_i i f hf
      split at h
      · cases h
        exact ⟨i, f, hf, by assumption⟩
      · rw [hold i f hf] at h
        exact run _ (hinc k) _ _ _ _ hf h
    · rename_i hf
      rw [hnew] at h
      exact run _ (hinc k) _ _ _ _ (findFile_snoc (g := ⟨W.clean x, _, false⟩) (hsame (W.clean x)) hf) h
  obtain ⟨i, f, hf, ho⟩ := key
  obtain ⟨f', h1, _, h2⟩ := findFile_ext he.files hf
  rw [tokFile_eq, h1]
  simp only [h2 ho, if_true]

/-! ### C59 -/

/-- What is recorded while a build file is read is true: the texts of the files, the hashes of the environment variables,
and which files exist. -/
theorem C59_recorded (W : World) (x : Str) (st : St) (h : tokenize W x = .ok st) : Rec W st := by
  unfold tokenize at h
  rw [Res.bind_eq_ok] at h
  obtain ⟨q, hq, h⟩ := h
  cases h
  have := ((tokFile_sim (W := W) (W' := W) ⟨rfl, rfl, rfl, rfl, rfl⟩ _ _ x q hq).2 ⟨by simp, by simp, by simp⟩).1
  exact ⟨this.files, this.envs, this.exist⟩

/-- What is recorded is all that matters: if the files, the hashes of the environment variables and the existence of
files that were recorded are the same in another world, reading the build file there gives the same tokens. -/
theorem C59_complete (W W' : World) (hh : SameHost W W') (hz : NoZeroHash W) (hc : NoCollision W W') (x : Str) (st : St)
    (h : tokenize W x = .ok st) (hr : Rec W' st) : tokenize W' x = .ok st := by
  unfold tokenize at h ⊢
  rw [Res.bind_eq_ok] at h
  obtain ⟨q, hq, h⟩ := h
  cases h
  have := ((tokFile_sim hh _ _ x q hq).2 ⟨by simp, by simp, by simp⟩).2 hz hc ⟨hr.files, hr.envs, hr.exist⟩
  rw [this]
  rfl

/-! ### the hypotheses are met -/

/-- a world with two files: the first includes the second twice, and looks at a variable and a file -/
def twoFiles (val : String) : World where
  load x :=
    if x = "a".toList then some "#if exists( P ) && !file_exists( 'f' )\n#import P\n#include 'b'\n#include 'b'\n#endif\n.Y = 'q'\n".toList
    else if x = "b".toList then some "#once\n.X = 'x' // c\n".toList
    else none
  env x := if x = "P".toList then some val.toList else none
  hash v := v.length + 1
  exists_ _ := false
  clean x := x
  same a b := a = b
  expand _ x := x
  builtin x := x = "__LINUX__".toList

/-- its tokens, and what is recorded -/
theorem twoFiles_tokens : ∃ st, tokenize (twoFiles "v$") "a".toList = .ok st ∧
    st.toks = [.var ".P".toList, .op .assign, .str "v^$".toList, .var ".X".toList, .op .assign, .str "x".toList,
      .var ".Y".toList, .op .assign, .str "q".toList, .eof] ∧
    st.files.map (·.name) = ["a".toList, "b".toList] ∧ st.envs = [("P".toList, 3)] ∧ st.exist = [("f".toList, false)] := by
  have h : (match tokenize (twoFiles "v$") "a".toList with
      | .ok st => decide (st.toks = [.var ".P".toList, .op .assign, .str "v^$".toList, .var ".X".toList, .op .assign, .str "x".toList,
          .var ".Y".toList, .op .assign, .str "q".toList, .eof] ∧
        st.files.map (·.name) = ["a".toList, "b".toList] ∧ st.envs = [("P".toList, 3)] ∧ st.exist = [("f".toList, false)])
      | _ => false) = true := by
    decide +kernel
  split at h
  · rename_i st hs
    exact ⟨st, hs, of_decide_eq_true h⟩
  · cases h

example : NoZeroHash (twoFiles "v$") := fun _ v _ => Nat.succ_ne_zero v.length

/-- another value of the variable, without collision -/
example : SameHost (twoFiles "v$") (twoFiles "abc") ∧ NoCollision (twoFiles "v$") (twoFiles "abc") := by
  refine ⟨⟨rfl, rfl, rfl, rfl, rfl⟩, ?_⟩
  intro x v v' h h' he
  have e : ∀ val, (twoFiles val).env x = if x = "P".toList then some val.toList else none := fun _ => rfl
  have e' : ∀ val u, (twoFiles val).hash u = u.length + 1 := fun _ _ => rfl
  rw [e] at h h'
  rw [e', e'] at he
  split at h
  · rename_i hx
    rw [if_pos hx] at h'
    cases h
    cases h'
    exact absurd he (by decide)
  · cases h

/-- a file that includes itself once before its `#once` -/
def selfFile : World where
  load x := if x = "a".toList then some "#if !X\n#define X\n#include 'a'\n#endif\n#once\n".toList else none
  env _ := none
  hash v := v.length + 1
  exists_ _ := false
  clean x := x
  same a b := a = b
  expand _ x := x
  builtin _ := false

/-- `#once` reached a second time in a file fails an assertion. -/
theorem C57_once_asserts : tokenize selfFile "a".toList = .assert := by
  have h : (match tokenize selfFile "a".toList with | .assert => true | _ => false) = true := by decide +kernel
  split at h
  · assumption
  · cases h

end Verif.Bff.Lex
