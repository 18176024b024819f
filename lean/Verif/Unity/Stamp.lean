import Verif.Unity.Props
/-! What a text says about the files it was made from. -/
namespace Verif.Unity

/-- a line that includes a file, and whether it is commented out -/
def mark (line : Name) : Option (Bool × Name) :=
  match included line with
  | some x => some (false, x)
  | none => if line.take 2 = "//".toList then (included (line.drop 2)).map fun x => (true, x) else none

def marks (text : Name) : List (Bool × Name) := (lines text).filterMap mark

theorem marks_line (a rest : Name) (h : '\n' ∉ a) :
    marks (a ++ (eol ++ rest)) = (mark a).toList ++ marks rest := by
  unfold marks
  rw [lines_line a rest h, List.filterMap_cons]
  cases mark a <;> simp

theorem marks_eol (rest : Name) : marks (eol ++ rest) = marks rest := by
  have := marks_line [] rest (by simp)
  simpa [mark, included] using this

theorem mark_comment (x : Name) : mark ("//".toList ++ x) = (included x).map fun y => (true, y) := by
  have h : included ("//".toList ++ x) = none := included_slash _
  unfold mark
  rw [h]
  simp

theorem mark_yes (x : Name) : mark ("#include \"".toList ++ (x ++ "\"".toList)) = some (false, x) := by
  unfold mark; rw [included_yes]

theorem mark_pragma (x : Name) : mark ("#pragma message( \"".toList ++ x) = none := by
  unfold mark
  rw [included_pragma]
  dsimp only
  rw [if_neg]
  intro h
  rw [List.take_append_of_le_length (by decide)] at h
  revert h; decide

theorem marks_file (c : Config) (iso : Bool) (f : File) (hf : Plain c f.name) (rest : Name) :
    marks (fileText c iso f ++ rest) = (iso, c.shown f.name) :: marks rest := by
  have hm : '\n' ∉ (c.shown f.name).map (fun x => if x = '\\' then '/' else x) := by
    intro h
    obtain ⟨x, hx, he⟩ := List.mem_map.mp h
    split at he
    · cases he
    · exact hf (he ▸ hx)
  have hp : ∀ pre : Name, '\n' ∉ pre → '\n' ∉ pre ++ ("#pragma message( \"".toList ++
      ((c.shown f.name).map (fun x => if x = '\\' then '/' else x) ++ "\" )".toList)) := by
    intro pre hpre h
    rcases List.mem_append.mp h with h | h
    · exact hpre h
    · rcases List.mem_append.mp h with h | h
      · revert h; decide
      · rcases List.mem_append.mp h with h | h
        · exact hm h
        · revert h; decide
  have hi : ∀ pre : Name, '\n' ∉ pre → '\n' ∉ pre ++ ("#include \"".toList ++ (c.shown f.name ++ "\"".toList)) := by
    intro pre hpre h
    rcases List.mem_append.mp h with h | h
    · exact hpre h
    · rcases List.mem_append.mp h with h | h
      · revert h; decide
      · rcases List.mem_append.mp h with h | h
        · exact hf h
        · revert h; decide
  have hs : ('\n' : Char) ∉ ("//".toList : Name) := by decide
  unfold fileText
  dsimp only
  generalize hpr : (if c.linux then "//".toList else if iso then "//".toList else []) = pragma
  have hpn : '\n' ∉ pragma := by
    subst hpr; split
    · exact hs
    · split
      · exact hs
      · simp
  have hnone : mark (pragma ++ ("#pragma message( \"".toList ++
      ((c.shown f.name).map (fun x => if x = '\\' then '/' else x) ++ "\" )".toList))) = none := by
    subst hpr; split
    · rw [mark_comment, included_pragma]; rfl
    · split
      · rw [mark_comment, included_pragma]; rfl
      · exact mark_pragma _
  have e1 := marks_line _ ((if iso then "//".toList else []) ++ ("#include \"".toList ++ (c.shown f.name ++ "\"".toList)) ++
    (eol ++ (eol ++ rest))) (hp pragma hpn)
  rw [hnone] at e1
  simp only [List.append_assoc] at e1 ⊢
  rw [e1]
  cases iso with
  | true =>
    have e2 := marks_line _ (eol ++ rest) (hi "//".toList hs)
    simp only [List.append_assoc] at e2
    simp only [if_true, Option.toList_none, List.nil_append]
    rw [e2, marks_eol, mark_comment, included_yes]; rfl
  | false =>
    have e2 := marks_line _ (eol ++ rest) (hi [] (by simp))
    simp only [List.append_assoc, List.nil_append] at e2
    simp only [Bool.false_eq_true, if_false, Option.toList_none, List.nil_append]
    rw [e2, marks_eol, mark_yes]; rfl

theorem marks_files (c : Config) (iso : File → Bool) (rest : Name) : ∀ (mine : List File), (∀ f ∈ mine, Plain c f.name) →
    marks (mine.flatMap (fun f => fileText c (iso f) f) ++ rest) =
      (mine.map fun f => (iso f, c.shown f.name)) ++ marks rest
  | [], _ => by simp
  | f :: fs, h => by
    rw [List.flatMap_cons, List.append_assoc, marks_file c (iso f) f (h f (by simp)),
      marks_files c iso rest fs (fun g hg => h g (by simp [hg]))]
    simp

theorem marks_text (c : Config) (fromList : List Name) (mine : List File) (hp : Plain c c.pch)
    (h : ∀ f ∈ mine, Plain c f.name) :
    marks (unityText c fromList mine) = (if c.pch = [] then [] else [(false, c.shown c.pch)]) ++
      mine.map fun f => (isolated c fromList mine f, c.shown f.name) := by
  unfold unityText
  have hh : '\n' ∉ ("// Auto-generated Unity file - do not modify".toList : Name) := by decide
  have hn : mark ("// Auto-generated Unity file - do not modify".toList : Name) = none := by decide
  have hend : marks eol = [] := by
    have := marks_eol []
    rw [List.append_nil] at this
    rw [this]; decide
  simp only [List.append_assoc]
  rw [marks_line _ _ hh, hn, marks_eol]
  simp only [Option.toList_none, List.nil_append]
  by_cases hpch : c.pch = []
  · rw [if_pos hpch, if_pos hpch, List.nil_append, marks_files c _ eol mine h, hend]; simp
  · rw [if_neg hpch, if_neg hpch]
    have hi : '\n' ∉ "#include \"".toList ++ (c.shown c.pch ++ "\"".toList) := by
      intro q
      rcases List.mem_append.mp q with q | q
      · revert q; decide
      · rcases List.mem_append.mp q with q | q
        · exact hp q
        · revert q; decide
    have e := marks_line _ (eol ++ (mine.flatMap (fun f => fileText c (isolated c fromList mine f) f) ++ eol)) hi
    simp only [List.append_assoc] at e ⊢
    rw [e, mark_yes, marks_eol, marks_files c _ eol mine h, hend]; simp

/-- the same text: the same names in the same order, the same ones isolated -/
theorem text_inj {c : Config} {l l' : List Name} {g g' : List File} (hp : Plain c c.pch)
    (h : ∀ f ∈ g, Plain c f.name) (h' : ∀ f ∈ g', Plain c f.name) (he : unityText c l g = unityText c l' g') :
    (g.map fun f => (isolated c l g f, c.shown f.name)) = g'.map fun f => (isolated c l' g' f, c.shown f.name) := by
  have := congrArg marks he
  rw [marks_text c l g hp h, marks_text c l' g' hp h'] at this
  exact List.append_cancel_left this

/-- consequences for one unity -/
theorem same_marks {c : Config} {noUnity : Bool} (hinj : ∀ a b, c.shown a = c.shown b → a = b) {p q : File → Bool} :
    ∀ {g g' : List File}, (g.map fun f => (p f, c.shown f.name)) = (g'.map fun f => (q f, c.shown f.name)) →
    g.length = g'.length ∧ g.countP p = g'.countP q ∧
    ((g.filter fun f => p f || noUnity).map (·.name)) = ((g'.filter fun f => q f || noUnity).map (·.name))
  | [], [], _ => ⟨rfl, rfl, rfl⟩
  | [], _ :: _, h => by simp at h
  | _ :: _, [], h => by simp at h
  | f :: g, f' :: g', h => by
    simp only [List.map_cons, List.cons.injEq, Prod.mk.injEq] at h
    obtain ⟨⟨h1, h2⟩, h3⟩ := h
    have hn := hinj _ _ h2
    obtain ⟨i1, i2, i3⟩ := same_marks (noUnity := noUnity) hinj h3
    refine ⟨by simp [i1], by simp [List.countP_cons, h1, i2], ?_⟩
    simp only [List.filter_cons, h1]
    split
    · simp [hn, i3]
    · exact i3

theorem names_of_groups {c : Config} {l l' : List Name} {noUnity : Bool} (hinj : ∀ a b, c.shown a = c.shown b → a = b)
    (hp : Plain c c.pch) : ∀ (gs gs' : List (List File)) (i : Nat), (∀ g ∈ gs, ∀ f ∈ g, Plain c f.name) →
    (∀ g ∈ gs', ∀ f ∈ g, Plain c f.name) → gs.map (unityText c l) = gs'.map (unityText c l') →
    (((gs.zipIdx i).filter fun p => kept c l noUnity p.1).map fun p => unityName c p.2) =
      (((gs'.zipIdx i).filter fun p => kept c l' noUnity p.1).map fun p => unityName c p.2) ∧
    (gs.flatMap fun g => (isoEntries c l noUnity g).map (·.name)) =
      (gs'.flatMap fun g => (isoEntries c l' noUnity g).map (·.name))
  | [], [], _, _, _, _ => ⟨rfl, rfl⟩
  | [], _ :: _, _, _, _, h => by simp at h
  | _ :: _, [], _, _, _, h => by simp at h
  | g :: gs, g' :: gs', i, h1, h2, h => by
    simp only [List.map_cons, List.cons.injEq] at h
    obtain ⟨i1, i2⟩ := names_of_groups (noUnity := noUnity) hinj hp gs gs' (i + 1) (fun x hx => h1 x (by simp [hx]))
      (fun x hx => h2 x (by simp [hx])) h.2
    obtain ⟨a1, a2, a3⟩ := same_marks (noUnity := noUnity) hinj (text_inj hp (h1 g (by simp)) (h2 g' (by simp)) h.1)
    have hk : kept c l noUnity g = kept c l' noUnity g' := by unfold kept; rw [a1, a2]
    constructor
    · simp only [List.zipIdx_cons, List.filter_cons, hk]
      split
      · simp [i1]
      · exact i1
    · simp only [List.flatMap_cons, i2]
      congr 1

/-- everything the loop was given, from a successful build without forced isolation -/
theorem doBuild_groups {fl : Flt} {c : Config} {deps : List Dep} {fromList : List Name} {noUnity clean : Bool}
    {canWrite : Name → Bool} {disk : Disk} {r : Result} (hforce : c.toIsolate = []) (hnum : 0 < c.num)
    (hplain : ∀ n ∈ inputs c deps, Plain c n)
    (h : doBuild fl c deps fromList noUnity clean canWrite disk = some r) :
    ∃ gs : List (List File), (∀ g ∈ gs, ∀ f ∈ g, Plain c f.name) ∧ r.texts = gs.map (unityText c fromList) ∧
      r.names = (((gs.zipIdx 0).filter fun p => kept c fromList noUnity p.1).map fun p => unityName c p.2) ∧
      r.isolated.map (·.1) = gs.flatMap fun g => (isoEntries c fromList noUnity g).map (·.name) := by
  unfold doBuild at h
  split at h
  · cases h
  · next files hfiles =>
    have hfp := getFiles_perm c deps files hfiles
    have hff : filterForce c files = (files, []) := by unfold filterForce; rw [if_pos hforce]
    rw [hff] at h
    dsimp only at h
    have m := makeFiles_made _ _ _ _ _ _ h
    have hfl := groups_flatten fl (fl.per files.length c.num) c.num fl.zero files hnum
    refine ⟨_, ?_, m.texts, m.names, ?_⟩
    · intro g hg f hf
      apply hplain
      refine hfp.mem_iff.mp (List.mem_map.mpr ⟨f, ?_, rfl⟩)
      rw [← hfl]
      exact List.mem_flatten.mpr ⟨g, hg, hf⟩
    · rw [m.isolated]
      simp only [List.map_nil, List.nil_append, List.map_flatMap, List.map_map]
      rfl

end Verif.Unity
