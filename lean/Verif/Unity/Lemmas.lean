import Verif.Unity.Spec
import Verif.Unity.Order
/-! The loops of `DoBuild`. -/
namespace Verif.Unity

/-- every file of the list goes into this unity or stays -/
theorem allot_split (fl : Flt) (last : Bool) : ∀ (files : List File) (r : fl.F),
    (allot fl last r files).1 ++ (allot fl last r files).2.2 = files
  | [], r => by unfold allot; split <;> rfl
  | f :: fs, r => by
    unfold allot
    split
    · have := allot_split fl last fs (fl.dec r)
      dsimp only
      simp [this]
    · rfl

theorem allot_last (fl : Flt) : ∀ (files : List File) (r : fl.F),
    (allot fl true r files).1 = files ∧ (allot fl true r files).2.2 = []
  | [], r => by unfold allot; simp
  | f :: fs, r => by
    unfold allot
    have := allot_last fl fs (fl.dec r)
    simp [this]

/-- the files of each unity -/
def groups (fl : Flt) (per : fl.F) : Nat → fl.F → List File → List (List File)
  | 0, _, _ => []
  | k + 1, r, files =>
    let (mine, r', rest) := allot fl (k == 0) (fl.add r per) files
    mine :: groups fl per k r' rest

theorem groups_length (fl : Flt) (per : fl.F) : ∀ (k : Nat) (r : fl.F) (files : List File),
    (groups fl per k r files).length = k
  | 0, _, _ => rfl
  | k + 1, r, files => by simp [groups, groups_length fl per k]

theorem groups_flatten (fl : Flt) (per : fl.F) : ∀ (k : Nat) (r : fl.F) (files : List File), 0 < k →
    (groups fl per k r files).flatten = files
  | 0, _, _, h => by omega
  | 1, r, files, _ => by
    have := allot_last fl files (fl.add r per)
    simp [groups, this]
  | k + 2, r, files, _ => by
    simp only [groups, List.flatten_cons]
    have := groups_flatten fl per (k + 1) (allot fl (k + 1 == 0) (fl.add r per) files).2.1
      (allot fl (k + 1 == 0) (fl.add r per) files).2.2 (by omega)
    simp only [groups, List.flatten_cons] at this
    rw [this, allot_split]

/-- is this unity kept? -/
def kept (c : Config) (fromList : List Name) (noUnity : Bool) (mine : List File) : Bool :=
  decide (mine.length ≠ mine.countP (isolated c fromList mine) ∧ noUnity = false)

/-- isolated files of a unity -/
def isoEntries (c : Config) (fromList : List Name) (noUnity : Bool) (mine : List File) : List File :=
  mine.filter fun f => isolated c fromList mine f || noUnity

/-- what the loop does, given the groups -/
structure Made (c : Config) (fromList : List Name) (noUnity : Bool) (i : Nat) (gs : List (List File)) (s s' : Result) : Prop where
  texts : s'.texts = s.texts ++ gs.map (unityText c fromList)
  isolated : s'.isolated = s.isolated ++ gs.flatMap fun g => (isoEntries c fromList noUnity g).map File.entry
  names : s'.names = s.names ++ ((gs.zipIdx i).filter fun p => kept c fromList noUnity p.1).map fun p => unityName c p.2
  disk : (∀ j k, j < i + gs.length → k < i + gs.length → unityName c j = unityName c k → j = k) →
    ∀ j (h : j < gs.length), s'.disk (unityName c (i + j)) = some (unityText c fromList gs[j])
  other : ∀ n, (∀ j, j < gs.length → n ≠ unityName c (i + j)) → s'.disk n = s.disk n

theorem needToWrite_eq {clean : Bool} {old : Option Name} {text : Name} (h : needToWrite clean old text = false) :
    old = some text := by
  unfold needToWrite at h
  split at h
  · cases h
  · split at h
    · cases h
    · simp at h; rw [h.2]

theorem makeFiles_made {fl : Flt} {c : Config} {fromList : List Name} {noUnity clean : Bool} {canWrite : Name → Bool} {per : fl.F} :
    ∀ (k i : Nat) (r : fl.F) (files : List File) (s s' : Result),
      makeFiles fl c fromList noUnity clean canWrite per k i r files s = some s' →
      Made c fromList noUnity i (groups fl per k r files) s s'
  | 0, i, r, files, s, s', h => by
    simp only [makeFiles, Option.some.injEq] at h
    subst h
    exact ⟨by simp [groups], by simp [groups], by simp [groups], fun _ j h => by simp [groups] at h, fun _ _ => rfl⟩
  | k + 1, i, r, files, s, s', h => by
    simp only [makeFiles] at h
    simp only [groups]
    revert h
    generalize (allot fl (k == 0) (fl.add r per) files).1 = mine
    generalize (allot fl (k == 0) (fl.add r per) files).2.1 = r'
    generalize (allot fl (k == 0) (fl.add r per) files).2.2 = rest
    intro h
    -- both continuations are of the same form
    have key : ∀ d : Disk, d (unityName c i) = some (unityText c fromList mine) →
        (∀ n, n ≠ unityName c i → d n = s.disk n) →
        Made c fromList noUnity (i + 1) (groups fl per k r' rest)
          { disk := d
            isolated := s.isolated ++ (mine.filter fun f => isolated c fromList mine f || noUnity).map File.entry
            names := if mine.length ≠ mine.countP (isolated c fromList mine) ∧ noUnity = false then s.names ++ [unityName c i] else s.names
            texts := s.texts ++ [unityText c fromList mine] } s' →
        Made c fromList noUnity i (mine :: groups fl per k r' rest) s s' := by
      intro d hd hdo m
      constructor
      · rw [m.texts]; simp
      · rw [m.isolated]; simp [isoEntries]
      · rw [m.names]
        simp only [List.zipIdx_cons, List.filter_cons]
        by_cases hk : mine.length ≠ mine.countP (isolated c fromList mine) ∧ noUnity = false
        · rw [if_pos hk, if_pos (by simp only [kept, decide_eq_true_eq]; exact hk)]; simp
        · rw [if_neg hk, if_neg (by simp only [kept, decide_eq_true_eq]; exact hk)]
      · intro hinj j hj
        cases j with
        | zero =>
          rw [Nat.add_zero, m.other]
          · exact hd
          · intro j hj' he
            have := hinj i (i + 1 + j) (by simp) (by simp only [List.length_cons]; omega) he
            omega
        | succ j =>
          have hj' : j < (groups fl per k r' rest).length := by simpa using hj
          have := m.disk (fun a b ha hb => hinj a b (by simp only [List.length_cons]; omega)
            (by simp only [List.length_cons]; omega)) j hj'
          rw [show i + (j + 1) = i + 1 + j by omega]
          exact this
      · intro n hn
        rw [m.other n (fun j hj => by
          have := hn (j + 1) (by simpa using hj)
          rwa [show i + (j + 1) = i + 1 + j by omega] at this)]
        exact hdo n (by simpa using hn 0 (by simp))
    split at h
    · split at h
      · exact key _ (by simp) (fun n hn => by simp [hn]) (makeFiles_made k (i + 1) r' rest _ s' h)
      · cases h
    · next hw =>
      exact key s.disk (needToWrite_eq (by simpa using hw)) (fun _ _ => rfl) (makeFiles_made k (i + 1) r' rest _ s' h)

/-! ### The text -/

theorem linesGo_line (a rest : Name) (acc : Name) (h : '\n' ∉ a) :
    linesGo acc (a ++ ('\r' :: '\n' :: rest)) = (acc.reverse ++ a) :: linesGo [] rest := by
  induction a generalizing acc with
  | nil => simp [linesGo, finish]
  | cons x a ih =>
    have hx : x ≠ '\n' := fun e => h (by simp [e])
    simp only [List.cons_append, linesGo, if_neg hx]
    rw [ih (x :: acc) (fun q => h (List.mem_cons_of_mem _ q))]
    simp

theorem lines_line (a rest : Name) (h : '\n' ∉ a) : lines (a ++ (eol ++ rest)) = a :: lines rest := by
  have := linesGo_line a rest [] h
  simpa [lines, eol] using this

theorem lines_eol (rest : Name) : lines (eol ++ rest) = [] :: lines rest := lines_line [] rest (by simp)

theorem includes_line (a rest : Name) (h : '\n' ∉ a) :
    includes (a ++ (eol ++ rest)) = (included a).toList ++ includes rest := by
  unfold includes
  rw [lines_line a rest h, List.filterMap_cons]
  cases included a <;> simp

theorem includes_eol (rest : Name) : includes (eol ++ rest) = includes rest := by
  have := includes_line [] rest (by simp)
  simpa [included] using this

theorem included_yes (x : Name) : included ("#include \"".toList ++ (x ++ "\"".toList)) = some x := by
  have h1 : (("#include \"".toList ++ (x ++ "\"".toList)) : Name).take 10 = "#include \"".toList := by
    rw [List.take_append_of_le_length (by decide)]; rfl
  have h2 : (("#include \"".toList ++ (x ++ "\"".toList)) : Name).drop 10 = x ++ ['"'] := by
    rw [List.drop_append_of_le_length (by decide)]; rfl
  unfold included
  rw [h1, h2]
  simp

theorem included_slash (x : Name) : included ('/' :: x) = none := by
  unfold included
  rw [if_neg]
  rintro ⟨h, _⟩
  have := congrArg List.head? h
  rw [List.head?_take] at this
  simp at this

theorem included_pragma (x : Name) : included ("#pragma message( \"".toList ++ x) = none := by
  unfold included
  rw [if_neg]
  rintro ⟨h, _⟩
  rw [List.take_append_of_le_length (by decide)] at h
  revert h; decide

/-- the file names may be written between quotes on a line -/
def Plain (c : Config) (n : Name) : Prop := '\n' ∉ c.shown n

theorem includes_file (c : Config) (iso : Bool) (f : File) (hf : Plain c f.name) (rest : Name) :
    includes (fileText c iso f ++ rest) = (if iso then [] else [c.shown f.name]) ++ includes rest := by
  have hm : '\n' ∉ (c.shown f.name).map (fun x => if x = '\\' then '/' else x) := by
    intro h
    obtain ⟨x, hx, he⟩ := List.mem_map.mp h
    split at he
    · cases he
    · exact hf (he ▸ hx)
  have hp : ∀ pre : Name, '\n' ∉ pre → '\n' ∉ pre ++ ("#pragma message( \"".toList ++
      ((c.shown f.name).map (fun x => if x = '\\' then '/' else x) ++ "\" )".toList)) := by
    intro pre hpre h
    rcases List.mem_append.mp h with h | h
    · exact hpre h
    · rcases List.mem_append.mp h with h | h
      · revert h; decide
      · rcases List.mem_append.mp h with h | h
        · exact hm h
        · revert h; decide
  have hi : ∀ pre : Name, '\n' ∉ pre → '\n' ∉ pre ++ ("#include \"".toList ++ (c.shown f.name ++ "\"".toList)) := by
    intro pre hpre h
    rcases List.mem_append.mp h with h | h
    · exact hpre h
    · rcases List.mem_append.mp h with h | h
      · revert h; decide
      · rcases List.mem_append.mp h with h | h
        · exact hf h
        · revert h; decide
  have hs : ('\n' : Char) ∉ ("//".toList : Name) := by decide
  unfold fileText
  dsimp only
  generalize hpr : (if c.linux then "//".toList else if iso then "//".toList else []) = pragma
  have hpn : '\n' ∉ pragma := by
    subst hpr; split
    · exact hs
    · split
      · exact hs
      · simp
  have hnone : included (pragma ++ ("#pragma message( \"".toList ++
      ((c.shown f.name).map (fun x => if x = '\\' then '/' else x) ++ "\" )".toList))) = none := by
    subst hpr; split
    · exact included_slash _
    · split
      · exact included_slash _
      · exact included_pragma _
  have e1 := includes_line _ ((if iso then "//".toList else []) ++ ("#include \"".toList ++ (c.shown f.name ++ "\"".toList)) ++
    (eol ++ (eol ++ rest))) (hp pragma hpn)
  rw [hnone] at e1
  simp only [List.append_assoc] at e1 ⊢
  rw [e1]
  cases iso with
  | true =>
    have e2 := includes_line _ (eol ++ rest) (hi "//".toList hs)
    simp only [List.append_assoc] at e2
    simp only [if_true, Option.toList_none, List.nil_append]
    rw [e2, includes_eol]
    have : included ("//".toList ++ ("#include \"".toList ++ (c.shown f.name ++ "\"".toList))) = none := included_slash _
    rw [this]; rfl
  | false =>
    have e2 := includes_line _ (eol ++ rest) (hi [] (by simp))
    simp only [List.append_assoc, List.nil_append] at e2
    simp only [Bool.false_eq_true, if_false, Option.toList_none, List.nil_append]
    rw [e2, includes_eol, included_yes]; rfl

theorem includes_files (c : Config) (iso : File → Bool) (rest : Name) : ∀ (mine : List File), (∀ f ∈ mine, Plain c f.name) →
    includes (mine.flatMap (fun f => fileText c (iso f) f) ++ rest) =
      ((mine.filter fun f => ! iso f).map fun f => c.shown f.name) ++ includes rest
  | [], _ => by simp
  | f :: fs, h => by
    rw [List.flatMap_cons, List.append_assoc, includes_file c (iso f) f (h f (by simp)),
      includes_files c iso rest fs (fun g hg => h g (by simp [hg]))]
    cases hi : iso f <;> simp [hi]

theorem includes_text (c : Config) (fromList : List Name) (mine : List File) (hp : Plain c c.pch)
    (h : ∀ f ∈ mine, Plain c f.name) :
    includes (unityText c fromList mine) = (if c.pch = [] then [] else [c.shown c.pch]) ++
      ((mine.filter fun f => ! isolated c fromList mine f).map fun f => c.shown f.name) := by
  unfold unityText
  have hh : '\n' ∉ ("// Auto-generated Unity file - do not modify".toList : Name) := by decide
  have hn : included ("// Auto-generated Unity file - do not modify".toList : Name) = none := by decide
  have hend : includes eol = [] := by
    have := includes_eol []
    rw [List.append_nil] at this
    rw [this]; decide
  simp only [List.append_assoc]
  rw [includes_line _ _ hh, hn, includes_eol]
  simp only [Option.toList_none, List.nil_append]
  by_cases hpch : c.pch = []
  · rw [if_pos hpch, if_pos hpch, List.nil_append, includes_files c _ eol mine h, hend]; simp
  · rw [if_neg hpch, if_neg hpch]
    have hi : '\n' ∉ "#include \"".toList ++ (c.shown c.pch ++ "\"".toList) := by
      intro q
      rcases List.mem_append.mp q with q | q
      · revert q; decide
      · rcases List.mem_append.mp q with q | q
        · exact hp q
        · revert q; decide
    have e := includes_line _ (eol ++ (mine.flatMap (fun f => fileText c (isolated c fromList mine f) f) ++ eol)) hi
    simp only [List.append_assoc] at e ⊢
    rw [e, included_yes, includes_eol, includes_files c _ eol mine h, hend]; simp

/-! ### Names -/

/-- value of a decimal number -/
def value (ds : Name) : Nat := ds.foldl (fun v d => v * 10 + (d.toNat - 48)) 0

theorem digit_val {n : Nat} (h : n < 10) : (Char.ofNat (48 + n)).toNat - 48 = n := by
  have : n = 0 ∨ n = 1 ∨ n = 2 ∨ n = 3 ∨ n = 4 ∨ n = 5 ∨ n = 6 ∨ n = 7 ∨ n = 8 ∨ n = 9 := by omega
  rcases this with e | e | e | e | e | e | e | e | e | e <;> subst e <;> rfl

theorem value_decimalGo : ∀ (fuel n : Nat), n < fuel → value (decimalGo fuel n) = n
  | 0, _, h => by omega
  | fuel + 1, n, h => by
    rw [decimalGo]
    split
    · next h => simp [value, digit_val h]
    · next h' =>
      have := value_decimalGo fuel (n / 10) (by omega)
      simp only [value, List.foldl_append, List.foldl_cons, List.foldl_nil] at this ⊢
      rw [this, digit_val (Nat.mod_lt _ (by omega))]
      omega

theorem value_decimal (n : Nat) : value (decimal n) = n := value_decimalGo (n + 1) n (by omega)

theorem decimal_inj {m n : Nat} (h : decimal m = decimal n) : m = n := by
  rw [← value_decimal m, ← value_decimal n, h]

def subst (d : Name) (p : Name) : Name := p.flatMap fun x => if x = '*' then d else [x]

theorem subst_length (d : Name) : ∀ p : Name, (subst d p).length + p.count '*' = p.length + p.count '*' * d.length
  | [] => by simp [subst]
  | x :: p => by
    have ih := subst_length d p
    have e1 : (subst d (x :: p)).length = (if x = '*' then d else [x]).length + (subst d p).length := by
      simp only [subst, List.flatMap_cons, List.length_append]
    rw [e1, List.count_cons, List.length_cons]
    by_cases e : x = '*'
    · simp only [e, if_true, beq_self_eq_true]
      rw [Nat.add_mul]; omega
    · have e2 : (x == '*') = false := by simpa using e
      simp only [if_neg e, e2, List.length_cons, List.length_nil, Bool.false_eq_true, if_false, Nat.add_zero]
      omega

theorem subst_inj {d e : Name} : ∀ {p : Name}, '*' ∈ p → subst d p = subst e p → d = e := by
  intro p hp h
  have hl : d.length = e.length := by
    have h1 := subst_length d p
    have h2 := subst_length e p
    rw [h] at h1
    have hc : 0 < p.count '*' := List.count_pos_iff.mpr hp
    have : p.count '*' * d.length = p.count '*' * e.length := by omega
    exact Nat.eq_of_mul_eq_mul_left hc this
  induction p with
  | nil => simp at hp
  | cons x p ih =>
    simp only [subst, List.flatMap_cons] at h
    by_cases ex : x = '*'
    · simp only [ex, if_true] at h
      exact (List.append_inj h hl).1
    · simp only [if_neg ex] at h
      refine ih ?_ (List.append_inj h rfl).2
      rcases List.mem_cons.mp hp with q | q
      · exact absurd q.symm ex
      · exact q

theorem unityName_inj {c : Config} (h : '*' ∈ c.outputPath ++ c.outputPattern) {i j : Nat}
    (he : unityName c i = unityName c j) : i = j := by
  have : decimal (i + 1) = decimal (j + 1) := subst_inj h he
  have := decimal_inj this
  omega

/-! ### Counting -/

theorem filter_perm_not {α : Type} (p : α → Bool) (l : List α) : ((l.filter fun x => ! p x) ++ l.filter p).Perm l := by
  have := List.filter_append_perm p l
  exact (List.perm_append_comm).trans this

theorem flatMap_append_perm {α β : Type} (f g : α → List β) : ∀ l : List α,
    (l.flatMap f ++ l.flatMap g).Perm (l.flatMap fun x => f x ++ g x)
  | [] => by simp
  | x :: l => by
    simp only [List.flatMap_cons]
    have ih := flatMap_append_perm f g l
    have h1 : (f x ++ l.flatMap f ++ (g x ++ l.flatMap g)).Perm (f x ++ (g x ++ (l.flatMap f ++ l.flatMap g))) := by
      rw [List.append_assoc]
      refine List.Perm.append_left _ ?_
      rw [← List.append_assoc, ← List.append_assoc]
      exact List.Perm.append_right _ List.perm_append_comm
    refine h1.trans ?_
    rw [List.append_assoc]
    exact List.Perm.append_left _ (List.Perm.append_left _ ih)

theorem flatMap_perm_congr {α β : Type} {f g : α → List β} : ∀ {l : List α}, (∀ x ∈ l, (f x).Perm (g x)) →
    (l.flatMap f).Perm (l.flatMap g)
  | [], _ => by simp
  | x :: l, h => by
    simp only [List.flatMap_cons]
    exact (h x (by simp)).append (flatMap_perm_congr fun y hy => h y (by simp [hy]))

/-- the kept unities, read back from disk -/
theorem names_flatMap {β : Type} (c : Config) (F : Name → List β) (G : List File → List β) (p : List File → Bool) :
    ∀ (gs : List (List File)) (i : Nat), (∀ j (h : j < gs.length), F (unityName c (i + j)) = G gs[j]) →
    ((((gs.zipIdx i).filter fun q => p q.1).map fun q => unityName c q.2).flatMap F) = (gs.filter p).flatMap G
  | [], _, _ => rfl
  | g :: gs, i, h => by
    have ih := names_flatMap c F G p gs (i + 1) (fun j hj => by
      have := h (j + 1) (by simpa using hj)
      rw [show i + (j + 1) = i + 1 + j by omega] at this
      simpa using this)
    have h0 : F (unityName c i) = G g := h 0 (by simp)
    simp only [List.zipIdx_cons, List.filter_cons]
    cases hp : p g
    · simpa using ih
    · simp only [if_true, List.map_cons, List.flatMap_cons]
      rw [ih, h0]

end Verif.Unity
