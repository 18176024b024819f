import Verif.Link.Spec
/-
What is linked and what is put in libraries: proofs.
-/
namespace Verif.Link

/-! ### The inputs as a sequence -/

/-- a name is added; the object of a precompiled header only if it is not there -/
def addName (out : List Name) (x : Name × Bool) : List Name := if x.2 && out.contains x.1 then out else out ++ [x.1]

/-- the names `objectInputs` adds; marked: objects of precompiled headers -/
def objectSeq (instead : Bool) : Forest → List (Name × Bool)
  | .nil => []
  | .pch _ obj ms rest => (if ms then [(obj, true)] else []) ++ objectSeq instead rest
  | .list _ sub rest => objectSeq instead sub ++ objectSeq instead rest
  | .library n _ sub rest => (if instead then objectSeq instead sub else [(n, false)]) ++ objectSeq instead rest
  | .file n rest | .object n rest | .dll n _ _ rest | .copy n _ rest | .alias n _ rest | .unsupported n rest =>
    (n, false) :: objectSeq instead rest

/-- the names `linkInputs` adds -/
def linkSeq (lo : Bool) : Forest → List (Name × Bool)
  | .nil => []
  | .library n _ sub rest => (if lo then objectSeq lo sub else [(n, false)]) ++ linkSeq lo rest
  | .list _ sub rest => objectSeq lo sub ++ linkSeq lo rest
  | .dll n f imp rest => (importLib n f imp, false) :: linkSeq lo rest
  | .copy _ src rest => linkSeq lo src ++ linkSeq lo rest
  | .file n rest | .object n rest | .pch n _ _ rest | .alias n _ rest | .unsupported n rest => (n, false) :: linkSeq lo rest

theorem objectInputs_eq (instead : Bool) (F : Forest) : ∀ out, objectInputs instead F out = (objectSeq instead F).foldl addName out := by
  induction F with
  | nil => intro out; rfl
  | pch n obj ms rest ih =>
    intro out
    simp only [objectInputs, objectSeq, List.foldl_append, ih]
    cases ms
    · rfl
    · cases h : out.contains obj <;> simp [addName]
      · have : obj ∉ out := by simpa using h
        simp [this]
      · have : obj ∈ out := by simpa using h
        simp [this]
  | list n sub rest ih1 ih2 => intro out; simp only [objectInputs, objectSeq, List.foldl_append, ih1, ih2]
  | library n ms sub rest ih1 ih2 =>
    intro out
    simp only [objectInputs, objectSeq, List.foldl_append, ih2]
    cases instead
    · simp [addName]
    · simp only [if_true, ih1]
  | file n rest ih | object n rest ih | unsupported n rest ih => intro out; simp [objectInputs, objectSeq, addName, ih]
  | dll n f imp rest ih => intro out; simp [objectInputs, objectSeq, addName, ih]
  | copy n s rest _ ih | alias n s rest _ ih => intro out; simp [objectInputs, objectSeq, addName, ih]

theorem linkInputs_eq (lo : Bool) (F : Forest) : ∀ out, linkInputs lo F out = (linkSeq lo F).foldl addName out := by
  induction F with
  | nil => intro out; rfl
  | library n ms sub rest ih1 ih2 =>
    intro out
    simp only [linkInputs, linkSeq, List.foldl_append, ih2]
    cases lo
    · simp [addName]
    · simp only [if_true, objectInputs_eq]
  | list n sub rest ih1 ih2 => intro out; simp only [linkInputs, linkSeq, List.foldl_append, objectInputs_eq, ih2]
  | copy n s rest ih1 ih2 => intro out; simp only [linkInputs, linkSeq, List.foldl_append, ih1, ih2]
  | dll n f imp rest ih => intro out; simp [linkInputs, linkSeq, addName, ih]
  | file n rest ih | object n rest ih | unsupported n rest ih => intro out; simp [linkInputs, linkSeq, addName, ih]
  | pch n o ms rest ih => intro out; simp [linkInputs, linkSeq, addName, ih]
  | alias n s rest _ ih => intro out; simp [linkInputs, linkSeq, addName, ih]

theorem foldl_linkInputs (lo : Bool) (ds : List Forest) :
    ∀ out, ds.foldl (fun out n => linkInputs lo n out) out = (ds.flatMap (linkSeq lo)).foldl addName out := by
  induction ds with
  | nil => intro out; rfl
  | cons d ds ih => intro out; rw [List.foldl_cons, ih, linkInputs_eq, List.flatMap_cons, List.foldl_append]

theorem mem_addName {i : Name} {out : List Name} {x : Name × Bool} : i ∈ addName out x ↔ i ∈ out ∨ i = x.1 := by
  unfold addName
  by_cases h : (x.2 && out.contains x.1) = true
  · rw [if_pos h]
    constructor
    · exact Or.inl
    · rintro (h1 | rfl)
      · exact h1
      · have : x.1 ∈ out := by simpa using (Bool.and_eq_true_iff.1 h).2
        exact this
  · rw [if_neg h]; simp

theorem mem_fold {i : Name} (s : List (Name × Bool)) : ∀ out, i ∈ s.foldl addName out ↔ i ∈ out ∨ ∃ x ∈ s, i = x.1 := by
  induction s with
  | nil => intro out; simp
  | cons x s ih => intro out; simp only [List.foldl_cons, ih, mem_addName, List.mem_cons, exists_eq_or_imp, or_assoc]

theorem fold_prefix (s : List (Name × Bool)) : ∀ out, ∃ X, s.foldl addName out = out ++ X := by
  induction s with
  | nil => intro out; exact ⟨[], by simp⟩
  | cons x s ih =>
    intro out
    obtain ⟨X, hX⟩ := ih (addName out x)
    simp only [List.foldl_cons, hX]
    unfold addName
    split
    · exact ⟨X, rfl⟩
    · exact ⟨x.1 :: X, by simp⟩

/-- adding to more names adds fewer -/
theorem fold_less (s : List (Name × Bool)) : ∀ out out' : List Name, (∀ i ∈ out, i ∈ out') →
    ∃ X Y, s.foldl addName out = out ++ X ∧ s.foldl addName out' = out' ++ Y ∧ Y.Sublist X := by
  induction s with
  | nil => intro out out' _; exact ⟨[], [], by simp⟩
  | cons x s ih =>
    intro out out' h
    have hs : ∀ i ∈ addName out x, i ∈ addName out' x := by
      intro i hi
      rw [mem_addName] at hi ⊢
      exact hi.imp_left (h i)
    obtain ⟨X, Y, h1, h2, h3⟩ := ih _ _ hs
    simp only [List.foldl_cons, h1, h2]
    by_cases hx : (x.2 && out.contains x.1) = true
    · have hx' : (x.2 && out'.contains x.1) = true := by
        simp only [Bool.and_eq_true, List.contains_iff_mem] at hx ⊢
        exact ⟨hx.1, h _ hx.2⟩
      exact ⟨X, Y, by simp only [addName, if_pos hx], by simp only [addName, if_pos hx'], h3⟩
    · by_cases hx' : (x.2 && out'.contains x.1) = true
      · refine ⟨x.1 :: X, Y, ?_, ?_, h3.cons _⟩
        · simp only [addName, if_neg hx]; simp
        · simp only [addName, if_pos hx']
      · refine ⟨x.1 :: X, x.1 :: Y, ?_, ?_, h3.cons₂ _⟩
        · simp only [addName, if_neg hx]; simp
        · simp only [addName, if_neg hx']; simp

theorem fold_count {o : Name} (s : List (Name × Bool)) : ∀ out, (∀ x ∈ s, x.1 = o → x.2 = true) → out.count o ≤ 1 →
    (s.foldl addName out).count o ≤ 1 := by
  induction s with
  | nil => intro out _ h; exact h
  | cons x s ih =>
    intro out h hc
    rw [List.foldl_cons]
    refine ih _ (fun y hy => h y (List.mem_cons_of_mem _ hy)) ?_
    unfold addName
    split
    · exact hc
    · rename_i hx
      rw [List.count_append]
      by_cases e : x.1 = o
      · have h2 : x.2 = true := h x (by simp) e
        rw [h2, Bool.true_and, e] at hx
        have : o ∉ out := by simpa using hx
        rw [List.count_eq_zero.2 this]
        simp [e]
      · simp [e, hc]

/-! ### Objects instead of libraries -/

theorem mem_objectSeq_true (F : Forest) (i : Name) : (∃ x ∈ objectSeq true F, i = x.1) ↔ Inside F i := by
  induction F with
  | nil => simp [objectSeq, Inside]
  | pch n obj ms rest ih => cases ms <;> simp [objectSeq, Inside, ← ih]
  | list n sub rest ih1 ih2 => simp only [objectSeq, Inside, ← ih1, ← ih2, List.mem_append]; grind
  | library n ms sub rest ih1 ih2 => simp only [objectSeq, Inside, ← ih1, ← ih2, List.mem_append, if_true]; grind
  | file n rest ih | object n rest ih | unsupported n rest ih => simp [objectSeq, Inside, ← ih]
  | dll n f imp rest ih => simp [objectSeq, Inside, ← ih]
  | copy n s rest _ ih | alias n s rest _ ih => simp [objectSeq, Inside, ← ih]

theorem mem_linkSeq_true (F : Forest) (i : Name) : (∃ x ∈ linkSeq true F, i = x.1) ↔ Linked F i := by
  induction F with
  | nil => simp [linkSeq, Linked]
  | list n sub rest ih1 ih2 => simp only [linkSeq, Linked, ← mem_objectSeq_true, ← ih2, List.mem_append]; grind
  | library n ms sub rest ih1 ih2 => simp only [linkSeq, Linked, ← mem_objectSeq_true, ← ih2, List.mem_append, if_true]; grind
  | copy n s rest ih1 ih2 => simp only [linkSeq, Linked, ← ih1, ← ih2, List.mem_append]; grind
  | file n rest ih | object n rest ih | unsupported n rest ih => simp [linkSeq, Linked, ← ih]
  | dll n f imp rest ih => simp [linkSeq, Linked, ← ih]
  | pch n o ms rest ih => simp [linkSeq, Linked, ← ih]
  | alias n s rest _ ih => simp [linkSeq, Linked, ← ih]

/-! ### Libraries -/

/-- everything in `G` is in `F` -/
structure Within (F G : Forest) : Prop where
  libs : ∀ n ms sub, HasLib G n ms sub → HasLib F n ms sub
  plain : ∀ n, Plain G n → Plain F n

theorem inFile_plain {F : Forest} (hc : Consistent F) {n u : Name} (h : Plain F n) : InFile F n u ↔ u = n := by
  have hn : ∀ ms sub, ¬ HasLib F n ms sub := fun ms sub hl => hc.alone _ _ _ hl h
  constructor
  · intro hi
    cases hi with
    | plain _ => rfl
    | merged hl _ _ => exact absurd hl (hn _ _)
  · rintro rfl; exact .plain hn

theorem inFile_lib {F : Forest} (hc : Consistent F) {n u : Name} {ms : Bool} {sub : Forest} (h : HasLib F n ms sub) :
    InFile F n u ↔ ∃ j ∈ objectInputs (! ms) sub [], InFile F j u := by
  constructor
  · intro hi
    cases hi with
    | plain hn => exact absurd h (hn _ _)
    | merged hl hj hu =>
      obtain ⟨rfl, rfl⟩ := hc.same _ _ _ _ _ h hl
      exact ⟨_, hj, hu⟩
  · rintro ⟨j, hj, hu⟩; exact .merged h hj hu

/-- the names in a sequence, and what is in these files -/
def SeqHas (F : Forest) (s : List (Name × Bool)) (u : Name) : Prop := ∃ x ∈ s, InFile F x.1 u

theorem seqHas_append {F : Forest} {s t : List (Name × Bool)} {u : Name} : SeqHas F (s ++ t) u ↔ SeqHas F s u ∨ SeqHas F t u := by
  simp only [SeqHas, List.mem_append]; grind

theorem seqHas_cons {F : Forest} {x : Name × Bool} {s : List (Name × Bool)} {u : Name} :
    SeqHas F (x :: s) u ↔ InFile F x.1 u ∨ SeqHas F s u := by
  simp only [SeqHas, List.mem_cons]; grind

theorem seqHas_nil {F : Forest} {u : Name} : ¬ SeqHas F [] u := by simp [SeqHas]

theorem mem_inputs {F G : Forest} {instead : Bool} {u : Name} :
    (∃ j ∈ objectInputs instead G [], InFile F j u) ↔ SeqHas F (objectSeq instead G) u := by
  simp only [objectInputs_eq, mem_fold, SeqHas]; grind

theorem within_rest {F G R : Forest} (h : Within F G) (h1 : ∀ n ms sub, HasLib R n ms sub → HasLib G n ms sub)
    (h2 : ∀ n, Plain R n → Plain G n) : Within F R :=
  ⟨fun n ms sub hh => h.libs _ _ _ (h1 _ _ _ hh), fun n hh => h.plain _ (h2 _ hh)⟩

theorem seqHas_objects {F : Forest} (hc : Consistent F) (u : Name) (G : Forest) :
    ∀ instead, Within F G → (SeqHas F (objectSeq instead G) u ↔ Inside G u) := by
  induction G with
  | nil => intro b _; simp [objectSeq, Inside, seqHas_nil]
  | pch n obj ms rest ih =>
    intro b hw
    have hr := ih b (within_rest hw (fun _ _ _ h => h) (fun _ h => Or.inr (Or.inr h)))
    simp only [objectSeq, Inside, seqHas_append, hr]
    cases ms
    · simp [seqHas_nil]
    · have : Plain F obj := hw.plain _ (Or.inr (Or.inl ⟨rfl, rfl⟩))
      simp [seqHas_cons, seqHas_nil, inFile_plain hc this]
  | list n sub rest ih1 ih2 =>
    intro b hw
    simp only [objectSeq, Inside, seqHas_append]
    rw [ih1 b (within_rest hw (fun _ _ _ h => Or.inl h) (fun _ h => Or.inl h)),
      ih2 b (within_rest hw (fun _ _ _ h => Or.inr h) (fun _ h => Or.inr h))]
  | library n ms sub rest ih1 ih2 =>
    intro b hw
    have hs : Within F sub := within_rest hw (fun _ _ _ h => Or.inr (Or.inl h)) (fun _ h => Or.inl h)
    simp only [objectSeq, Inside, seqHas_append]
    rw [ih2 b (within_rest hw (fun _ _ _ h => Or.inr (Or.inr h)) (fun _ h => Or.inr h))]
    cases b
    · have hl : HasLib F n ms sub := hw.libs _ _ _ (Or.inl ⟨rfl, rfl, rfl⟩)
      simp only [Bool.false_eq_true, if_false, seqHas_cons, seqHas_nil, or_false, inFile_lib hc hl, mem_inputs, ih1 _ hs]
    · simp only [if_true, ih1 _ hs]
  | file n rest ih | object n rest ih | unsupported n rest ih =>
    intro b hw
    have hp : Plain F n := hw.plain _ (Or.inl rfl)
    simp only [objectSeq, Inside, seqHas_cons, inFile_plain hc hp]
    rw [ih b (within_rest hw (fun _ _ _ h => h) (fun _ h => Or.inr h))]
  | dll n f imp rest ih =>
    intro b hw
    have hp : Plain F n := hw.plain _ (Or.inl rfl)
    simp only [objectSeq, Inside, seqHas_cons, inFile_plain hc hp]
    rw [ih b (within_rest hw (fun _ _ _ h => h) (fun _ h => Or.inr (Or.inr h)))]
  | copy n s rest _ ih | alias n s rest _ ih =>
    intro b hw
    have hp : Plain F n := hw.plain _ (Or.inl rfl)
    simp only [objectSeq, Inside, seqHas_cons, inFile_plain hc hp]
    rw [ih b (within_rest hw (fun _ _ _ h => Or.inr h) (fun _ h => Or.inr (Or.inr h)))]

theorem seqHas_links {F : Forest} (hc : Consistent F) (lo : Bool) (u : Name) (G : Forest) :
    Within F G → (SeqHas F (linkSeq lo G) u ↔ Linked G u) := by
  induction G with
  | nil => intro _; simp [linkSeq, Linked, seqHas_nil]
  | list n sub rest ih1 ih2 =>
    intro hw
    simp only [linkSeq, Linked, seqHas_append]
    rw [seqHas_objects hc u sub lo (within_rest hw (fun _ _ _ h => Or.inl h) (fun _ h => Or.inl h)),
      ih2 (within_rest hw (fun _ _ _ h => Or.inr h) (fun _ h => Or.inr h))]
  | library n ms sub rest ih1 ih2 =>
    intro hw
    have hs : Within F sub := within_rest hw (fun _ _ _ h => Or.inr (Or.inl h)) (fun _ h => Or.inl h)
    simp only [linkSeq, Linked, seqHas_append]
    rw [ih2 (within_rest hw (fun _ _ _ h => Or.inr (Or.inr h)) (fun _ h => Or.inr h))]
    cases lo
    · have hl : HasLib F n ms sub := hw.libs _ _ _ (Or.inl ⟨rfl, rfl, rfl⟩)
      simp only [Bool.false_eq_true, if_false, seqHas_cons, seqHas_nil, or_false, inFile_lib hc hl, mem_inputs,
        seqHas_objects hc u sub _ hs]
    · simp only [if_true, seqHas_objects hc u sub _ hs]
  | copy n s rest ih1 ih2 =>
    intro hw
    simp only [linkSeq, Linked, seqHas_append]
    rw [ih1 (within_rest hw (fun _ _ _ h => Or.inl h) (fun _ h => Or.inr (Or.inl h))),
      ih2 (within_rest hw (fun _ _ _ h => Or.inr h) (fun _ h => Or.inr (Or.inr h)))]
  | file n rest ih | object n rest ih | unsupported n rest ih =>
    intro hw
    have hp : Plain F n := hw.plain _ (Or.inl rfl)
    simp only [linkSeq, Linked, seqHas_cons, inFile_plain hc hp]
    rw [ih (within_rest hw (fun _ _ _ h => h) (fun _ h => Or.inr h))]
  | pch n o ms rest ih =>
    intro hw
    have hp : Plain F n := hw.plain _ (Or.inl rfl)
    simp only [linkSeq, Linked, seqHas_cons, inFile_plain hc hp]
    rw [ih (within_rest hw (fun _ _ _ h => h) (fun _ h => Or.inr (Or.inr h)))]
  | dll n f imp rest ih =>
    intro hw
    have hp : Plain F (importLib n f imp) := hw.plain _ (Or.inr (Or.inl rfl))
    simp only [linkSeq, Linked, seqHas_cons, inFile_plain hc hp]
    rw [ih (within_rest hw (fun _ _ _ h => h) (fun _ h => Or.inr (Or.inr h)))]
  | alias n s rest _ ih =>
    intro hw
    have hp : Plain F n := hw.plain _ (Or.inl rfl)
    simp only [linkSeq, Linked, seqHas_cons, inFile_plain hc hp]
    rw [ih (within_rest hw (fun _ _ _ h => Or.inr h) (fun _ h => Or.inr (Or.inr h)))]

theorem hasLib_trans (G : Forest) : ∀ {n ms sub m b s}, HasLib G n ms sub → HasLib sub m b s → HasLib G m b s := by
  induction G with
  | nil => intro _ _ _ _ _ _ h; exact absurd h id
  | file _ rest ih | object _ rest ih | unsupported _ rest ih | pch _ _ _ rest ih | dll _ _ _ rest ih => intro _ _ _ _ _ _ h h'; exact ih h h'
  | list _ s rest ih1 ih2 | copy _ s rest ih1 ih2 | alias _ s rest ih1 ih2 =>
    intro _ _ _ _ _ _ h h'; exact h.imp (fun h => ih1 h h') (fun h => ih2 h h')
  | library _ _ s rest ih1 ih2 =>
    intro _ _ _ _ _ _ h h'
    rcases h with ⟨_, _, rfl⟩ | h | h
    · exact Or.inr (Or.inl h')
    · exact Or.inr (Or.inl (ih1 h h'))
    · exact Or.inr (Or.inr (ih2 h h'))

theorem plain_trans (G : Forest) : ∀ {n ms sub m}, HasLib G n ms sub → Plain sub m → Plain G m := by
  induction G with
  | nil => intro _ _ _ _ h; exact absurd h id
  | file _ rest ih | object _ rest ih | unsupported _ rest ih => intro _ _ _ _ h h'; exact Or.inr (ih h h')
  | pch _ _ _ rest ih | dll _ _ _ rest ih => intro _ _ _ _ h h'; exact Or.inr (Or.inr (ih h h'))
  | list _ s rest ih1 ih2 => intro _ _ _ _ h h'; exact h.imp (fun h => ih1 h h') (fun h => ih2 h h')
  | copy _ s rest ih1 ih2 | alias _ s rest ih1 ih2 =>
    intro _ _ _ _ h h'; exact Or.inr (h.imp (fun h => ih1 h h') (fun h => ih2 h h'))
  | library _ _ s rest ih1 ih2 =>
    intro _ _ _ _ h h'
    rcases h with ⟨_, _, rfl⟩ | h | h
    · exact Or.inl h'
    · exact Or.inl (ih1 h h')
    · exact Or.inr (ih2 h h')

/-- what a library is made of is there too -/
theorem within_lib {F : Forest} {n : Name} {ms : Bool} {sub : Forest} (h : HasLib F n ms sub) : Within F sub :=
  ⟨fun _ _ _ h' => hasLib_trans F h h', fun _ h' => plain_trans F h h'⟩

theorem target_hasLib (G : Forest) : ∀ {d m b s}, Target G d → HasLib d m b s → HasLib G m b s := by
  induction G with
  | nil => intro _ _ _ _ h; exact absurd h id
  | file _ rest ih | object _ rest ih | unsupported _ rest ih | pch _ _ _ rest ih | dll _ _ _ rest ih =>
    intro _ _ _ _ h h'
    rcases h with rfl | h
    · exact absurd h' id
    · exact ih h h'
  | list _ s rest ih1 ih2 | copy _ s rest ih1 ih2 =>
    intro _ _ _ _ h h'
    rcases h with rfl | h
    · exact h'.imp_right fun h => absurd h id
    · exact Or.inr (ih2 h h')
  | alias _ s rest ih1 ih2 => intro _ _ _ _ h h'; exact h.imp (fun h => ih1 h h') (fun h => ih2 h h')
  | library _ _ s rest ih1 ih2 =>
    intro _ _ _ _ h h'
    rcases h with rfl | h
    · exact h'.imp_right fun h => h.imp_right fun h => absurd h id
    · exact Or.inr (Or.inr (ih2 h h'))

theorem target_plain (G : Forest) : ∀ {d m}, Target G d → Plain d m → Plain G m := by
  induction G with
  | nil => intro _ _ h; exact absurd h id
  | file _ rest ih | object _ rest ih | unsupported _ rest ih =>
    intro _ _ h h'
    rcases h with rfl | h
    · exact h'.imp_right fun h => absurd h id
    · exact Or.inr (ih h h')
  | pch _ _ _ rest ih | dll _ _ _ rest ih =>
    intro _ _ h h'
    rcases h with rfl | h
    · exact h'.imp_right fun h => h.imp_right fun h => absurd h id
    · exact Or.inr (Or.inr (ih h h'))
  | copy _ s rest ih1 ih2 =>
    intro _ _ h h'
    rcases h with rfl | h
    · exact h'.imp_right fun h => h.imp_right fun h => absurd h id
    · exact Or.inr (Or.inr (ih2 h h'))
  | alias _ s rest ih1 ih2 => intro _ _ h h'; exact Or.inr (h.imp (fun h => ih1 h h') (fun h => ih2 h h'))
  | list _ s rest ih1 ih2 | library _ _ s rest ih1 ih2 =>
    intro _ _ h h'
    rcases h with rfl | h
    · exact h'.imp_right fun h => absurd h id
    · exact Or.inr (ih2 h h')

theorem within_target {F G d : Forest} (h : Within F G) (ht : Target G d) : Within F d :=
  ⟨fun _ _ _ h' => h.libs _ _ _ (target_hasLib G ht h'), fun _ h' => h.plain _ (target_plain G ht h')⟩

/-! ### Aliases -/

theorem mem_dependOn (F : Forest) : ∀ ds, dependOn F = some ds → ∀ d, d ∈ ds ↔ Target F d := by
  induction F with
  | nil => intro ds h d; simp only [dependOn, Option.some.injEq] at h; subst h; simp [Target]
  | file n rest ih | list n s rest _ ih | library n m s rest _ ih | dll n f i rest ih | copy n s rest _ ih =>
    intro ds h d
    simp only [dependOn, Option.map_eq_some_iff] at h
    obtain ⟨es, h1, rfl⟩ := h
    simp only [List.mem_cons, Target, ih es h1]
  | alias n s rest ih1 ih2 =>
    intro ds h d
    simp only [dependOn] at h
    split at h
    · cases h
    · rename_i a ha
      simp only [Option.map_eq_some_iff] at h
      obtain ⟨es, h1, rfl⟩ := h
      simp only [List.mem_append, Target, ih1 a ha, ih2 es h1]
  | object n rest | pch n o m rest | unsupported n rest => intro ds h; simp [dependOn] at h

/-- what a linker may not be given -/
def Refused : Forest → Prop
  | .object _ _ | .pch _ _ _ _ | .unsupported _ _ => True
  | _ => False

theorem dependOn_none (F : Forest) : dependOn F = none ↔ ∃ d, Target F d ∧ Refused d := by
  induction F with
  | nil => simp [dependOn, Target]
  | file n rest ih | list n s rest _ ih | library n m s rest _ ih | dll n f i rest ih | copy n s rest _ ih =>
    simp only [dependOn, Option.map_eq_none_iff, ih, Target]
    constructor
    · rintro ⟨d, h1, h2⟩; exact ⟨d, Or.inr h1, h2⟩
    · rintro ⟨d, rfl | h1, h2⟩
      · exact absurd h2 (by simp [Refused])
      · exact ⟨d, h1, h2⟩
  | alias n s rest ih1 ih2 =>
    simp only [dependOn, Target]
    cases h : dependOn s with
    | none => simp only [true_iff]; obtain ⟨d, h1, h2⟩ := ih1.1 h; exact ⟨d, Or.inl h1, h2⟩
    | some a =>
      simp only [Option.map_eq_none_iff, ih2]
      constructor
      · rintro ⟨d, h1, h2⟩; exact ⟨d, Or.inr h1, h2⟩
      · rintro ⟨d, h1 | h1, h2⟩
        · have := ih1.2 ⟨d, h1, h2⟩; rw [h] at this; cases this
        · exact ⟨d, h1, h2⟩
  | object n rest | pch n o m rest | unsupported n rest => simp [dependOn, Target, Refused]

end Verif.Link
