import Verif.Str.CleanModel
import Verif.Str.FolderProps
/-! Property C17: path cleaning. -/
namespace Verif.Str

/-- Resolving `.` and `..` lexically; `..` at the root stays there. -/
def resolve : List (List Char) → List (List Char) → List (List Char)
  | dir, [] => dir
  | dir, c :: cs =>
    if c = ['.'] then resolve dir cs
    else if c = ['.', '.'] then resolve dir.dropLast cs
    else resolve (dir ++ [c]) cs

/-- components, each followed by a slash -/
def dirs (sl : Char) (cs : List (List Char)) : List Char := cs.flatMap (· ++ [sl])

/-- The path ends with the name of an entry (not with a slash, `.` or `..`). -/
def endsOpen (s : List Char) : Bool :=
  !(s.getLast?.all isSlash) && !((comps s).getLast? == some ['.']) && !((comps s).getLast? == some ['.', '.'])

/-- what a cleaned path looks like: the components with slashes between, and one at the end unless it is
open -/
def render (root : List Char) (sl : Char) (cs : List (List Char)) (opn : Bool) : List Char :=
  root ++ (if opn then (dirs sl cs).dropLast else dirs sl cs)

/-- a component: not empty, no slash in it -/
def IsComp (c : List Char) : Prop := c ≠ [] ∧ ∀ x ∈ c, isSlash x = false

theorem skipSlashes_length : ∀ s : List Char, (skipSlashes s).length ≤ s.length
  | [] => Nat.le_refl _
  | c :: s => by
    rw [skipSlashes]
    split
    · have := skipSlashes_length s; simp; omega
    · exact Nat.le_refl _

theorem skipSlashes_head : ∀ s : List Char, (skipSlashes s).head?.any isSlash = false
  | [] => rfl
  | c :: s => by
    rw [skipSlashes]
    split
    · exact skipSlashes_head s
    · rename_i h; simpa using h

theorem skipSlashes_of {s : List Char} (h : s.head?.any isSlash = false) : skipSlashes s = s := by
  cases s with
  | nil => rfl
  | cons c s => rw [skipSlashes, if_neg]; simpa using h

theorem comps_skip : ∀ s : List Char, comps (skipSlashes s) = comps s
  | [] => rfl
  | c :: s => by
    rw [skipSlashes]
    split
    · rename_i h; rw [comps_cons c h, comps_skip s]
    · rfl

theorem skipSlashes_getLast : ∀ s : List Char, (skipSlashes s).getLast?.all isSlash = s.getLast?.all isSlash
  | [] => rfl
  | c :: s => by
    rw [skipSlashes]
    split
    · rename_i h
      rw [skipSlashes_getLast s]
      cases s with
      | nil => simp [h]
      | cons d s => rw [List.getLast?_cons_cons]
    · rfl

theorem endsOpen_skip (s : List Char) : endsOpen (skipSlashes s) = endsOpen s := by
  unfold endsOpen
  rw [comps_skip, skipSlashes_getLast]

theorem compsGo_word : ∀ (w cur rest : List Char), (∀ x ∈ w, isSlash x = false) →
    compsGo cur (w ++ rest) = compsGo (cur ++ w) rest
  | [], cur, rest, _ => by simp
  | c :: w, cur, rest, h => by
    rw [List.cons_append, compsGo, if_neg (by simp [h c (by simp)]), compsGo_word w _ _ (fun x hx => h x (by simp [hx]))]
    simp

theorem comps_word (w : List Char) (h : IsComp w) : comps w = [w] := by
  have := compsGo_word w [] [] h.2
  rw [List.append_nil] at this
  unfold comps
  rw [this, compsGo, List.nil_append, if_neg h.1]

theorem comps_word_slash (w rest : List Char) (s : Char) (h : IsComp w) (hs : isSlash s = true) :
    comps (w ++ s :: rest) = w :: comps rest := by
  unfold comps
  rw [compsGo_word w [] _ h.2, compsGo, if_pos hs, List.nil_append, if_neg h.1]

theorem comps_eq_nil : ∀ {s : List Char}, comps s = [] → s.getLast?.all isSlash = true := by
  intro s h
  suffices ∀ (s cur : List Char), compsGo cur s = [] → cur = [] ∧ s.getLast?.all isSlash = true from (this s [] h).2
  intro s
  induction s with
  | nil =>
    intro cur h
    rw [compsGo] at h
    split at h
    · exact ⟨by assumption, rfl⟩
    · cases h
  | cons c s ih =>
    intro cur h
    rw [compsGo] at h
    split at h
    · rename_i hc
      split at h
      · refine ⟨by assumption, ?_⟩
        have := (ih [] h).2
        cases s with
        | nil => simp [hc]
        | cons d s => rw [List.getLast?_cons_cons]; exact this
      · cases h
    · have := (ih _ h).1
      simp at this

theorem endsOpen_word (w : List Char) (h : IsComp w) : endsOpen w = (!(w == ['.']) && !(w == ['.', '.'])) := by
  unfold endsOpen
  rw [comps_word w h]
  have : w.getLast?.all isSlash = false := by
    cases hl : w.getLast? with
    | none => exact absurd (List.getLast?_eq_none_iff.1 hl) h.1
    | some x => simpa using h.2 x (List.mem_of_getLast? hl)
  rw [this]
  simp

theorem endsOpen_word_slash (w rest : List Char) (s : Char) (h : IsComp w) (hs : isSlash s = true) :
    endsOpen (w ++ s :: rest) = endsOpen rest := by
  unfold endsOpen
  rw [comps_word_slash w rest s h hs]
  have hl : (w ++ s :: rest).getLast?.all isSlash = rest.getLast?.all isSlash := by
    rw [List.getLast?_append]
    cases rest with
    | nil => simp [hs]
    | cons d rest =>
      rw [List.getLast?_cons_cons]
      cases hq : (d :: rest).getLast? with
      | none => simp at hq
      | some x => rfl
  rw [hl]
  cases hr : comps rest with
  | nil => rw [comps_eq_nil hr]; simp
  | cons a l => rw [List.getLast?_cons_cons]

/-- writing the rest of a word -/
theorem cleanGo_write (sl : Char) (full : Bool) (low : Nat) (rest : List Char) : ∀ (w : List Char) (fuel : Nat) (rout : List Char),
    (∀ x ∈ w, isSlash x = false) →
    cleanGo sl full (fuel + w.length) false low rout (w ++ rest) = cleanGo sl full fuel false low (w.reverse ++ rout) rest
  | [], fuel, rout, _ => by simp
  | c :: w, fuel, rout, h => by
    rw [List.length_cons, ← Nat.add_assoc, List.cons_append, cleanGo, if_neg (by simp [h c (by simp)]), if_neg (by simp),
      if_neg (by simp), cleanGo_write sl full low rest w fuel (c :: rout) (fun x hx => h x (by simp [hx]))]
    simp

theorem atSep_of {w rest : List Char} (hw : ∀ x ∈ w, isSlash x = false) (h : atSep (w ++ rest) = true) : w = [] := by
  cases w with
  | nil => rfl
  | cons c w =>
    simp only [List.cons_append, atSep] at h
    rw [hw c (by simp)] at h; cases h

theorem cleanGo_word (sl : Char) (full : Bool) (low : Nat) (rest w : List Char) (fuel : Nat) (rout : List Char)
    (hw : IsComp w) (h1 : w ≠ ['.']) (h2 : w ≠ ['.', '.']) :
    cleanGo sl full (fuel + w.length) true low rout (w ++ rest) = cleanGo sl full fuel false low (w.reverse ++ rout) rest := by
  cases w with
  | nil => exact absurd rfl hw.1
  | cons c w =>
    have hw2 : ∀ x ∈ w, isSlash x = false := fun x hx => hw.2 x (by simp [hx])
    rw [List.length_cons, ← Nat.add_assoc, List.cons_append, cleanGo, if_neg (by simp [hw.2 c (by simp)]), if_neg, if_neg,
      cleanGo_write sl full low rest w fuel (c :: rout) hw2]
    · simp
    · rintro ⟨rfl, _, h3, h4⟩
      cases w with
      | nil =>
        apply h1; rfl
      | cons d w =>
        simp only [List.cons_append, List.head?_cons, Option.some.injEq] at h3
        subst h3
        simp only [List.cons_append, List.tail_cons] at h4
        have := atSep_of (fun x hx => hw2 x (by simp [hx])) h4
        subst this
        exact h2 rfl
    · rintro ⟨rfl, _, h3⟩
      have := atSep_of hw2 h3
      subst this
      exact h1 rfl

theorem dirs_snoc (sl : Char) (cs : List (List Char)) (c : List Char) : dirs sl (cs ++ [c]) = dirs sl cs ++ (c ++ [sl]) := by
  simp [dirs]

theorem popBack_spec (sl : Char) (root : List Char) (hsl : isSlash sl = true) (cs : List (List Char)) (c : List Char) (hc : IsComp c) :
    popBack sl root.length (c.reverse ++ (root ++ dirs sl cs).reverse) = (root ++ dirs sl cs).reverse := by
  have hword : ∀ (w : List Char), (∀ x ∈ w, isSlash x = false) →
      popBack sl root.length (w ++ (root ++ dirs sl cs).reverse) = popBack sl root.length (root ++ dirs sl cs).reverse := by
    intro w
    induction w with
    | nil => intro _; rfl
    | cons x w ih =>
      intro hw
      rw [List.cons_append, popBack, if_pos, if_neg, ih (fun y hy => hw y (by simp [hy]))]
      · rintro rfl
        have := hw x (by simp)
        rw [hsl] at this; cases this
      · simp; omega
  rw [hword _ (fun x hx => hc.2 x (by simpa using hx))]
  rcases List.eq_nil_or_concat cs with rfl | ⟨cs, d, rfl⟩
  · have : dirs sl [] = [] := rfl
    rw [this, List.append_nil]
    have hlen : root.length = root.reverse.length := by simp
    rw [hlen]
    cases root.reverse with
    | nil => rfl
    | cons x r => rw [popBack, if_neg (by simp)]
  · rw [List.concat_eq_append, dirs_snoc]
    have : (root ++ (dirs sl cs ++ (d ++ [sl]))).reverse = sl :: (root ++ dirs sl cs ++ d).reverse := by simp
    rw [this, popBack, if_pos (by simp; omega), if_pos rfl]

/-- splitting off the first component -/
theorem word_split : ∀ (s : List Char), ∃ w rest, s = w ++ rest ∧ (∀ x ∈ w, isSlash x = false) ∧
    (rest = [] ∨ ∃ c r, rest = c :: r ∧ isSlash c = true)
  | [] => ⟨[], [], rfl, by simp, Or.inl rfl⟩
  | c :: s => by
    by_cases hc : isSlash c = true
    · exact ⟨[], c :: s, rfl, by simp, Or.inr ⟨c, s, rfl, hc⟩⟩
    · obtain ⟨w, rest, h1, h2, h3⟩ := word_split s
      refine ⟨c :: w, rest, by rw [h1]; rfl, ?_, h3⟩
      intro x hx
      rcases List.mem_cons.1 hx with rfl | hx
      · simpa using hc
      · exact h2 x hx

theorem atSep_rest {rest : List Char} (h : rest = [] ∨ ∃ c r, rest = c :: r ∧ isSlash c = true) : atSep rest = true := by
  rcases h with rfl | ⟨c, r, rfl, h⟩
  · rfl
  · exact h

theorem cleanGo_spec (sl : Char) (root : List Char) (hsl : isSlash sl = true) : ∀ (n : Nat) (src : List Char) (cs : List (List Char))
    (fuel : Nat), src.length = n → src.head?.any isSlash = false → (∀ c ∈ cs, IsComp c) → src.length < fuel →
    cleanGo sl true fuel true root.length (root ++ dirs sl cs).reverse src =
      some (render root sl (resolve cs (comps src)) (endsOpen src)).reverse := by
  intro n
  induction n using Nat.strongRecOn with
  | _ n ih =>
  intro src cs fuel hn hh hcs hf
  obtain ⟨fuel, rfl⟩ : ∃ f, fuel = f + 1 := ⟨fuel - 1, by omega⟩
  obtain ⟨w, rest, rfl, hw, hr⟩ := word_split src
  by_cases hwn : w = []
  · subst hwn
    rcases hr with rfl | ⟨c, r, rfl, hc⟩
    · rw [List.nil_append, cleanGo]
      simp [comps, compsGo, resolve, render, endsOpen]
    · simp [hc] at hh
  · have hwc : IsComp w := ⟨hwn, hw⟩
    have hlen : (w ++ rest).length = w.length + rest.length := by simp
    have hpos : 0 < w.length := List.length_pos_iff.2 hwn
    have hsk := skipSlashes_length rest
    -- what the rest contributes
    have hcomp : comps (w ++ rest) = w :: comps (skipSlashes rest) := by
      rcases hr with rfl | ⟨c, r, rfl, hc⟩
      · rw [List.append_nil, comps_word w hwc]; rfl
      · rw [comps_word_slash w r c hwc hc, comps_skip, comps_cons c hc]
    have hopen : w = ['.'] ∨ w = ['.', '.'] → endsOpen (w ++ rest) = endsOpen (skipSlashes rest) := by
      intro hd
      rcases hr with rfl | ⟨c, r, rfl, hc⟩
      · rw [List.append_nil, endsOpen_word w hwc]
        rcases hd with rfl | rfl <;> rfl
      · rw [endsOpen_word_slash w r c hwc hc, skipSlashes, if_pos hc, endsOpen_skip]
    by_cases h1 : w = ['.']
    · rw [hopen (Or.inl h1), hcomp, resolve, if_pos h1]
      subst h1
      rw [List.singleton_append, cleanGo, if_neg (by decide), if_pos ⟨rfl, rfl, atSep_rest hr⟩]
      simp only [List.length_append, List.length_cons, List.length_nil] at hn hf
      exact ih _ (by omega) (skipSlashes rest) cs fuel rfl (skipSlashes_head rest) hcs (by omega)
    · by_cases h2 : w = ['.', '.']
      · rw [hopen (Or.inr h2), hcomp, resolve, if_neg h1, if_pos h2]
        subst h2
        simp only [List.length_append, List.length_cons, List.length_nil] at hn hf
        rw [show ['.', '.'] ++ rest = '.' :: '.' :: rest from rfl, cleanGo, if_neg (by decide),
          if_neg (by rintro ⟨_, _, h⟩; simp [atSep, isSlash] at h), if_pos ⟨rfl, rfl, rfl, atSep_rest hr⟩]
        dsimp only [List.tail_cons]
        rcases List.eq_nil_or_concat cs with rfl | ⟨cs, d, rfl⟩
        · have : dirs sl [] = [] := rfl
          rw [if_neg (by simp [this]), if_neg (by simp)]
          exact ih _ (by omega) (skipSlashes rest) [] fuel rfl (skipSlashes_head rest) hcs (by omega)
        · rw [List.concat_eq_append] at *
          rw [List.dropLast_concat]
          have hd : IsComp d := hcs d (by simp)
          have hout : (root ++ dirs sl (cs ++ [d])).reverse = sl :: (d.reverse ++ (root ++ dirs sl cs).reverse) := by
            rw [dirs_snoc]; simp
          rw [hout, if_pos (by simp; omega), List.tail_cons, popBack_spec sl root hsl cs d hd]
          exact ih _ (by omega) (skipSlashes rest) cs fuel rfl (skipSlashes_head rest) (fun c hc => hcs c (by simp [hc])) (by omega)
      · rw [hcomp, resolve, if_neg h1, if_neg h2]
        obtain ⟨f', hf'⟩ : ∃ f', fuel + 1 = f' + w.length := ⟨fuel + 1 - w.length, by omega⟩
        rw [hf', cleanGo_word sl true root.length rest w f' _ hwc h1 h2]
        have hcs' : ∀ c ∈ cs ++ [w], IsComp c := by
          intro c hc
          rcases List.mem_append.1 hc with hc | hc
          · exact hcs c hc
          · simp at hc; subst hc; exact hwc
        obtain ⟨f'', rfl⟩ : ∃ f'', f' = f'' + 1 := ⟨f' - 1, by omega⟩
        rcases hr with rfl | ⟨c, r, rfl, hc⟩
        · rw [cleanGo, List.append_nil, endsOpen_word w hwc]
          have e : (!(w == ['.']) && !(w == ['.', '.'])) = true := by simp [h1, h2]
          rw [e]
          have : comps (skipSlashes []) = [] := rfl
          rw [this, resolve, render, if_pos rfl, dirs_snoc, ← List.append_assoc (dirs sl cs), List.dropLast_concat]
          simp
        · rw [cleanGo, if_pos hc, endsOpen_word_slash w r c hwc hc, skipSlashes, if_pos hc]
          have hout : sl :: (w.reverse ++ (root ++ dirs sl cs).reverse) = (root ++ dirs sl (cs ++ [w])).reverse := by
            rw [dirs_snoc]; simp
          have hs2 := skipSlashes_length r
          simp only [List.length_append, List.length_cons] at hn hf hf'
          rw [hout, ih _ (by omega) (skipSlashes r) (cs ++ [w]) f'' rfl (skipSlashes_head r) hcs' (by omega), endsOpen_skip]

/-- what a path as a whole must look like to be clean -/
theorem resolve_comps : ∀ (cs dir : List (List Char)), (∀ c ∈ cs, IsComp c) → (∀ c ∈ dir, IsComp c ∧ c ≠ ['.'] ∧ c ≠ ['.', '.']) →
    ∀ c ∈ resolve dir cs, IsComp c ∧ c ≠ ['.'] ∧ c ≠ ['.', '.']
  | [], dir, _, hd => hd
  | c :: cs, dir, h, hd => by
    rw [resolve]
    have h' : ∀ c ∈ cs, IsComp c := fun x hx => h x (by simp [hx])
    split
    · exact resolve_comps cs dir h' hd
    · split
      · exact resolve_comps cs _ h' (fun x hx => hd x (List.dropLast_subset dir hx))
      · refine resolve_comps cs _ h' (fun x hx => ?_)
        rcases List.mem_append.1 hx with hx | hx
        · exact hd x hx
        · simp at hx; subst hx
          exact ⟨h x (by simp), by assumption, by assumption⟩

theorem resolve_id : ∀ (cs dir : List (List Char)), (∀ c ∈ cs, c ≠ ['.'] ∧ c ≠ ['.', '.']) → resolve dir cs = dir ++ cs
  | [], dir, _ => by simp [resolve]
  | c :: cs, dir, h => by
    rw [resolve, if_neg (h c (by simp)).1, if_neg (h c (by simp)).2, resolve_id cs _ (fun x hx => h x (by simp [hx]))]
    simp

theorem comps_isComp (s : List Char) : ∀ c ∈ comps s, IsComp c := by
  suffices ∀ (s cur : List Char), (∀ x ∈ cur, isSlash x = false) → ∀ c ∈ compsGo cur s, IsComp c from this s [] (by simp)
  intro s
  induction s with
  | nil =>
    intro cur h c hc
    rw [compsGo] at hc
    split at hc
    · cases hc
    · simp at hc; subst hc; exact ⟨by assumption, h⟩
  | cons a s ih =>
    intro cur h c hc
    rw [compsGo] at hc
    split at hc
    · split at hc
      · exact ih [] (by simp) c hc
      · rcases List.mem_cons.1 hc with rfl | hc
        · exact ⟨by assumption, h⟩
        · exact ih [] (by simp) c hc
    · rename_i ha
      refine ih _ (fun x hx => ?_) c hc
      rcases List.mem_append.1 hx with hx | hx
      · exact h x hx
      · simp at hx; subst hx; simpa using ha

theorem comps_dirs (sl : Char) (hsl : isSlash sl = true) : ∀ cs : List (List Char), (∀ c ∈ cs, IsComp c) → ∀ t, comps (dirs sl cs ++ t) = cs ++ comps t
  | [], _, t => rfl
  | c :: cs, h, t => by
    have : dirs sl (c :: cs) ++ t = c ++ sl :: (dirs sl cs ++ t) := by simp [dirs]
    rw [this, comps_word_slash c _ sl (h c (by simp)) hsl, comps_dirs sl hsl cs (fun x hx => h x (by simp [hx])) t]
    rfl

theorem comps_render_tail (sl : Char) (hsl : isSlash sl = true) (cs : List (List Char)) (h : ∀ c ∈ cs, IsComp c) (opn : Bool) :
    comps (if opn then (dirs sl cs).dropLast else dirs sl cs) = cs := by
  have h1 : comps (dirs sl cs) = cs := by
    have := comps_dirs sl hsl cs h []
    rw [List.append_nil] at this
    rw [this]; simp [comps, compsGo]
  cases opn with
  | false => exact h1
  | true =>
    rw [if_pos rfl]
    rcases List.eq_nil_or_concat cs with rfl | ⟨cs, d, rfl⟩
    · rfl
    · rw [List.concat_eq_append] at *
      rw [dirs_snoc, ← List.append_assoc, List.dropLast_concat, comps_dirs sl hsl cs (fun x hx => h x (by simp [hx])),
        comps_word d (h d (by simp))]

theorem endsOpen_tail (sl : Char) (hsl : isSlash sl = true) (cs : List (List Char))
    (h : ∀ c ∈ cs, IsComp c ∧ c ≠ ['.'] ∧ c ≠ ['.', '.']) (opn : Bool) :
    endsOpen (if opn then (dirs sl cs).dropLast else dirs sl cs) = (opn && !cs.isEmpty) := by
  rcases List.eq_nil_or_concat cs with rfl | ⟨cs, d, rfl⟩
  · cases opn <;> rfl
  · rw [List.concat_eq_append] at *
    have hd := h d (by simp)
    have hcs : ∀ c ∈ cs, IsComp c := fun x hx => (h x (by simp [hx])).1
    have key : ∀ t, endsOpen (dirs sl cs ++ t) = endsOpen t := by
      intro t
      revert hcs
      clear h
      induction cs with
      | nil => intro _; rfl
      | cons c cs ih =>
        intro hcs
        have : dirs sl (c :: cs) ++ t = c ++ sl :: (dirs sl cs ++ t) := by simp [dirs]
        rw [this, endsOpen_word_slash c _ sl (hcs c (by simp)) hsl, ih (fun x hx => hcs x (by simp [hx]))]
    cases opn with
    | true =>
      rw [if_pos rfl, dirs_snoc, ← List.append_assoc, List.dropLast_concat, key, endsOpen_word d hd.1,
        beq_eq_false_iff_ne.2 hd.2.1, beq_eq_false_iff_ne.2 hd.2.2]
      cases cs <;> rfl
    | false =>
      rw [if_neg (by simp), dirs_snoc, key]
      have := endsOpen_word_slash d [] sl hd.1 hsl
      rw [this]; rfl

theorem tail_head (sl : Char) (cs : List (List Char)) (h : ∀ c ∈ cs, IsComp c) (opn : Bool) :
    (if opn then (dirs sl cs).dropLast else dirs sl cs).head?.any isSlash = false := by
  cases cs with
  | nil => cases opn <;> rfl
  | cons c cs =>
    have hc := h c (by simp)
    cases c with
    | nil => exact absurd rfl hc.1
    | cons x c =>
      have hx := hc.2 x (by simp)
      have : dirs sl ((x :: c) :: cs) = x :: (c ++ [sl] ++ dirs sl cs) := by simp [dirs]
      rw [this]
      cases opn with
      | false => simpa using hx
      | true =>
        rw [if_pos rfl]
        cases hq : (c ++ [sl] ++ dirs sl cs) with
        | nil => simp at hq
        | cons y q => simpa using hx

theorem noDouble_dirs (sl : Char) (hsl : isSlash sl = true) : ∀ (cs : List (List Char)), (∀ c ∈ cs, IsComp c) →
    NoDouble sl (sl :: dirs sl cs)
  | [], _ => by
    intro u v h
    have := congrArg List.length h
    simp [dirs] at this
    omega
  | c :: cs, h => by
    have ih := noDouble_dirs sl hsl cs fun x hx => h x (by simp [hx])
    have hc := h c (by simp)
    have hd : dirs sl (c :: cs) = c ++ sl :: dirs sl cs := by simp [dirs]
    rw [hd]
    have word : ∀ (w : List Char), (∀ x ∈ w, isSlash x = false) → NoDouble sl (w ++ sl :: dirs sl cs) := by
      intro w
      induction w with
      | nil => intro _; exact ih
      | cons x w ihw =>
        intro hw u v he
        cases u with
        | nil =>
          simp only [List.cons_append, List.nil_append, List.cons.injEq] at he
          have := hw x (by simp)
          rw [he.1, hsl] at this; cases this
        | cons y u =>
          simp only [List.cons_append, List.cons.injEq] at he
          exact ihw (fun z hz => hw z (by simp [hz])) u v he.2
    intro u v he
    cases u with
    | nil =>
      simp only [List.nil_append, List.cons.injEq, true_and] at he
      cases c with
      | nil => exact hc.1 rfl
      | cons x c =>
        simp only [List.cons_append, List.cons.injEq] at he
        have := hc.2 x (by simp)
        rw [he.1, hsl] at this; cases this
    | cons y u =>
      simp only [List.cons_append, List.cons.injEq] at he
      exact word c hc.2 u v he.2

theorem NoDouble.dropLast {c : Char} {s : List Char} (h : NoDouble c s) : NoDouble c s.dropLast := by
  intro u v he
  rcases List.eq_nil_or_concat s with rfl | ⟨s, x, rfl⟩
  · simp at he
  · rw [List.concat_eq_append] at *
    rw [List.dropLast_concat] at he
    exact h u (v ++ [x]) (by rw [he]; simp)

theorem mem_dirs {sl x : Char} {cs : List (List Char)} (h : ∀ c ∈ cs, IsComp c) (hx : x ∈ dirs sl cs) : x = sl ∨ isSlash x = false := by
  unfold dirs at hx
  obtain ⟨c, hc, hx⟩ := List.mem_flatMap.1 hx
  rcases List.mem_append.1 hx with hx | hx
  · exact Or.inr ((h c hc).2 x hx)
  · left; simpa using hx

/-- the working directory is a clean full path other than the root -/
def WorkDir (root : List Char) (sl : Char) (wd : List Char) : Prop :=
  ∃ ws, ws ≠ [] ∧ (∀ c ∈ ws, IsComp c ∧ c ≠ ['.'] ∧ c ≠ ['.', '.']) ∧ wd ++ [sl] = root ++ dirs sl ws

/-- the path meant by a name on Linux -/
def fullName (wd name : List Char) : List Char := if name.head? = some '/' then name else wd ++ '/' :: name

/-- Linux: the cleaned path before the length is cut -/
theorem clean_linux (wd name : List Char) (hwd : name.head? ≠ some '/' → WorkDir ['/'] '/' wd)
    (hbs : name.head? ≠ some '\\') :
    ∃ r, r = render ['/'] '/' (resolve [] (comps (fullName wd name))) (endsOpen (fullName wd name)) ∧
      cleanPath .linux wd name true = some (r.take (r.length % 65536)) := by
  refine ⟨_, rfl, ?_⟩
  have hsl : isSlash '/' = true := rfl
  unfold cleanPath
  by_cases hh : name.head? = some '/'
  · have hfp : isFullPath .linux name = true := by simp [isFullPath, hh]
    have hfn : fullName wd name = name := by simp [fullName, hh]
    rw [hfn]
    simp only [hfp, Bool.true_eq_false, false_and, if_false, reduceCtorEq, if_true]
    cases name with
    | nil => simp at hh
    | cons c s =>
      simp at hh; subst hh
      rw [List.length_cons, cleanGo, if_pos hsl]
      have hs2 := skipSlashes_length s
      have := cleanGo_spec '/' ['/'] hsl _ (skipSlashes s) [] (s.length + 1) rfl (skipSlashes_head s) (by simp) (by omega)
      have h0 : dirs '/' [] = [] := rfl
      rw [h0] at this
      simp only [List.append_nil, List.reverse_cons, List.reverse_nil, List.nil_append, List.length_cons, List.length_nil] at this
      simp only [native, List.reverse_nil]
      rw [this, comps_skip, endsOpen_skip, comps_cons '/' hsl]
      have he : endsOpen ('/' :: s) = endsOpen s := by
        rw [← endsOpen_skip ('/' :: s), skipSlashes, if_pos hsl, endsOpen_skip]
      rw [he]
      simp
  · obtain ⟨ws, hw1, hw2, hw3⟩ := hwd hh
    have hfp : isFullPath .linux name = false := by simp [isFullPath, hh]
    have hne : wd ≠ [] := by
      rintro rfl
      have := congrArg List.length hw3
      cases ws with
      | nil => exact hw1 rfl
      | cons c ws => simp [dirs] at this
    have hsrc : name.head?.any isSlash = false := by
      cases name with
      | nil => rfl
      | cons c s =>
        simp only [List.head?_cons, Option.any_some]
        rw [Bool.eq_false_iff]
        intro hc
        rcases (isSlash_iff .linux c).1 hc with h | h
        · exact hh (by rw [h]; rfl)
        · exact hbs (by rw [h]; rfl)
    have hfn : fullName wd name = '/' :: (dirs '/' ws ++ name) := by
      unfold fullName
      rw [if_neg hh, show wd ++ '/' :: name = wd ++ ['/'] ++ name by simp, hw3]
      rfl
    simp only [hfp, true_and, if_true, hne, if_false, reduceCtorEq]
    have := cleanGo_spec '/' ['/'] hsl _ name ws (name.length + 1) rfl hsrc (fun c hc => (hw2 c hc).1) (by omega)
    simp only [List.length_cons, List.length_nil] at this
    simp only [native]
    rw [hw3, this, hfn, comps_cons '/' hsl, comps_dirs '/' hsl ws (fun c hc => (hw2 c hc).1)]
    have hres : resolve ws (comps name) = resolve [] (ws ++ comps name) := by
      have gen : ∀ (ws dir : List (List Char)) (cs), (∀ c ∈ ws, c ≠ ['.'] ∧ c ≠ ['.', '.']) → resolve dir (ws ++ cs) = resolve (dir ++ ws) cs := by
        intro ws
        induction ws with
        | nil => intro dir cs _; simp
        | cons c ws ih =>
          intro dir cs h
          rw [List.cons_append, resolve, if_neg (h c (by simp)).1, if_neg (h c (by simp)).2, ih _ _ (fun x hx => h x (by simp [hx]))]
          simp
      rw [gen ws [] _ (fun c hc => (hw2 c hc).2)]; rfl
    have hopen : endsOpen ('/' :: (dirs '/' ws ++ name)) = endsOpen name := by
      rw [← endsOpen_skip, skipSlashes, if_pos hsl, endsOpen_skip]
      have key : ∀ ws : List (List Char), (∀ c ∈ ws, IsComp c) → endsOpen (dirs '/' ws ++ name) = endsOpen name := by
        intro ws
        induction ws with
        | nil => intro _; rfl
        | cons c ws ih =>
          intro h
          have : dirs '/' (c :: ws) ++ name = c ++ '/' :: (dirs '/' ws ++ name) := by simp [dirs]
          rw [this, endsOpen_word_slash c _ '/' (h c (by simp)) hsl, ih (fun x hx => h x (by simp [hx]))]
      exact key ws (fun c hc => (hw2 c hc).1)
    rw [hres, hopen]
    simp

/-- C17. On Linux, for every name (shorter than 65536 characters when cleaned) and clean working directory:
the cleaned path starts with a slash, has no backslash and no doubled slash, its components are those of
the full path with `.` and `..` resolved, none of them is `.` or `..`, and it ends with a slash exactly if
nothing is left or the name ended with a slash, `.` or `..`. -/
theorem C17_linux_partial (wd name : List Char) (hwd : name.head? ≠ some '/' → WorkDir ['/'] '/' wd)
    (hbs : name.head? ≠ some '\\')
    (hlen : (render ['/'] '/' (resolve [] (comps (fullName wd name))) (endsOpen (fullName wd name))).length < 65536) :
    ∃ r, cleanPath .linux wd name true = some r ∧ r.head? = some '/' ∧ '\\' ∉ r ∧ NoDouble '/' r ∧
      comps r = resolve [] (comps (fullName wd name)) ∧
      (∀ c ∈ comps r, c ≠ ['.'] ∧ c ≠ ['.', '.']) ∧
      (r.getLast? = some '/' ↔ comps r = [] ∨ endsOpen (fullName wd name) = false) := by
  obtain ⟨r, hr, hc⟩ := clean_linux wd name hwd hbs
  rw [← hr] at hlen
  rw [Nat.mod_eq_of_lt hlen, List.take_length] at hc
  have hgood := resolve_comps (comps (fullName wd name)) [] (comps_isComp _) (by simp)
  have hsl : isSlash '/' = true := rfl
  have hcomp : comps r = resolve [] (comps (fullName wd name)) := by
    rw [hr, render, List.singleton_append, comps_cons '/' hsl]
    exact comps_render_tail '/' hsl _ (fun c hc => (hgood c hc).1) _
  refine ⟨r, hc, by rw [hr]; rfl, ?_, ?_, hcomp, ?_, ?_⟩
  · rw [hr, render]
    intro hm
    have hm' : '\\' ∈ dirs '/' (resolve [] (comps (fullName wd name))) := by
      rcases List.mem_append.1 hm with hm | hm
      · simp at hm
      · split at hm
        · exact List.dropLast_subset _ hm
        · exact hm
    rcases mem_dirs (fun c hc => (hgood c hc).1) hm' with h | h
    · exact absurd h (by decide)
    · exact absurd h (by decide)
  · rw [hr, render]
    have := noDouble_dirs '/' hsl _ (fun c hc => (hgood c hc).1)
    split
    · cases hd : dirs '/' (resolve [] (comps (fullName wd name))) with
      | nil => intro u v h; have := congrArg List.length h; simp at this; omega
      | cons x l =>
        rw [hd] at this
        have := this.dropLast
        rwa [List.dropLast_cons_cons] at this
    · exact this
  · rw [hcomp]; exact fun c hc => (hgood c hc).2
  · rw [hcomp]
    rw [hr, render]
    generalize endsOpen (fullName wd name) = o
    generalize resolve [] (comps (fullName wd name)) = cs at hgood ⊢
    rcases List.eq_nil_or_concat cs with rfl | ⟨cs, d, rfl⟩
    · cases o <;> simp [dirs]
    · rw [List.concat_eq_append, dirs_snoc, ← List.append_assoc (dirs '/' cs)]
      cases o with
      | false =>
        have : ['/'] ++ (dirs '/' cs ++ d ++ ['/']) = ('/' :: (dirs '/' cs ++ d)) ++ ['/'] := by simp
        rw [if_neg (by simp), this, List.getLast?_concat]
        simp
      | true =>
        rw [if_pos rfl, List.dropLast_concat]
        have hd := (hgood d (by simp)).1
        rw [List.getLast?_append, List.getLast?_append]
        cases hl : d.getLast? with
        | none => exact absurd (List.getLast?_eq_none_iff.1 hl) hd.1
        | some x =>
          have := hd.2 x (List.mem_of_getLast? hl)
          simp
          rintro rfl
          rw [hsl] at this; cases this

/-- C17. Cleaning a cleaned path changes nothing. -/
theorem C17_linux_idempotent_partial (wd wd' name : List Char) (hwd : name.head? ≠ some '/' → WorkDir ['/'] '/' wd)
    (hbs : name.head? ≠ some '\\')
    (hlen : (render ['/'] '/' (resolve [] (comps (fullName wd name))) (endsOpen (fullName wd name))).length < 65536) :
    ∃ r, cleanPath .linux wd name true = some r ∧ cleanPath .linux wd' r true = some r := by
  obtain ⟨r, hr, hc⟩ := clean_linux wd name hwd hbs
  rw [← hr] at hlen
  rw [Nat.mod_eq_of_lt hlen, List.take_length] at hc
  refine ⟨r, hc, ?_⟩
  have hh : r.head? = some '/' := by rw [hr]; rfl
  have hsl : isSlash '/' = true := rfl
  obtain ⟨r', hr', hc'⟩ := clean_linux wd' r (fun h => absurd hh h) (by rw [hh]; decide)
  have hgood := resolve_comps (comps (fullName wd name)) [] (comps_isComp _) (by simp)
  have hcomp : comps r = resolve [] (comps (fullName wd name)) := by
    rw [hr, render, List.singleton_append, comps_cons '/' hsl]
    exact comps_render_tail '/' hsl _ (fun c hc => (hgood c hc).1) _
  have hopen : endsOpen r = (endsOpen (fullName wd name) && !(resolve [] (comps (fullName wd name))).isEmpty) := by
    rw [hr, render, List.singleton_append, ← endsOpen_skip, skipSlashes, if_pos hsl, endsOpen_skip]
    exact endsOpen_tail '/' hsl _ hgood _
  have hfn : fullName wd' r = r := by simp [fullName, hh]
  have : r' = r := by
    rw [hr', hfn, hcomp, resolve_id _ [] (fun c hc => (hgood c hc).2), List.nil_append, hopen]
    conv => rhs; rw [hr]
    unfold render
    cases hcs : resolve [] (comps (fullName wd name)) with
    | nil => cases endsOpen (fullName wd name) <;> rfl
    | cons a l => simp
  subst this
  rw [Nat.mod_eq_of_lt hlen, List.take_length] at hc'
  exact hc'

/-- C17. Two names clean to the same string exactly if they have the same resolved components and agree
in whether they end with an entry's name (unless nothing is left). -/
theorem C17_linux_same_partial (wd n1 n2 : List Char) (h1 : n1.head? ≠ some '/' → WorkDir ['/'] '/' wd)
    (h2 : n2.head? ≠ some '/' → WorkDir ['/'] '/' wd) (hb1 : n1.head? ≠ some '\\') (hb2 : n2.head? ≠ some '\\')
    (hl1 : (render ['/'] '/' (resolve [] (comps (fullName wd n1))) (endsOpen (fullName wd n1))).length < 65536)
    (hl2 : (render ['/'] '/' (resolve [] (comps (fullName wd n2))) (endsOpen (fullName wd n2))).length < 65536) :
    cleanPath .linux wd n1 true = cleanPath .linux wd n2 true ↔
      resolve [] (comps (fullName wd n1)) = resolve [] (comps (fullName wd n2)) ∧
      (resolve [] (comps (fullName wd n1)) ≠ [] → endsOpen (fullName wd n1) = endsOpen (fullName wd n2)) := by
  constructor
  · intro h
    obtain ⟨r1, a1, _, _, _, a5, _, a7⟩ := C17_linux_partial wd n1 h1 hb1 hl1
    obtain ⟨r2, b1, _, _, _, b5, _, b7⟩ := C17_linux_partial wd n2 h2 hb2 hl2
    rw [a1, b1] at h
    cases h
    refine ⟨a5.symm.trans b5, fun hne => ?_⟩
    have hne' : comps r1 ≠ [] := by rw [a5]; exact hne
    have : endsOpen (fullName wd n1) = false ↔ endsOpen (fullName wd n2) = false := by
      constructor
      · intro h; exact (b7.1 (a7.2 (Or.inr h))).resolve_left hne'
      · intro h; exact (a7.1 (b7.2 (Or.inr h))).resolve_left hne'
    cases e1 : endsOpen (fullName wd n1) <;> cases e2 : endsOpen (fullName wd n2) <;> simp_all
  · rintro ⟨e1, e2⟩
    obtain ⟨r1, a1, a2⟩ := clean_linux wd n1 h1 hb1
    obtain ⟨r2, b1, b2⟩ := clean_linux wd n2 h2 hb2
    have : r1 = r2 := by
      rw [a1, b1, e1]
      unfold render
      cases hcs : resolve [] (comps (fullName wd n2)) with
      | nil => cases endsOpen (fullName wd n1) <;> cases endsOpen (fullName wd n2) <;> rfl
      | cons a l => rw [e2 (by rw [e1, hcs]; simp)]
    rw [a2, b2, this]

example : cleanPath .linux "/home/me".toList "../x//./y/../z.cpp".toList true = some "/home/x/z.cpp".toList ∧
    cleanPath .linux "/home/me".toList "/a/../../..\\b/.".toList true = some "/b/".toList := by decide

example : WorkDir ['/'] '/' "/home/me".toList :=
  ⟨["home".toList, "me".toList], by simp, by
    intro c hc
    simp at hc
    rcases hc with rfl | rfl <;> refine ⟨⟨by simp, by simp; decide⟩, by simp, by simp⟩, by decide⟩

/-! ## Windows -/

/-- facts about a rendered path below its root slash -/
theorem render_facts (sl : Char) (hsl : isSlash sl = true) (cs : List (List Char)) (opn : Bool)
    (hgood : ∀ c ∈ cs, IsComp c ∧ c ≠ ['.'] ∧ c ≠ ['.', '.']) :
    (∀ x ∈ render [sl] sl cs opn, isSlash x = true → x = sl) ∧ NoDouble sl (render [sl] sl cs opn) ∧
      comps (render [sl] sl cs opn) = cs ∧ endsOpen (render [sl] sl cs opn) = (opn && !cs.isEmpty) ∧
      ((render [sl] sl cs opn).getLast? = some sl ↔ cs = [] ∨ opn = false) := by
  refine ⟨?_, ?_, ?_, ?_, ?_⟩
  · intro x hm hx
    rw [render] at hm
    rcases List.mem_append.1 hm with hm | hm
    · simpa using hm
    · have hm' : x ∈ dirs sl cs := by
        split at hm
        · exact List.dropLast_subset _ hm
        · exact hm
      rcases mem_dirs (fun c hc => (hgood c hc).1) hm' with h | h
      · exact h
      · rw [hx] at h; cases h
  · rw [render]
    have := noDouble_dirs sl hsl _ (fun c hc => (hgood c hc).1)
    split
    · cases hd : dirs sl cs with
      | nil => intro u v h; have := congrArg List.length h; simp at this; omega
      | cons x l =>
        rw [hd] at this
        have := this.dropLast
        rwa [List.dropLast_cons_cons] at this
    · exact this
  · rw [render, List.singleton_append, comps_cons sl hsl]
    exact comps_render_tail sl hsl _ (fun c hc => (hgood c hc).1) _
  · rw [render, List.singleton_append, ← endsOpen_skip, skipSlashes, if_pos hsl, endsOpen_skip]
    exact endsOpen_tail sl hsl _ hgood _
  · rw [render]
    rcases List.eq_nil_or_concat cs with rfl | ⟨cs, d, rfl⟩
    · cases opn <;> simp [dirs]
    · rw [List.concat_eq_append] at *
      rw [dirs_snoc, ← List.append_assoc (dirs sl cs)]
      cases opn with
      | false =>
        have : [sl] ++ (dirs sl cs ++ d ++ [sl]) = (sl :: (dirs sl cs ++ d)) ++ [sl] := by simp
        rw [if_neg (by simp), this, List.getLast?_concat]
        simp
      | true =>
        rw [if_pos rfl, List.dropLast_concat]
        have hd := (hgood d (by simp)).1
        rw [List.getLast?_append, List.getLast?_append]
        cases hl : d.getLast? with
        | none => exact absurd (List.getLast?_eq_none_iff.1 hl) hd.1
        | some x =>
          have := hd.2 x (List.mem_of_getLast? hl)
          simp
          rintro rfl
          rw [hsl] at this; cases this

theorem resolve_prefix : ∀ (ws dir cs : List (List Char)), (∀ c ∈ ws, c ≠ ['.'] ∧ c ≠ ['.', '.']) →
    resolve dir (ws ++ cs) = resolve (dir ++ ws) cs
  | [], dir, cs, _ => by simp
  | c :: ws, dir, cs, h => by
    rw [List.cons_append, resolve, if_neg (h c (by simp)).1, if_neg (h c (by simp)).2,
      resolve_prefix ws _ _ (fun x hx => h x (by simp [hx]))]
    simp

theorem endsOpen_dirs (sl : Char) (hsl : isSlash sl = true) (t : List Char) : ∀ ws : List (List Char), (∀ c ∈ ws, IsComp c) →
    endsOpen (dirs sl ws ++ t) = endsOpen t
  | [], _ => rfl
  | c :: ws, h => by
    have : dirs sl (c :: ws) ++ t = c ++ sl :: (dirs sl ws ++ t) := by simp [dirs]
    rw [this, endsOpen_word_slash c _ sl (h c (by simp)) hsl, endsOpen_dirs sl hsl t ws (fun x hx => h x (by simp [hx]))]

/-- The name is a full path on a drive, or relative to a clean working directory (other than a drive's
root): `d` is the drive letter and `below` what follows `d:`. -/
def WinName (wd name : List Char) (d : Char) (below : List Char) : Prop :=
  isSlash d = false ∧
  ((∃ sl s, isSlash sl = true ∧ name = d :: ':' :: sl :: s ∧ below = sl :: s) ∨
   (isFullPath .windows name = false ∧ WorkDir [d, ':', '\\'] '\\' wd ∧ wd ++ '\\' :: name = d :: ':' :: below))

theorem clean_windows (wd name : List Char) (d : Char) (below : List Char) (h : WinName wd name d below) :
    ∃ r, r = d :: ':' :: render ['\\'] '\\' (resolve [] (comps below)) (endsOpen below) ∧
      cleanPath .windows wd name true = some (r.take (r.length % 65536)) := by
  refine ⟨_, rfl, ?_⟩
  have hsl : isSlash '\\' = true := rfl
  obtain ⟨hd, h⟩ := h
  have hroot : ∀ cs o, d :: ':' :: render ['\\'] '\\' cs o = render [d, ':', '\\'] '\\' cs o := fun _ _ => rfl
  have h0 : dirs '\\' [] = [] := rfl
  rw [hroot]
  unfold cleanPath
  rcases h with ⟨sl, s, hs, rfl, rfl⟩ | ⟨hfp, ⟨ws, hw1, hw2, hw3⟩, hb⟩
  · have hfp : isFullPath .windows (d :: ':' :: sl :: s) = true := rfl
    have hsk : skipSlashes (d :: ':' :: sl :: s) = [d, ':'] ++ sl :: s := by
      rw [skipSlashes, if_neg (by simp [hd])]; rfl
    have hcomp : IsComp [d, ':'] := ⟨by simp, by simp [hd]; decide⟩
    simp only [hfp, Bool.true_eq_false, false_and, if_false, if_true, hsk, native, List.reverse_nil]
    have hlen : ([d, ':'] ++ sl :: s).length + 1 = (s.length + 2) + [d, ':'].length := by simp
    rw [hlen, cleanGo_word '\\' true 3 (sl :: s) [d, ':'] (s.length + 2) [] hcomp (by simp) (by simp), cleanGo, if_pos hs]
    have hs2 := skipSlashes_length s
    have := cleanGo_spec '\\' [d, ':', '\\'] hsl _ (skipSlashes s) [] (s.length + 1) rfl (skipSlashes_head s) (by simp) (by omega)
    rw [h0] at this
    simp only [List.append_nil, List.reverse_cons, List.reverse_nil, List.nil_append, List.length_cons, List.length_nil,
      List.cons_append] at this
    simp only [List.append_nil, List.reverse_cons, List.reverse_nil, List.nil_append, List.cons_append]
    have he : endsOpen (sl :: s) = endsOpen s := by
      rw [← endsOpen_skip (sl :: s), skipSlashes, if_pos hs, endsOpen_skip]
    rw [this, comps_skip, endsOpen_skip, comps_cons sl hs, he]
    simp
  · have hne : wd ≠ [] := by
      rintro rfl
      have := congrArg List.length hw3
      simp at this
    have hbel : below = '\\' :: (dirs '\\' ws ++ name) := by
      have : wd ++ '\\' :: name = wd ++ ['\\'] ++ name := by simp
      rw [this, hw3] at hb
      simp at hb
      exact hb.symm
    simp only [hfp, true_and, if_true, hne, if_false, native]
    have := cleanGo_spec '\\' [d, ':', '\\'] hsl _ (skipSlashes name) ws ((skipSlashes name).length + 1) rfl (skipSlashes_head name)
      (fun c hc => (hw2 c hc).1) (by omega)
    simp only [List.length_cons, List.length_nil] at this
    rw [hw3, this, hbel, comps_cons '\\' hsl, comps_dirs '\\' hsl ws (fun c hc => (hw2 c hc).1), comps_skip, endsOpen_skip,
      resolve_prefix ws [] _ (fun c hc => (hw2 c hc).2), ← endsOpen_skip ('\\' :: _), skipSlashes, if_pos hsl, endsOpen_skip,
      endsOpen_dirs '\\' hsl name ws (fun c hc => (hw2 c hc).1)]
    simp

/-- C17. The same on Windows, for names on a drive and names relative to a working directory. -/
theorem C17_windows_partial (wd name : List Char) (d : Char) (below : List Char) (h : WinName wd name d below)
    (hlen : (render ['\\'] '\\' (resolve [] (comps below)) (endsOpen below)).length + 2 < 65536) :
    ∃ q, cleanPath .windows wd name true = some (d :: ':' :: q) ∧ q.head? = some '\\' ∧ '/' ∉ q ∧ NoDouble '\\' q ∧
      comps q = resolve [] (comps below) ∧ (∀ c ∈ comps q, c ≠ ['.'] ∧ c ≠ ['.', '.']) ∧
      (q.getLast? = some '\\' ↔ comps q = [] ∨ endsOpen below = false) := by
  obtain ⟨r, hr, hc⟩ := clean_windows wd name d below h
  have hl : r.length < 65536 := by rw [hr]; simpa using hlen
  rw [Nat.mod_eq_of_lt hl, List.take_length, hr] at hc
  have hgood := resolve_comps (comps below) [] (comps_isComp _) (by simp)
  obtain ⟨f1, f2, f3, _, f5⟩ := render_facts '\\' rfl _ (endsOpen below) hgood
  refine ⟨_, hc, rfl, fun hm => absurd (f1 _ hm rfl) (by decide), f2, f3, ?_, ?_⟩
  · rw [f3]; exact fun c hc => (hgood c hc).2
  · rw [f3]; exact f5

/-- C17. Cleaning a cleaned path changes nothing, on Windows. -/
theorem C17_windows_idempotent_partial (wd wd' name : List Char) (d : Char) (below : List Char) (h : WinName wd name d below)
    (hlen : (render ['\\'] '\\' (resolve [] (comps below)) (endsOpen below)).length + 2 < 65536) :
    ∃ r, cleanPath .windows wd name true = some r ∧ cleanPath .windows wd' r true = some r := by
  obtain ⟨r, hr, hc⟩ := clean_windows wd name d below h
  have hl : r.length < 65536 := by rw [hr]; simpa using hlen
  rw [Nat.mod_eq_of_lt hl, List.take_length] at hc
  refine ⟨r, hc, ?_⟩
  have hgood := resolve_comps (comps below) [] (comps_isComp _) (by simp)
  obtain ⟨f1, f2, f3, f4, f5⟩ := render_facts '\\' rfl _ (endsOpen below) hgood
  obtain ⟨r', hr', hc'⟩ := clean_windows wd' r d (render ['\\'] '\\' (resolve [] (comps below)) (endsOpen below))
    ⟨h.1, Or.inl ⟨'\\', _, rfl, hr, rfl⟩⟩
  have : r' = r := by
    rw [hr', hr, f3, f4, resolve_id _ [] (fun c hc => (hgood c hc).2), List.nil_append]
    congr 2
    unfold render
    cases hcs : resolve [] (comps below) with
    | nil => cases endsOpen below <;> rfl
    | cons a l => simp
  subst this
  rw [Nat.mod_eq_of_lt hl, List.take_length] at hc'
  exact hc'

example : cleanPath .windows "C:\\work".toList "..\\x//./y/../z.cpp".toList true = some "C:\\x\\z.cpp".toList ∧
    cleanPath .windows "C:\\work".toList "d:/a/..\\..\\b/.".toList true = some "d:\\b\\".toList := by decide

example : WinName "C:\\work".toList "../x.cpp".toList 'C' "\\work\\../x.cpp".toList :=
  ⟨by decide, Or.inr ⟨by decide, ⟨["work".toList], by simp, by
    intro c hc
    simp at hc
    subst hc
    exact ⟨⟨by simp, by simp; decide⟩, by simp, by simp⟩, by decide⟩, by decide⟩⟩

/-! ## Relative paths kept relative (`makeFullPath` false) -/

/-- leading `../` sequences -/
def dotdots (sl : Char) : Nat → List Char
  | 0 => []
  | n + 1 => '.' :: '.' :: sl :: dotdots sl n

/-- `..` above the start is counted -/
def resolveRel : Nat → List (List Char) → List (List Char) → Nat × List (List Char)
  | up, dir, [] => (up, dir)
  | up, dir, c :: cs =>
    if c = ['.'] then resolveRel up dir cs
    else if c = ['.', '.'] then (if dir = [] then resolveRel (up + 1) [] cs else resolveRel up dir.dropLast cs)
    else resolveRel up (dir ++ [c]) cs

theorem dotdots_succ (sl : Char) : ∀ n, dotdots sl (n + 1) = dotdots sl n ++ ['.', '.', sl]
  | 0 => rfl
  | n + 1 => by
    show '.' :: '.' :: sl :: dotdots sl (n + 1) = ('.' :: '.' :: sl :: dotdots sl n) ++ ['.', '.', sl]
    rw [dotdots_succ sl n]; rfl

theorem cleanGo_rel (sl : Char) (hsl : isSlash sl = true) : ∀ (n : Nat) (src : List Char) (up : Nat) (cs : List (List Char))
    (fuel : Nat), src.length = n → src.head?.any isSlash = false → (∀ c ∈ cs, IsComp c) → src.length < fuel →
    cleanGo sl false fuel true (dotdots sl up).length (dotdots sl up ++ dirs sl cs).reverse src =
      some (render (dotdots sl (resolveRel up cs (comps src)).1) sl (resolveRel up cs (comps src)).2 (endsOpen src)).reverse := by
  intro n
  induction n using Nat.strongRecOn with
  | _ n ih =>
  intro src up cs fuel hn hh hcs hf
  obtain ⟨fuel, rfl⟩ : ∃ f, fuel = f + 1 := ⟨fuel - 1, by omega⟩
  obtain ⟨w, rest, rfl, hw, hr⟩ := word_split src
  by_cases hwn : w = []
  · subst hwn
    rcases hr with rfl | ⟨c, r, rfl, hc⟩
    · rw [List.nil_append, cleanGo]
      simp [comps, compsGo, resolveRel, render, endsOpen]
    · simp [hc] at hh
  · have hwc : IsComp w := ⟨hwn, hw⟩
    have hlen : (w ++ rest).length = w.length + rest.length := by simp
    have hpos : 0 < w.length := List.length_pos_iff.2 hwn
    have hsk := skipSlashes_length rest
    have hcomp : comps (w ++ rest) = w :: comps (skipSlashes rest) := by
      rcases hr with rfl | ⟨c, r, rfl, hc⟩
      · rw [List.append_nil, comps_word w hwc]; rfl
      · rw [comps_word_slash w r c hwc hc, comps_skip, comps_cons c hc]
    have hopen : w = ['.'] ∨ w = ['.', '.'] → endsOpen (w ++ rest) = endsOpen (skipSlashes rest) := by
      intro hd
      rcases hr with rfl | ⟨c, r, rfl, hc⟩
      · rw [List.append_nil, endsOpen_word w hwc]
        rcases hd with rfl | rfl <;> rfl
      · rw [endsOpen_word_slash w r c hwc hc, skipSlashes, if_pos hc, endsOpen_skip]
    by_cases h1 : w = ['.']
    · rw [hopen (Or.inl h1), hcomp, resolveRel, if_pos h1]
      subst h1
      rw [List.singleton_append, cleanGo, if_neg (by decide), if_pos ⟨rfl, rfl, atSep_rest hr⟩]
      simp only [List.length_append, List.length_cons, List.length_nil] at hn hf
      exact ih _ (by omega) (skipSlashes rest) up cs fuel rfl (skipSlashes_head rest) hcs (by omega)
    · by_cases h2 : w = ['.', '.']
      · rw [hopen (Or.inr h2), hcomp, resolveRel, if_neg h1, if_pos h2]
        subst h2
        simp only [List.length_append, List.length_cons, List.length_nil] at hn hf
        rw [show ['.', '.'] ++ rest = '.' :: '.' :: rest from rfl, cleanGo, if_neg (by decide),
          if_neg (by rintro ⟨_, _, h⟩; simp [atSep, isSlash] at h), if_pos ⟨rfl, rfl, rfl, atSep_rest hr⟩]
        dsimp only [List.tail_cons]
        rcases List.eq_nil_or_concat cs with rfl | ⟨cs, d, rfl⟩
        · have h0 : dirs sl [] = [] := rfl
          rw [if_neg (by simp [h0]), if_pos rfl, if_pos rfl]
          have := ih _ (by omega) (skipSlashes rest) (up + 1) [] fuel rfl (skipSlashes_head rest) hcs (by omega)
          rw [h0, List.append_nil] at this ⊢
          have e1 : sl :: '.' :: '.' :: (dotdots sl up).reverse = (dotdots sl (up + 1)).reverse := by rw [dotdots_succ]; simp
          rw [e1, List.length_reverse]
          exact this
        · rw [List.concat_eq_append] at *
          have hne : cs ++ [d] ≠ [] := by simp
          rw [if_neg hne, List.dropLast_concat]
          have hd : IsComp d := hcs d (by simp)
          have hout : (dotdots sl up ++ dirs sl (cs ++ [d])).reverse = sl :: (d.reverse ++ (dotdots sl up ++ dirs sl cs).reverse) := by
            rw [dirs_snoc]; simp
          rw [hout, if_pos (by simp; omega), List.tail_cons, popBack_spec sl (dotdots sl up) hsl cs d hd]
          exact ih _ (by omega) (skipSlashes rest) up cs fuel rfl (skipSlashes_head rest) (fun c hc => hcs c (by simp [hc])) (by omega)
      · rw [hcomp, resolveRel, if_neg h1, if_neg h2]
        obtain ⟨f', hf'⟩ : ∃ f', fuel + 1 = f' + w.length := ⟨fuel + 1 - w.length, by omega⟩
        rw [hf', cleanGo_word sl false _ rest w f' _ hwc h1 h2]
        have hcs' : ∀ c ∈ cs ++ [w], IsComp c := by
          intro c hc
          rcases List.mem_append.1 hc with hc | hc
          · exact hcs c hc
          · simp at hc; subst hc; exact hwc
        obtain ⟨f'', rfl⟩ : ∃ f'', f' = f'' + 1 := ⟨f' - 1, by omega⟩
        rcases hr with rfl | ⟨c, r, rfl, hc⟩
        · rw [cleanGo, List.append_nil, endsOpen_word w hwc]
          have e : (!(w == ['.']) && !(w == ['.', '.'])) = true := by simp [h1, h2]
          rw [e]
          have : comps (skipSlashes []) = [] := rfl
          rw [this, resolveRel, render, if_pos rfl, dirs_snoc, ← List.append_assoc (dirs sl cs), List.dropLast_concat]
          simp
        · rw [cleanGo, if_pos hc, endsOpen_word_slash w r c hwc hc, skipSlashes, if_pos hc]
          have hout : sl :: (w.reverse ++ (dotdots sl up ++ dirs sl cs).reverse) = (dotdots sl up ++ dirs sl (cs ++ [w])).reverse := by
            rw [dirs_snoc]; simp
          have hs2 := skipSlashes_length r
          simp only [List.length_append, List.length_cons] at hn hf hf'
          rw [hout, ih _ (by omega) (skipSlashes r) up (cs ++ [w]) f'' rfl (skipSlashes_head r) hcs' (by omega), endsOpen_skip]

/-- C17. A relative name cleaned without making it full becomes a number of `../` followed by its
remaining components: `..` cancels the component before it and is kept where there is none. -/
theorem C17_relative (p : Platform) (wd name : List Char) (hrel : isFullPath p name = false) (hhead : name.head?.any isSlash = false)
    (hlen : (render (dotdots (native p) (resolveRel 0 [] (comps name)).1) (native p) (resolveRel 0 [] (comps name)).2 (endsOpen name)).length < 65536) :
    cleanPath p wd name false =
      some (render (dotdots (native p) (resolveRel 0 [] (comps name)).1) (native p) (resolveRel 0 [] (comps name)).2 (endsOpen name)) := by
  have hsl : isSlash (native p) = true := by cases p <;> rfl
  have hsk : (if p = .windows then skipSlashes name else name) = name := by
    split
    · exact skipSlashes_of hhead
    · rfl
  unfold cleanPath
  have := cleanGo_rel (native p) hsl _ name 0 [] (name.length + 1) rfl hhead (by simp) (by omega)
  have h0 : dirs (native p) [] = [] := rfl
  simp only [dotdots, h0, List.append_nil, List.length_nil, List.reverse_nil] at this
  simp only [hrel, Bool.false_eq_true, and_false, if_false, hsk, List.reverse_nil, this, List.reverse_reverse, List.length_reverse]
  rw [Nat.mod_eq_of_lt hlen, List.take_length]

example : cleanPath .linux [] "../a/../../b//c".toList false = some "../../b/c".toList := by decide

/-! ## Findings -/

/-- On Windows the two leading backslashes of a network path are dropped. -/
theorem C17_network_prefix_lost : cleanPath .windows "C:\\w".toList "\\\\server\\f".toList true = some "server\\f".toList := by
  decide

/-- On Linux a relative name starting with a backslash gives a doubled slash (the sanity check at the end
of `CleanPath` fails), and so does any relative name when the working directory is the root. -/
theorem C17_doubled_slash : cleanPath .linux "/w".toList "\\f".toList true = some "/w//f".toList ∧
    cleanPath .linux "/".toList "f".toList true = some "//f".toList := by
  decide

/-- A path of 65536 characters or more is cut to its length modulo 65536: one of exactly 65536 characters
becomes empty. -/
theorem C17_long_path_cut (w : List Char) (hw : IsComp w) (hlen : w.length = 65535) :
    cleanPath .linux [] ('/' :: w) true = some [] := by
  obtain ⟨r, hr, hc⟩ := clean_linux [] ('/' :: w) (fun h => absurd rfl h) (by simp)
  have h1 : w ≠ ['.'] := by rintro rfl; simp at hlen
  have h2 : w ≠ ['.', '.'] := by rintro rfl; simp at hlen
  have hf : fullName [] ('/' :: w) = '/' :: w := rfl
  have hc1 : comps ('/' :: w) = [w] := by rw [comps_cons '/' rfl, comps_word _ hw]
  have hs : isSlash '/' = true := rfl
  have ho : endsOpen ('/' :: w) = true := by
    rw [← endsOpen_skip, skipSlashes, if_pos hs, endsOpen_skip, endsOpen_word _ hw,
      beq_eq_false_iff_ne.2 h1, beq_eq_false_iff_ne.2 h2]
    rfl
  rw [hf, hc1, ho, resolve, if_neg h1, if_neg h2, resolve, render, if_pos rfl] at hr
  have hl : r.length = 65536 := by
    rw [hr]
    simp [dirs, hlen]
  rw [hc, hl]
  rfl

example : ∃ w : List Char, IsComp w ∧ w.length = 65535 := by
  have hl : (List.replicate 65535 'a').length = 65535 := List.length_replicate
  refine ⟨List.replicate 65535 'a', ⟨fun h => ?_, fun x hx => ?_⟩, hl⟩
  · rw [h] at hl; cases hl
  · rw [List.eq_of_mem_replicate hx]; rfl

end Verif.Str
