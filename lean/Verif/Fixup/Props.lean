import Verif.Fixup.Model
import Verif.Str.TokenProps
/-! C131: lines of compilers as Visual Studio can follow them. -/
namespace Verif.Fixup
open Verif.Str

/-! ### lemmas -/

theorem split_append {pat : Text} : ∀ {t : Text} {p : Text × Text}, split pat t = some p → t = p.1 ++ p.2 ∧ pat <+: p.2
  | [], _, h => by simp [split] at h
  | c :: t, p, h => by
    rw [split] at h
    split at h
    · next hs => cases h; exact ⟨rfl, List.isPrefixOf_iff_prefix.1 hs⟩
    · obtain ⟨q, hq, rfl⟩ := Option.map_eq_some_iff.1 h
      obtain ⟨h1, h2⟩ := split_append hq
      exact ⟨by simp [← h1], h2⟩

theorem split_none {pat : Text} : ∀ {t : Text}, ¬ pat <:+: t → split pat t = none
  | [], _ => rfl
  | c :: t, h => by
    rw [List.infix_cons_iff] at h
    rw [split, if_neg, split_none fun e => h (.inr e)]
    · rfl
    · exact fun hs => h (.inl (List.isPrefixOf_iff_prefix.1 hs))

theorem split_first {pat b : Text} (hp : pat ≠ []) : ∀ {a : Text}, ¬ pat <:+: a ++ pat.dropLast → split pat (a ++ (pat ++ b)) = some (a, pat ++ b)
  | [], _ => by
    cases pat with
    | nil => exact absurd rfl hp
    | cons c q =>
      rw [List.nil_append, List.cons_append, split, if_pos]
      exact List.isPrefixOf_iff_prefix.2 (List.prefix_append (c :: q) b)
  | c :: a, hn => by
    have hs : ¬ pat.isPrefixOf (c :: (a ++ (pat ++ b))) = true := by
      intro hs
      rw [List.isPrefixOf_iff_prefix] at hs
      have e : c :: (a ++ (pat ++ b)) = (c :: a ++ pat.dropLast) ++ ([pat.getLast hp] ++ b) := by
        have : pat ++ b = pat.dropLast ++ ([pat.getLast hp] ++ b) := by
          rw [← List.append_assoc, List.dropLast_concat_getLast hp]
        simp only [this, List.cons_append, List.append_assoc]
      rw [e] at hs
      refine hn (List.prefix_of_prefix_length_le hs (List.prefix_append _ _) ?_).isInfix
      have := List.length_pos_iff.2 hp
      simp only [List.length_append, List.length_cons, List.length_dropLast]
      omega
    rw [List.cons_append, split, if_neg hs, split_first hp fun h => hn ?_]
    · rfl
    · rw [List.cons_append]
      exact h.trans (List.suffix_cons _ _).isInfix

/-- a token without quotes and the separator behind it -/
theorem tokenGo_plain {sep : Char} (hb : sep ≠ '\\') (hq : sep ≠ '"') (st : Nat) : ∀ (a : Text) (i : Nat) (b : Text), '"' ∉ a → sep ∉ a →
    tokenGo sep i false (some st) (a ++ sep :: b) = (st, i + a.length) :: tokenGo sep (i + a.length + 1) false none b
  | [], i, b, _, _ => by
    rw [List.nil_append, tokenGo]
    · simp [hb, hq]
  | c :: a, i, b, h1, h2 => by
    have ih := tokenGo_plain hb hq st a (i + 1) b (fun h => h1 (List.mem_cons_of_mem _ h)) fun h => h2 (List.mem_cons_of_mem _ h)
    have hc1 : c ≠ '"' := fun h => h1 (by simp [h])
    have hc2 : c ≠ sep := fun h => h2 (by simp [h])
    rw [List.cons_append, tokenGo]
    simp only [hc1, hc2, if_false, and_false, Option.getD_some]
    have hl : i + (c :: a).length = i + 1 + a.length := by simp; omega
    rw [hl]
    split
    · split
      · next s e =>
        exfalso
        cases a with
        | nil => simp at e; exact hq e.1
        | cons x a => simp at e; exact h1 (by simp [e.1])
      · exact ih
    · exact ih

/-- the last token -/
theorem tokenGo_last {sep : Char} (st : Nat) : ∀ (a : Text) (i : Nat), '"' ∉ a → sep ∉ a → tokenGo sep i false (some st) a = [(st, i + a.length)]
  | [], i, _, _ => by simp [tokenGo]
  | c :: a, i, h1, h2 => by
    have ih := tokenGo_last (sep := sep) st a (i + 1) (fun h => h1 (List.mem_cons_of_mem _ h)) fun h => h2 (List.mem_cons_of_mem _ h)
    have hc1 : c ≠ '"' := fun h => h1 (by simp [h])
    have hc2 : c ≠ sep := fun h => h2 (by simp [h])
    rw [tokenGo]
    simp only [hc1, hc2, if_false, and_false, Option.getD_some]
    have hl : i + (c :: a).length = i + 1 + a.length := by simp; omega
    rw [hl]
    split
    · split
      · next s => exact absurd (by simp) h1
      · exact ih
    · exact ih

theorem tokenGo_start {sep : Char} (c : Char) (s : Text) (i : Nat) (h : c ≠ sep) : tokenGo sep i false none (c :: s) = tokenGo sep i false (some i) (c :: s) := by
  rw [tokenGo, tokenGo]
  simp [h]

/-- plain: without quotes and colons, not empty -/
def Plain (t : Text) : Prop := t ≠ [] ∧ '"' ∉ t ∧ ':' ∉ t

theorem go_first {a : Text} (h : Plain a) (i : Nat) (b : Text) :
    tokenGo ':' i false none (a ++ ':' :: b) = (i, i + a.length) :: tokenGo ':' (i + a.length + 1) false none b := by
  obtain ⟨c, a', rfl⟩ := List.exists_cons_of_ne_nil h.1
  rw [List.cons_append, tokenGo_start _ _ _ fun e => h.2.2 (by simp [e]), ← List.cons_append]
  exact tokenGo_plain (by decide) (by decide) _ _ _ _ h.2.1 h.2.2

theorem go_last {a : Text} (h : Plain a) (i : Nat) : tokenGo ':' i false none a = [(i, i + a.length)] := by
  obtain ⟨c, a', rfl⟩ := List.exists_cons_of_ne_nil h.1
  rw [tokenGo_start _ _ _ fun e => h.2.2 (by simp [e])]
  exact tokenGo_last _ _ _ h.2.1 h.2.2

/-- tokens with a colon behind each -/
def colons (l : List Text) : Text := l.flatMap fun t => t ++ [':']

theorem take_drop_mid (p a b : Text) : ((p ++ a ++ b).drop p.length).take (p.length + a.length - p.length) = a := by
  simp [Nat.add_sub_cancel_left]

theorem go_all (S : Text) : ∀ (l : List Text) (p e : Text), (∀ t ∈ l, Plain t) → (e = [] ∨ Plain e) → S = p ++ (colons l ++ e) →
    (tokenGo ':' p.length false none (colons l ++ e)).map (fun (a, b) => (S.drop a).take (b - a)) = l ++ (if e = [] then [] else [e])
  | [], p, e, _, he, hS => by
    rcases he with rfl | he
    · simp [colons, tokenGo]
    · simp only [colons, List.flatMap_nil, List.nil_append] at hS ⊢
      rw [go_last he, if_neg he.1]
      simp [hS]
  | t :: l, p, e, h, he, hS => by
    have ht := h t (by simp)
    have e1 : colons (t :: l) ++ e = t ++ ':' :: (colons l ++ e) := by simp [colons]
    rw [e1] at hS ⊢
    rw [go_first ht]
    have ih := go_all S l (p ++ t ++ [':']) e (fun x hx => h x (List.mem_cons_of_mem _ hx)) he (by rw [hS]; simp)
    have hl : (p ++ t ++ [':']).length = p.length + t.length + 1 := by simp; omega
    rw [hl] at ih
    rw [List.map_cons, ih]
    simp [hS, Nat.add_sub_cancel_left]

/-- plain tokens with colons between them, and maybe one at the end -/
theorem tokens_plain (l : List Text) (e : Text) (h : ∀ t ∈ l, Plain t) (he : e = [] ∨ Plain e) :
    tokenize ':' (colons l ++ e) = l ++ (if e = [] then [] else [e]) :=
  go_all _ l [] e h he rfl

/-! ### the rest of a line is kept -/

/-- C131: a line with a tag keeps all from the tag on, or is not changed at all; a line with no tag that does not begin with `warning ` or
`error ` is not changed. -/
theorem C131_rest (cp : Text → Text) (scan : Text → Bool) (line : Text) : fixup cp scan line = .line line ∨
    (∃ x before rest w, w ∈ gccTags ++ sncTags ∧ line = before ++ rest ∧ w <+: rest ∧ fixup cp scan line = .line (x ++ rest)) ∨
    ((∀ w ∈ gccTags ++ sncTags, ¬ w <:+: line) ∧ (warningText ++ [' '] <+: line ∨ errorText ++ [' '] <+: line)) := by
  have hin : ∀ {w : Text}, split w line = none → w ≠ [] → ¬ w <:+: line := by
    intro w
    generalize line = t
    induction t with
    | nil => intro _ h h'; exact h (List.infix_nil.1 h')
    | cons c t ih =>
      intro h hw
      rw [split] at h
      split at h
      · cases h
      · next hs =>
        rw [List.infix_cons_iff]
        rintro (h1 | h1)
        · exact hs (List.isPrefixOf_iff_prefix.2 h1)
        · exact ih (Option.map_eq_none_iff.1 h) hw h1
  unfold fixup
  split
  · next before rest h =>
    obtain ⟨w, hw, h⟩ := List.exists_of_findSome?_eq_some h
    obtain ⟨h1, h2⟩ := split_append h
    cases hg : gcc cp scan before rest with
    | none => exact .inl rfl
    | some o =>
      refine .inr (.inl ?_)
      unfold gcc at hg
      split at hg
      · cases hg
      · split at hg
        · split at hg
          · cases hg
          · next col row more _ _ path mid _ =>
            split at hg
            · cases hg
              exact ⟨cleanVS cp path ++ mid.flatMap (fun t => ':' :: t) ++ '(' :: (row ++ ',' :: (col ++ [')'])), before, rest, w,
                List.mem_append_left _ hw, h1, h2, by simp⟩
            · cases hg
        · cases hg
  · next hg0 =>
    split
    · next before rest h =>
      obtain ⟨w, hw, h⟩ := List.exists_of_findSome?_eq_some h
      obtain ⟨h1, h2⟩ := split_append h
      cases hg : snc cp before rest with
      | none => exact .inl rfl
      | some o =>
        refine .inr (.inl ?_)
        unfold snc at hg
        split at hg
        · cases hg
        · cases hg
          exact ⟨_, before, rest, w, List.mem_append_right _ hw, h1, h2, rfl⟩
    · next hs0 =>
      split
      · next hv =>
        refine .inr (.inr ⟨fun w hw => ?_, ?_⟩)
        · rcases List.mem_append.1 hw with hw | hw
          · exact hin (List.findSome?_eq_none_iff.1 hg0 w hw) (by rintro rfl; revert hw; decide)
          · exact hin (List.findSome?_eq_none_iff.1 hs0 w hw) (by rintro rfl; revert hw; decide)
        · exact hv.imp List.isPrefixOf_iff_prefix.1 List.isPrefixOf_iff_prefix.1
      · exact .inl rfl

/-! ### positions -/

/-- the tag of a line: it is there first behind `before`, and no other tag of the kind is in the line -/
structure Tag (tags : List Text) (w before line : Text) : Prop where
  mem : w ∈ tags
  first : ¬ w <:+: before ++ w.dropLast
  only : ∀ w' ∈ tags, w' ≠ w → ¬ w' <:+: line

theorem tag_find {tags : List Text} {w before more : Text} (hw : w ≠ []) (h : Tag tags w before (before ++ (w ++ more))) :
    (tags.findSome? fun w' => split w' (before ++ (w ++ more))) = some (before, w ++ more) := by
  have hs := split_first (b := more) hw h.first
  obtain ⟨hm, _, ho⟩ := h
  induction tags with
  | nil => cases hm
  | cons x l ih =>
    rw [List.findSome?_cons]
    by_cases hx : x = w
    · subst hx; rw [hs]
    · rw [split_none (ho x (by simp) hx)]
      exact ih (by simpa [Ne.symm hx] using hm) fun w' hw' => ho w' (List.mem_cons_of_mem _ hw')

theorem gcc_ne {w : Text} (h : w ∈ gccTags) : w ≠ [] := by rintro rfl; revert h; decide
theorem snc_ne {w : Text} (h : w ∈ sncTags) : w ≠ [] := by rintro rfl; revert h; decide

theorem gcc_tokens (cp : Text → Text) (scan : Text → Bool) {before b rest path row col : Text} {mid : List Text} (hc : colonStyle before = some b)
    (ht : tokenize ':' b = path :: (mid ++ [row, col])) (hr : scan row = true) (hcol : scan col = true) :
    gcc cp scan before rest = some (cleanVS cp path ++ mid.flatMap (fun t => ':' :: t) ++ '(' :: (row ++ ',' :: (col ++ ')' :: rest))) := by
  unfold gcc
  simp only [hc, ht]
  have : (path :: (mid ++ [row, col])).reverse = col :: row :: (path :: mid).reverse := by simp
  rw [this]
  simp [hr, hcol]

/-- C131: `path:row:column: error: …` becomes `path(row,column): error: …` with the path cleaned. The path may have colons, as with a drive: what is
before the first is cleaned and the rest of it kept. -/
theorem C131_colons (cp : Text → Text) (scan : Text → Bool) (path row col w more : Text) (mid : List Text) (hp : Plain path) (hm : ∀ t ∈ mid, Plain t)
    (hr : Plain row) (hc : Plain col) (hsr : scan row = true) (hsc : scan col = true)
    (ht : Tag gccTags w (path ++ mid.flatMap (fun t => ':' :: t) ++ ':' :: (row ++ ':' :: col))
      (path ++ mid.flatMap (fun t => ':' :: t) ++ ':' :: (row ++ ':' :: col) ++ (w ++ more))) :
    fixup cp scan (path ++ mid.flatMap (fun t => ':' :: t) ++ ':' :: (row ++ ':' :: col) ++ (w ++ more)) =
      .line (cleanVS cp path ++ mid.flatMap (fun t => ':' :: t) ++ '(' :: (row ++ ',' :: (col ++ ')' :: (w ++ more)))) := by
  unfold fixup
  rw [tag_find (gcc_ne ht.mem) ht]
  have e : path ++ mid.flatMap (fun t => ':' :: t) ++ ':' :: (row ++ ':' :: col) = colons (path :: (mid ++ [row])) ++ col := by
    have : ∀ (l : List Text) (x : Text), l.flatMap (fun t => ':' :: t) ++ ':' :: x = ':' :: (colons l ++ x) := by
      intro l
      induction l with
      | nil => intro x; rfl
      | cons a l ih => intro x; simp [colons, ih]
    rw [List.append_assoc, this]
    simp [colons]
  have hcs : colonStyle (path ++ mid.flatMap (fun t => ':' :: t) ++ ':' :: (row ++ ':' :: col)) =
      some (path ++ mid.flatMap (fun t => ':' :: t) ++ ':' :: (row ++ ':' :: col)) := by
    unfold colonStyle
    rw [if_neg fun h => h.1 (by simp)]
  show Result.line ((gcc cp scan _ _).getD _) = _
  rw [gcc_tokens cp scan (mid := mid) hcs ?_ hsr hsc]
  · rfl
  · rw [e, tokens_plain _ _ ?_ (.inr hc), if_neg hc.1]
    · simp
    · intro t h
      rcases List.mem_cons.1 h with rfl | h
      · exact hp
      · rcases List.mem_append.1 h with h | h
        · exact hm t h
        · rw [List.mem_singleton.1 h]; exact hr

/-- C131: `path(row,column): error: …` keeps its positions and gets its path cleaned. -/
theorem C131_commas (cp : Text → Text) (scan : Text → Bool) (path row col w more : Text) (h : ∀ t ∈ [path, row, col], Plain t ∧ '(' ∉ t ∧ ',' ∉ t ∧ ')' ∉ t)
    (hsr : scan row = true) (hsc : scan col = true)
    (ht : Tag gccTags w (path ++ '(' :: (row ++ ',' :: (col ++ [')']))) (path ++ '(' :: (row ++ ',' :: (col ++ [')'])) ++ (w ++ more))) :
    fixup cp scan (path ++ '(' :: (row ++ ',' :: (col ++ [')'])) ++ (w ++ more)) =
      .line (cleanVS cp path ++ '(' :: (row ++ ',' :: (col ++ ')' :: (w ++ more)))) := by
  unfold fixup
  rw [tag_find (gcc_ne ht.mem) ht]
  have hp := h path (by simp)
  have hr := h row (by simp)
  have hc := h col (by simp)
  have hmap : ∀ t : Text, Plain t ∧ '(' ∉ t ∧ ',' ∉ t ∧ ')' ∉ t → t.map (fun c => if c = '(' ∨ c = ',' ∨ c = ')' then ':' else c) = t := by
    intro t ht
    conv => rhs; rw [← List.map_id t]
    refine List.map_congr_left fun c hc => ?_
    rw [if_neg]; · rfl
    rintro (rfl | rfl | rfl)
    · exact ht.2.1 hc
    · exact ht.2.2.1 hc
    · exact ht.2.2.2 hc
  have hcs : colonStyle (path ++ '(' :: (row ++ ',' :: (col ++ [')']))) = some (colons [path, row, col] ++ []) := by
    unfold colonStyle
    rw [if_pos ⟨by simp [hp.1.2.2, hr.1.2.2, hc.1.2.2], by simp⟩, if_pos]
    · simp only [List.map_append, List.map_cons, hmap _ hp, hmap _ hr, hmap _ hc]
      simp [colons]
    · simp [List.count_append, List.count_cons, List.count_eq_zero.2 hp.2.1, List.count_eq_zero.2 hp.2.2.1, List.count_eq_zero.2 hp.2.2.2,
        List.count_eq_zero.2 hr.2.1, List.count_eq_zero.2 hr.2.2.1, List.count_eq_zero.2 hr.2.2.2,
        List.count_eq_zero.2 hc.2.1, List.count_eq_zero.2 hc.2.2.1, List.count_eq_zero.2 hc.2.2.2]
  show Result.line ((gcc cp scan _ _).getD _) = _
  rw [gcc_tokens cp scan (mid := []) (path := path) hcs ?_ hsr hsc]
  · simp
  · rw [tokens_plain _ _ (fun t ht => (h t ht).1) (.inl rfl)]
    simp

/-- C131: `path(…): error 55: …` keeps all but its path, which is cleaned. -/
theorem C131_snc (cp : Text → Text) (scan : Text → Bool) (path pos w more : Text) (hp : '(' ∉ path)
    (hg : ∀ w' ∈ gccTags, ¬ w' <:+: path ++ '(' :: pos ++ (w ++ more)) (ht : Tag sncTags w (path ++ '(' :: pos) (path ++ '(' :: pos ++ (w ++ more))) :
    fixup cp scan (path ++ '(' :: pos ++ (w ++ more)) = .line (cleanVS cp path ++ '(' :: pos ++ (w ++ more)) := by
  unfold fixup
  rw [List.findSome?_eq_none_iff.2 fun w' hw' => split_none (hg w' hw'), tag_find (snc_ne ht.mem) ht]
  have hs := split_first (pat := ['(']) (b := pos) (a := path) (by simp) (by
    rintro ⟨a, b, e⟩
    refine hp ?_
    simp at e
    rw [← e]; simp)
  simp only [List.cons_append, List.nil_append] at hs
  simp [snc, hs]

/-- C131: a path of WSL becomes one of Windows. -/
theorem C131_mnt (cp : Text → Text) (d : Char) (t : Text) (hd : d ≠ '/') : cleanVS cp ("/mnt/".toList ++ d :: '/' :: t) =
    d :: ':' :: '\\' :: t.map fun c => if c = '/' then '\\' else c := by
  have : "/mnt/".toList = ['/', 'm', 'n', 't', '/'] := by decide +kernel
  rw [this]
  simp [cleanVS, hd, List.isPrefixOf]

/-! ### no assertion fails -/

theorem quote_token (S : Text) (l1 l2 : List (Nat × Nat)) (a b : Nat) (q : Nat × Nat) (h : tokenRanges ' ' S = l1 ++ (a, b) :: q :: l2) :
    (S.drop a).take (b - a) ≠ ['"', ':'] := by
  intro ht
  obtain ⟨⟨hpw, hr⟩, hcov⟩ := C29_tokenRanges ' ' S (by decide) (by decide)
  rw [h] at hpw hr hcov
  have hab := hr (a, b) (by simp)
  have hq := hr q (by simp)
  rw [List.pairwise_append] at hpw
  obtain ⟨_, hp2, hp1⟩ := hpw
  rw [List.pairwise_cons] at hp2
  have hbq : b < q.1 := hp2.1 q (by simp)
  dsimp only at hab
  have sepAt : ∀ j, j < S.length → (∀ r ∈ l1 ++ (a, b) :: q :: l2, ¬ (r.1 ≤ j ∧ j < r.2)) → IsSep ' ' S j := by
    intro j hj hn
    apply Classical.byContradiction
    intro hs
    obtain ⟨r, hr, h⟩ := (hcov j).2 ⟨hj, hs⟩
    exact hn r hr h
  have hb : IsSep ' ' S b := by
    refine sepAt b (by omega) fun r hr hc => ?_
    rcases List.mem_append.1 hr with hr | hr
    · have : r.2 < a := hp1 r hr (a, b) (by simp)
      omega
    · rcases List.mem_cons.1 hr with rfl | hr
      · exact absurd hc.2 (Nat.lt_irrefl _)
      · have : b < r.1 := hp2.1 r hr
        omega
  have ha : quotesBefore S a % 2 = 0 ∧ ¬ (0 < a ∧ S[a - 1]? = some '\\') := by
    cases a with
    | zero => exact ⟨rfl, by omega⟩
    | succ a =>
      have hs : IsSep ' ' S a := by
        refine sepAt a (by omega) fun r hr hc => ?_
        rcases List.mem_append.1 hr with hr | hr
        · have : r.2 < a + 1 := hp1 r hr (a + 1, b) (by simp)
          omega
        · rcases List.mem_cons.1 hr with rfl | hr
          · have := hc.1
            dsimp only at this
            omega
          · have : b < r.1 := hp2.1 r hr
            omega
      refine ⟨?_, ?_⟩
      · rw [quotesBefore_succ, if_neg, Nat.add_zero]
        · exact hs.2
        · intro hu
          have := hs.1.symm.trans hu.1
          cases this
      · rintro ⟨_, h2⟩
        rw [Nat.add_sub_cancel, hs.1] at h2
        cases h2
  have hlen := congrArg List.length ht
  simp at hlen
  have hb2 : b = a + 2 := by omega
  subst hb2
  have g0 : S[a]? = some '"' := by
    have := congrArg (fun l : Text => l[0]?) ht
    simpa using this
  have g1 : S[a + 1]? = some ':' := by
    have := congrArg (fun l : Text => l[1]?) ht
    simpa [List.getElem?_take] using this
  have e1 : quotesBefore S (a + 1) = quotesBefore S a + 1 := by
    rw [quotesBefore_succ, if_pos]
    exact ⟨g0, ha.2⟩
  have e2 : quotesBefore S (a + 2) = quotesBefore S (a + 1) := by
    rw [quotesBefore_succ, if_neg, Nat.add_zero]
    intro hu
    have := g1.symm.trans hu.1
    cases this
  have := hb.2
  omega

theorem first_token {a : Text} (ha : a ≠ []) (hq : '"' ∉ a) (hs : ' ' ∉ a) (t : Text) : (tokenize ' ' (a ++ ' ' :: t)).head? = some a := by
  obtain ⟨c, a', rfl⟩ := List.exists_cons_of_ne_nil ha
  unfold tokenize tokenRanges
  rw [List.cons_append, tokenGo_start _ _ _ fun e => hs (by simp [e]), ← List.cons_append, tokenGo_plain (by decide) (by decide) _ _ _ _ hq hs]
  simp

theorem vbccName_none {t : Text} (h : vbccName t = none) : t = ['"', ':'] := by
  unfold vbccName at h
  split at h
  · next hs =>
    split at h
    · cases h
    · next hl =>
      obtain ⟨x, hx⟩ := List.isSuffixOf_iff_suffix.1 hs.2
      have := congrArg List.length hx
      simp at this
      have : x = [] := List.length_eq_zero_iff.1 (by omega)
      subst this
      exact hx.symm
  · cases h

/-- C131: for no line an assertion fails or a text is trimmed by more than it has. -/
theorem C131_safe (cp : Text → Text) (scan : Text → Bool) (line : Text) : ∃ t, fixup cp scan line = .line t := by
  unfold fixup
  split
  · exact ⟨_, rfl⟩
  · split
    · exact ⟨_, rfl⟩
    · split
      · next h =>
        have h0 : (tokenize ' ' line).head? = some warningText ∨ (tokenize ' ' line).head? = some errorText := by
          rcases h with h | h
          · obtain ⟨t, rfl⟩ := List.isPrefixOf_iff_prefix.1 h
            rw [List.append_assoc]
            exact .inl (first_token (by decide) (by decide) (by decide) t)
          · obtain ⟨t, rfl⟩ := List.isPrefixOf_iff_prefix.1 h
            rw [List.append_assoc]
            exact .inr (first_token (by decide) (by decide) (by decide) t)
        unfold vbcc
        split
        · next t0 t1 t2 t3 t4 t5 t6 t7 t8 more htok =>
          rw [htok] at h0
          rw [if_neg (by
            rintro ⟨h1, h2⟩
            rcases h0 with h0 | h0
            · exact h1 (Option.some.inj h0)
            · exact h2 (Option.some.inj h0))]
          split
          · exact ⟨_, rfl⟩
          · split
            · exact ⟨_, rfl⟩
            · split
              · next hn =>
                exfalso
                have h6 := vbccName_none hn
                unfold tokenize at htok
                have hlen := congrArg List.length htok
                simp only [List.length_map, List.length_cons] at hlen
                have s1 : tokenRanges ' ' line = (tokenRanges ' ' line).take 6 ++ (tokenRanges ' ' line)[6] :: (tokenRanges ' ' line)[7] ::
                    (tokenRanges ' ' line).drop 8 := by
                  rw [← List.drop_eq_getElem_cons, ← List.drop_eq_getElem_cons, List.take_append_drop]
                have := quote_token line _ _ (tokenRanges ' ' line)[6].1 (tokenRanges ' ' line)[6].2 _ s1
                have g := congrArg (fun l : List Text => l[6]?) htok
                have h6lt : 6 < (tokenRanges ' ' line).length := by omega
                simp only [List.getElem?_map, List.getElem?_eq_getElem h6lt, Option.map_some] at g
                exact this (by
                  have := Option.some.inj g
                  rw [this]
                  exact h6)
              · exact ⟨_, rfl⟩
        · exact ⟨_, rfl⟩
      · exact ⟨_, rfl⟩

/-! ### examples -/

def exScan (t : Text) : Bool := t ≠ [] && t.all fun c => '0' ≤ c && c ≤ '9'
def exClean (t : Text) : Text := 'C' :: ':' :: '\\' :: t

theorem not_infix {w : Text} (hw : w ≠ []) : ∀ {t : Text}, split w t = none → ¬ w <:+: t
  | [], _ => fun h => hw (List.infix_nil.1 h)
  | c :: t, h => by
    rw [split] at h
    split at h
    · cases h
    · next hs =>
      rw [List.infix_cons_iff]
      rintro (h1 | h1)
      · exact hs (List.isPrefixOf_iff_prefix.2 h1)
      · exact not_infix hw (Option.map_eq_none_iff.1 h) h1

theorem tag_of {tags : List Text} {w before line : Text} (h1 : w ∈ tags) (h2 : w ≠ []) (h3 : split w (before ++ w.dropLast) = none)
    (h4 : ∀ w' ∈ tags, w' ≠ [] ∧ (w' ≠ w → split w' line = none)) : Tag tags w before line :=
  ⟨h1, not_infix h2 h3, fun w' hw hn => not_infix (h4 w' hw).1 ((h4 w' hw).2 hn)⟩

/-- `C131_colons` -/
example : fixup exClean exScan "a.h:23:1: error: x".toList = .line "C:\\a.h(23,1): error: x".toList := by decide +kernel

theorem exTag : Tag gccTags [':', ' ', 'e', 'r', 'r', 'o', 'r', ':'] (['a', '.', 'h'] ++ ([['b']] : List Text).flatMap (fun t => ':' :: t) ++ ':' :: (['2'] ++ ':' :: ['1']))
    (['a', '.', 'h'] ++ ([['b']] : List Text).flatMap (fun t => ':' :: t) ++ ':' :: (['2'] ++ ':' :: ['1']) ++ ([':', ' ', 'e', 'r', 'r', 'o', 'r', ':'] ++ [' ', 'x'])) :=
  tag_of (by decide +kernel) (by decide) (by decide +kernel) (by decide +kernel)

example := C131_colons exClean exScan ['a', '.', 'h'] ['2'] ['1'] [':', ' ', 'e', 'r', 'r', 'o', 'r', ':'] [' ', 'x'] [['b']] (by simp [Plain]) (by simp [Plain])
  (by simp [Plain]) (by simp [Plain]) (by decide +kernel) (by decide +kernel) exTag

/-- `C131_colons` with a drive -/
example : fixup exClean exScan "D:\\a.h:23:1: error: x".toList = .line "D:\\a.h(23,1): error: x".toList := by decide +kernel

/-- `C131_commas` -/
example := C131_commas exClean exScan ['a', '.', 'h'] ['2'] ['1'] [':', ' ', 'n', 'o', 't', 'e', ':'] [' ', 'x'] (by simp [Plain])
  (by decide +kernel) (by decide +kernel) (tag_of (by decide +kernel) (by decide) (by decide +kernel) (by decide +kernel))

/-- `C131_snc` -/
example := C131_snc exClean exScan ['a', '.', 'h'] ['2', ',', '1', ')'] [':', ' ', 'e', 'r', 'r', 'o', 'r', ' '] ['5', '5', ':', ' ', 'x'] (by simp)
  (fun w hw => not_infix (gcc_ne hw) (by revert w; decide +kernel))
  (tag_of (by decide +kernel) (by decide) (by decide +kernel) (by decide +kernel))

/-- `C131_safe`, and the third style -/
example : fixup exClean exScan "warning 55 in line 8 of \"a b.h\": some text".toList = .line "C:\\a b.h(8,1): warning 55: some text ".toList := by
  decide +kernel

example : fixup exClean exScan "warning 55 in line 8 of \": some text".toList = .line "warning 55 in line 8 of \": some text".toList := by
  decide +kernel

/-- C131: an error whose text has `: warning:` in it stays as it is, since warnings are looked for first. -/
theorem C131_first_false : fixup exClean exScan "a.h:23:1: error: x: warning: y".toList = .line "a.h:23:1: error: x: warning: y".toList := by
  decide +kernel

end Verif.Fixup
