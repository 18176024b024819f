import Verif.Bff.LexTheorems
/-
C60: of the blocks of an `#if` the first one whose condition holds is read, and no other.
-/
namespace Verif.Bff.Lex

/-! ### fuel does not matter -/

theorem lexLine_mono : ∀ (n m : Nat) (s : Str), s.length ≤ n → s.length ≤ m → lexLine n s = lexLine m s := by
  intro n
  induction n with
  | zero => intro m s h _; cases s with
    | nil => simp [lexLine]
    | cons => simp at h
  | succ n ih =>
    intro m s h h'
    cases s with
    | nil => simp [lexLine]
    | cons c s =>
      cases m with
      | zero => simp at h'
      | succ m =>
        simp only [List.length_cons] at h h'
        simp only [lexLine]
        split
        · rename_i hl; have := lex_skip hl; exact ih _ _ (by omega) (by omega)
        · rename_i hl; have := lex_tok hl; rw [ih m _ (by omega) (by omega)]
        · rfl
        · rfl
        · rfl

theorem range_mono (W : World) (inc : St → Str → Res St) (i : Nat) : ∀ (n m : Nat) (st : St) (s : Str), s.length ≤ n → s.length ≤ m →
    range W inc i n st s = range W inc i m st s := by
  intro n
  induction n with
  | zero => intro m st s h _; cases s with
    | nil => simp [range]
    | cons => simp at h
  | succ n ih =>
    intro m st s h h'
    cases s with
    | nil => simp [range]
    | cons c s =>
      cases m with
      | zero => simp at h'
      | succ m =>
        simp only [List.length_cons] at h h'
        simp only [range]
        split
        · rename_i hl; have := lex_skip hl; exact ih _ _ _ (by omega) (by omega)
        · rename_i hl; have := lex_tok hl; exact ih _ _ _ (by omega) (by omega)
        · rfl
        · rfl
        · rename_i hl
          obtain ⟨rfl, _⟩ := lex_hash hl
          cases hd : directive W inc i st _ with
          | err => rfl
          | assert => rfl
          | fuel => rfl
          | ok l =>
            obtain ⟨d1, d2⟩ := directive_len W hd
            simp only [Res.bind_ok]
            split
            · split
              · exact ih _ _ _ (by omega) (by omega)
              · rfl
            · rename_i b hb
              have := d2 b hb
              rw [ih m _ _ (by omega) (by omega)]
              cases range W inc i m l.st b with
              | err => rfl
              | assert => rfl
              | fuel => rfl
              | ok st' =>
                simp only [Res.bind_ok]
                split
                · exact ih _ _ _ (by omega) (by omega)
                · rfl

theorem toEnd_mono (allow : Bool) : ∀ (n m d : Nat) (s : Str), s.length < n → s.length < m → toEnd allow n d s = toEnd allow m d s := by
  intro n
  induction n with
  | zero => intro m d s h; omega
  | succ n ih =>
    intro m d s h h'
    cases m with
    | zero => omega
    | succ m =>
      simp only [toEnd]
      split
      · rfl
      · rename_i c r hr
        have hs : s ≠ [] := by rintro rfl; simp at hr
        have hl := skipLine_lt hs
        have := fun d => ih m d (skipLine s) (by omega) (by omega)
        simp only [this]

/-! ### lines -/

theorem IsLine.skip {l : Str} (h : IsLine l) (s : Str) : skipLine (l ++ s) = s ∧ lineOf (l ++ s) = l := by
  obtain ⟨b, rfl, hb⟩ := h
  induction b with
  | nil => simp [skipLine, lineOf]
  | cons c b ih =>
    have hc : c ≠ '\n' := by rintro rfl; simp at hb
    have := ih (by intro h; exact hb (by simp [h]))
    simp only [List.cons_append, skipLine, lineOf, if_neg hc]
    exact ⟨this.1, by rw [this.2]⟩

theorem IsLine.ne {l : Str} (h : IsLine l) : l ≠ [] := by
  obtain ⟨b, rfl, _⟩ := h
  simp

theorem IsLine.cons {c : Char} {l : Str} (hc : c ≠ '\n') (h : IsLine l) : IsLine (c :: l) := by
  obtain ⟨b, rfl, hb⟩ := h
  exact ⟨c :: b, by simp, by simp [hb, Ne.symm hc]⟩

theorem IsLine.append {p l : Str} (hp : '\n' ∉ p) (h : IsLine l) : IsLine (p ++ l) := by
  induction p with
  | nil => exact h
  | cons c p ih =>
    exact .cons (by rintro rfl; simp at hp) (ih (by intro h'; exact hp (by simp [h'])))

theorem Blank.drop {p : Str} (h : Blank p) {c : Char} {s : Str} (hc : isBlank c = false) : (p ++ c :: s).dropWhile isBlank = c :: s := by
  induction p with
  | nil => simp [hc]
  | cons d p ih =>
    have hd : isBlank d = true := by
      have := h d (by simp)
      simpa [isBlank] using this
    simp only [List.cons_append, List.dropWhile_cons, hd, if_true]
    exact ih (fun e he => h e (by simp [he]))

theorem Blank.take {p : Str} (h : Blank p) {c : Char} {s : Str} (hc : isBlank c = false) : (p ++ c :: s).takeWhile isBlank = p := by
  induction p with
  | nil => simp [hc]
  | cons d p ih =>
    have hd : isBlank d = true := by
      have := h d (by simp)
      simpa [isBlank] using this
    simp only [List.cons_append, List.takeWhile_cons, hd, if_true]
    rw [ih (fun e he => h e (by simp [he]))]

theorem Blank.noLine {p : Str} (h : Blank p) : '\n' ∉ p := by
  intro hn
  rcases h _ hn with h | h <;> revert h <;> decide

/-- characters of the name of a directive -/
def nameChar (c : Char) : Bool := isLower c || c = '_'

theorem nameChar_iff {c : Char} : nameChar c = true ↔ ('a' ≤ c ∧ c ≤ 'z') ∨ c = '_' := by
  simp [nameChar, isLower]

theorem takeWhile_name {name tail : Str} (hn : ∀ c ∈ name, nameChar c = true) (ht : ∀ c, tail.head? = some c → nameChar c = false) :
    (name ++ tail).takeWhile nameChar = name := by
  induction name with
  | nil =>
    cases tail with
    | nil => rfl
    | cons c t => simp [ht c rfl]
  | cons c n ih =>
    simp only [List.cons_append, List.takeWhile_cons, hn c (by simp), if_true]
    rw [ih (fun d hd => hn d (by simp [hd]))]

theorem DirLine.parts {name pre tail l : Str} (h : DirLine name pre tail l) (hn : ∀ c ∈ name, nameChar c = true)
    (h0 : ∃ c ∈ name.head?, isLower c = true) (s : Str) :
    ∃ r, (l ++ s).dropWhile isBlank = '#' :: r ∧ dirName (r.dropWhile isBlank) = some name ∧
      (r.dropWhile isBlank).drop name.length = tail ++ s ∧ (l ++ s).takeWhile isBlank = pre ∧ IsLine l := by
  obtain ⟨mid, hm, rfl⟩ := h.text
  obtain ⟨c, hc0, hc⟩ := h0
  cases hname : name with
  | nil => rw [hname] at hc0; simp at hc0
  | cons d n =>
    have hd : d = c := by rw [hname] at hc0; simpa using hc0
    subst hd
    have hblank : isBlank d = false := by
      cases hb : isBlank d with
      | false => rfl
      | true =>
        simp only [isBlank, Bool.or_eq_true, decide_eq_true_eq] at hb
        rcases hb with rfl | rfl <;> revert hc <;> decide
    refine ⟨mid ++ (d :: (n ++ (tail ++ s))), ?_, ?_, ?_, ?_, ?_⟩
    · have := h.blanks.drop (c := '#') (s := mid ++ (d :: (n ++ (tail ++ s)))) (by decide)
      rw [← this]; simp
    · rw [hm.drop hblank]
      simp only [dirName, hc, if_true, Option.some.injEq]
      have ht := takeWhile_name (name := d :: n) (tail := tail ++ s) (by rw [← hname]; exact hn) (by
        intro c hc
        have : tail.head? = some c := by
          cases htl : tail with
          | nil => exact absurd htl h.line.ne
          | cons a t => rw [htl] at hc; simpa using hc
        have := h.ends c this
        cases hx : nameChar c with
        | false => rfl
        | true => rw [nameChar_iff] at hx; rcases hx with hx | hx; exact absurd hx this.1; exact absurd hx this.2)
      exact ht
    · rw [hm.drop hblank]; simp
    · have := h.blanks.take (c := '#') (s := mid ++ (d :: (n ++ (tail ++ s)))) (by decide)
      simpa using this
    · refine IsLine.append h.blanks.noLine (.cons (by decide) (.append hm.noLine (.append ?_ h.line)))
      intro hx
      have := hn _ (by rw [hname]; exact hx)
      revert this; decide

/-- put a text before the block -/
def pref (l : Str) (x : Res (Str × End × Str)) : Res (Str × End × Str) := do
  let b ← x
  pure (l ++ b.1, b.2)

theorem pref_pref (l m : Str) (x : Res (Str × End × Str)) : pref l (pref m x) = pref (l ++ m) x := by
  cases x <;> simp [pref]

theorem pref_nil (x : Res (Str × End × Str)) : pref [] x = x := by
  cases x <;> simp [pref]

theorem toEnd_plain {allow : Bool} {n d : Nat} {l s : Str} (h : Plain l) : toEnd allow (n + 1) d (l ++ s) = pref l (toEnd allow n d s) := by
  cases h with
  | @text _ pre r c hl hp he h1 h2 h3 =>
    have hc : isBlank c = false := by simp [isBlank, h1, h2]
    have hd := hp.drop (s := r ++ s) hc
    have : pre ++ c :: (r ++ s) = l ++ s := by rw [he]; simp
    rw [this] at hd
    simp only [toEnd, hd, if_neg h3, (hl.skip s).1, (hl.skip s).2]
    rfl
  | @dir name pre tail _ hl h0 hn hx =>
    obtain ⟨c, hc0, hc⟩ := h0
    obtain ⟨r, e1, e2, e3, e4, e5⟩ := hl.parts (fun c hc => nameChar_iff.mpr (hn c hc)) ⟨c, hc0, by simpa [isLower] using hc⟩ s
    simp only [List.mem_cons, List.not_mem_nil, or_false, not_or] at hx
    simp only [toEnd, e1, if_true, e2, hx, false_and, if_false, (e5.skip s).1, (e5.skip s).2]
    rfl

theorem toEnd_if {allow : Bool} {n d : Nat} {l s pre tail : Str} (h : DirLine "if".toList pre tail l) :
    toEnd allow (n + 1) d (l ++ s) = pref l (toEnd allow n (d + 1) s) := by
  obtain ⟨r, e1, e2, e3, e4, e5⟩ := h.parts (by decide) ⟨'i', rfl, by decide⟩ s
  have n1 : "if".toList ≠ "endif".toList := by decide
  have n2 : "if".toList ≠ "elif".toList := by decide
  have n3 : "if".toList ≠ "else".toList := by decide
  simp only [toEnd, e1, if_true, e2, n1, n2, n3, false_and, if_false, (e5.skip s).1, (e5.skip s).2]
  rfl

theorem toEnd_mid {allow : Bool} {n d : Nat} {l s pre tail name : Str} (hname : name = "elif".toList ∨ name = "else".toList)
    (h : DirLine name pre tail l) (hd : 2 ≤ d) : toEnd allow (n + 1) d (l ++ s) = pref l (toEnd allow n d s) := by
  have hd1 : d ≠ 1 := by omega
  rcases hname with rfl | rfl
  · obtain ⟨r, e1, e2, e3, e4, e5⟩ := h.parts (by decide) ⟨'e', rfl, by decide⟩ s
    have n1 : "elif".toList ≠ "endif".toList := by decide
    have n2 : "elif".toList ≠ "if".toList := by decide
    simp only [toEnd, e1, if_true, e2, n1, n2, hd1, and_false, if_false, (e5.skip s).1, (e5.skip s).2]
    rfl
  · obtain ⟨r, e1, e2, e3, e4, e5⟩ := h.parts (by decide) ⟨'e', rfl, by decide⟩ s
    have n1 : "else".toList ≠ "endif".toList := by decide
    have n2 : "else".toList ≠ "if".toList := by decide
    simp only [toEnd, e1, if_true, e2, n1, n2, hd1, and_false, if_false, (e5.skip s).1, (e5.skip s).2]
    rfl

theorem toEnd_endif {allow : Bool} {n d : Nat} {l s pre tail : Str} (h : DirLine "endif".toList pre tail l) (hd : 1 ≤ d) :
    toEnd allow (n + 1) (d + 1) (l ++ s) = pref l (toEnd allow n d s) := by
  obtain ⟨r, e1, e2, e3, e4, e5⟩ := h.parts (by decide) ⟨'e', rfl, by decide⟩ s
  have hd1 : d + 1 ≠ 1 := by omega
  simp only [toEnd, e1, if_true, e2, hd1, and_false, if_false, (e5.skip s).1, (e5.skip s).2, Nat.add_sub_cancel]
  rfl

theorem toEnd_bal {allow : Bool} {mid : Bool} {ls : List Str} (h : Bal mid ls) : ∀ (n d : Nat) (s : Str), (if mid then 2 else 1) ≤ d →
    toEnd allow (ls.length + n) d (ls.flatten ++ s) = pref ls.flatten (toEnd allow n d s) := by
  induction h with
  | nil => intro n d s _; simp [pref_nil]
  | plain hp _ ih =>
    intro n d s hd
    rw [List.length_cons, List.flatten_cons, List.append_assoc, Nat.add_right_comm, toEnd_plain hp, ih n d s hd, pref_pref]
  | mid hname hl _ ih =>
    intro n d s hd
    rw [List.length_cons, List.flatten_cons, List.append_assoc, Nat.add_right_comm, toEnd_mid hname hl (by simpa using hd), ih n d s hd, pref_pref]
  | @group mid _ _ l _ _ l' ls ms h1 _ h2 _ ih1 ih2 =>
    intro n d s hd
    have hd1 : 1 ≤ d := by split at hd <;> omega
    have e1 : (l :: (ls ++ l' :: ms)).length + n = (ls.length + (ms.length + n + 1)) + 1 := by
      simp only [List.length_cons, List.length_append]; omega
    have e2 : (l :: (ls ++ l' :: ms)).flatten ++ s = l ++ (ls.flatten ++ (l' ++ (ms.flatten ++ s))) := by simp
    rw [e1, e2, toEnd_if h1, ih1 _ (d + 1) _ (by simp; omega), toEnd_endif h2 hd1, ih2 n d s hd, pref_pref, pref_pref, pref_pref]
    simp

/-- the length of the text bounds the number of lines -/
theorem Bal.len {mid : Bool} {ls : List Str} (h : Bal mid ls) : ls.length ≤ ls.flatten.length := by
  have dir : ∀ {name pre tail l : Str}, DirLine name pre tail l → 1 ≤ l.length := by
    intro name pre tail l h
    obtain ⟨mid, _, rfl⟩ := h.text
    simp; omega
  induction h with
  | nil => simp
  | @plain _ l _ hp _ ih =>
    have : 1 ≤ l.length := by
      cases hp with
      | text hl => exact List.length_pos_iff.mpr hl.ne
      | dir hl => exact dir hl
    simp only [List.length_cons, List.flatten_cons, List.length_append]; omega
  | mid _ hl _ ih =>
    have := dir hl
    simp only [List.length_cons, List.flatten_cons, List.length_append]; omega
  | group h1 _ h2 _ ih1 ih2 =>
    have := dir h1
    have := dir h2
    simp only [List.length_cons, List.flatten_cons, List.length_append, List.flatten_append]; omega

/-- The end of a block is the first `#elif`, `#else` or `#endif` that belongs to its own `#if`. -/
theorem C60_endif {allow : Bool} {ls : List Str} (h : Bal false ls) {pre tail l : Str} (hl : DirLine "endif".toList pre tail l) (n : Nat) (s : Str)
    (hn : (ls.flatten ++ (l ++ s)).length < n) : toEnd allow n 1 (ls.flatten ++ (l ++ s)) = .ok (ls.flatten ++ pre, .endif, s) := by
  have hlen := h.len
  obtain ⟨m, rfl⟩ : ∃ m, n = ls.length + (m + 1) := ⟨n - ls.length - 1, by simp only [List.length_append] at hn; omega⟩
  obtain ⟨r, e1, e2, e3, e4, e5⟩ := hl.parts (by decide) ⟨'e', rfl, by decide⟩ s
  rw [toEnd_bal h _ _ _ (by simp)]
  simp only [toEnd, e1, if_true, e2, and_self, e4, (e5.skip s).1, pref, Res.bind_ok, Res.pure_eq]

theorem C60_elif {ls : List Str} (h : Bal false ls) {pre tail l : Str} (hl : DirLine "elif".toList pre tail l) (n : Nat) (s : Str)
    (hn : (ls.flatten ++ (l ++ s)).length < n) : toEnd true n 1 (ls.flatten ++ (l ++ s)) = .ok (ls.flatten ++ pre, .elif, tail ++ s) := by
  have hlen := h.len
  obtain ⟨m, rfl⟩ : ∃ m, n = ls.length + (m + 1) := ⟨n - ls.length - 1, by simp only [List.length_append] at hn; omega⟩
  obtain ⟨r, e1, e2, e3, e4, e5⟩ := hl.parts (by decide) ⟨'e', rfl, by decide⟩ s
  have n1 : "elif".toList ≠ "endif".toList := by decide
  rw [toEnd_bal h _ _ _ (by simp)]
  simp only [toEnd, e1, if_true, e2, n1, false_and, if_false, and_self, e4, e3, pref, Res.bind_ok, Res.pure_eq]

theorem C60_else {ls : List Str} (h : Bal false ls) {pre tail l : Str} (hl : DirLine "else".toList pre tail l) (n : Nat) (s : Str)
    (hn : (ls.flatten ++ (l ++ s)).length < n) : toEnd true n 1 (ls.flatten ++ (l ++ s)) = .ok (ls.flatten ++ pre, .else_, tail ++ s) := by
  have hlen := h.len
  obtain ⟨m, rfl⟩ : ∃ m, n = ls.length + (m + 1) := ⟨n - ls.length - 1, by simp only [List.length_append] at hn; omega⟩
  obtain ⟨r, e1, e2, e3, e4, e5⟩ := hl.parts (by decide) ⟨'e', rfl, by decide⟩ s
  have n1 : "else".toList ≠ "endif".toList := by decide
  have n2 : "else".toList ≠ "elif".toList := by decide
  rw [toEnd_bal h _ _ _ (by simp)]
  simp only [toEnd, e1, if_true, e2, n1, n2, false_and, if_false, and_self, e4, e3, pref, Res.bind_ok, Res.pure_eq]

theorem ifExpr_same {W : World} (hz : NoZeroHash W) {file : Str} {ev : Bool} {st : St} (hr : Recorded W st) {ts : List Tok}
    {r : Bool × List Tok × St} (h : ifExpr W file ev st ts = .ok r) : Same W st r.2.2 := by
  unfold ifExpr at h
  rw [Res.bind_eq_ok] at h
  obtain ⟨q, hq, h⟩ := h
  rw [Res.bind_eq_ok] at h
  obtain ⟨p, hp, h⟩ := h
  cases h
  obtain ⟨_, _, _, _, _, h4⟩ := lit_of_negTerm hz hr hq
  obtain ⟨_, _, _, _, _, _, g5⟩ := tail_of_terms hz (h4.2.2.2 hr) (by simp) hp
  exact h4.trans g5

/-- where the text goes on after a block -/
def nextText (stop : Str × End) (last : Str) : List Branch → Str
  | [] => stop.1
  | b :: bs => b.tail ++ (b.body.flatten ++ branchText last bs)

/-- which directive ends a block -/
def nextEnd (stop : Str × End) : List Branch → End
  | [] => stop.2
  | _ :: _ => .elif

/-- the end of an `#if`, as it is seen from the end of the last block -/
inductive Stop : Str → Str → Option Str → Str → Str × End → Prop
  | endif {pre tail l : Str} (rest : Str) : DirLine "endif".toList pre tail l → Stop pre (l ++ rest) none rest (rest, .endif)
  | else_ {pre tail l pre' tail' l' : Str} {body : List Str} (rest : Str) : DirLine "else".toList pre tail l → Bal false (tail :: body) →
      DirLine "endif".toList pre' tail' l' → Stop pre (l ++ (body.flatten ++ (l' ++ rest))) (some (tail ++ body.flatten ++ pre')) rest
        (tail ++ (body.flatten ++ (l' ++ rest)), .else_)

/-- what is selected of the blocks of `#elif` and `#else` -/
def sel (lastPre : Str) (els : Option Str) : List Branch → Option Str
  | [] => els
  | b :: bs => (firstTrue (blocks lastPre b.val b.body bs)).or els

/-- the blanks that end a block -/
def nextPre (lastPre : Str) : List Branch → Str
  | [] => lastPre
  | b :: _ => b.pre

theorem toEnd_next {W : World} {file : Str} {macros : List Str} {lastPre last : Str} {els : Option Str} {rest : Str} {stop : Str × End}
    (hs : Stop lastPre last els rest stop) {body : List Str} (hb : Bal false body) {bs : List Branch}
    (hbs : ∀ b ∈ bs, b.Ok W file macros) (n : Nat) (hn : (body.flatten ++ branchText last bs).length < n) :
    toEnd true n 1 (body.flatten ++ branchText last bs) =
      .ok (body.flatten ++ nextPre lastPre bs, nextEnd stop bs, nextText stop last bs) := by
  cases bs with
  | nil =>
    cases hs with
    | endif rest hl => exact C60_endif hb hl n _ hn
    | else_ rest hl _ _ => exact C60_else hb hl n _ hn
  | cons b bs => exact C60_elif hb (hbs b (by simp)).dir n _ hn

theorem branches_spec {W : World} (hz : NoZeroHash W) {file : Str} {lastPre last : Str} {els : Option Str} {rest : Str} {stop : Str × End}
    (hs : Stop lastPre last els rest stop) : ∀ (bs : List Branch) (st : St), Recorded W st → (∀ b ∈ bs, b.Ok W file st.macros) →
    ∀ (n : Nat) (v : Bool) (blk : Option Str), (v = false → blk = none) → (nextText stop last bs).length < n →
    ∃ st', Same W st st' ∧ branches W file n st v blk (nextEnd stop bs) (nextText stop last bs) =
      .ok (if v then blk else sel lastPre els bs, rest, st') := by
  intro bs
  induction bs with
  | nil =>
    intro st hr hbs n v blk hblk hn
    refine ⟨st, .refl _, ?_⟩
    cases hs with
    | endif rest hl => cases n <;> cases v <;> simp_all [branches, nextEnd, nextText, sel]
    | @else_ tail l pre' tail' l' body _ hl hb hl' =>
      have h1 := C60_endif (allow := false) hb hl' (tail ++ (body.flatten ++ (l' ++ rest))).length.succ rest (by simp)
      simp only [List.flatten_cons, List.append_assoc] at h1
      cases n with
      | zero => simp at hn
      | succ n =>
        simp only [branches, nextEnd, nextText]
        rw [h1]
        simp [sel]
  | cons b bs ih =>
    intro st hr hbs n v blk hblk hn
    have hb := hbs b (by simp)
    cases n with
    | zero => omega
    | succ n =>
      simp only [nextText] at hn
      have hl := hb.dir.line.skip (b.body.flatten ++ branchText last bs)
      have hlex : lexLine (b.tail ++ (b.body.flatten ++ branchText last bs)).length b.tail = .ok b.cond := by
        rw [← hb.lex]
        exact lexLine_mono _ _ _ (by simp) (Nat.le_refl _)
      obtain ⟨k, hd, hk⟩ := hb.cond
      obtain ⟨st1, h1⟩ := (C56_condition W hz file (!v) st hr b.cond (!v && b.val)).mpr ⟨b.val, k, hd, hk, rfl⟩
      have hs1 := ifExpr_same hz hr h1
      have hbs1 : ∀ c ∈ bs, c.Ok W file st1.macros := by
        intro c hc
        rw [hs1.1]
        exact hbs c (by simp [hc])
      have h2 := toEnd_next hs hb.body hbs1 ((b.body.flatten ++ branchText last bs).length + 1) (by omega)
      have hlen : b.tail.length ≥ 1 := List.length_pos_iff.mpr hb.dir.line.ne
      have h3 := (toEnd_props true _ 1 _ (by omega : (b.body.flatten ++ branchText last bs).length < (b.body.flatten ++ branchText last bs).length + 1)).2 _ h2
      simp only at h3
      obtain ⟨st2, hs2, e2⟩ := ih st1 (hs1.2.2.2 hr) hbs1 n (v || (!v && b.val))
        (if v then blk else if !v && b.val then some (b.body.flatten ++ nextPre lastPre bs) else none) (by cases v <;> cases b.val <;> simp)
        (by simp only [List.length_append] at hn h3 ⊢; omega)
      refine ⟨st2, hs1.trans hs2, ?_⟩
      have en : nextEnd stop (b :: bs) = .elif := rfl
      have tn : nextText stop last (b :: bs) = b.tail ++ (b.body.flatten ++ branchText last bs) := rfl
      rw [en, tn]
      simp only [branches, hl.1, hl.2, hlex, Res.bind_ok, h1, h2, ne_eq, not_true_eq_false, if_false]
      rw [e2]
      congr 1
      cases v with
      | true => simp
      | false =>
        cases bs with
        | nil => cases hv : b.val <;> simp [sel, blocks, firstTrue, nextPre, List.find?_cons, hv]
        | cons c cs => cases hv : b.val <;> simp [sel, blocks, firstTrue, nextPre, List.find?_cons, hv]

/-- `Tokenize` of a text -/
def run (W : World) (inc : St → Str → Res St) (i : Nat) (st : St) (s : Str) : Res St := range W inc i s.length st s

/-- Of the blocks of an `#if` the one of the first condition that holds is read, or the one of `#else` if none does, or
nothing; then the text after the `#endif`. `tail`: what follows `#if` in its line. -/
theorem C60_selected (W : World) (hz : NoZeroHash W) (inc : St → Str → Res St) (i : Nat) (st : St) (hr : Recorded W st) (f : File)
    (hf : st.files[i]? = some f) (line : Str) (hline : IsLine line) (cond : List Tok) (hlex : lexLine line.length line = .ok (.kw .if_ :: cond))
    (v : Bool) (k : Nat) (hc : Disj W f.name st.macros cond v k) (hk : k ≤ 255) (body : List Str) (hb : Bal false body)
    (bs : List Branch) (hbs : ∀ b ∈ bs, b.Ok W f.name st.macros) (lastPre last rest : Str) (els : Option Str) (hl : Last lastPre last els rest) :
    ∃ st', Same W st st' ∧ run W inc i st ('#' :: (line ++ (body.flatten ++ branchText last bs))) =
      (do
        let st'' ← run W inc i st' (((firstTrue (blocks lastPre v body bs)).or els).getD [])
        run W inc i st'' rest) := by
  obtain ⟨stop, hs⟩ : ∃ stop, Stop lastPre last els rest stop := by
    cases hl with
    | endif rest h => exact ⟨_, .endif rest h⟩
    | else_ rest h h' h'' => exact ⟨_, .else_ rest h h' h''⟩
  obtain ⟨st1, h1⟩ := (C56_condition W hz f.name true st hr cond v).mpr ⟨v, k, hc, hk, by simp⟩
  have hs1 := ifExpr_same hz hr h1
  have hbs1 : ∀ c ∈ bs, c.Ok W f.name st1.macros := by
    intro c hc
    rw [hs1.1]
    exact hbs c hc
  have h2 := toEnd_next hs hb hbs1 ((body.flatten ++ branchText last bs).length + 1) (by omega)
  have h3 := (toEnd_props true _ 1 _ (by omega : (body.flatten ++ branchText last bs).length < (body.flatten ++ branchText last bs).length + 1)).2 _ h2
  simp only at h3
  obtain ⟨st2, hs2, e2⟩ := branches_spec hz hs bs st1 (hs1.2.2.2 hr) hbs1 (line ++ (body.flatten ++ branchText last bs)).length v
    (if v then some (body.flatten ++ nextPre lastPre bs) else none) (by cases v <;> simp) (by
      have : line.length ≥ 1 := List.length_pos_iff.mpr hline.ne
      simp only [List.length_append] at h3 ⊢; omega)
  have hsel : (if v then (if v then some (body.flatten ++ nextPre lastPre bs) else none) else sel lastPre els bs) = (firstTrue (blocks lastPre v body bs)).or els := by
    cases bs with
    | nil => cases v <;> simp [blocks, firstTrue, nextPre, sel]
    | cons c cs => cases v <;> simp [blocks, firstTrue, nextPre, sel]
  rw [hsel] at e2
  have hlex' : lexLine (line ++ (body.flatten ++ branchText last bs)).length line = .ok (.kw .if_ :: cond) := by
    rw [← hlex]
    exact lexLine_mono _ _ _ (by simp) (Nat.le_refl _)
  have hsk := hline.skip (body.flatten ++ branchText last bs)
  have hdir : directive W inc i st (line ++ (body.flatten ++ branchText last bs)) =
      .ok ⟨st2, (firstTrue (blocks lastPre v body bs)).or els, [], rest⟩ := by
    unfold directive
    rw [hsk.1, hsk.2, hlex', Res.bind_ok, hf]
    simp only [h1, h2, Res.bind_ok]
    rw [e2]
    rfl
  have hlx : lex '#' (line ++ (body.flatten ++ branchText last bs)) = .hash (line ++ (body.flatten ++ branchText last bs)) := by
    cases hq : line ++ (body.flatten ++ branchText last bs) with
    | nil => simp [lex, isWs, isIdStart, isUpper, isLower, isQuote, lexRest, op1, isDigit, bracket]
    | cons => simp [lex, isWs, isIdStart, isUpper, isLower, isQuote, op2, lexRest, op1, isDigit, bracket]
  obtain ⟨d1, d2⟩ := directive_len W hdir
  refine ⟨st2, hs1.trans hs2, ?_⟩
  simp only [run, List.length_cons, range, hlx, hdir, Res.bind_ok]
  cases hsel : (firstTrue (blocks lastPre v body bs)).or els with
  | none =>
    simp only [Option.getD_none, List.length_nil, range, if_true, Res.bind_ok]
    exact range_mono _ _ _ _ _ _ _ d1 (Nat.le_refl _)
  | some b =>
    have hb := d2 b hsel
    simp only [Option.getD_some, if_true]
    rw [range_mono _ _ _ _ b.length _ _ hb (Nat.le_refl _)]
    congr 1
    funext st''
    exact range_mono _ _ _ _ _ _ _ d1 (Nat.le_refl _)

/-! ### the hypotheses are met -/

theorem dirLine_ex (name tail l : Str) (ht : IsLine tail) (hl : l = '#' :: (name ++ tail))
    (he : ∀ c, tail.head? = some c → ¬ ('a' ≤ c ∧ c ≤ 'z') ∧ c ≠ '_') : DirLine name [] tail l :=
  ⟨ht, (by intro c h; cases h), ⟨[], (by intro c h; cases h), by simp [hl]⟩, he⟩

theorem newline_line : IsLine ['\n'] := ⟨[], rfl, by simp⟩

theorem newline_ends : ∀ c, ['\n'].head? = some c → ¬ ('a' ≤ c ∧ c ≤ 'z') ∧ c ≠ '_' := by
  intro c h
  cases h
  decide

/-- `#elif exists( P )`, with an `#if` of its own in its block -/
def exBranch : Branch where
  pre := []
  line := "#elif exists( P )\n".toList
  tail := " exists( P )\n".toList
  cond := [.kw .exists_, .brace .rl, .ident "P".toList, .brace .rr]
  val := true
  body := [".X = 'x'\n".toList, "#if Z\n".toList, "#else\n".toList, "#endif\n".toList]

theorem exBranch_ok : exBranch.Ok exW [] [] where
  dir := dirLine_ex _ _ _ ⟨" exists( P )".toList, rfl, by decide⟩ rfl (by intro c h; cases h; decide)
  lex := by
    have h : (match lexLine exBranch.tail.length exBranch.tail with | .ok t => decide (t = exBranch.cond) | _ => false) = true := by decide +kernel
    split at h
    · rename_i t ht
      rw [ht, of_decide_eq_true h]
    · cases h
  cond := ⟨1, .one (.one (.pos (.exists_ _ rfl rfl))), by decide⟩
  body :=
    .plain (.text (pre := []) (c := '.') (r := "X = 'x'\n".toList) ⟨".X = 'x'".toList, rfl, by decide⟩ (by intro c h; cases h) rfl (by decide) (by decide) (by decide))
      (Bal.group (ls := ["#else\n".toList]) (ms := [])
        (dirLine_ex "if".toList " Z\n".toList _ ⟨" Z".toList, rfl, by decide⟩ rfl (by intro c h; cases h; decide))
        (.mid (.inr rfl) (dirLine_ex "else".toList ['\n'] _ newline_line rfl newline_ends) .nil)
        (dirLine_ex "endif".toList ['\n'] _ newline_line rfl newline_ends) .nil)

/-- `#if A`, then the branch above, then `#else`: the block of `#elif` is read. -/
example (inc : St → Str → Res St) : ∃ st', Same exW ⟨[], [⟨[], [], false⟩], [], [], []⟩ st' ∧
    run exW inc 0 ⟨[], [⟨[], [], false⟩], [], [], []⟩
      "#if A\n.A = 'a'\n#elif exists( P )\n.X = 'x'\n#if Z\n#else\n#endif\n#else\n.B = 'b'\n#endif\n.C = 'c'".toList =
    (do
      let st'' ← run exW inc 0 st' ".X = 'x'\n#if Z\n#else\n#endif\n".toList
      run exW inc 0 st'' ".C = 'c'".toList) := by
  have plain : ∀ l r : Str, l = '.' :: r → IsLine l → Plain l := fun l r h hl =>
    .text (pre := []) (c := '.') (r := r) hl (by intro c h; cases h) h (by decide) (by decide) (by decide)
  have hlex : lexLine "if A\n".toList.length "if A\n".toList = .ok [.kw .if_, .ident "A".toList] := by
    have h : (match lexLine "if A\n".toList.length "if A\n".toList with | .ok t => decide (t = [.kw .if_, .ident "A".toList]) | _ => false) = true := by
      decide +kernel
    split at h
    · rename_i t ht
      rw [ht, of_decide_eq_true h]
    · cases h
  exact C60_selected exW exW_noZero inc 0 ⟨[], [⟨[], [], false⟩], [], [], []⟩ (by intro e h; cases h) ⟨[], [], false⟩ rfl "if A\n".toList
    ⟨"if A".toList, rfl, by decide⟩ [.ident "A".toList] hlex false 1 (.one (.one (.pos (.defined _)))) (by decide)
    [".A = 'a'\n".toList] (.plain (plain _ "A = 'a'\n".toList rfl ⟨".A = 'a'".toList, rfl, by decide⟩) .nil) [exBranch]
    (by intro b hb; cases hb with
      | head => exact exBranch_ok
      | tail _ h => cases h) [] _ ".C = 'c'".toList _
    (.else_ (l := "#else\n".toList) (l' := "#endif\n".toList) (body := [".B = 'b'\n".toList]) ".C = 'c'".toList
      (dirLine_ex "else".toList ['\n'] _ newline_line rfl newline_ends)
      (.plain (.text (pre := []) (c := '\n') (r := []) newline_line (by intro c h; cases h) rfl (by decide) (by decide) (by decide))
        (.plain (plain _ "B = 'b'\n".toList rfl ⟨".B = 'b'".toList, rfl, by decide⟩) .nil))
      (dirLine_ex "endif".toList ['\n'] _ newline_line rfl newline_ends))

end Verif.Bff.Lex
