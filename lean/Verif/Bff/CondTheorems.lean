import Verif.Bff.LexSpec
/-
C56: conditions of `#if` and `#elif`.
-/
namespace Verif.Bff.Lex

/-- the literals after the first, as they are stored -/
inductive Tail (W : World) (file : Str) (macros : List Str) (ev : Bool) : List Tok → List Nat → Prop
  | nil : Tail W file macros ev [] []
  | and {us ts : List Tok} {v : Bool} {h : List Nat} : Lit W file macros us v → Tail W file macros ev ts h →
      Tail W file macros ev (.op .and :: (us ++ ts)) ((2 ||| (ev && v).toNat) :: h)
  | or {us ts : List Tok} {v : Bool} {h : List Nat} : Lit W file macros us v → Tail W file macros ev ts h →
      Tail W file macros ev (.op .or :: (us ++ ts)) ((4 ||| (ev && v).toNat) :: h)

/-- what the history means -/
def val : Bool → List Nat → Bool
  | b, [] => b
  | b, a :: h => if a &&& 2 ≠ 0 then val (b && (a &&& 1 = 1)) h else b || val (a &&& 1 = 1) h

/-- entries of the history -/
def Entry (a : Nat) : Prop := ∃ b : Bool, a = 2 ||| b.toNat ∨ a = 4 ||| b.toNat

theorem passes : ∀ (h : List Nat) (a : Nat), (∀ e ∈ h, Entry e) → orPass (andPass (a :: h)) = val (a &&& 1 = 1) h
  | [], a, _ => by simp [andPass, orPass, val]
  | b :: h, a, he => by
    have ih := fun a => passes h a (fun e h' => he e (by simp [h']))
    obtain ⟨w, rfl | rfl⟩ := he b (by simp)
    · have h2 : (2 ||| w.toNat) &&& 2 ≠ 0 := by cases w <;> decide
      rw [andPass, if_pos h2, val, if_pos h2]
      simp only [orPass]
      rw [ih]
      have : (a &&& (2 ||| w.toNat)) &&& 1 = if w then a &&& 1 else 0 := by
        rw [Nat.and_assoc]
        cases w
        · simp
        · simp
      cases w
      · simp at this
        simp [this]
      · simp at this
        simp [this]
    · have h2 : ¬ ((4 ||| w.toNat) &&& 2 ≠ 0) := by cases w <;> decide
      rw [andPass, if_neg h2, val, if_neg h2]
      simp only [orPass]
      rw [ih]

theorem Tail.entries {W : World} {file : Str} {macros : List Str} {ev : Bool} {ts : List Tok} {h : List Nat}
    (ht : Tail W file macros ev ts h) : ∀ e ∈ h, Entry e := by
  induction ht with
  | nil => simp
  | and _ _ ih =>
    intro e he
    rcases List.mem_cons.mp he with rfl | he
    · exact ⟨_, .inl rfl⟩
    · exact ih e he
  | or _ _ ih =>
    intro e he
    rcases List.mem_cons.mp he with rfl | he
    · exact ⟨_, .inr rfl⟩
    · exact ih e he

/-! ### terms -/

/-- what evaluation of a condition keeps -/
def Same (W : World) (a b : St) : Prop :=
  b.macros = a.macros ∧ b.toks = a.toks ∧ b.files = a.files ∧ (Recorded W a → Recorded W b)

theorem Same.refl {W : World} (a : St) : Same W a a := ⟨rfl, rfl, rfl, id⟩
theorem Same.trans {W : World} {a b c : St} (h : Same W a b) (h' : Same W b c) : Same W a c :=
  ⟨h'.1.trans h.1, h'.2.1.trans h.2.1, h'.2.2.1.trans h.2.2.1, fun x => h'.2.2.2 (h.2.2.2 x)⟩

theorem importVar_same {W : World} (st : St) (x : Str) (h : Nat) : Same W st (importVar st x h).2 := by
  unfold importVar
  split <;> exact ⟨rfl, rfl, rfl, id⟩

theorem checkFile_same {W : World} (st : St) (p : Str) : Same W st (checkFile W st p).2 := by
  unfold checkFile
  split
  · exact .refl _
  · refine ⟨rfl, rfl, rfl, fun h e he => ?_⟩
    rcases List.mem_append.mp he with he | he
    · exact h e he
    · simp only [List.mem_singleton] at he
      subst he; rfl

theorem checkFile_val {W : World} {st : St} (h : Recorded W st) (p : Str) : (checkFile W st p).1 = W.exists_ p := by
  unfold checkFile
  split
  · rename_i e he
    have h1 := List.mem_of_find?_eq_some he
    have h2 := List.find?_some he
    simp only [decide_eq_true_eq] at h2
    rw [h e h1, h2]
  · rfl

theorem envHash_ne {W : World} (hz : NoZeroHash W) (x : Str) : decide (envHash W x ≠ 0) = (W.env x).isSome := by
  unfold envHash
  cases h : W.env x with
  | none => simp
  | some v => simpa using hz x v h

section
variable {W : World} (hz : NoZeroHash W) {file : Str} {ev : Bool}
include hz

theorem term_of_atom {st : St} (hr : Recorded W st) {ts : List Tok} {v : Bool} (rest : List Tok) (h : Atom W file st.macros ts v) :
    ∃ st', Same W st st' ∧ term W file ev st (ts ++ rest) = .ok (ev && v, rest, st') := by
  cases h with
  | defined x =>
    refine ⟨st, .refl _, ?_⟩
    simp [term, defined]
  | exists_ x hb hc =>
    cases ev
    · exact ⟨st, .refl _, by simp [term, hb, hc]⟩
    · refine ⟨_, importVar_same st x (envHash W x), ?_⟩
      simp only [List.cons_append, List.nil_append, term, hb, hc, Bool.and_self, if_true, Res.pure_eq, Bool.true_and]
      rw [envHash_ne hz]
  | fileExists x hb hc =>
    cases ev
    · exact ⟨st, .refl _, by simp [term, hb, hc]⟩
    · refine ⟨_, checkFile_same st (W.expand file x), ?_⟩
      simp only [List.cons_append, List.nil_append, term, hb, hc, Bool.and_self, if_true, Res.pure_eq, Bool.true_and]
      rw [checkFile_val hr]

theorem atom_of_term {st : St} (hr : Recorded W st) {ts : List Tok} {r : Bool × List Tok × St}
    (h : term W file ev st ts = .ok r) : ∃ us v, ts = us ++ r.2.1 ∧ Atom W file st.macros us v ∧ r.1 = (ev && v) ∧ Same W st r.2.2 := by
  unfold term at h
  split at h
  · rename_i b x c ts
    split at h
    · rename_i hbc
      simp only [Bool.and_eq_true] at hbc
      split at h
      · rename_i hev
        cases h
        refine ⟨[_, _, _, _], _, rfl, .exists_ x hbc.1 hbc.2, ?_, importVar_same _ _ _⟩
        rw [hev, Bool.true_and]
        exact envHash_ne hz x
      · rename_i hev
        cases h
        exact ⟨[_, _, _, _], _, rfl, .exists_ x hbc.1 hbc.2, by simp [hev], .refl _⟩
    · cases h
  · rename_i b x c ts
    split at h
    · rename_i hbc
      simp only [Bool.and_eq_true] at hbc
      split at h
      · rename_i hev
        cases h
        refine ⟨[_, _, _, _], _, rfl, .fileExists x hbc.1 hbc.2, ?_, checkFile_same _ _⟩
        rw [hev, Bool.true_and]
        exact checkFile_val hr _
      · rename_i hev
        cases h
        exact ⟨[_, _, _, _], _, rfl, .fileExists x hbc.1 hbc.2, by simp [hev], .refl _⟩
    · cases h
  · rename_i x ts
    cases h
    exact ⟨[_], _, rfl, .defined x, rfl, .refl _⟩
  · cases h

theorem negTerm_of_lit {st : St} (hr : Recorded W st) {ts : List Tok} {v : Bool} (rest : List Tok) (h : Lit W file st.macros ts v) :
    ∃ st', Same W st st' ∧ negTerm W file ev st (ts ++ rest) = .ok (ev && v, rest, st') := by
  cases h with
  | pos h =>
    obtain ⟨st', h1, h2⟩ := term_of_atom hz hr (ev := ev) rest h
    refine ⟨st', h1, ?_⟩
    have hn : isNot (ts ++ rest) = false := by cases h <;> rfl
    simp only [negTerm, hn, Bool.false_eq_true, if_false, Bool.and_false]
    rw [h2]
    rfl
  | @neg us w h =>
    obtain ⟨st', h1, h2⟩ := term_of_atom hz hr (ev := ev) rest h
    refine ⟨st', h1, ?_⟩
    have hn : isNot (.op .not :: (us ++ rest)) = true := rfl
    simp only [List.cons_append, negTerm, hn, if_true, Bool.and_true, List.drop_succ_cons, List.drop_zero]
    rw [h2]
    cases ev <;> rfl

theorem lit_of_negTerm {st : St} (hr : Recorded W st) {ts : List Tok} {r : Bool × List Tok × St}
    (h : negTerm W file ev st ts = .ok r) : ∃ us v, ts = us ++ r.2.1 ∧ Lit W file st.macros us v ∧ r.1 = (ev && v) ∧ Same W st r.2.2 := by
  unfold negTerm at h
  rw [Res.bind_eq_ok] at h
  obtain ⟨q, hq, h⟩ := h
  obtain ⟨us, v, h1, h2, h3, h4⟩ := atom_of_term hz hr hq
  cases h
  cases hn : isNot ts with
  | false =>
    rw [hn] at h1
    exact ⟨us, v, by simpa using h1, .pos h2, by simp [h3], h4⟩
  | true =>
    rw [hn] at h1
    have : ∃ ts', ts = .op .not :: ts' := by
      unfold isNot at hn
      split at hn
      · exact ⟨_, rfl⟩
      · cases hn
    obtain ⟨ts', rfl⟩ := this
    refine ⟨.op .not :: us, !v, by simpa using h1, .neg h2, ?_, h4⟩
    cases ev <;> simp [h3]

omit hz in
theorem Lit.ne {macros : List Str} {ts : List Tok} {v : Bool} (h : Lit W file macros ts v) : 0 < ts.length := by
  cases h with
  | pos h => cases h <;> simp
  | neg h => simp

theorem terms_of_tail {ts : List Tok} : ∀ {n : Nat} {st : St} {h0 h : List Nat}, Recorded W st → Tail W file st.macros ev ts h →
    ts.length ≤ n → h0.length + h.length < 256 →
    ∃ st', Same W st st' ∧ terms W file ev n st h0 ts = .ok (h0 ++ h, [], st') := by
  intro n
  induction n generalizing ts with
  | zero =>
    intro st h0 h hr ht hn hl
    cases ht with
    | nil => exact ⟨st, .refl _, by simp [terms]⟩
    | and => simp at hn
    | or => simp at hn
  | succ n ih =>
    intro st h0 h hr ht hn hl
    cases ht with
    | nil => exact ⟨st, .refl _, by simp [terms]⟩
    | @and us ts' v h' hlit ht =>
      obtain ⟨st1, hs1, e1⟩ := negTerm_of_lit hz hr (ev := ev) ts' hlit
      simp only [terms, e1, Res.bind_ok]
      have : record h0 (2 ||| (ev && v).toNat) = .ok (h0 ++ [2 ||| (ev && v).toNat]) := by
        simp only [List.length_cons] at hl
        rw [record, if_neg (by omega), if_neg (by omega)]
      rw [this]
      have hlen := hlit.ne
      obtain ⟨st2, hs2, e2⟩ := ih (ts := ts') (h0 := h0 ++ [2 ||| (ev && v).toNat]) (hs1.2.2.2 hr) (by rw [hs1.1]; exact ht) (by simp at hn; omega)
        (by simp only [List.length_append, List.length_cons, List.length_nil] at hl ⊢; omega)
      exact ⟨st2, hs1.trans hs2, by simpa using e2⟩
    | @or us ts' v h' hlit ht =>
      obtain ⟨st1, hs1, e1⟩ := negTerm_of_lit hz hr (ev := ev) ts' hlit
      simp only [terms, e1, Res.bind_ok]
      have : record h0 (4 ||| (ev && v).toNat) = .ok (h0 ++ [4 ||| (ev && v).toNat]) := by
        simp only [List.length_cons] at hl
        rw [record, if_neg (by omega), if_neg (by omega)]
      rw [this]
      have hlen := hlit.ne
      obtain ⟨st2, hs2, e2⟩ := ih (ts := ts') (h0 := h0 ++ [4 ||| (ev && v).toNat]) (hs1.2.2.2 hr) (by rw [hs1.1]; exact ht) (by simp at hn; omega)
        (by simp only [List.length_append, List.length_cons, List.length_nil] at hl ⊢; omega)
      exact ⟨st2, hs1.trans hs2, by simpa using e2⟩

omit hz in
theorem record_ok {h h' : List Nat} {r : Nat} (hr : record h r = .ok h') : h' = h ++ [r] ∧ h'.length < 256 := by
  unfold record at hr
  split at hr
  · cases hr
  · split at hr
    · cases hr
    · cases hr
      exact ⟨rfl, by simp; omega⟩

theorem tail_of_terms : ∀ {n : Nat} {st : St} {h0 : List Nat} {ts : List Tok} {r : List Nat × List Tok × St}, Recorded W st →
    h0.length < 256 → terms W file ev n st h0 ts = .ok r → ∃ us h, ts = us ++ r.2.1 ∧ Tail W file st.macros ev us h ∧ r.1 = h0 ++ h ∧
      r.1.length < 256 ∧ Same W st r.2.2 := by
  intro n
  induction n with
  | zero =>
    intro st h0 ts r hr hl h
    unfold terms at h
    split at h
    · rename_i hc; cases hc
    · rename_i hc; cases hc
    · cases h
    · cases h
    · cases h
      exact ⟨[], [], rfl, .nil, by simp, hl, .refl _⟩
  | succ n ih =>
    intro st h0 ts r hr hl h
    unfold terms at h
    split at h
    · rename_i hc
      cases hc
      rw [Res.bind_eq_ok] at h
      obtain ⟨q, hq, h⟩ := h
      rw [Res.bind_eq_ok] at h
      obtain ⟨h1, hh, h⟩ := h
      obtain ⟨us, v, e1, e2, e3, e4⟩ := lit_of_negTerm hz hr hq
      obtain ⟨rfl, hl'⟩ := record_ok hh
      obtain ⟨us', h', f1, f2, f3, f4, f5⟩ := ih (e4.2.2.2 hr) hl' h
      refine ⟨.op .and :: (us ++ us'), (2 ||| (ev && v).toNat) :: h', by rw [e1, f1]; simp, .and e2 (by rw [← e4.1]; exact f2), ?_, f4, e4.trans f5⟩
      rw [f3, e3]; simp
    · rename_i hc
      cases hc
      rw [Res.bind_eq_ok] at h
      obtain ⟨q, hq, h⟩ := h
      rw [Res.bind_eq_ok] at h
      obtain ⟨h1, hh, h⟩ := h
      obtain ⟨us, v, e1, e2, e3, e4⟩ := lit_of_negTerm hz hr hq
      obtain ⟨rfl, hl'⟩ := record_ok hh
      obtain ⟨us', h', f1, f2, f3, f4, f5⟩ := ih (e4.2.2.2 hr) hl' h
      refine ⟨.op .or :: (us ++ us'), (4 ||| (ev && v).toNat) :: h', by rw [e1, f1]; simp, .or e2 (by rw [← e4.1]; exact f2), ?_, f4, e4.trans f5⟩
      rw [f3, e3]; simp
    · rename_i hc; cases hc
    · rename_i hc; cases hc
    · cases h
      exact ⟨[], [], rfl, .nil, by simp, hl, .refl _⟩

end

/-! ### the grammar -/

theorem Tail.append {W : World} {file : Str} {macros : List Str} {ev : Bool} {ts us : List Tok} {h h' : List Nat}
    (ht : Tail W file macros ev ts h) (hu : Tail W file macros ev us h') : Tail W file macros ev (ts ++ us) (h ++ h') := by
  induction ht with
  | nil => exact hu
  | and hl _ ih => simpa using Tail.and hl ih
  | or hl _ ih => simpa using Tail.or hl ih

theorem val_append_or : ∀ (h : List Nat) (b : Bool) (a : Nat) (h' : List Nat), a &&& 2 = 0 →
    val b (h ++ a :: h') = (val b h || val (a &&& 1 = 1) h')
  | [], b, a, h', ha => by simp [val, ha]
  | c :: h, b, a, h', ha => by
    simp only [List.cons_append, val]
    split
    · exact val_append_or h _ a h' ha
    · rw [val_append_or h _ a h' ha, Bool.or_assoc]

theorem val_and_snoc : ∀ (h : List Nat) (b : Bool) (a : Nat), (∀ e ∈ h, e &&& 2 ≠ 0) → a &&& 2 ≠ 0 →
    val b (h ++ [a]) = (val b h && (a &&& 1 = 1))
  | [], b, a, _, ha => by simp [val, ha]
  | c :: h, b, a, hh, ha => by
    simp only [List.cons_append, val]
    rw [if_pos (hh c (by simp)), if_pos (hh c (by simp))]
    exact val_and_snoc h _ a (fun e he => hh e (by simp [he])) ha

theorem bit2 (v : Bool) : decide ((2 ||| v.toNat) &&& 1 = 1) = v := by cases v <;> decide
theorem bit4 (v : Bool) : decide ((4 ||| v.toNat) &&& 1 = 1) = v := by cases v <;> decide

theorem conj_tail {W : World} {file : Str} {macros : List Str} {ts : List Tok} {v : Bool} {n : Nat} (ev : Bool)
    (h : Conj W file macros ts v n) : ∃ us v0 rest hs, ts = us ++ rest ∧ Lit W file macros us v0 ∧ Tail W file macros ev rest hs ∧
      n = hs.length + 1 ∧ (∀ e ∈ hs, e &&& 2 ≠ 0) ∧ (ev && v) = val (ev && v0) hs := by
  induction h with
  | one hl => exact ⟨_, _, [], [], by simp, hl, .nil, rfl, by simp, rfl⟩
  | @and ts us v w n _ hl ih =>
    obtain ⟨us0, v0, rest, hs, rfl, h1, h2, h3, h4, h5⟩ := ih
    refine ⟨us0, v0, rest ++ .op .and :: us, hs ++ [2 ||| (ev && w).toNat], by simp, h1, ?_, by simp [h3], ?_, ?_⟩
    · simpa using h2.append (Tail.and hl .nil)
    · intro e he
      rcases List.mem_append.mp he with he | he
      · exact h4 e he
      · simp only [List.mem_singleton] at he
        subst he
        cases (ev && w) <;> decide
    · rw [val_and_snoc _ _ _ h4 (by cases (ev && w) <;> decide), bit2, ← h5]
      cases ev <;> simp

theorem disj_tail {W : World} {file : Str} {macros : List Str} {ts : List Tok} {v : Bool} {n : Nat} (ev : Bool)
    (h : Disj W file macros ts v n) : ∃ us v0 rest hs, ts = us ++ rest ∧ Lit W file macros us v0 ∧ Tail W file macros ev rest hs ∧
      n = hs.length + 1 ∧ (ev && v) = val (ev && v0) hs := by
  induction h with
  | one hc =>
    obtain ⟨us0, v0, rest, hs, h1, h2, h3, h4, _, h5⟩ := conj_tail ev hc
    exact ⟨us0, v0, rest, hs, h1, h2, h3, h4, h5⟩
  | @or ts us v w n m _ hc ih =>
    obtain ⟨us0, v0, rest, hs, rfl, h1, h2, h3, h5⟩ := ih
    obtain ⟨us1, v1, rest1, hs1, rfl, g1, g2, g3, _, g5⟩ := conj_tail ev hc
    refine ⟨us0, v0, rest ++ .op .or :: (us1 ++ rest1), hs ++ (4 ||| (ev && v1).toNat) :: hs1, by simp, h1, ?_, by simp [h3, g3]; omega, ?_⟩
    · exact h2.append (Tail.or g1 g2)
    · rw [val_append_or _ _ _ _ (by cases (ev && v1) <;> decide), bit4, ← h5, ← g5]
      cases ev <;> simp

/-- an unfinished disjunction: the part before the last `||`, if any, and the conjunction after it -/
inductive Open (W : World) (file : Str) (macros : List Str) : List Tok → Option Bool → Bool → Nat → Prop
  | one {ts : List Tok} {v : Bool} {n : Nat} : Conj W file macros ts v n → Open W file macros ts none v n
  | or {ts us : List Tok} {v w : Bool} {n m : Nat} : Disj W file macros ts v n → Conj W file macros us w m →
      Open W file macros (ts ++ .op .or :: us) (some v) w (n + m)

theorem Open.disj {W : World} {file : Str} {macros : List Str} {ts : List Tok} {p : Option Bool} {v : Bool} {n : Nat}
    (h : Open W file macros ts p v n) : Disj W file macros ts (p.getD false || v) n := by
  cases h with
  | one h => simpa using Disj.one h
  | or h h' => simpa using Disj.or h h'

theorem open_tail {W : World} {file : Str} {macros : List Str} {us : List Tok} {hs : List Nat}
    (h : Tail W file macros true us hs) : ∀ {ts : List Tok} {p : Option Bool} {v : Bool} {n : Nat}, Open W file macros ts p v n →
      Disj W file macros (ts ++ us) (p.getD false || val v hs) (n + hs.length) := by
  induction h with
  | nil => intro ts p v n ho; simpa [val] using ho.disj
  | @and us ts' w hs hl _ ih =>
    intro ts p v n ho
    have h2 : (2 ||| (true && w).toNat) &&& 2 ≠ 0 := by cases w <;> decide
    have : Open W file macros (ts ++ .op .and :: us) p (v && w) (n + 1) := by
      cases ho with
      | one hc => exact .one (.and hc hl)
      | or hd hc => simpa [Nat.add_assoc] using Open.or hd (.and hc hl)
    have := ih this
    rw [val, if_pos h2, bit2]
    simp only [Bool.true_and, List.length_cons]
    have e : n + (hs.length + 1) = n + 1 + hs.length := by omega
    rw [e]
    simpa using this
  | @or us ts' w hs hl _ ih =>
    intro ts p v n ho
    have h2 : ¬ ((4 ||| (true && w).toNat) &&& 2 ≠ 0) := by cases w <;> decide
    have := ih (Open.or ho.disj (.one hl))
    rw [val, if_neg h2, bit4]
    simp only [Bool.true_and, List.length_cons]
    have e : n + (hs.length + 1) = n + 1 + hs.length := by omega
    rw [e]
    simpa [Bool.or_assoc] using this

/-- the syntax does not depend on whether the value is asked for -/
theorem Tail.eval {W : World} {file : Str} {macros : List Str} {ev : Bool} {us : List Tok} {hs : List Nat}
    (h : Tail W file macros ev us hs) : ∃ hs', Tail W file macros true us hs' ∧ hs'.length = hs.length ∧ (ev = true → hs' = hs) := by
  induction h with
  | nil => exact ⟨[], .nil, rfl, by simp⟩
  | and hl _ ih =>
    obtain ⟨hs', h1, h2, h3⟩ := ih
    exact ⟨_, .and hl h1, by simp [h2], fun he => by subst he; simp [h3 rfl]⟩
  | or hl _ ih =>
    obtain ⟨hs', h1, h2, h3⟩ := ih
    exact ⟨_, .or hl h1, by simp [h2], fun he => by subst he; simp [h3 rfl]⟩

/-- A condition of `#if` or `#elif` is accepted exactly if it is one of the grammar with at most 255 names, and its value
is then the one of the grammar: `&&` before `||`. If its value does not matter it is checked all the same. -/
theorem C56_condition (W : World) (hz : NoZeroHash W) (file : Str) (ev : Bool) (st : St) (hr : Recorded W st) (ts : List Tok) (r : Bool) :
    (∃ st', ifExpr W file ev st ts = .ok (r, [], st')) ↔ ∃ v n, Disj W file st.macros ts v n ∧ n ≤ 255 ∧ r = (ev && v) := by
  constructor
  · rintro ⟨st', h⟩
    unfold ifExpr at h
    rw [Res.bind_eq_ok] at h
    obtain ⟨q, hq, h⟩ := h
    rw [Res.bind_eq_ok] at h
    obtain ⟨p, hp, h⟩ := h
    obtain ⟨us, v0, h1, h2, h3, h4⟩ := lit_of_negTerm hz hr hq
    obtain ⟨us', hs, g1, g2, g3, g4, g5⟩ := tail_of_terms hz (h4.2.2.2 hr) (by simp) hp
    simp only [Res.pure_eq, Res.ok.injEq, Prod.mk.injEq] at h
    rw [h4.1] at g2
    obtain ⟨hs', e1, e2, e3⟩ := g2.eval
    have := open_tail e1 (.one (.one h2))
    have hp1 : p.2.1 = [] := by rw [h.2]
    refine ⟨_, _, by rw [h1, g1, hp1, List.append_nil]; exact this, ?_, ?_⟩
    · rw [g3] at g4
      simp only [List.length_append, List.length_cons, List.length_nil] at g4
      omega
    · rw [← h.1, g3]
      simp only [Option.getD_none, Bool.false_or, List.singleton_append]
      cases hev : ev with
      | false => simp
      | true =>
        rw [passes _ _ g2.entries, e3 hev, h3, hev]
        simp only [Bool.true_and]
        cases v0 <;> rfl
  · rintro ⟨v, n, hd, hn, rfl⟩
    obtain ⟨us, v0, rest, hs, rfl, h1, h2, h3, h4⟩ := disj_tail ev hd
    obtain ⟨st1, hs1, e1⟩ := negTerm_of_lit hz hr (ev := ev) rest h1
    obtain ⟨st2, hs2, e2⟩ := terms_of_tail hz (n := (us ++ rest).length) (h0 := [(ev && v0).toNat]) (hs1.2.2.2 hr) (by rw [hs1.1]; exact h2)
      (by simp) (by simp; omega)
    refine ⟨st2, ?_⟩
    unfold ifExpr
    rw [e1]
    simp only [Res.bind_ok]
    rw [e2]
    simp only [Res.bind_ok, Res.pure_eq, Res.ok.injEq, Prod.mk.injEq, and_true, List.singleton_append]
    rw [passes _ _ h2.entries]
    have : decide ((ev && v0).toNat &&& 1 = 1) = (ev && v0) := by cases (ev && v0) <;> decide
    rw [this, ← h4]
    cases ev <;> simp

/-- The array of results is never written beyond its end, whatever the line. -/
theorem C56_bounds (W : World) (file : Str) (ev : Bool) (st : St) (ts : List Tok) : ifExpr W file ev st ts ≠ .assert := by
  have hterm : ∀ st ts, term W file ev st ts ≠ .assert := by
    intro st ts
    unfold term
    split <;> (try split) <;> (try split) <;> simp
  have hneg : ∀ st ts, negTerm W file ev st ts ≠ .assert := by
    intro st ts h
    unfold negTerm at h
    cases hq : term W file ev st (if isNot ts = true then ts.drop 1 else ts) with
    | assert => exact hterm _ _ hq
    | ok r => rw [hq] at h; cases h
    | err => rw [hq] at h; cases h
    | fuel => rw [hq] at h; cases h
  have hrec : ∀ h r, h.length < 256 → record h r ≠ .assert := by
    intro h r hl
    unfold record
    rw [if_neg (by omega)]
    split <;> simp
  have hterms : ∀ n st h ts, h.length < 256 → terms W file ev n st h ts ≠ .assert := by
    intro n
    induction n with
    | zero => intro st h ts _; unfold terms; split <;> simp_all
    | succ n ih =>
      intro st h ts hl
      have step : ∀ ts k, (do
          let r ← negTerm W file ev st ts
          let h ← record h (k ||| r.1.toNat)
          terms W file ev n r.2.2 h r.2.1) ≠ Res.assert := by
        intro ts k hc
        cases hq : negTerm W file ev st ts with
        | assert => exact hneg _ _ hq
        | err => rw [hq] at hc; cases hc
        | fuel => rw [hq] at hc; cases hc
        | ok r =>
          rw [hq] at hc
          simp only [Res.bind_ok] at hc
          cases hp : record h (k ||| r.1.toNat) with
          | assert => exact hrec _ _ hl hp
          | err => rw [hp] at hc; cases hc
          | fuel => rw [hp] at hc; cases hc
          | ok h' =>
            rw [hp] at hc
            exact ih _ _ _ (record_ok hp).2 hc
      unfold terms
      split
      · rename_i hc; cases hc; exact step _ _
      · rename_i hc; cases hc; exact step _ _
      · simp
      · simp
      · simp
  intro h
  unfold ifExpr at h
  cases hq : negTerm W file ev st ts with
  | assert => exact hneg _ _ hq
  | err => rw [hq] at h; cases h
  | fuel => rw [hq] at h; cases h
  | ok r =>
    rw [hq] at h
    simp only [Res.bind_ok] at h
    cases hp : terms W file ev ts.length r.2.2 [r.1.toNat] r.2.1 with
    | assert => exact hterms _ _ _ _ (by simp) hp
    | err => rw [hp] at h; cases h
    | fuel => rw [hp] at h; cases h
    | ok q => rw [hp] at h; cases h

/-! ### the hypotheses are met -/

/-- a world with the variable `P` and no files -/
def exW : World where
  load _ := none
  env x := if x = "P".toList then some "v".toList else none
  hash _ := 5
  exists_ _ := false
  clean x := x
  same a b := a = b
  expand _ x := x
  builtin x := x = "__LINUX__".toList

theorem exW_noZero : NoZeroHash exW := by intro x v _; simp [exW]

/-- `A || !B && exists( P )` with neither `A` nor `B` defined -/
def exCond : List Tok :=
  [.ident "A".toList, .op .or, .op .not, .ident "B".toList, .op .and, .kw .exists_, .brace .rl, .ident "P".toList, .brace .rr]

example : Disj exW [] [] exCond true 3 :=
  Disj.or (ts := [.ident "A".toList]) (us := [.op .not, .ident "B".toList, .op .and, .kw .exists_, .brace .rl, .ident "P".toList, .brace .rr])
    (.one (.one (.pos (.defined _))))
    (Conj.and (ts := [.op .not, .ident "B".toList]) (.one (.neg (.defined _))) (.pos (.exists_ _ rfl rfl)))

/-- the same, evaluated -/
example : ∃ st', ifExpr exW [] true ⟨[], [], [], [], []⟩ exCond = .ok (true, [], st') :=
  (C56_condition exW exW_noZero [] true ⟨[], [], [], [], []⟩ (by intro e h; cases h) exCond true).mpr
    ⟨true, 3, Disj.or (ts := [.ident "A".toList]) (us := [.op .not, .ident "B".toList, .op .and, .kw .exists_, .brace .rl, .ident "P".toList, .brace .rr])
      (.one (.one (.pos (.defined _))))
      (Conj.and (ts := [.op .not, .ident "B".toList]) (.one (.neg (.defined _))) (.pos (.exists_ _ rfl rfl))), by decide, rfl⟩

/-- The number 40 is taken for the bracket with that character code: `#if exists 40 P 41` is accepted. -/
theorem C56_number_brackets : Disj exW [] [] [.kw .exists_, .num 40, .ident "P".toList, .num 41] true 1 :=
  .one (.one (.pos (.exists_ _ rfl rfl)))

end Verif.Bff.Lex
