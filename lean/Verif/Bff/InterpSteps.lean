import Verif.Bff.InterpProps
import Verif.Bff.BoolProps
import Verif.Bff.InterpSpec
/-
Every statement keeps the invariant of Verif/Bff/InterpProps.lean.
-/
namespace Verif.Bff.Interp

/-! ### tokens used -/

/-- a statement uses at least one token, and the last one is not an operator -/
def Uses (ts rest : List Tok) : Prop := ∃ used l, ts = used ++ l :: rest ∧ ∀ o, l ≠ .op o

theorem Uses.length {ts rest : List Tok} (h : Uses ts rest) : rest.length < ts.length := by
  obtain ⟨u, l, rfl, _⟩ := h
  simp; omega

theorem Uses.cons {ts rest : List Tok} (t : Tok) (h : Uses ts rest) : Uses (t :: ts) rest := by
  obtain ⟨u, l, rfl, hl⟩ := h
  exact ⟨t :: u, l, rfl, hl⟩

theorem Uses.trans {a b c : List Tok} (h : Uses a b) (g : Uses b c) : Uses a c := by
  obtain ⟨u, l, rfl, _⟩ := h
  obtain ⟨u', l', rfl, hl⟩ := g
  exact ⟨u ++ l :: u', l', by simp, hl⟩

theorem snoc_of_append {u : List Tok} {l : Tok} {pre pre' : List Tok} {x : Tok} (h : u ++ l :: pre = pre' ++ [x])
    (hx : l ≠ x) : ∃ q, pre = q ++ [x] := by
  rcases List.eq_nil_or_concat pre with rfl | ⟨q, y, rfl⟩
  · have := List.append_inj' h rfl
    simp at this
    exact (hx this.2).elim
  · have h' : (u ++ l :: q) ++ [y] = pre' ++ [x] := by simpa using h
    have := List.append_inj' h' rfl
    simp at this
    exact ⟨q, by rw [this.2, List.concat_eq_append]⟩

/-- a part of the tokens that is not preceded by an operator -/
theorem NoParentWrite.part {u : List Tok} {l : Tok} {part post : List Tok} (h : NoParentWrite (u ++ l :: (part ++ post)))
    (hl : ∀ o, l ≠ .op o) : NoParentWrite part := by
  intro pre v o post' he ho
  obtain ⟨pre', o', hp⟩ := h (u ++ l :: pre) v o (post' ++ post) (by rw [he]; simp) ho
  obtain ⟨q, hq⟩ := snoc_of_append hp (hl o')
  exact ⟨q, o', hq⟩

theorem NoParentWrite.rest {ts rest : List Tok} (h : NoParentWrite ts) (hu : Uses ts rest) : NoParentWrite rest := by
  obtain ⟨u, l, rfl, hl⟩ := hu
  exact NoParentWrite.part (post := []) (by simpa using h) hl

/-! ### brackets -/

theorem scan_post : ∀ {b : Br} {stk : List Br} {acc ts : List Tok}, (scan b stk acc ts).Post fun r =>
    ∃ mid c, ts = mid ++ .brace c :: r.2 ∧ r.1 = acc.reverse ++ mid
  | _, _, _, [] => by simp [scan]
  | b, stk, acc, t :: ts => by
    unfold scan
    split
    · rename_i c
      split
      · split
        · exact ⟨[], c, by simp, by simp⟩
        · refine scan_post.mono ?_
          rintro r ⟨mid, d, h1, h2⟩
          exact ⟨.brace c :: mid, d, by rw [h1]; simp, by rw [h2]; simp⟩
      · split
        · refine scan_post.mono ?_
          rintro r ⟨mid, d, h1, h2⟩
          exact ⟨.brace c :: mid, d, by rw [h1]; simp, by rw [h2]; simp⟩
        · simp
    · refine scan_post.mono ?_
      rintro r ⟨mid, d, h1, h2⟩
      exact ⟨t :: mid, d, by rw [h1]; simp, by rw [h2]; simp⟩

/-- what is in brackets, and what follows -/
def Braced (ts inner rest : List Tok) : Prop := ∃ b c, ts = .brace b :: (inner ++ .brace c :: rest)

theorem braced_post (ts : List Tok) : (braced ts).Post fun r => Braced ts r.1 r.2 := by
  unfold braced
  split
  · rename_i b ts
    split
    · refine scan_post.mono ?_
      rintro r ⟨mid, d, h1, h2⟩
      exact ⟨b, d, by rw [h1, h2]; simp⟩
    · simp
  · simp

theorem Braced.uses {ts inner rest : List Tok} (h : Braced ts inner rest) : Uses ts rest := by
  obtain ⟨b, c, rfl⟩ := h
  exact ⟨.brace b :: inner, .brace c, by simp, by simp⟩

theorem Braced.inner {ts inner rest : List Tok} (h : Braced ts inner rest) (u : List Tok) (hn : NoParentWrite (u ++ ts)) :
    NoParentWrite inner := by
  obtain ⟨b, c, rfl⟩ := h
  exact NoParentWrite.part (post := .brace c :: rest) (u := u) (by simpa using hn) (l := .brace b) (by simp)

/-! ### statements -/

/-- `Parse` of what is in brackets -/
def RecSpec (rec : Rec) (m : Nat) : Prop := ∀ K st ts, m ≤ st.stack.length → Inv K st.stack →
  (K = true → NoParentWrite ts) → (rec st ts).Post fun st' => Ext K st.stack st'.stack ∧ Inv K st'.stack

theorem Step.refl {K : Bool} {s : List Frame} (h : Inv K s) : Step K s s := by
  cases s with
  | nil => exact h.elim
  | cons f s => exact ⟨Ext.refl _ _ _, rfl⟩

theorem Step.trans {K : Bool} {a b c : List Frame} (h : Step K a b) (g : Step K b c) : Step K a c :=
  ⟨h.1.trans g.1, g.2.trans h.2⟩

theorem Keep.step {K : Bool} {a b : List Frame} (hn : a ≠ []) (h : Keep K a b) : Step K a b := by
  refine ⟨h.ext hn, ?_⟩
  cases K with
  | true => simp only [Keep] at h; rw [h]
  | false =>
    cases a with
    | nil => exact (hn rfl).elim
    | cons f a =>
      cases b with
      | nil => exact h.elim
      | cons g b => exact h.1.2.1

theorem Inv.ne_nil {K : Bool} {s : List Frame} (h : Inv K s) : s ≠ [] := by
  rintro rfl; exact h.elim

/-- a new frame -/
theorem inv_new (K : Bool) (l : Bool) (s : List Frame) : Inv K (⟨[], none, l⟩ :: s) :=
  ⟨by simp, by intro n i h; cases h⟩

theorem keep_of_ext {K : Bool} {f : Frame} {s t : List Frame} (hl : f.linked = true) (h : Ext K (f :: s) t) :
    ∃ g t', t = g :: t' ∧ Keep K s t' := by
  cases t with
  | nil => exact h.elim
  | cons g t =>
    refine ⟨g, t, rfl, ?_⟩
    have := h.2
    rw [hl] at this
    simpa using this

theorem storeStruct_post {K : Bool} {rec : Rec} {m : Nat} {st : St} (hr : RecSpec rec m) (hm : m ≤ st.stack.length + 1)
    {n : Str} {body : List Tok} {op : Op} {frame : Option Nat} (hi : Inv K st.stack) (ht : Target K n frame st.stack)
    (hp : K = true → NoParentWrite body) :
    (storeStruct rec st n body op frame).Post fun st' => Step K st.stack st'.stack := by
  have main : (do
      let st ← rec (push st) body
      match st.stack with
      | [] => .assert .dangling
      | f :: fs => do
        let s ← setAt n (.struct (f.vars.map fun v => (v.name, v.val))) (frame.getD 0) fs
        pure (st.set s) : Out St).Post fun st' => Step K st.stack st'.stack := by
    refine (hr K (push st) body (by simpa [push, St.set] using hm) (inv_new _ _ _) hp).bind ?_
    rintro st' ⟨he, _⟩
    obtain ⟨g, t', hs, hk⟩ := keep_of_ext (f := ⟨[], none, true⟩) rfl he
    rw [hs]
    have h1 := hk.step hi.ne_nil
    refine (setAt_post n _ (h1.inv hi) (ht.ext h1.1)).bind fun s hs' => ?_
    exact h1.trans hs'
  unfold storeStruct
  split
  · trivial
  · dsimp only
    split
    · exact main
    · exact main
    · trivial

/-- what may stand behind a range of tokens -/
def Stop (e : Tok) : Prop := e = .brace .cr ∨ e = .eof

theorem cur_eq {ts : List Tok} {e t : Tok} (he : Stop e) (h : cur ts e = t) (h1 : t ≠ .brace .cr) (h2 : t ≠ .eof) :
    ∃ us, ts = t :: us := by
  cases ts with
  | nil =>
    rcases he with rfl | rfl
    · exact (h1 (by simpa [cur] using h.symm)).elim
    · exact (h2 (by simpa [cur] using h.symm)).elim
  | cons x us => exact ⟨us, by simp only [cur, List.headD_cons] at h; rw [h]⟩

theorem storeVar_post {K : Bool} {s : List Frame} {n v : Str} {op : Op} {frame : Option Nat} (hi : Inv K s)
    (ht : Target K n frame s) : (storeVar s n v op frame).Post (Step K s) := by
  unfold storeVar
  refine Out.Post.bind (varName_tame _ _) ?_
  rintro ⟨sn, parent⟩ -
  dsimp only
  split
  · trivial
  · split
    · exact Step.refl hi
    · exact Out.Post.bind (combine_tame _ _ _) fun x _ => setAt_post n x hi ht

theorem declare_post {K : Bool} {rec : Rec} {m : Nat} {st : St} (hr : RecSpec rec m) (hm : m ≤ st.stack.length + 1)
    {n : Str} {frame : Option Nat} {ts : List Tok} {e : Tok} (he : Stop e) (hi : Inv K st.stack)
    (ht : Target K n frame st.stack) (u : List Tok) (hp : K = true → NoParentWrite (u ++ ts)) :
    (declare rec st n frame ts e).Post fun r => Step K st.stack r.1.stack ∧ Uses ts r.2 := by
  unfold declare
  split
  · rename_i op ts
    split
    · have hst : ∀ (x : Out Val) (rest : List Tok), x.Tame → Uses (.op op :: ts) rest → (do
          let x ← x
          let s ← setAt n x (frame.getD 0) st.stack
          pure (st.set s, rest) : Out (St × List Tok)).Post fun r => Step K st.stack r.1.stack ∧ Uses (.op op :: ts) r.2 := by
        intro x rest hx hu
        refine Out.Post.bind hx fun x _ => ?_
        exact (setAt_post n x hi ht).bind fun s hs => ⟨hs, hu⟩
      dsimp only
      generalize hc : cur ts e = t
      split
      · rename_i x
        obtain ⟨us, rfl⟩ := cur_eq he hc (by simp) (by simp)
        exact hst _ _ (Out.Tame.bind (subst_tame _ _ _) fun x => storeString_tame _ _ _)
          ⟨[.op op], .str x, by simp, by simp⟩
      · split
        · refine (braced_post ts).bind ?_
          rintro ⟨body, rest⟩ hb
          exact hst _ _ (storeArray_tame _ _ _ _) (hb.uses.cons _)
        · split
          · refine (braced_post ts).bind ?_
            rintro ⟨body, rest⟩ hb
            refine (storeStruct_post hr hm hi ht (fun hk => hb.inner (u ++ [.op op]) (by simpa using hp hk))).bind ?_
            intro st' hs
            exact ⟨hs, hb.uses.cons _⟩
          · split
            · rename_i i _ _ _
              obtain ⟨us, rfl⟩ := cur_eq he hc (by simp) (by simp)
              exact hst _ _ (storeInt_tame _ _ _) ⟨[.op op], .num i, by simp, by simp⟩
            · rename_i b _ _ _
              obtain ⟨us, rfl⟩ := cur_eq he hc (by simp) (by simp)
              exact hst _ _ (storeBool_tame _ _ _) ⟨[.op op], .bool b, by simp, by simp⟩
            · rename_i v _ _ _
              obtain ⟨us, rfl⟩ := cur_eq he hc (by simp) (by simp)
              refine (storeVar_post hi ht).bind fun s hs => ?_
              exact ⟨hs, [.op op], .var v, by simp, by simp⟩
            · trivial
    · trivial
  · trivial

/-- what any statement does -/
def Stmt (K : Bool) (s t : List Frame) : Prop := Ext K s t ∧ Inv K t

theorem Step.stmt {K : Bool} {s t : List Frame} (h : Step K s t) (hi : Inv K s) : Stmt K s t := ⟨h.1, h.inv hi⟩

theorem setLast_inv {K : Bool} {n : Str} {frame : Option Nat} {s : List Frame} (hi : Inv K s) (ht : Target K n frame s) :
    Ext K s (setLast n frame s) ∧ Inv K (setLast n frame s) ∧ Target K n frame (setLast n frame s) := by
  cases s with
  | nil => exact hi.elim
  | cons f s =>
    have he : Ext K (f :: s) (setLast n frame (f :: s)) := ⟨⟨rfl, VarsExt.refl _⟩, Keep.refl _ _⟩
    refine ⟨he, ⟨hi.1, ?_⟩, ht.ext he⟩
    intro n' i h
    simp only [Option.some.injEq, Prod.mk.injEq] at h
    obtain ⟨rfl, rfl⟩ := h
    have := ht.ext he
    exact this

theorem setLast_length {n : Str} {frame : Option Nat} {s : List Frame} : (setLast n frame s).length = s.length := by
  cases s <;> rfl

theorem varName_parent {s : List Frame} {v n : Str} (h : varName s v = .ok (n, true)) : ∃ w, v = '^' :: w := by
  unfold varName at h
  split at h
  · cases h
  · rename_i c r
    split at h
    · rw [Out.bind_eq_ok] at h
      obtain ⟨x, _, hx⟩ := h
      simp only [Out.pure_eq, Out.ok.injEq, Prod.mk.injEq, decide_eq_true_eq] at hx
      exact ⟨r, by rw [hx.2]⟩
    · simp only [Out.ok.injEq, Prod.mk.injEq, decide_eq_true_eq] at h
      exact ⟨r, by rw [h.2]⟩

theorem declare_op {rec : Rec} {st : St} {n : Str} {frame : Option Nat} {ts : List Tok} {e : Tok} {r : St × List Tok}
    (h : declare rec st n frame ts e = .ok r) : ∃ o us, ts = .op o :: us ∧ (o = .assign ∨ o = .plus ∨ o = .minus) := by
  unfold declare at h
  split at h
  · rename_i op us
    split at h
    · exact ⟨op, us, rfl, by assumption⟩
    · cases h
  · cases h

theorem Uses.of_cons {t : Tok} {ts rest : List Tok} (h : Uses ts rest) : Uses (t :: ts) rest := h.cons t

theorem named_post {K : Bool} {rec : Rec} {m : Nat} {st : St} (hr : RecSpec rec m) (hm : m ≤ st.stack.length + 1)
    {v : Str} {ts : List Tok} {e : Tok} (he : Stop e) (hi : Inv K st.stack)
    (hp : K = true → NoParentWrite (.var v :: ts)) :
    (named rec st v ts e).Post fun r => Stmt K st.stack r.1.stack ∧ Uses (.var v :: ts) r.2 := by
  unfold named
  refine (varName_tame _ _).and_eq.bind ?_
  rintro ⟨n, parent⟩ ⟨-, hv⟩
  dsimp only
  have key : ∀ (K' : Bool) frame, Inv K' st.stack → Target K' n frame st.stack → (K' = true → NoParentWrite (.var v :: ts)) →
      (declare rec (st.set (setLast n frame st.stack)) n frame ts e).Post fun r =>
        Stmt K' st.stack r.1.stack ∧ Uses (.var v :: ts) r.2 := by
    intro K' frame hi ht hp
    obtain ⟨h1, h2, h3⟩ := setLast_inv hi ht
    refine (declare_post (st := st.set (setLast n frame st.stack)) hr (by simpa [St.set, setLast_length] using hm) he h2 h3
      [.var v] hp).mono ?_
    rintro r ⟨hs, hu⟩
    exact ⟨⟨h1.trans hs.1, hs.inv h2⟩, hu.cons _⟩
  split
  · rename_i hpar
    split
    · trivial
    · rename_i i w hd
      split
      · trivial
      · rename_i hw
        obtain ⟨hs, h1⟩ := parentDecl_seen hd
        cases K with
        | false => exact key false (some i) hi ⟨rfl, h1, w, hs, by omega⟩ (by simp)
        | true =>
          -- not possible: the variable would be one of a parent scope
          cases hd' : declare rec (st.set (setLast n (some i) st.stack)) n (some i) ts e with
          | ok r =>
            obtain ⟨o, us, rfl, ho⟩ := declare_op hd'
            obtain ⟨w', rfl⟩ := varName_parent (by rw [hv, hpar])
            obtain ⟨pre', o', h'⟩ := hp rfl [] w' o us rfl ho
            simp at h'
          | err => trivial
          | assert w' =>
            have hw0 : w.frozen = 0 := by omega
            have hi' : Inv false st.stack := by
              cases hst : st.stack with
              | nil => rw [hst] at hi; exact hi
              | cons f s =>
                rw [hst] at hi
                exact ⟨hi.1, fun n i hn => by cases (hi.2 n i hn).1⟩
            have := key false (some i) hi' ⟨rfl, h1, w, hs, hw0⟩ (by simp)
            rw [hd'] at this
            exact this
          | fuel =>
            have hw0 : w.frozen = 0 := by omega
            have hi' : Inv false st.stack := by
              cases hst : st.stack with
              | nil => rw [hst] at hi; exact hi
              | cons f s =>
                rw [hst] at hi
                exact ⟨hi.1, fun n i hn => by cases (hi.2 n i hn).1⟩
            have := key false (some i) hi' ⟨rfl, h1, w, hs, hw0⟩ (by simp)
            rw [hd'] at this
            exact this
  · exact key K none hi trivial hp

theorem unnamed_post {K : Bool} {rec : Rec} {m : Nat} {st : St} (hr : RecSpec rec m) (hm : m ≤ st.stack.length + 1)
    {ts : List Tok} {e : Tok} (he : Stop e) (hi : Inv K st.stack) (hp : K = true → NoParentWrite ts) :
    (unnamed rec st ts e).Post fun r => Stmt K st.stack r.1.stack ∧ Uses ts r.2 := by
  unfold unnamed
  split
  · rename_i h; rw [h] at hi; exact hi.elim
  · rename_i f s h
    split
    · trivial
    · rename_i n frame hl
      have ht : Target K n frame st.stack := by
        cases frame with
        | none => trivial
        | some i =>
          rw [h] at hi ⊢
          exact hi.2 n i hl
      refine (declare_post hr hm he hi ht [] hp).mono ?_
      rintro r ⟨h1, h2⟩
      exact ⟨h1.stmt hi, h2⟩

theorem scope_post {K : Bool} {rec : Rec} {m : Nat} {st : St} (hr : RecSpec rec m) (hm : m ≤ st.stack.length + 1)
    {ts : List Tok} (hi : Inv K st.stack) (hp : K = true → NoParentWrite ts) :
    (scope rec st ts).Post fun r => Step K st.stack r.1.stack ∧ Uses ts r.2 := by
  unfold scope
  refine (braced_post ts).bind ?_
  rintro ⟨body, rest⟩ hb
  refine (hr K (push st) body (by simpa [push, St.set] using hm) (inv_new _ _ _)
    (fun hk => hb.inner [] (hp hk))).bind ?_
  rintro st' ⟨he, _⟩
  obtain ⟨g, t', hs, hk⟩ := keep_of_ext (f := ⟨[], none, true⟩) rfl he
  refine ⟨?_, hb.uses⟩
  show Step K st.stack (st'.stack.drop 1)
  rw [hs]
  exact hk.step hi.ne_nil

/-! ### freezing -/

/-- the first variable of that name is frozen once more -/
def incVars (n : Str) : List Var → List Var
  | [] => []
  | v :: vs => if v.name = n then { v with frozen := v.frozen + 1 } :: vs else v :: incVars n vs

def incAt (n : Str) : Nat → List Frame → List Frame
  | _, [] => []
  | 0, f :: s => { f with vars := incVars n f.vars } :: s
  | i + 1, f :: s => f :: incAt n i s

theorem freezeIn_post {n : Str} : ∀ {vs : List Var} {v : Var}, vs.find? (fun v => v.name = n) = some v →
    (freezeIn n vs).Post (· = incVars n vs)
  | [], _, h => by simp at h
  | x :: vs, v, h => by
    unfold freezeIn incVars
    split
    · split <;> simp
    · rename_i hx
      refine (freezeIn_post (vs := vs) (v := v) (by simpa [hx] using h)).bind fun ws hw => ?_
      simp [hw]

theorem onVars_freeze {n : Str} : ∀ {i : Nat} {s : List Frame} {v : Var}, seen n i s = some v →
    (onVars (freezeIn n) i s).Post (· = incAt n i s)
  | _, [], _, h => by simp [seen] at h
  | 0, f :: s, v, h => by
    unfold onVars incAt
    refine (freezeIn_post (vs := f.vars) (v := v) (by simpa [seen, Frame.find] using h)).bind fun ws hw => ?_
    simp [hw]
  | i + 1, f :: s, v, h => by
    unfold onVars incAt
    simp only [seen] at h
    split at h
    · refine (onVars_freeze h).bind fun t ht => ?_
      simp [ht]
    · cases h

theorem incVars_comm (n m : Str) : ∀ vs : List Var, incVars n (incVars m vs) = incVars m (incVars n vs)
  | [] => rfl
  | v :: vs => by
    by_cases hn : v.name = n <;> by_cases hm : v.name = m <;> simp [incVars, hn, hm, incVars_comm n m vs]
    · subst hn; subst hm; simp [incVars]
    · subst hn; simp [hm, incVars]
    · subst hm; simp [hn, incVars]

theorem incAt_comm (n m : Str) : ∀ (i j : Nat) (s : List Frame), incAt n i (incAt m j s) = incAt m j (incAt n i s)
  | _, _, [] => by simp [incAt]
  | 0, 0, f :: s => by simp [incAt, incVars_comm n m]
  | 0, j + 1, f :: s => by simp [incAt]
  | i + 1, 0, f :: s => by simp [incAt]
  | i + 1, j + 1, f :: s => by simp [incAt, incAt_comm n m i j s]

/-- the same variable, perhaps frozen more often -/
def More (v w : Var) : Prop := w.name = v.name ∧ w.val = v.val ∧ v.frozen ≤ w.frozen

theorem find_incVars (n m : Str) {v : Var} : ∀ {vs : List Var}, vs.find? (fun v => v.name = n) = some v →
    ∃ w, (incVars m vs).find? (fun v => v.name = n) = some w ∧ More v w ∧ (n = m → v.frozen < w.frozen)
  | [], h => by simp at h
  | x :: vs, h => by
    by_cases hm : x.name = m
    · by_cases hn : x.name = n
      · simp [hn] at h
        subst h
        exact ⟨{ x with frozen := x.frozen + 1 }, by simp [incVars, hm, ← hn], ⟨rfl, rfl, by simp⟩, by simp⟩
      · have h' : vs.find? (fun v => v.name = n) = some v := by simpa [hn] using h
        refine ⟨v, ?_, ⟨rfl, rfl, Nat.le_refl _⟩, fun h => ?_⟩
        · unfold incVars
          rw [if_pos hm]
          simpa [hn] using h'
        · subst h; exact (hn hm).elim
    · by_cases hn : x.name = n
      · simp [hn] at h
        subst h
        exact ⟨x, by rw [incVars, if_neg hm]; simp [hn], ⟨rfl, rfl, Nat.le_refl _⟩, fun h => by subst h; exact (hm hn).elim⟩
      · obtain ⟨w, hw, hk⟩ := find_incVars n m (vs := vs) (v := v) (by simpa [hn] using h)
        exact ⟨w, by simp [incVars, hm, hn, hw], hk⟩

theorem seen_incAt (n m : Str) {v : Var} : ∀ {i j : Nat} {s : List Frame}, seen n i s = some v →
    ∃ w, seen n i (incAt m j s) = some w ∧ More v w ∧ (n = m → i = j → v.frozen < w.frozen)
  | _, _, [], h => by simp [seen] at h
  | 0, 0, f :: s, h => by
    simp only [seen, incAt] at h ⊢
    obtain ⟨w, hw, hm, hf⟩ := find_incVars n m (vs := f.vars) h
    exact ⟨w, hw, hm, fun h _ => hf h⟩
  | 0, j + 1, f :: s, h => by
    simp only [seen, incAt] at h ⊢
    exact ⟨v, h, ⟨rfl, rfl, Nat.le_refl _⟩, fun _ h => by omega⟩
  | i + 1, 0, f :: s, h => by
    simp only [seen, incAt] at h ⊢
    exact ⟨v, h, ⟨rfl, rfl, Nat.le_refl _⟩, fun _ h => by omega⟩
  | i + 1, j + 1, f :: s, h => by
    simp only [seen, incAt] at h ⊢
    split at h
    · rename_i hl
      obtain ⟨w, hw, hm, hf⟩ := seen_incAt n m (j := j) h
      exact ⟨w, by rw [if_pos hl, hw], hm, fun h1 h2 => hf h1 (by omega)⟩
    · cases h

theorem unfreezeIn_post {n : Str} : ∀ {vs ws : List Var} {v : Var}, vs.find? (fun v => v.name = n) = some v →
    VarsKeep (incVars n vs) ws → (unfreezeIn n ws).Post (VarsKeep vs)
  | [], _, _, h, _ => by simp at h
  | x :: vs, ws, v, h, hk => by
    unfold incVars at hk
    split at hk
    · rename_i hn
      cases ws with
      | nil => exact hk.elim
      | cons w ws =>
        obtain ⟨⟨h1, h2, h3⟩, h4⟩ := hk
        unfold unfreezeIn
        rw [if_pos (by rw [h1]; exact hn), if_pos (by rw [h2]; simp)]
        exact ⟨⟨h1, by simp [h2], fun _ => h3 (by simp)⟩, h4⟩
    · rename_i hn
      cases ws with
      | nil => exact hk.elim
      | cons w ws =>
        obtain ⟨h1, h4⟩ := hk
        unfold unfreezeIn
        rw [if_neg (by rw [h1.1]; exact hn)]
        refine (unfreezeIn_post (vs := vs) (v := v) (by simpa [hn] using h) h4).bind fun us hu => ?_
        exact ⟨h1, hu⟩

theorem unfreezeIn_incVars {n : Str} : ∀ {vs : List Var} {v : Var}, vs.find? (fun v => v.name = n) = some v →
    unfreezeIn n (incVars n vs) = .ok vs
  | [], _, h => by simp at h
  | x :: vs, v, h => by
    by_cases hn : x.name = n
    · rw [incVars, if_pos hn, unfreezeIn, if_pos hn, if_pos (by simp)]
      simp
    · have := unfreezeIn_incVars (vs := vs) (v := v) (by simpa [hn] using h)
      simp [incVars, unfreezeIn, hn, this]

theorem onVars_unfreeze_incAt {n : Str} : ∀ {i : Nat} {s : List Frame} {v : Var}, seen n i s = some v →
    onVars (unfreezeIn n) i (incAt n i s) = .ok s
  | _, [], _, h => by simp [seen] at h
  | 0, f :: s, v, h => by
    have := unfreezeIn_incVars (n := n) (vs := f.vars) (v := v) (by simpa [seen, Frame.find] using h)
    simp [incAt, onVars, this]
  | i + 1, f :: s, v, h => by
    simp only [seen] at h
    split at h
    · simp [incAt, onVars, onVars_unfreeze_incAt h]
    · cases h

theorem onVars_unfreeze {n : Str} : ∀ {K : Bool} {i : Nat} {s t : List Frame} {v : Var}, seen n i s = some v →
    Keep K (incAt n i s) t → (onVars (unfreezeIn n) i t).Post (Keep K s)
  | true, i, s, t, v, h, hk => by
    simp only [Keep] at hk
    subst hk
    rw [onVars_unfreeze_incAt h]
    exact Keep.refl _ _
  | false, _, [], _, _, h, _ => by simp [seen] at h
  | false, 0, f :: s, t, v, h, hk => by
    cases t with
    | nil => exact hk.elim
    | cons g t =>
      unfold onVars
      refine (unfreezeIn_post (vs := f.vars) (v := v) (by simpa [seen, Frame.find] using h) hk.1.2.2).bind fun us hu => ?_
      exact ⟨⟨hk.1.1, hk.1.2.1, hu⟩, hk.2⟩
  | false, i + 1, f :: s, t, v, h, hk => by
    cases t with
    | nil => exact hk.elim
    | cons g t =>
      unfold onVars
      simp only [seen] at h
      split at h
      · refine (onVars_unfreeze h hk.2).bind fun us hu => ?_
        exact ⟨hk.1, hu⟩
      · cases h

/-- all arrays of a loop are frozen once more -/
def incs : List Loop → List Frame → List Frame
  | [], s => s
  | l :: ls, s => incs ls (incAt l.arr l.frame s)

theorem incs_cons (l : Loop) : ∀ (ls : List Loop) (s : List Frame), incs (l :: ls) s = incAt l.arr l.frame (incs ls s)
  | [], s => rfl
  | l' :: ls, s => by
    show incs ls (incAt l'.arr l'.frame (incAt l.arr l.frame s)) = _
    rw [incAt_comm]
    exact incs_cons l ls _

theorem More.refl (v : Var) : More v v := ⟨rfl, rfl, Nat.le_refl _⟩
theorem More.trans {a b c : Var} (h : More a b) (g : More b c) : More a c :=
  ⟨g.1.trans h.1, g.2.1.trans h.2.1, Nat.le_trans h.2.2 g.2.2⟩

theorem seen_incs {n : Str} {i : Nat} : ∀ {ls : List Loop} {s : List Frame} {v : Var}, seen n i s = some v →
    ∃ w, seen n i (incs ls s) = some w ∧ More v w ∧ ((∃ l ∈ ls, l.arr = n ∧ l.frame = i) → v.frozen < w.frozen)
  | [], s, v, h => ⟨v, h, More.refl v, by rintro ⟨l, hl, _⟩; cases hl⟩
  | l :: ls, s, v, h => by
    obtain ⟨w, hw, hm, hf⟩ := seen_incAt n l.arr (j := l.frame) h
    obtain ⟨u, hu, hm', hf'⟩ := seen_incs (ls := ls) hw
    refine ⟨u, hu, hm.trans hm', ?_⟩
    rintro ⟨l', hl', ha, hi⟩
    rcases List.mem_cons.mp hl' with rfl | hl'
    · have := hf ha.symm hi.symm
      have := hm'.2.2
      omega
    · have := hf' ⟨l', hl', ha, hi⟩
      have := hm.2.2
      omega

theorem onArrays_freeze : ∀ {ls : List Loop} {s : List Frame}, (∀ l ∈ ls, ∃ v, seen l.arr l.frame s = some v) →
    (onArrays freezeIn ls s).Post (· = incs ls s)
  | [], s, _ => rfl
  | l :: ls, s, h => by
    unfold onArrays
    obtain ⟨v, hv⟩ := h l (by simp)
    refine (onVars_freeze hv).bind fun t ht => ?_
    subst ht
    refine onArrays_freeze fun l' hl' => ?_
    obtain ⟨v, hv⟩ := h l' (by simp [hl'])
    obtain ⟨w, hw, _⟩ := seen_incAt l'.arr l.arr (j := l.frame) hv
    exact ⟨w, hw⟩

theorem onArrays_unfreeze {K : Bool} : ∀ {ls : List Loop} {s t : List Frame},
    (∀ l ∈ ls, ∃ v, seen l.arr l.frame s = some v) → Keep K (incs ls s) t → (onArrays unfreezeIn ls t).Post (Keep K s)
  | [], s, t, _, hk => hk
  | l :: ls, s, t, h, hk => by
    unfold onArrays
    rw [incs_cons] at hk
    obtain ⟨v, hv⟩ := h l (by simp)
    obtain ⟨w, hw, _⟩ := seen_incs (ls := ls) hv
    refine (onVars_unfreeze hw hk).bind fun t ht => ?_
    exact onArrays_unfreeze (fun l' hl' => h l' (by simp [hl'])) ht

/-! ### functions -/

/-- what the header of a loop stands for -/
def LoopOk (N : Nat) (s : List Frame) (l : Loop) : Prop :=
  ∃ v, seen l.arr l.frame s = some v ∧ arrLen v.val = some N

theorem loopVar_post (s : List Frame) (a : Str) (t : Tok) (b : Str) :
    (loopVar s a t b).Post fun r => LoopOk r.2 s r.1 := by
  unfold loopVar
  refine Out.Post.bind (varName_tame _ _) ?_
  rintro ⟨an, ap⟩ -
  dsimp only
  split
  · simp
  · split
    · trivial
    · refine Out.Post.bind (varName_tame _ _) ?_
      rintro ⟨bn, bp⟩ -
      dsimp only
      split
      · trivial
      · rename_i i v hv
        split
        · trivial
        · rename_i k hk
          refine ⟨v, ?_, hk⟩
          split at hv
          · exact (parentDecl2_seen hv).1
          · exact lookup_seen hv

theorem loops_post (s : List Frame) : ∀ (n : Option Nat) (ts : List Tok), (loops s n ts).Post fun r =>
    (∀ l ∈ r.1, ∃ N, r.2 = some N ∧ LoopOk N s l) ∧ (∀ k, n = some k → r.2 = some k) := by
  intro n ts
  fun_induction loops s n ts
  case case1 => simp
  case case2 n a t b ts ih =>
    refine (loopVar_post s a t b).bind ?_
    rintro ⟨l, k⟩ hl
    dsimp only at hl ih ⊢
    split
    · trivial
    · rename_i hn
      refine (ih (l, k)).bind ?_
      rintro ⟨ls, n'⟩ ⟨h1, h2⟩
      refine ⟨?_, ?_⟩
      · intro l' hl'
        rcases List.mem_cons.mp hl' with rfl | hl'
        · exact ⟨k, h2 k rfl, hl⟩
        · exact h1 l' hl'
      · rintro j rfl
        simp at hn
        subst hn
        exact h2 _ rfl
  case case3 n a t b ts _ ih =>
    refine (loopVar_post s a t b).bind ?_
    rintro ⟨l, k⟩ hl
    dsimp only at hl ih ⊢
    split
    · trivial
    · rename_i hn
      refine (ih (l, k)).bind ?_
      rintro ⟨ls, n'⟩ ⟨h1, h2⟩
      refine ⟨?_, ?_⟩
      · intro l' hl'
        rcases List.mem_cons.mp hl' with rfl | hl'
        · exact ⟨k, h2 k rfl, hl⟩
        · exact h1 l' hl'
      · rintro j rfl
        simp at hn
        subst hn
        exact h2 _ rfl
  case case4 =>
    unfold loopBad
    refine Out.Post.bind (varName_tame _ _) ?_
    rintro ⟨an, ap⟩ -
    dsimp only
    (repeat' split) <;> simp
  case case5 => trivial

theorem arrElem_of_len {v : Val} {N i : Nat} (h : arrLen v = some N) (hi : i < N) : ∃ x, arrElem i v = some x := by
  cases v <;> simp only [arrLen, Option.some.injEq, reduceCtorEq] at h
  · subst h; exact ⟨_, by simp only [arrElem]; rw [List.getElem?_eq_getElem hi]; rfl⟩
  · subst h; exact ⟨_, by simp only [arrElem]; rw [List.getElem?_eq_getElem hi]; rfl⟩

/-- a frame that only has variables -/
def Plain (g : Frame) : Prop := g.last = none ∧ g.linked = true ∧ ∀ v ∈ g.vars, v.frozen = 0

theorem Plain.inv {g : Frame} (h : Plain g) (K : Bool) (s : List Frame) : Inv K (g :: s) :=
  ⟨h.2.2, by intro n i hn; rw [h.1] at hn; cases hn⟩

theorem plain_new : Plain ⟨[], none, true⟩ := ⟨rfl, rfl, by simp⟩

theorem setAt_plain (n : Str) (x : Val) {g : Frame} {s : List Frame} (h : Plain g) :
    (setAt n x 0 (g :: s)).Post fun t => ∃ g', t = g' :: s ∧ Plain g' := by
  refine (setAt_head n x h.2.2).mono ?_
  rintro t ⟨g', rfl, h1, h2, h3⟩
  exact ⟨g', rfl, h2.trans h.1, h1.trans h.2.1, h3.unfrozen h.2.2⟩

/-- arrays that are frozen, of the length of the loop -/
def Ready (N : Nat) (s : List Frame) (l : Loop) : Prop :=
  ∃ v, seen l.arr l.frame s = some v ∧ arrLen v.val = some N ∧ v.frozen ≠ 0

theorem Ready.keep {K : Bool} {N : Nat} {s t : List Frame} {l : Loop} (h : Ready N s l) (hk : Keep K s t) : Ready N t l := by
  obtain ⟨v, hv, hl, hf⟩ := h
  obtain ⟨w, hw, hkw⟩ := hk.seen hv
  exact ⟨w, hw, by rw [hkw.2.2 hf]; exact hl, by rw [hkw.2.1]; exact hf⟩

theorem bindLoops_post {N i : Nat} (hi : i < N) : ∀ {ls : List Loop} {g : Frame} {s : List Frame},
    (∀ l ∈ ls, Ready N s l) → Plain g → (bindLoops i ls (g :: s)).Post fun t => ∃ g', t = g' :: s ∧ Plain g'
  | [], g, s, _, hg => ⟨g, rfl, hg⟩
  | l :: ls, g, s, h, hg => by
    unfold bindLoops
    obtain ⟨v, hv, hl, _⟩ := h l (by simp)
    obtain ⟨x, hx⟩ := arrElem_of_len hl hi
    have : ((g :: s)[l.frame + 1]?).bind (·.find l.arr) = some v := by simpa using seen_getElem hv
    rw [this]
    dsimp only
    rw [hx]
    refine (setAt_plain _ _ hg).bind ?_
    rintro t ⟨g', rfl, hg'⟩
    exact bindLoops_post hi (fun l' hl' => h l' (by simp [hl'])) hg'

theorem iterate_post {K : Bool} {rec : Rec} {m N : Nat} (hr : RecSpec rec m) {ls : List Loop} {body : List Tok}
    (hp : K = true → NoParentWrite body) : ∀ {is : List Nat} {st : St}, (∀ i ∈ is, i < N) → m ≤ st.stack.length + 1 →
    (∀ l ∈ ls, Ready N st.stack l) → (iterate rec ls body is st).Post fun st' => Keep K st.stack st'.stack
  | [], st, _, _, _ => Keep.refl _ _
  | i :: is, st, hi, hm, hl => by
    unfold iterate
    refine (bindLoops_post (hi i (by simp)) hl plain_new).bind ?_
    rintro s ⟨g, rfl, hg⟩
    refine (hr K (st.set (g :: st.stack)) body (by simpa [St.set] using hm) (hg.inv _ _) hp).bind ?_
    rintro st' ⟨he, _⟩
    obtain ⟨g', t', hs, hk⟩ := keep_of_ext hg.2.1 he
    have hpop : (pop st').stack = t' := by simp [pop, St.set, hs]
    have hm' : m ≤ (pop st').stack.length + 1 := by rw [hpop, hk.length]; exact hm
    refine (iterate_post hr hp (st := pop st') (fun j hj => hi j (by simp [hj])) hm'
      (fun l h => by rw [hpop]; exact (hl l h).keep hk)).mono ?_
    intro st'' h
    rw [hpop] at h
    exact hk.trans h

theorem fnForEach_post {K : Bool} {rec : Rec} {m : Nat} (hr : RecSpec rec m) {st : St} {hdr bd : List Tok}
    (hp : K = true → NoParentWrite bd) (hm : m ≤ st.stack.length + 1) :
    (fnForEach rec st hdr bd).Post fun st' => Keep K st.stack st'.stack := by
  unfold fnForEach
  refine (loops_post st.stack none hdr).bind ?_
  rintro ⟨ls, n⟩ ⟨h1, -⟩
  dsimp only at h1 ⊢
  split
  · exact Keep.refl _ _
  · have hs : ∀ l ∈ ls, ∃ v, seen l.arr l.frame st.stack = some v := by
      intro l hl
      obtain ⟨N, _, v, hv, _⟩ := h1 l hl
      exact ⟨v, hv⟩
    refine (onArrays_freeze hs).bind ?_
    rintro s rfl
    have hready : ∀ l ∈ ls, Ready (n.getD 0) (st.set (incs ls st.stack)).stack l := by
      intro l hl
      obtain ⟨N, rfl, v, hv, hlen⟩ := h1 l hl
      obtain ⟨w, hw, hmore, hf⟩ := seen_incs (ls := ls) hv
      exact ⟨w, hw, by rw [hmore.2.1]; exact hlen, by have := hf ⟨l, hl, rfl, rfl⟩; omega⟩
    have hlen : (incs ls st.stack).length = st.stack.length := by
      have : ∀ (ls : List Loop) (s : List Frame), (incs ls s).length = s.length := by
        intro ls
        induction ls with
        | nil => intro s; rfl
        | cons l ls ih =>
          intro s
          rw [incs, ih]
          generalize l.frame = i
          induction s generalizing i with
          | nil => simp [incAt]
          | cons f s ih => cases i <;> simp [incAt, ih]
      exact this _ _
    refine (iterate_post hr hp (st := st.set (incs ls st.stack)) (N := n.getD 0) (by simp)
      (by simpa [St.set, hlen] using hm) hready).bind ?_
    intro st' hk
    exact (onArrays_unfreeze hs hk).bind fun s hs' => hs'

theorem setAll_post {K : Bool} : ∀ {ms : List (Str × Val)} {g : Frame} {s : List Frame}, Inv K s →
    (setAll 1 ms (g :: s)).Post fun t => ∃ s', t = g :: s' ∧ Step K s s'
  | [], g, s, hi => ⟨s, rfl, Step.refl hi⟩
  | m :: ms, g, s, hi => by
    unfold setAll
    refine Out.Post.bind (P := fun t => ∃ s', t = g :: s' ∧ Step K s s') ?_ ?_
    · show (setAt m.1 m.2 0 s >>= fun fs => pure (g :: fs)).Post _
      exact (setAt_post (frame := none) m.1 m.2 hi trivial).bind fun t ht => ⟨t, rfl, ht⟩
    · rintro t ⟨s', rfl, hs⟩
      refine (setAll_post (ms := ms) (g := g) (hs.inv hi)).mono ?_
      rintro t ⟨s'', rfl, hs'⟩
      exact ⟨s'', rfl, hs.trans hs'⟩

/-- the result of a function: only the frames below its own matter -/
def Below (K : Bool) (s : List Frame) (st' : St) : Prop := ∃ g s', st'.stack = g :: s' ∧ Step K s s'

theorem fnUsing_post {K : Bool} {st : St} {g : Frame} {s : List Frame} {hdr : List Tok} (hst : st.stack = g :: s)
    (hi : Inv K s) : (fnUsing st hdr).Post (Below K s) := by
  unfold fnUsing
  split
  · refine Out.Post.bind (varName_tame _ _) ?_
    rintro ⟨n, p⟩ -
    dsimp only
    split
    · trivial
    · split
      · rw [hst]
        refine (setAll_post hi).bind ?_
        rintro t ⟨s', rfl, hs⟩
        exact ⟨g, s', rfl, hs⟩
      · trivial
  · trivial

theorem fnPrint_post {K : Bool} {st : St} {g : Frame} {s : List Frame} {hdr : List Tok} (hst : st.stack = g :: s)
    (hi : Inv K s) : (fnPrint st hdr).Post (Below K s) := by
  unfold fnPrint
  split
  · exact Out.Post.bind (subst_tame _ _ _) fun _ _ => ⟨g, s, hst, Step.refl hi⟩
  · refine Out.Post.bind (varName_tame _ _) ?_
    rintro ⟨n, p⟩ -
    dsimp only
    split
    · trivial
    · exact ⟨g, s, hst, Step.refl hi⟩
  · trivial

theorem aliasTok_tame (s : List Frame) (t : Tok) : (aliasTok s t).Tame := by
  unfold aliasTok
  split
  · split
    · trivial
    · exact subst_tame _ _ _
  · refine (srcVar_tame _ _).bind fun x => ?_
    (repeat' split) <;> simp
  · trivial

theorem alias_tame (s : List Frame) (a b : Bool) (hdr : List Tok) : (alias_ s a b hdr).Tame := by
  unfold alias_
  split
  · trivial
  · split
    · split <;> trivial
    · refine (aliasTok_tame _ _).bind fun x => ?_
      split <;> trivial

theorem cond_not_fuel (look : Str → Option Val) (ts : List Tok) : BoolExp.parse look ts ≠ .fuel :=
  BoolExp.C50_terminates look ts

theorem below_of_rec {K : Bool} {rec : Rec} {m : Nat} (hr : RecSpec rec m) {st : St} {g : Frame} {s : List Frame}
    (hst : st.stack = g :: s) (hg : Plain g) (hi : Inv K s) {bd : List Tok} (hp : K = true → NoParentWrite bd)
    (hm : m ≤ s.length + 1) : (rec st bd).Post (Below K s) := by
  refine (hr K st bd (by rw [hst]; simpa using hm) (by rw [hst]; exact hg.inv _ _) hp).mono ?_
  rintro st' ⟨he, _⟩
  rw [hst] at he
  obtain ⟨g', t', hs, hk⟩ := keep_of_ext hg.2.1 he
  exact ⟨g', t', hs, hk.step hi.ne_nil⟩

theorem dispatch_post {K : Bool} {commit : List Event → Event → Bool} {rec : Rec} {m : Nat} (hr : RecSpec rec m) {st : St}
    {s : List Frame} (hst : st.stack = ⟨[], none, true⟩ :: s) (hi : Inv K s) {fn : Str} {fi : FInfo} {hdr bd : List Tok}
    (hp : K = true → NoParentWrite bd) (hm : m ≤ s.length + 1) :
    (dispatch commit rec st fn fi hdr bd).Post (Below K s) := by
  unfold dispatch
  split
  · unfold fnIf
    split
    · exact below_of_rec hr hst plain_new hi hp hm
    · exact ⟨_, s, hst, Step.refl hi⟩
    · trivial
    · simp
    · rename_i h; exact cond_not_fuel _ _ h
  · refine (fnForEach_post hr hp (by rw [hst]; simp; omega)).mono ?_
    intro st' hk
    rw [hst] at hk
    obtain ⟨g', t', hs, hk'⟩ := keep_of_ext (f := ⟨[], none, true⟩) rfl (hk.ext (by simp))
    exact ⟨g', t', hs, hk'.step hi.ne_nil⟩
  · exact fnUsing_post hst hi
  · exact fnPrint_post hst hi
  · trivial
  · unfold fnNode
    refine Out.Post.bind (alias_tame _ _ _ _) fun a _ => ?_
    refine (below_of_rec hr hst plain_new hi hp hm).bind fun st' h => ?_
    dsimp only
    split
    · exact h
    · trivial

theorem is_cur {ts : List Tok} {e : Tok} (he : Stop e) {b : Br} (hb : b ≠ .cr) (h : (cur ts e).is b = true) :
    ∃ t us, ts = t :: us := by
  cases ts with
  | nil =>
    rcases he with rfl | rfl
    · cases b <;> simp_all [cur, Tok.is, Tok.byte, Br.num]
    · cases b <;> simp_all [cur, Tok.is, Tok.byte, Br.num]
  | cons t us => exact ⟨t, us, rfl⟩

/-- tokens used, or none -/
def Uses0 (ts rest : List Tok) : Prop := rest = ts ∨ Uses ts rest

theorem header_post (fi : FInfo) (ts : List Tok) (e : Tok) : (header fi ts e).Post fun r => Uses0 ts r.2 := by
  unfold header
  split
  · split
    · trivial
    · refine (braced_post ts).bind ?_
      rintro ⟨h, rest⟩ hb
      dsimp only
      split
      · trivial
      · exact Or.inr hb.uses
  · split
    · trivial
    · exact Or.inl rfl

theorem body_post (fi : FInfo) (ts : List Tok) (e : Tok) : (body fi ts e).Post fun r =>
    Uses0 ts r.2 ∧ ∀ u, NoParentWrite (u ++ ts) → NoParentWrite r.1 := by
  unfold body
  split
  · split
    · refine (braced_post ts).mono ?_
      rintro ⟨h, rest⟩ hb
      exact ⟨Or.inr hb.uses, fun u hn => hb.inner u hn⟩
    · trivial
  · refine ⟨Or.inl rfl, fun u _ => ?_⟩
    intro pre v o post h
    simp at h

theorem function_post {K : Bool} {commit : List Event → Event → Bool} {rec : Rec} {m : Nat} (hr : RecSpec rec m) {st : St}
    (hi : Inv K st.stack) {fn : Str} {ts : List Tok} {e : Tok} (hp : K = true → NoParentWrite (.func fn :: ts))
    (hm : m ≤ st.stack.length + 1) :
    (function commit rec st fn ts e).Post fun r => Step K st.stack r.1.stack ∧ Uses (.func fn :: ts) r.2 := by
  unfold function
  split
  · trivial
  · rename_i fi _
    split
    · trivial
    · refine (header_post fi ts e).bind ?_
      rintro ⟨hdr, ts1⟩ h1
      refine (body_post fi ts1 e).bind ?_
      rintro ⟨bd, ts2⟩ ⟨h2, h3⟩
      dsimp only at h1 h2 h3 ⊢
      refine (dispatch_post (s := st.stack) hr rfl hi (fun hk => ?_) hm).bind ?_
      · rcases h1 with rfl | ⟨u, l, rfl, _⟩
        · exact h3 [.func fn] (hp hk)
        · exact h3 (.func fn :: u ++ [l]) (by simpa using hp hk)
      · rintro st' ⟨g, s', hs, hstep⟩
        refine ⟨?_, ?_⟩
        · show Step K st.stack (st'.stack.drop 1)
          rw [hs]; exact hstep
        · rcases h1 with rfl | h1
          · rcases h2 with rfl | h2
            · exact ⟨[], .func fn, rfl, by simp⟩
            · exact h2.cons _
          · rcases h2 with rfl | h2
            · exact h1.cons _
            · exact (h1.trans h2).cons _

/-! ### user functions -/

theorem params_tame : ∀ (acc : List Str) (ts : List Tok), (params acc ts).Tame := by
  intro acc ts
  fun_induction params acc ts <;> simp_all [Out.Tame]

theorem declareFn_post {K : Bool} {st : St} (hi : Inv K st.stack) {ts : List Tok} {e : Tok} :
    (declareFn st ts e).Post fun r => Step K st.stack r.1.stack ∧ Uses (.kw .function :: ts) r.2 := by
  unfold declareFn
  split
  · rename_i n ts
    split
    · trivial
    · split
      · refine (braced_post ts).bind ?_
        rintro ⟨hdr, ts1⟩ h1
        refine Out.Post.bind (params_tame _ _) fun ps _ => ?_
        dsimp only
        split
        · refine (braced_post ts1).bind ?_
          rintro ⟨bd, ts2⟩ h2
          exact ⟨Step.refl hi, ((h1.uses.trans h2.uses).cons _).cons _⟩
        · trivial
      · trivial
  · trivial

theorem args_tame : ∀ ts : List Tok, (args ts).Tame := by
  intro ts
  fun_induction args ts <;> simp_all [Out.Tame] <;> exact Out.Tame.bind (by assumption) fun _ => trivial

theorem argVal_tame (s : List Frame) (t : Tok) : (argVal s t).Tame := by
  unfold argVal
  split
  · exact (subst_tame _ _ _).bind fun _ => trivial
  · trivial
  · trivial
  · exact srcVar_tame _ _
  · simp

theorem bindArgs_post : ∀ {l : List (Str × Tok)} {g : Frame} {s : List Frame}, Plain g →
    (bindArgs l (g :: s)).Post fun t => ∃ g', t = g' :: s ∧ Plain g'
  | [], g, s, hg => ⟨g, rfl, hg⟩
  | (n, t) :: l, g, s, hg => by
    unfold bindArgs
    refine Out.Post.bind (argVal_tame _ _) fun x _ => ?_
    refine (setAt_plain n x hg).bind ?_
    rintro t ⟨g', rfl, hg'⟩
    exact bindArgs_post hg'

/-- a user function leaves the frames of its caller as they are -/
theorem call_post {rec : Rec} {m : Nat} (hr : RecSpec rec m) {st : St} {u : UFunc} {ts : List Tok} {e : Tok}
    (hm : m ≤ st.stack.length + 1) :
    (call rec st u ts e).Post fun r => r.1.stack = st.stack ∧ Uses ts r.2 := by
  unfold call
  split
  · refine (braced_post ts).bind ?_
    rintro ⟨hdr, ts1⟩ h1
    refine Out.Post.bind (args_tame _) fun as _ => ?_
    split
    · trivial
    · refine (bindArgs_post plain_new).bind ?_
      rintro s ⟨g, rfl, hg⟩
      refine (hr false (st.set (disconnect (g :: st.stack))) u.body (by simpa [St.set, disconnect] using hm)
        ⟨hg.2.2, by intro n i hn; simp only [hg.1] at hn; cases hn⟩ (by simp)).bind ?_
      rintro st' ⟨he, _⟩
      refine ⟨?_, h1.uses⟩
      show st'.stack.drop 1 = st.stack
      cases hs : st'.stack with
      | nil => rw [hs] at he; exact he.elim
      | cons g' s' =>
        rw [hs] at he
        have := he.2
        simp only [Bool.not_false, Bool.or_true, Keep] at this
        exact this
  · trivial

/-! ### the parser -/

theorem stmt_post {K : Bool} {commit : List Event → Event → Bool} {rec : Rec} {m : Nat} (hr : RecSpec rec m) {st : St}
    (hi : Inv K st.stack) {t : Tok} {ts : List Tok} {e : Tok} (he : Stop e) (hp : K = true → NoParentWrite (t :: ts))
    (hm : m ≤ st.stack.length + 1) :
    (stmt commit rec st t ts e).Post fun r => Stmt K st.stack r.1.stack ∧ Uses (t :: ts) r.2 := by
  unfold stmt
  split
  · exact named_post hr hm he hi hp
  · exact unnamed_post hr hm he hi hp
  · exact unnamed_post hr hm he hi hp
  · split
    · refine (scope_post hr hm hi hp).mono ?_
      rintro r ⟨h1, h2⟩
      exact ⟨h1.stmt hi, h2⟩
    · split
      · refine (function_post hr hi hp hm).mono ?_
        rintro r ⟨h1, h2⟩
        exact ⟨h1.stmt hi, h2⟩
      · refine (declareFn_post hi).mono ?_
        rintro r ⟨h1, h2⟩
        exact ⟨h1.stmt hi, h2⟩
      · split
        · refine (call_post hr hm).mono ?_
          rintro r ⟨h1, h2⟩
          rw [h1]
          exact ⟨(Step.refl hi).stmt hi, h2.cons _⟩
        · trivial
      · split
        · rename_i h
          exact ⟨(Step.refl hi).stmt hi, [], .eof, by rw [h]; rfl, by simp⟩
        · simp
      · trivial

theorem stmts_post {K : Bool} {commit : List Event → Event → Bool} {rec : Rec} {m : Nat} (hr : RecSpec rec m) {e : Tok}
    (he : Stop e) : ∀ {k : Nat} {st : St} {ts : List Tok}, ts.length ≤ k → Inv K st.stack → (K = true → NoParentWrite ts) →
    m ≤ st.stack.length + 1 → (stmts commit rec e k st ts).Post fun st' => Stmt K st.stack st'.stack
  | k, st, [], _, hi, _, _ => by
    cases k <;> exact (Step.refl hi).stmt hi
  | 0, st, t :: ts, h, _, _, _ => by simp at h
  | k + 1, st, t :: ts, h, hi, hp, hm => by
    unfold stmts
    refine (stmt_post (commit := commit) hr hi he hp hm).bind ?_
    rintro ⟨st', ts'⟩ ⟨hs, hu⟩
    have hlen := hu.length
    refine (stmts_post hr he (k := k) (st := st') (ts := ts') (by simp at hlen h; omega) hs.2
      (fun hk => (hp hk).rest hu) (by rw [hs.1.length]; exact hm)).mono ?_
    intro st'' hs'
    exact ⟨hs.1.trans hs'.1, hs'.2⟩

theorem parse_post (commit : List Event → Event → Bool) : ∀ (k : Nat) {e : Tok}, Stop e →
    ∀ K st ts, 127 ≤ st.stack.length + k → Inv K st.stack → (K = true → NoParentWrite ts) →
      (parse commit (k + 1) e st ts).Post fun st' => Stmt K st.stack st'.stack
  | 0, e, he, K, st, ts, hd, hi, hp => by
    unfold parse
    rw [if_pos (by omega)]
    trivial
  | k + 1, e, he, K, st, ts, hd, hi, hp => by
    unfold parse
    split
    · trivial
    · refine stmts_post (m := st.stack.length + 1) ?_ he (Nat.le_refl _) hi hp (Nat.le_refl _)
      intro K' st' ts' hl hi' hp'
      exact parse_post commit k (Or.inl rfl) K' st' ts' (by omega) hi' hp'

end Verif.Bff.Interp
