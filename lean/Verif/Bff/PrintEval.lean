import Verif.Bff.PrintText
import Verif.Bff.UsingTheorems
/-
Evaluation of the tokens of what `Print( .Name )` writes.
-/
namespace Verif.Bff.Print
open Interp

/-! ### variables -/

/-- what a name means -/
def vis (s : List Frame) : Str → Option Val := fun m => (lookup m s).map (·.2.val)

/-- a variable is given a value -/
def put (n : Str) (x : Val) : List Var → List Var
  | [] => [⟨n, x, 0⟩]
  | v :: vs => if v.name = n then { v with val := x } :: vs else v :: put n x vs

theorem setIn_put {n : Str} {x : Val} : ∀ {vs : List Var}, (∀ v ∈ vs, v.frozen = 0) → setIn n x vs = .ok (put n x vs)
  | [], _ => rfl
  | v :: vs, h => by
    rw [setIn, put]
    split
    · rw [if_pos (h v (by simp))]
    · rw [setIn_put fun w hw => h w (List.mem_cons_of_mem _ hw)]; rfl

theorem put_new {n : Str} {x : Val} : ∀ {vs : List Var}, n ∉ vs.map (·.name) → put n x vs = vs ++ [⟨n, x, 0⟩]
  | [], _ => rfl
  | v :: vs, h => by
    rw [List.map_cons, List.mem_cons, not_or] at h
    rw [put, if_neg (fun e => h.1 e.symm), put_new h.2]
    rfl

theorem put_free {n : Str} {x : Val} : ∀ {vs : List Var}, (∀ v ∈ vs, v.frozen = 0) → ∀ v ∈ put n x vs, v.frozen = 0
  | [], _, v, hv => by simp [put] at hv; subst hv; rfl
  | w :: vs, h, v, hv => by
    rw [put] at hv
    split at hv
    · rcases List.mem_cons.1 hv with e | hv
      · subst e; exact h w (by simp)
      · exact h v (List.mem_cons_of_mem _ hv)
    · rcases List.mem_cons.1 hv with e | hv
      · subst e; exact h _ (by simp)
      · exact put_free (fun w hw => h w (List.mem_cons_of_mem _ hw)) v hv

theorem find_put {n m : Str} {x : Val} : ∀ {vs : List Var},
    ((put n x vs).find? (fun v => v.name = m)).map (·.val) = if m = n then some x else (vs.find? (fun v => v.name = m)).map (·.val)
  | [] => by
    by_cases h : m = n
    · subst h; simp [put]
    · simp [put, h, Ne.symm h]
  | v :: vs => by
    rw [put]
    by_cases hv : v.name = n
    · rw [if_pos hv]
      by_cases h : m = n
      · subst h; simp [hv]
      · have : v.name ≠ m := fun e => h (e.symm.trans hv)
        simp [this, h]
    · rw [if_neg hv]
      by_cases h : v.name = m
      · have : m ≠ n := fun e => hv (h.trans e)
        simp [h, this]
      · simp only [List.find?_cons, h, decide_false]
        exact find_put

theorem vis_cons {g : Frame} {s : List Frame} {m : Str} :
    vis (g :: s) m = ((g.vars.find? (fun v => v.name = m)).map (·.val)).or (if g.linked then vis s m else none) := by
  unfold vis
  rw [lookup]
  unfold Frame.find
  cases g.vars.find? (fun v => decide (v.name = m)) with
  | some v => simp
  | none =>
    cases g.linked
    · simp
    · simp [Option.map_map, Function.comp_def]

theorem vis_put {g : Frame} {s : List Frame} {n : Str} {x : Val} {l : Option (Str × Option Nat)} :
    vis (⟨put n x g.vars, l, g.linked⟩ :: s) = also (vis (g :: s)) n x := by
  funext m
  rw [vis_cons]
  unfold also
  simp only [find_put]
  by_cases h : m = n
  · simp [h]
  · simp only [h, if_false]
    rw [vis_cons]

theorem vis_push {s : List Frame} : vis (⟨[], none, true⟩ :: s) = vis s := by
  funext m
  rw [vis_cons]
  simp

/-! ### brackets -/

theorem scan_strs {b : Br} {stk : List Br} {rest : List Tok} : ∀ (l : List Str) (acc : List Tok),
    scan b stk acc (l.map (fun x => Tok.str (escape x)) ++ rest) = scan b stk ((l.map (fun x => Tok.str (escape x))).reverse ++ acc) rest
  | [], _ => rfl
  | x :: l, acc => by
    rw [List.map_cons, List.cons_append, scan]
    · rw [scan_strs l]; simp
    · intro c h; cases h

theorem scan_other {b : Br} {stk : List Br} {acc rest : List Tok} {t : Tok} (h : ∀ c, t ≠ .brace c) : scan b stk acc (t :: rest) = scan b stk (t :: acc) rest := by
  rw [scan]
  intro c e
  exact h c e

theorem scan_open {b c e : Br} {stk : List Br} {acc rest : List Tok} (hb : c ≠ b) (hc : c.close = some e) :
    scan b stk acc (.brace c :: rest) = scan e (b :: stk) (.brace c :: acc) rest := by
  simp [scan, if_neg hb, hc]

theorem scan_close {b d : Br} {stk : List Br} {acc rest : List Tok} : scan b (d :: stk) acc (.brace b :: rest) = scan d stk (.brace b :: acc) rest := by
  rw [scan]
  simp

mutual
theorem scan_toks : ∀ (v : Val) (b : Br) (stk : List Br) (acc rest : List Tok), b = .sr ∨ b = .cr →
    scan b stk acc (toks v ++ rest) = scan b stk ((toks v).reverse ++ acc) rest
  | .str x, b, stk, acc, rest, hb => by simp only [toks, List.cons_append, List.nil_append]; rw [scan_other (by intro c h; cases h)]; rfl
  | .bool x, b, stk, acc, rest, hb => by simp only [toks, List.cons_append, List.nil_append]; rw [scan_other (by intro c h; cases h)]; rfl
  | .int x, b, stk, acc, rest, hb => by simp only [toks, List.cons_append, List.nil_append]; rw [scan_other (by intro c h; cases h)]; rfl
  | .structs x, b, stk, acc, rest, hb => by simp [toks]
  | .strs l, b, stk, acc, rest, hb => by
    simp only [toks, List.cons_append, List.append_assoc, List.nil_append]
    rw [scan_open (e := .cr) (by rcases hb with rfl | rfl <;> decide) rfl, scan_strs, scan_close]
    simp
  | .struct ms, b, stk, acc, rest, hb => by
    simp only [toks, List.cons_append, List.append_assoc, List.nil_append]
    rw [scan_open (e := .sr) (by rcases hb with rfl | rfl <;> decide) rfl, scan_ms ms .sr _ _ _ (.inl rfl), scan_close]
    simp
theorem scan_ms : ∀ (ms : List (Str × Val)) (b : Br) (stk : List Br) (acc rest : List Tok), b = .sr ∨ b = .cr →
    scan b stk acc (toksMs ms ++ rest) = scan b stk ((toksMs ms).reverse ++ acc) rest
  | [], b, stk, acc, rest, hb => by simp [toksMs]
  | m :: ms, b, stk, acc, rest, hb => by
    simp only [toksMs, List.cons_append, List.append_assoc]
    rw [scan_other (by intro c h; cases h), scan_other (by intro c h; cases h), scan_toks m.2 b stk _ _ hb, scan_ms ms b stk _ _ hb]
    simp
end

theorem braced_strs (l : List Str) (rest : List Tok) :
    braced (toks (.strs l) ++ rest) = .ok (l.map (fun x => Tok.str (escape x)), rest) := by
  simp only [toks, List.cons_append, List.append_assoc, List.nil_append, braced, Br.close]
  rw [scan_strs, scan]
  simp

theorem braced_struct (ms : List (Str × Val)) (rest : List Tok) : braced (toks (.struct ms) ++ rest) = .ok (toksMs ms, rest) := by
  simp only [toks, List.cons_append, List.append_assoc, List.nil_append, braced, Br.close]
  rw [scan_ms ms .sr _ _ _ (.inl rfl), scan]
  simp

/-! ### strings -/

theorem subst_escape (s : List Frame) : ∀ {x : Str}, Clean x → subst s none (escape x) = .ok x
  | [], _ => by simp [escape, subst]
  | c :: x, h => by
    have hc := h c (by simp)
    have ih := subst_escape s (x := x) fun d hd => h d (List.mem_cons_of_mem _ hd)
    rw [escape]
    split
    · next e => subst e; rw [subst, ih]; rfl
    · rw [subst, ih]
      · rfl
      · intro e _; exact hc.1 e
      · intro _ _ e _; exact hc.1 e
      · exact hc.2.1

theorem items_strs (s : List Frame) : ∀ {l : List Str} (a : Acc), (∀ x ∈ l, Clean x) → a.ty ≠ .structs →
    items s .assign a (l.map (fun x => Tok.str (escape x))) = .ok ⟨if l = [] then a.ty else .strs, a.vals ++ l, a.svals⟩
  | [], a, _, _ => by simp [items]
  | x :: l, a, hl, ha => by
    have hitem : item s .assign a (.str (escape x)) = .ok { a with ty := .strs, vals := a.vals ++ [x] } := by
      simp [item, ha, subst_escape s (hl x (by simp))]
    have ih := items_strs s (l := l) { a with ty := .strs, vals := a.vals ++ [x] } (fun y hy => hl y (List.mem_cons_of_mem _ hy)) (by simp)
    rw [List.map_cons, items]
    · rw [hitem, Out.bind_ok, ih]
      simp
    · intro ts e
      cases l <;> simp at e

theorem storeArray_strs (s : List Frame) {l : List Str} {o : Option Val} (hl : ∀ x ∈ l, Clean x) (ho : May o (.strs l)) :
    storeArray s .assign (l.map (fun x => Tok.str (escape x))) o = .ok (.strs l) := by
  have ho : o = none ∨ ∃ k, o = some (.strs k) := by
    cases o with
    | none => exact .inl rfl
    | some w => cases w <;> simp [May] at ho <;> exact .inr ⟨_, rfl⟩
  have key : ∀ ty, ty ≠ .structs → items s .assign ⟨ty, [], []⟩ (l.map (fun x => Tok.str (escape x))) = .ok ⟨if l = [] then ty else .strs, l, []⟩ := by
    intro ty ht
    rw [items_strs s ⟨ty, [], []⟩ hl ht]
    simp
  unfold storeArray
  rcases ho with rfl | ⟨k, rfl⟩
  · simp only [acc0, if_true, Out.bind_ok, key .any (by simp)]
    by_cases h : l = [] <;> simp [h]
  · by_cases hk : k = []
    · simp only [acc0, if_true, Out.bind_ok, hk, key .any (by simp)]
      by_cases h : l = [] <;> simp [h]
    · simp only [acc0, if_true, if_false, Out.bind_ok, hk, key .strs (by simp)]
      by_cases h : l = [] <;> simp [h]

/-! ### statements -/

/-- the state after a variable is given a value -/
def after (st : St) (g : Frame) (s : List Frame) (n : Str) (v : Val) : St := st.set ({ g with vars := put n v g.vars } :: s)

theorem setAt_put {n : Str} {x : Val} {g : Frame} {s : List Frame} (h : ∀ v ∈ g.vars, v.frozen = 0) :
    setAt n x 0 (g :: s) = .ok ({ g with vars := put n x g.vars } :: s) := by
  rw [setAt, setIn_put h]; rfl

theorem varName_name {s : List Frame} {n : Str} (h : Name n) : varName s n = .ok (n, false) := by
  obtain ⟨w, rfl, hw, hc⟩ := h
  rw [Using.varName_bare]
  · rfl
  · cases w with
    | nil => exact absurd rfl hw
    | cons d w =>
      have := hc d (by simp)
      refine ⟨fun e => ?_, fun e => ?_⟩ <;> simp at e <;> subst e <;> revert this <;> decide

mutual
theorem declare_ok (commit : List Event → Event → Bool) : ∀ (v : Val) (k : Nat) (st : St) (g : Frame) (s : List Frame) (n : Str) (rest : List Tok) (e : Tok),
    st.stack = g :: s → (∀ w ∈ g.vars, w.frozen = 0) → Writable (vis (g :: s)) v → May (vis (g :: s) n) v → depth v ≤ k →
    st.stack.length + depth v ≤ 126 →
    declare (parse commit k (.brace .cr)) st n none (.op .assign :: (toks v ++ rest)) e = .ok (after st g s n v, rest)
  | .str x, k, st, g, s, n, rest, e, hs, hf, hw, hm, hk, hd => by
    have hw : Clean x := hw
    have hst : storeString .assign x (vis (g :: s) n) = .ok (.str x) := by
      cases h : vis (g :: s) n with
      | none => rfl
      | some w => rw [h] at hm; cases w <;> simp [May] at hm; rfl
    unfold vis at hst
    simp [declare, cur, toks, hs, subst_escape _ hw, getVar, hst, setAt_put hf, after]
  | .bool b, k, st, g, s, n, rest, e, hs, hf, hw, hm, hk, hd => by
    have hst : storeBool .assign b (vis (g :: s) n) = .ok (.bool b) := by
      cases h : vis (g :: s) n with
      | none => rfl
      | some w => rw [h] at hm; cases w <;> simp [May] at hm; rfl
    unfold vis at hst
    have h1 : (Tok.bool b).is .cl = false := by cases b <;> rfl
    have h2 : (Tok.bool b).is .sl = false := by cases b <;> rfl
    simp [declare, cur, toks, hs, getVar, hst, setAt_put hf, after, h1, h2]
  | .int i, k, st, g, s, n, rest, e, hs, hf, hw, hm, hk, hd => by
    have hw : -2147483648 ≤ i ∧ i ≤ 2147483647 ∧ i % 256 ≠ 123 ∧ i % 256 ≠ 91 := hw
    have hst : storeInt .assign i (vis (g :: s) n) = .ok (.int i) := by
      cases h : vis (g :: s) n with
      | none => rfl
      | some w => rw [h] at hm; cases w <;> simp [May] at hm; rfl
    unfold vis at hst
    have h1 : (Tok.num i).is .cl = false := by simp [Tok.is, Tok.byte, Br.num]; omega
    have h2 : (Tok.num i).is .sl = false := by simp [Tok.is, Tok.byte, Br.num]; omega
    simp [declare, cur, toks, hs, getVar, hst, setAt_put hf, after, h1, h2]
  | .strs l, k, st, g, s, n, rest, e, hs, hf, hw, hm, hk, hd => by
    have hw : ∀ x ∈ l, Clean x := hw
    have hst := storeArray_strs (g :: s) hw hm
    unfold vis at hst
    have hc : cur (toks (.strs l) ++ rest) e = .brace .cl := rfl
    have h1 : (Tok.brace .cl).is .cl = true := rfl
    simp [declare, hc, braced_strs, h1, hs, getVar, hst, setAt_put hf, after]
  | .struct ms, k, st, g, s, n, rest, e, hs, hf, hw, hm, hk, hd => by
    have hw : (ms.map (·.1)).Nodup ∧ WritableMs (vis (g :: s)) ms := by simpa only [Writable] using hw
    have hc : cur (toks (.struct ms) ++ rest) e = .brace .sl := rfl
    have h1 : (Tok.brace .sl).is .cl = false := rfl
    have h2 : (Tok.brace .sl).is .sl = true := rfl
    have hdep : depth (.struct ms) = depthMs ms + 1 := by rw [depth]
    obtain ⟨k, rfl⟩ : ∃ j, k = j + 1 := ⟨k - 1, by omega⟩
    obtain ⟨g', hr, hv, hl⟩ := stmts_ms commit ms k (push st) ⟨[], none, true⟩ (g :: s) (toksMs ms).length (.brace .cr) (by simp [push, St.set, hs])
      (by simp) (by simp) (by rw [vis_push]; exact hw.2) hw.1 (by omega) (by simp [push, St.set]; omega) (Nat.le_refl _)
    have hrec : parse commit (k + 1) (.brace .cr) (push st) (toksMs ms) = .ok { push st with stack := g' :: g :: s } := by
      rw [parse, if_neg (by simp [push, St.set]; omega), hr]
    have hp : (g'.vars.map fun v => (v.name, v.val)) = ms := by
      rw [hv]
      simp [List.map_map, Function.comp_def]
    have hst : storeStruct (parse commit (k + 1) (.brace .cr)) st n (toksMs ms) .assign none = .ok (after st g s n (.struct ms)) := by
      have ho : (getVar n none st.stack).map (·.2.val) = none ∨ ∃ m, (getVar n none st.stack).map (·.2.val) = some (.struct m) := by
        have : (getVar n none st.stack).map (·.2.val) = vis (g :: s) n := by rw [hs]; rfl
        rw [this]
        cases h : vis (g :: s) n with
        | none => exact .inl rfl
        | some w => rw [h] at hm; cases w <;> simp [May] at hm; exact .inr ⟨_, rfl⟩
      unfold storeStruct
      rw [if_neg (by simp)]
      rcases ho with ho | ⟨m, ho⟩ <;>
        simp only [ho, hrec, Out.bind_ok, hp, Option.getD_none, setAt_put hf, Out.pure_eq] <;> rfl
    simp [declare, hc, h1, h2, braced_struct, hst]
  | .structs l, k, st, g, s, n, rest, e, hs, hf, hw, hm, hk, hd => by
    simp only [Writable] at hw
theorem stmts_ms (commit : List Event → Event → Bool) : ∀ (ms : List (Str × Val)) (k : Nat) (st : St) (g : Frame) (s : List Frame) (fuel : Nat) (e : Tok),
    st.stack = g :: s → (∀ w ∈ g.vars, w.frozen = 0) → (∀ m ∈ ms, m.1 ∉ g.vars.map (·.name)) → WritableMs (vis (g :: s)) ms → (ms.map (·.1)).Nodup →
    depthMs ms ≤ k → st.stack.length + depthMs ms ≤ 126 → (toksMs ms).length ≤ fuel →
    ∃ g', stmts commit (parse commit k (.brace .cr)) e fuel st (toksMs ms) = .ok { st with stack := g' :: s } ∧
      g'.vars = g.vars ++ ms.map (fun m => ⟨m.1, m.2, 0⟩) ∧ g'.linked = g.linked
  | [], k, st, g, s, fuel, e, hs, hf, hn, hw, hd, hk, hl, hfu => by
    refine ⟨g, ?_, by simp, rfl⟩
    rw [toksMs, stmts]
    rw [← hs]
  | m :: ms, k, st, g, s, fuel, e, hs, hf, hn, hw, hd, hk, hl, hfu => by
    have hw : Name m.1 ∧ May (vis (g :: s) m.1) m.2 ∧ Writable (vis (g :: s)) m.2 ∧ WritableMs (also (vis (g :: s)) m.1 m.2) ms := by
      simpa only [WritableMs] using hw
    have hd := List.nodup_cons.1 (show (m.1 :: ms.map (·.1)).Nodup from hd)
    have hdm : depthMs (m :: ms) = max (depth m.2) (depthMs ms) := by rw [depthMs]
    have hlen : (toksMs (m :: ms)).length = (toks m.2).length + (toksMs ms).length + 2 := by simp [toksMs]
    obtain ⟨fuel, rfl⟩ : ∃ j, fuel = j + 1 := ⟨fuel - 1, by omega⟩
    let g1 : Frame := { g with last := some (m.1, none) }
    have hv1 : vis (g1 :: s) = vis (g :: s) := by funext x; rw [vis_cons, vis_cons]
    have h1 := declare_ok commit m.2 k (st.set (g1 :: s)) g1 s m.1 (toksMs ms) e rfl hf (by rw [hv1]; exact hw.2.2.1)
      (by rw [hv1]; exact hw.2.1) (by omega) (by simp only [St.set, List.length_cons]; rw [hs, List.length_cons] at hl; omega)
    have hst : stmt commit (parse commit k (.brace .cr)) st (.var m.1) (.op .assign :: (toks m.2 ++ toksMs ms)) e =
        .ok (after (st.set (g1 :: s)) g1 s m.1 m.2, toksMs ms) := by
      simp only [stmt, named, varName_name hw.1, Out.bind_ok, Bool.false_eq_true, if_false]
      rw [hs]
      exact h1
    have hnew : put m.1 m.2 g.vars = g.vars ++ [⟨m.1, m.2, 0⟩] := put_new (hn m (by simp))
    obtain ⟨g', hr, hv, hlk⟩ := stmts_ms commit ms k (after (st.set (g1 :: s)) g1 s m.1 m.2) { g1 with vars := put m.1 m.2 g1.vars } s fuel e rfl
      (put_free hf) (by
        intro x hx
        show x.1 ∉ (put m.1 m.2 g.vars).map (·.name)
        rw [hnew]
        intro h
        rw [List.map_append, List.mem_append] at h
        rcases h with h | h
        · exact hn x (List.mem_cons_of_mem _ hx) h
        · simp at h
          exact hd.1 (h ▸ List.mem_map_of_mem (f := (·.1)) hx)) (by
        have := vis_put (g := g1) (s := s) (n := m.1) (x := m.2) (l := g1.last)
        show WritableMs (vis (⟨put m.1 m.2 g1.vars, g1.last, g1.linked⟩ :: s)) ms
        rw [this, hv1]
        exact hw.2.2.2) hd.2 (by omega) (by simp only [after, St.set, List.length_cons]; rw [hs, List.length_cons] at hl; omega) (by omega)
    refine ⟨g', ?_, ?_, hlk⟩
    · rw [toksMs, stmts, hst, Out.bind_ok]
      exact hr
    · rw [hv]
      show put m.1 m.2 g.vars ++ _ = _
      rw [hnew]
      simp
end

end Verif.Bff.Print
