import Verif.Bff.InterpSteps
/-
Evaluation does not depend on the frames below one that is not linked, except for their number. `sw` puts other frames in
their place. The theorem is in Verif/Bff/IsolationTheorems.lean.
-/
namespace Verif.Bff.Interp

def Out.map {α β : Type} (f : α → β) : Out α → Out β
  | .ok a => .ok (f a)
  | .err => .err
  | .assert w => .assert w
  | .fuel => .fuel

@[simp] theorem Out.map_ok {α β : Type} (f : α → β) (a : α) : (Out.ok a).map f = .ok (f a) := rfl
@[simp] theorem Out.map_err {α β : Type} (f : α → β) : (Out.err : Out α).map f = .err := rfl
@[simp] theorem Out.map_assert {α β : Type} (f : α → β) (w : Why) : (Out.assert w : Out α).map f = .assert w := rfl
@[simp] theorem Out.map_fuel {α β : Type} (f : α → β) : (Out.fuel : Out α).map f = .fuel := rfl

theorem Out.map_bind {α β γ : Type} (x : Out α) (f : α → Out β) (g : β → γ) :
    (x >>= f).map g = x >>= fun a => (f a).map g := by
  cases x <;> rfl

theorem Out.bind_map {α β γ : Type} (x : Out α) (f : α → β) (g : β → Out γ) :
    x.map f >>= g = x >>= fun a => g (f a) := by
  cases x <;> rfl

theorem Out.bind_congr {α β : Type} {x : Out α} {f g : α → Out β} (h : ∀ a, x = .ok a → f a = g a) :
    (x >>= f) = (x >>= g) := by
  cases x with
  | ok a => exact h a rfl
  | _ => rfl

/-- a frame that is not linked is among these -/
def Closed (v : List Frame) : Prop := ∃ f ∈ v, f.linked = false

theorem Closed.cases {f : Frame} {v : List Frame} (h : Closed (f :: v)) : f.linked = false ∨ Closed v := by
  obtain ⟨g, hg, hl⟩ := h
  rcases List.mem_cons.mp hg with rfl | hg
  · exact .inl hl
  · exact .inr ⟨g, hg, hl⟩

theorem closed_nil : ¬ Closed [] := by rintro ⟨f, hf, _⟩; cases hf

theorem lookup_app (n : Str) : ∀ {v : List Frame}, Closed v → ∀ t, lookup n (v ++ t) = lookup n v
  | [], h, _ => (closed_nil h).elim
  | f :: v, h, t => by
    simp only [List.cons_append, lookup]
    rcases h.cases with h | h
    · simp [h]
    · rw [lookup_app n h t]

theorem lookupAny_app (n : Str) : ∀ {v : List Frame}, Closed v → ∀ t, lookupAny n (v ++ t) = lookupAny n v
  | [], h, _ => (closed_nil h).elim
  | f :: v, h, t => by
    simp only [List.cons_append, lookupAny]
    rcases h.cases with h | h
    · simp [h]
    · rw [lookupAny_app n h t]

theorem parentDecl_app (n : Str) : ∀ {v : List Frame}, Closed v → ∀ t, parentDecl n (v ++ t) = parentDecl n v
  | [], h, _ => (closed_nil h).elim
  | f :: v, h, t => by
    simp only [List.cons_append, parentDecl]
    rcases h.cases with h | h
    · simp [h]
    · rw [lookup_app n h t]

theorem parentDecl2_app (n : Str) : ∀ {v : List Frame}, Closed v → ∀ t, parentDecl2 n (v ++ t) = parentDecl2 n v
  | [], h, _ => (closed_nil h).elim
  | f :: v, h, t => by
    simp only [List.cons_append, parentDecl2]
    rcases h.cases with h | h
    · simp [h]
    · rw [parentDecl_app n h t]

theorem visible_app : ∀ {v : List Frame}, Closed v → ∀ t, visible (v ++ t) = visible v
  | [], h, _ => (closed_nil h).elim
  | f :: v, h, t => by
    simp only [List.cons_append, visible]
    rcases h.cases with h | h
    · simp [h]
    · rw [visible_app h t]

theorem seen_app (n : Str) : ∀ {v : List Frame}, Closed v → ∀ t i, seen n i (v ++ t) = seen n i v
  | [], h, _, _ => (closed_nil h).elim
  | f :: v, h, t, 0 => rfl
  | f :: v, h, t, i + 1 => by
    simp only [List.cons_append, seen]
    rcases h.cases with h | h
    · simp [h]
    · rw [seen_app n h t i]

theorem seen_lt {n : Str} {w : Var} : ∀ {i : Nat} {v : List Frame}, seen n i v = some w → i < v.length
  | _, [], h => by simp [seen] at h
  | 0, f :: v, _ => by simp
  | i + 1, f :: v, h => by
    simp only [seen] at h
    split at h
    · have := seen_lt h; simp; omega
    · cases h

/-! ### functions that only read -/

/-- the same can be found in both -/
structure View (a b : List Frame) : Prop where
  look : ∀ n, lookup n a = lookup n b
  any : ∀ n, lookupAny n a = lookupAny n b
  par : ∀ n, parentDecl n a = parentDecl n b
  par2 : ∀ n, parentDecl2 n a = parentDecl2 n b
  vis : visible a = visible b

theorem view_app {v : List Frame} (h : Closed v) (t u : List Frame) : View (v ++ t) (v ++ u) :=
  ⟨fun n => by rw [lookup_app n h, lookup_app n h], fun n => by rw [lookupAny_app n h, lookupAny_app n h],
   fun n => by rw [parentDecl_app n h, parentDecl_app n h], fun n => by rw [parentDecl2_app n h, parentDecl2_app n h],
   by rw [visible_app h, visible_app h]⟩

theorem subst_view {a b : List Frame} (h : View a b) (m : Option Str) (x : Str) : subst a m x = subst b m x := by
  fun_induction subst a m x <;> simp_all [subst, h.any]

theorem varName_view {a b : List Frame} (h : View a b) (x : Str) : varName a x = varName b x := by
  unfold varName
  split
  · rfl
  · rw [subst_view h]

theorem srcVar_view {a b : List Frame} (h : View a b) (x : Str) : srcVar a x = srcVar b x := by
  unfold srcVar
  rw [varName_view h]
  refine Out.bind_congr ?_
  rintro ⟨n, p⟩ _
  dsimp only
  rw [h.par, h.look]

theorem item_view {a b : List Frame} (h : View a b) (op : Op) (c : Acc) (t : Tok) : item a op c t = item b op c t := by
  unfold item
  cases t <;> simp only [srcVar_view h, subst_view h]

theorem items_view {a b : List Frame} (h : View a b) (op : Op) (c : Acc) (ts : List Tok) :
    items a op c ts = items b op c ts := by
  fun_induction items b op c ts
  · simp [items]
  · rename_i ih
    rw [items, item_view h]
    exact Out.bind_congr fun c' _ => ih c'
  · rename_i hn ih
    rw [items, item_view h]
    · exact Out.bind_congr fun c' _ => ih c'
    · exact hn

theorem storeArray_view {a b : List Frame} (h : View a b) (op : Op) (ts : List Tok) (o : Option Val) :
    storeArray a op ts o = storeArray b op ts o := by
  unfold storeArray
  simp only [items_view h]

theorem condVar_view {a b : List Frame} (h : View a b) : condVar a = condVar b := by
  funext t
  unfold condVar
  rw [varName_view h]
  split
  · rw [h.par2, h.look]
  · rfl

theorem loopVar_view {a b : List Frame} (h : View a b) (x : Str) (t : Tok) (y : Str) : loopVar a x t y = loopVar b x t y := by
  unfold loopVar
  rw [varName_view h, varName_view h]
  refine Out.bind_congr ?_
  rintro ⟨n, p⟩ _
  dsimp only
  split
  · rfl
  · split
    · rfl
    · refine Out.bind_congr ?_
      rintro ⟨n, p⟩ _
      dsimp only
      rw [h.par2, h.look]

theorem loops_view {a b : List Frame} (h : View a b) (n : Option Nat) (ts : List Tok) : loops a n ts = loops b n ts := by
  fun_induction loops b n ts
  · simp [loops]
  · rename_i ih
    rw [loops, loopVar_view h]
    refine Out.bind_congr fun l _ => ?_
    split
    · rfl
    · rw [ih l]
  · rename_i hn ih
    rw [loops, loopVar_view h]
    · refine Out.bind_congr fun l _ => ?_
      split
      · rfl
      · rw [ih l]
    · exact hn
  · rename_i h1 h2
    rw [loops]
    · unfold loopBad
      rw [varName_view h]
    · exact h1
    · exact h2
  · rename_i h1 h2 h3 h4
    rw [loops]
    · exact h1
    · exact h2
    · exact h3
    · exact h4

theorem aliasTok_view {a b : List Frame} (h : View a b) (t : Tok) : aliasTok a t = aliasTok b t := by
  unfold aliasTok
  cases t <;> simp only [srcVar_view h, subst_view h]

theorem alias_view {a b : List Frame} (h : View a b) (x y : Bool) (ts : List Tok) : alias_ a x y ts = alias_ b x y ts := by
  unfold alias_
  simp only [aliasTok_view h]

theorem argVal_view {a b : List Frame} (h : View a b) (t : Tok) : argVal a t = argVal b t := by
  unfold argVal
  cases t <;> simp only [srcVar_view h, subst_view h]

/-! ### other frames at the bottom -/

/-- the frames `t` are at the bottom, and cannot be seen -/
def Sealed (t s : List Frame) : Prop := ∃ v, s = v ++ t ∧ Closed v

/-- `u` in their place -/
def swS (u s : List Frame) : List Frame := s.take (s.length - u.length) ++ u

def sw (u : List Frame) (st : St) : St := st.set (swS u st.stack)

section
variable {t u : List Frame} (hu : u.length = t.length)
include hu

theorem swS_app (v : List Frame) : swS u (v ++ t) = v ++ u := by
  simp [swS, hu]

theorem swS_cons (f : Frame) {s : List Frame} (h : Sealed t s) : swS u (f :: s) = f :: swS u s := by
  obtain ⟨v, rfl, _⟩ := h
  rw [← List.cons_append, swS_app hu, swS_app hu, List.cons_append]

theorem swS_drop {f : Frame} {s : List Frame} (h : Sealed t s) : (swS u (f :: s)).drop 1 = swS u s := by
  rw [swS_cons hu f h]; rfl

theorem swS_length {s : List Frame} (h : Sealed t s) : (swS u s).length = s.length := by
  obtain ⟨v, rfl, _⟩ := h
  rw [swS_app hu]; simp [hu]

theorem Sealed.view {s : List Frame} (h : Sealed t s) : View (swS u s) s := by
  obtain ⟨v, rfl, hc⟩ := h
  rw [swS_app hu]
  exact view_app hc _ _

omit hu in
theorem Sealed.push {s : List Frame} (h : Sealed t s) (f : Frame) : Sealed t (f :: s) := by
  obtain ⟨v, rfl, g, hg, hl⟩ := h
  exact ⟨f :: v, rfl, g, by simp [hg], hl⟩

omit hu in
theorem Sealed.keep : ∀ {K : Bool} {s s' : List Frame}, Sealed t s → Keep K s s' → Sealed t s' := by
  intro K s s' ⟨v, hs, hc⟩
  subst hs
  induction v generalizing K s' with
  | nil => exact (closed_nil hc).elim
  | cons f v ih =>
    intro hk
    cases K with
    | true =>
      simp only [Keep] at hk
      subst hk
      exact ⟨f :: v, rfl, hc⟩
    | false =>
      cases s' with
      | nil => exact hk.elim
      | cons g s' =>
        have hk' : (g.linked = f.linked ∧ g.last = f.last ∧ VarsKeep f.vars g.vars) ∧ Keep (!f.linked) (v ++ t) s' := hk
        by_cases hl : f.linked = false
        · have := hk'.2
          rw [hl] at this
          simp only [Bool.not_false, Keep] at this
          subst this
          exact ⟨g :: v, rfl, g, by simp, by rw [hk'.1.1, hl]⟩
        · rcases hc.cases with hc | hc
          · exact (hl hc).elim
          · exact (ih hc hk'.2).push g

omit hu in
theorem Sealed.ext {K : Bool} {s s' : List Frame} (h : Sealed t s) (he : Ext K s s') : Sealed t s' := by
  obtain ⟨v, rfl, hc⟩ := h
  cases v with
  | nil => exact (closed_nil hc).elim
  | cons f v =>
    cases s' with
    | nil => exact he.elim
    | cons g s' =>
      have he' : (g.linked = f.linked ∧ VarsExt f.vars g.vars) ∧ Keep (K || !f.linked) (v ++ t) s' := he
      by_cases hl : f.linked = false
      · have := he'.2
        rw [hl] at this
        simp only [Bool.not_false, Bool.or_true, Keep] at this
        subst this
        exact ⟨g :: v, rfl, g, by simp, by rw [he'.1.1, hl]⟩
      · rcases hc.cases with hc | hc
        · exact (hl hc).elim
        · exact (Sealed.keep ⟨v, rfl, hc⟩ he'.2).push g

omit hu in
theorem setAt_eq (n : Str) (x : Val) : ∀ (i : Nat) (s : List Frame), setAt n x i s = onVars (setIn n x) i s
  | _, [] => by simp [setAt, onVars]
  | 0, f :: s => rfl
  | i + 1, f :: s => by simp [setAt, onVars, setAt_eq n x i s]

omit hu in
theorem onVars_app (g : List Var → Out (List Var)) : ∀ {i : Nat} {v : List Frame} (t : List Frame), i < v.length →
    onVars g i (v ++ t) = (onVars g i v).map (· ++ t)
  | _, [], _, h => by simp at h
  | 0, f :: v, t, _ => by
    simp only [List.cons_append, onVars, Out.map_bind]
    rfl
  | i + 1, f :: v, t, h => by
    simp only [List.cons_append, onVars, Out.map_bind]
    rw [onVars_app g t (by simpa using h), Out.bind_map]
    rfl

theorem onVars_sw (g : List Var → Out (List Var)) {i : Nat} {s : List Frame} (h : Sealed t s) (hi : i < s.length - t.length) :
    onVars g i (swS u s) = (onVars g i s).map (swS u) := by
  obtain ⟨v, rfl, _⟩ := h
  have hi' : i < v.length := by simpa using hi
  rw [swS_app hu, onVars_app g u hi', onVars_app g t hi']
  cases onVars g i v <;> simp [swS_app hu]

omit hu in
theorem seen_bound {n : Str} {i : Nat} {w : Var} {s : List Frame} (h : Sealed t s) (hs : seen n i s = some w) :
    i < s.length - t.length := by
  obtain ⟨v, rfl, hc⟩ := h
  rw [seen_app n hc] at hs
  simpa using seen_lt hs

omit hu in
theorem zero_bound {s : List Frame} (h : Sealed t s) : 0 < s.length - t.length := by
  obtain ⟨v, rfl, f, hf, _⟩ := h
  have : 0 < v.length := List.length_pos_of_mem hf
  simpa using this

theorem getElem_sw {i : Nat} {s : List Frame} (h : Sealed t s) (hi : i < s.length - t.length) :
    (swS u s)[i]? = s[i]? := by
  obtain ⟨v, rfl, _⟩ := h
  have hi' : i < v.length := by simpa using hi
  rw [swS_app hu, List.getElem?_append_left hi', List.getElem?_append_left hi']

omit hu in
theorem target_bound {n : Str} {frame : Option Nat} {s : List Frame} (h : Sealed t s) (ht : Target false n frame s) :
    frame.getD 0 < s.length - t.length := by
  cases frame with
  | none => exact zero_bound h
  | some i =>
    obtain ⟨_, _, v, hv, _⟩ := ht
    exact seen_bound h hv

theorem setAt_sw (n : Str) (x : Val) {frame : Option Nat} {s : List Frame} (h : Sealed t s) (ht : Target false n frame s) :
    setAt n x (frame.getD 0) (swS u s) = (setAt n x (frame.getD 0) s).map (swS u) := by
  rw [setAt_eq, setAt_eq]
  exact onVars_sw hu _ h (target_bound h ht)

theorem getVar_sw {n : Str} {frame : Option Nat} {s : List Frame} (h : Sealed t s) (ht : Target false n frame s) :
    getVar n frame (swS u s) = getVar n frame s := by
  cases frame with
  | none => exact (h.view hu).look n
  | some i =>
    unfold getVar
    dsimp only
    rw [getElem_sw hu (i := i) h (target_bound h ht)]

/-- `Parse` of what is in brackets -/
def RecSim (t u : List Frame) (rec : Rec) (m : Nat) : Prop := ∀ st ts, m ≤ st.stack.length → Inv false st.stack →
  Sealed t st.stack → rec (sw u st) ts = (rec st ts).map (sw u)

omit hu in
theorem RecSpec.out {rec : Rec} {m : Nat} (hr : RecSpec rec m) {st st' : St} {ts : List Tok} (hm : m ≤ st.stack.length)
    (hi : Inv false st.stack) (h : rec st ts = .ok st') : Ext false st.stack st'.stack ∧ Inv false st'.stack := by
  have := hr false st ts hm hi (by simp)
  rw [h] at this
  exact this

theorem sw_push {st : St} (h : Sealed t st.stack) : sw u (push st) = push (sw u st) := by
  simp only [sw, push, St.set]
  rw [swS_cons hu _ h]

theorem storeVar_sw {s : List Frame} {n v : Str} {op : Op} {frame : Option Nat} (h : Sealed t s)
    (ht : Target false n frame s) : storeVar (swS u s) n v op frame = (storeVar s n v op frame).map (swS u) := by
  unfold storeVar
  rw [varName_view (h.view hu), Out.map_bind]
  refine Out.bind_congr ?_
  rintro ⟨sn, p⟩ _
  dsimp only
  rw [(h.view hu).par, (h.view hu).look, getVar_sw hu h ht, getElem_sw hu h (target_bound h ht)]
  split
  · rfl
  · split
    · rfl
    · rw [Out.map_bind]
      exact Out.bind_congr fun x _ => setAt_sw hu n x h ht

theorem storeStruct_sw {rec : Rec} {m : Nat} {st : St} (hr : RecSpec rec m) (hs : RecSim t u rec m)
    (hm : m ≤ st.stack.length + 1) {n : Str} {body : List Tok} {op : Op} {frame : Option Nat} (hi : Inv false st.stack)
    (h : Sealed t st.stack) (ht : Target false n frame st.stack) :
    storeStruct rec (sw u st) n body op frame = (storeStruct rec st n body op frame).map (sw u) := by
  have main : (do
      let st ← rec (push (sw u st)) body
      match st.stack with
      | [] => .assert .dangling
      | f :: fs => do
        let s ← setAt n (.struct (f.vars.map fun v => (v.name, v.val))) (frame.getD 0) fs
        pure (st.set s) : Out St) = (do
      let st ← rec (push st) body
      match st.stack with
      | [] => .assert .dangling
      | f :: fs => do
        let s ← setAt n (.struct (f.vars.map fun v => (v.name, v.val))) (frame.getD 0) fs
        pure (st.set s) : Out St).map (sw u) := by
    rw [← sw_push hu h, hs (push st) body (by simpa [push, St.set] using hm) (inv_new _ _ _) (h.push _), Out.bind_map,
      Out.map_bind]
    refine Out.bind_congr fun st' h' => ?_
    obtain ⟨he, _⟩ := hr.out (by simpa [push, St.set] using hm) (inv_new _ _ _) h'
    obtain ⟨g, s', hst, hk⟩ := keep_of_ext (f := ⟨[], none, true⟩) rfl he
    have hsl := h.keep hk
    have : (sw u st').stack = g :: swS u s' := by simp only [sw, St.set]; rw [hst, swS_cons hu _ hsl]
    rw [this, hst]
    dsimp only
    have h1 := hk.step hi.ne_nil
    rw [setAt_sw hu n _ hsl (ht.ext h1.1), Out.bind_map, Out.map_bind]
    rfl
  unfold storeStruct
  split
  · rfl
  · have : (sw u st).stack = swS u st.stack := rfl
    dsimp only
    rw [this, getVar_sw hu h ht]
    split
    · exact main
    · exact main
    · rfl

/-- on a result with the tokens that follow -/
def sw2 (u : List Frame) (r : St × List Tok) : St × List Tok := (sw u r.1, r.2)

theorem declare_sw {rec : Rec} {m : Nat} {st : St} (hr : RecSpec rec m) (hs : RecSim t u rec m)
    (hm : m ≤ st.stack.length + 1) {n : Str} {frame : Option Nat} {ts : List Tok} {e : Tok} (hi : Inv false st.stack)
    (h : Sealed t st.stack) (ht : Target false n frame st.stack) :
    declare rec (sw u st) n frame ts e = (declare rec st n frame ts e).map (sw2 u) := by
  have hst : (sw u st).stack = swS u st.stack := rfl
  unfold declare
  split
  · rename_i op ts
    split
    · have hstore : ∀ (x : Out Val) (rest : List Tok), (do
          let x ← x
          let s ← setAt n x (frame.getD 0) (sw u st).stack
          pure ((sw u st).set s, rest) : Out (St × List Tok)) = (do
          let x ← x
          let s ← setAt n x (frame.getD 0) st.stack
          pure (st.set s, rest) : Out (St × List Tok)).map (sw2 u) := by
        intro x rest
        rw [Out.map_bind]
        refine Out.bind_congr fun x _ => ?_
        rw [hst, setAt_sw hu n x h ht, Out.bind_map, Out.map_bind]
        rfl
      dsimp only
      rw [hst, getVar_sw hu h ht]
      rw [← hst]
      generalize cur ts e = c
      split
      · rw [hst, subst_view (h.view hu), ← hst]
        exact hstore _ _
      · split
        · rw [Out.map_bind]
          refine Out.bind_congr ?_
          rintro ⟨b, r⟩ _
          dsimp only
          rw [hst, storeArray_view (h.view hu), ← hst]
          exact hstore _ _
        · split
          · rw [Out.map_bind]
            refine Out.bind_congr ?_
            rintro ⟨b, r⟩ _
            dsimp only
            rw [storeStruct_sw hu hr hs hm hi h ht, Out.bind_map, Out.map_bind]
            rfl
          · split
            · exact hstore _ _
            · exact hstore _ _
            · rw [hst, storeVar_sw hu h ht, Out.bind_map, Out.map_bind]
              rfl
            · rfl
    · rfl
  · rfl

theorem setLast_sw {n : Str} {frame : Option Nat} {s : List Frame} (h : Sealed t s) :
    setLast n frame (swS u s) = swS u (setLast n frame s) ∧ Sealed t (setLast n frame s) := by
  obtain ⟨v, rfl, hc⟩ := h
  cases v with
  | nil => exact (closed_nil hc).elim
  | cons f v =>
    rw [swS_app hu]
    have he : setLast n frame ((f :: v) ++ t) = ({ f with last := some (n, frame) } :: v) ++ t := rfl
    rw [he, swS_app hu]
    refine ⟨rfl, _, rfl, ?_⟩
    obtain ⟨g, hg, hl⟩ := hc
    rcases List.mem_cons.mp hg with rfl | hg
    · exact ⟨_, List.mem_cons_self, hl⟩
    · exact ⟨g, by simp [hg], hl⟩

theorem named_sw {rec : Rec} {m : Nat} {st : St} (hr : RecSpec rec m) (hs : RecSim t u rec m)
    (hm : m ≤ st.stack.length + 1) {v : Str} {ts : List Tok} {e : Tok} (hi : Inv false st.stack) (h : Sealed t st.stack) :
    named rec (sw u st) v ts e = (named rec st v ts e).map (sw2 u) := by
  have hst : (sw u st).stack = swS u st.stack := rfl
  unfold named
  rw [hst, varName_view (h.view hu), Out.map_bind]
  refine Out.bind_congr ?_
  rintro ⟨n, p⟩ _
  dsimp only
  have key : ∀ frame, Target false n frame st.stack →
      declare rec ((sw u st).set (setLast n frame (swS u st.stack))) n frame ts e =
        (declare rec (st.set (setLast n frame st.stack)) n frame ts e).map (sw2 u) := by
    intro frame ht
    obtain ⟨h1, h2⟩ := setLast_sw hu (n := n) (frame := frame) h
    obtain ⟨_, hi', ht'⟩ := setLast_inv hi ht
    have : (sw u st).set (setLast n frame (swS u st.stack)) = sw u (st.set (setLast n frame st.stack)) := by
      simp only [sw, St.set]; rw [h1]
    rw [this]
    exact declare_sw hu hr hs (by simpa [St.set, setLast_length] using hm) hi' h2 ht'
  split
  · rw [(h.view hu).par]
    split
    · rfl
    · rename_i i w hd
      split
      · rfl
      · obtain ⟨hse, h1⟩ := parentDecl_seen hd
        exact key (some i) ⟨rfl, h1, w, hse, by omega⟩
  · exact key none trivial

theorem unnamed_sw {rec : Rec} {m : Nat} {st : St} (hr : RecSpec rec m) (hs : RecSim t u rec m)
    (hm : m ≤ st.stack.length + 1) {ts : List Tok} {e : Tok} (hi : Inv false st.stack) (h : Sealed t st.stack) :
    unnamed rec (sw u st) ts e = (unnamed rec st ts e).map (sw2 u) := by
  unfold unnamed
  cases hst : st.stack with
  | nil => rw [hst] at hi; exact hi.elim
  | cons f s =>
    have hsw : ∃ s', (sw u st).stack = f :: s' := by
      obtain ⟨v, hv, hc⟩ := h
      cases v with
      | nil => exact (closed_nil hc).elim
      | cons g v =>
        refine ⟨v ++ u, ?_⟩
        simp only [sw, St.set]
        rw [hv, swS_app hu]
        rw [hst] at hv
        cases hv
        rfl
    obtain ⟨s', hs'⟩ := hsw
    rw [hs']
    dsimp only
    split
    · rfl
    · rename_i n frame hl
      have ht : Target false n frame st.stack := by
        cases frame with
        | none => trivial
        | some i =>
          rw [hst] at hi ⊢
          exact hi.2 n i hl
      exact declare_sw hu hr hs hm hi h ht

/-- `Parse` in a new frame -/
theorem rec_new {rec : Rec} {m : Nat} (hr : RecSpec rec m) (hs : RecSim t u rec m) {st : St} {g : Frame} {s : List Frame}
    (hst : st.stack = g :: s) (hg : Plain g) (hm : m ≤ s.length + 1) (h : Sealed t s) (body : List Tok) :
    rec (sw u st) body = (rec st body).map (sw u) ∧
      ∀ st', rec st body = .ok st' → Keep false s (pop st').stack ∧ Sealed t (pop st').stack ∧ Sealed t st'.stack ∧
        pop (sw u st') = sw u (pop st') := by
  have hm' : m ≤ st.stack.length := by rw [hst]; simpa using hm
  have hi : Inv false st.stack := by rw [hst]; exact hg.inv _ _
  refine ⟨hs st body hm' hi (by rw [hst]; exact h.push _), fun st' h' => ?_⟩
  obtain ⟨he, _⟩ := hr.out hm' hi h'
  rw [hst] at he
  obtain ⟨g', s', hst', hk⟩ := keep_of_ext hg.2.1 he
  have hpop : (pop st').stack = s' := by simp [pop, St.set, hst']
  have hsl := h.keep hk
  refine ⟨by rw [hpop]; exact hk, by rw [hpop]; exact hsl, by rw [hst']; exact hsl.push _, ?_⟩
  simp only [pop, sw, St.set]
  rw [hst', swS_cons hu _ hsl]
  rfl

theorem scope_sw {rec : Rec} {m : Nat} {st : St} (hr : RecSpec rec m) (hs : RecSim t u rec m)
    (hm : m ≤ st.stack.length + 1) {ts : List Tok} (h : Sealed t st.stack) :
    scope rec (sw u st) ts = (scope rec st ts).map (sw2 u) := by
  unfold scope
  rw [Out.map_bind]
  refine Out.bind_congr ?_
  rintro ⟨b, r⟩ _
  dsimp only
  obtain ⟨h1, h2⟩ := rec_new hu hr hs (st := push st) rfl plain_new hm h b
  rw [← sw_push hu h, h1, Out.bind_map, Out.map_bind]
  refine Out.bind_congr fun st' h' => ?_
  rw [(h2 st' h').2.2.2]
  rfl

theorem fnIf_sw {rec : Rec} {m : Nat} (hr : RecSpec rec m) (hs : RecSim t u rec m) {st : St} {g : Frame} {s : List Frame}
    (hst : st.stack = g :: s) (hg : Plain g) (hm : m ≤ s.length + 1) (h : Sealed t s) {hdr body : List Tok} :
    fnIf rec (sw u st) hdr body = (fnIf rec st hdr body).map (sw u) := by
  unfold fnIf
  have : (sw u st).stack = swS u st.stack := rfl
  rw [this, condVar_view ((show Sealed t st.stack by rw [hst]; exact h.push _).view hu)]
  split
  · exact (rec_new hu hr hs hst hg hm h body).1
  · rfl
  · rfl
  · rfl
  · rfl

omit hu in
theorem onVars_shape (g : List Var → Out (List Var)) : ∀ {i : Nat} {v v' : List Frame}, onVars g i v = .ok v' →
    v'.map (·.linked) = v.map (·.linked)
  | _, [], _, h => by simp [onVars] at h
  | 0, f :: v, v', h => by
    simp only [onVars, Out.bind_eq_ok] at h
    obtain ⟨vs, _, h⟩ := h
    cases h; rfl
  | i + 1, f :: v, v', h => by
    simp only [onVars, Out.bind_eq_ok] at h
    obtain ⟨vs, hvs, h⟩ := h
    cases h
    simp [onVars_shape g hvs]

omit hu in
theorem closed_shape {v v' : List Frame} (h : v'.map (·.linked) = v.map (·.linked)) (hc : Closed v) : Closed v' := by
  obtain ⟨f, hf, hl⟩ := hc
  have : f.linked ∈ v'.map (·.linked) := by rw [h]; exact List.mem_map_of_mem hf
  obtain ⟨f', hf', he⟩ := List.mem_map.mp this
  exact ⟨f', hf', he.trans hl⟩

omit hu in
theorem onVars_sealed (g : List Var → Out (List Var)) {i : Nat} {s s' : List Frame} (h : Sealed t s)
    (hi : i < s.length - t.length) (he : onVars g i s = .ok s') : Sealed t s' ∧ s'.length = s.length := by
  have hlen : s'.length = s.length := by simpa using congrArg List.length (onVars_shape g he)
  refine ⟨?_, hlen⟩
  obtain ⟨v, rfl, hc⟩ := h
  rw [onVars_app g t (by simpa using hi)] at he
  cases hv : onVars g i v with
  | ok v' =>
    rw [hv] at he
    cases he
    exact ⟨v', rfl, closed_shape (onVars_shape g hv) hc⟩
  | err => rw [hv] at he; cases he
  | assert w => rw [hv] at he; cases he
  | fuel => rw [hv] at he; cases he

theorem onArrays_sw (g : Str → List Var → Out (List Var)) : ∀ {ls : List Loop} {s : List Frame},
    Sealed t s → (∀ l ∈ ls, l.frame < s.length - t.length) → onArrays g ls (swS u s) = (onArrays g ls s).map (swS u) ∧
      ∀ s', onArrays g ls s = .ok s' → Sealed t s' ∧ s'.length = s.length
  | [], s, h, _ => ⟨rfl, fun s' h' => by cases h'; exact ⟨h, rfl⟩⟩
  | l :: ls, s, h, hl => by
    unfold onArrays
    have key : ∀ s', onVars (g l.arr) l.frame s = .ok s' → Sealed t s' ∧ s'.length = s.length :=
      fun s' hs' => onVars_sealed _ h (hl l (by simp)) hs'
    have ih : ∀ s', onVars (g l.arr) l.frame s = .ok s' → _ := fun s' hs' =>
      onArrays_sw g (key s' hs').1 (ls := ls) (fun l' hl' => by rw [(key s' hs').2]; exact hl l' (by simp [hl']))
    refine ⟨?_, ?_⟩
    · rw [onVars_sw hu _ h (hl l (by simp)), Out.bind_map, Out.map_bind]
      exact Out.bind_congr fun s' hs' => (ih s' hs').1
    · intro s' h'
      rw [Out.bind_eq_ok] at h'
      obtain ⟨s1, h1, h'⟩ := h'
      obtain ⟨h2, h3⟩ := (ih s1 h1).2 s' h'
      exact ⟨h2, h3.trans (key s1 h1).2⟩

theorem bindLoops_sw {i : Nat} : ∀ {ls : List Loop} {g : Frame} {s : List Frame}, Sealed t s →
    (∀ l ∈ ls, l.frame < s.length - t.length) → Plain g →
    bindLoops i ls (g :: swS u s) = (bindLoops i ls (g :: s)).map (swS u)
  | [], g, s, h, _, _ => by simp [bindLoops, swS_cons hu _ h]
  | l :: ls, g, s, h, hl, hg => by
    unfold bindLoops
    have : (g :: swS u s)[l.frame + 1]? = (g :: s)[l.frame + 1]? := by
      simpa using getElem_sw hu h (hl l (by simp))
    rw [this]
    split
    · rfl
    · split
      · rfl
      · rename_i x _
        have e1 := setAt_sw hu (u := u) l.local_ x (frame := none) (h.push g) trivial
        rw [swS_cons hu _ h] at e1
        simp only [Option.getD_none] at e1
        rw [e1, Out.bind_map, Out.map_bind]
        refine Out.bind_congr fun s' hs' => ?_
        have hp := setAt_plain (s := s) l.local_ x hg
        rw [hs'] at hp
        obtain ⟨g', rfl, hg'⟩ := hp
        rw [swS_cons hu _ h]
        exact bindLoops_sw h (fun l' hl' => hl l' (by simp [hl'])) hg'

theorem iterate_sw {rec : Rec} {m N : Nat} (hr : RecSpec rec m) (hs : RecSim t u rec m) {ls : List Loop} {body : List Tok} :
    ∀ {is : List Nat} {st : St}, (∀ i ∈ is, i < N) → m ≤ st.stack.length + 1 → (∀ l ∈ ls, Ready N st.stack l) →
    Sealed t st.stack → iterate rec ls body is (sw u st) = (iterate rec ls body is st).map (sw u)
  | [], st, _, _, _, _ => rfl
  | i :: is, st, hi, hm, hl, h => by
    unfold iterate
    have hb : ∀ l ∈ ls, l.frame < st.stack.length - t.length := by
      intro l hl'
      obtain ⟨v, hv, _⟩ := hl l hl'
      exact seen_bound h hv
    have e1 : bindLoops i ls (push (sw u st)).stack = (bindLoops i ls (push st).stack).map (swS u) :=
      bindLoops_sw hu h hb plain_new
    rw [e1, Out.bind_map, Out.map_bind]
    refine Out.bind_congr fun s' hs' => ?_
    have hp := bindLoops_post (hi i (by simp)) hl plain_new
    have hs'' : bindLoops i ls (⟨[], none, true⟩ :: st.stack) = .ok s' := hs'
    rw [hs''] at hp
    obtain ⟨g, rfl, hg⟩ := hp
    obtain ⟨h1, h2⟩ := rec_new hu hr hs (st := st.set (g :: st.stack)) rfl hg hm h body
    have e2 : (sw u st).set (swS u (g :: st.stack)) = sw u (st.set (g :: st.stack)) := rfl
    rw [e2, h1, Out.bind_map, Out.map_bind]
    refine Out.bind_congr fun st' hst' => ?_
    obtain ⟨hk, hsl, _, hpop⟩ := h2 st' hst'
    rw [hpop]
    exact iterate_sw hr hs (fun j hj => hi j (by simp [hj])) (by rw [hk.length]; exact hm) (fun l h => (hl l h).keep hk) hsl

theorem fnForEach_sw {rec : Rec} {m : Nat} (hr : RecSpec rec m) (hs : RecSim t u rec m) {st : St} {hdr bd : List Tok}
    (hm : m ≤ st.stack.length + 1) (h : Sealed t st.stack) :
    fnForEach rec (sw u st) hdr bd = (fnForEach rec st hdr bd).map (sw u) := by
  have hst : (sw u st).stack = swS u st.stack := rfl
  unfold fnForEach
  rw [hst, loops_view (h.view hu), Out.map_bind]
  refine Out.bind_congr ?_
  rintro ⟨ls, n⟩ hl
  have hp := loops_post st.stack none hdr
  rw [hl] at hp
  have h1 : ∀ l ∈ ls, ∃ N, n = some N ∧ LoopOk N st.stack l := hp.1
  dsimp only
  split
  · rfl
  · have hb : ∀ l ∈ ls, l.frame < st.stack.length - t.length := by
      intro l hl'
      obtain ⟨N, _, v, hv, _⟩ := h1 l hl'
      exact seen_bound h hv
    obtain ⟨e1, e2⟩ := onArrays_sw hu (u := u) freezeIn h hb
    rw [e1, Out.bind_map, Out.map_bind]
    refine Out.bind_congr fun s1 hs1 => ?_
    obtain ⟨hsl, hlen⟩ := e2 s1 hs1
    have hfz := onArrays_freeze (ls := ls) (s := st.stack) (by
      intro l hl'
      obtain ⟨N, _, v, hv, _⟩ := h1 l hl'
      exact ⟨v, hv⟩)
    rw [hs1] at hfz
    have hfz' : s1 = incs ls st.stack := hfz
    have hready : ∀ l ∈ ls, Ready (n.getD 0) (st.set s1).stack l := by
      intro l hl'
      obtain ⟨N, rfl, v, hv, hlen⟩ := h1 l hl'
      obtain ⟨w, hw, hmore, hf⟩ := seen_incs (ls := ls) hv
      rw [hfz']
      exact ⟨w, hw, by rw [hmore.2.1]; exact hlen, by have := hf ⟨l, hl', rfl, rfl⟩; omega⟩
    have hm1 : m ≤ (st.set s1).stack.length + 1 := by simpa [St.set, hlen] using hm
    have e3 : (sw u st).set (swS u s1) = sw u (st.set s1) := rfl
    rw [e3, iterate_sw hu hr hs (N := n.getD 0) (by simp) hm1 hready hsl, Out.bind_map, Out.map_bind]
    refine Out.bind_congr fun st' hst' => ?_
    have hk := iterate_post (K := false) (body := bd) hr (by simp) (is := List.range (n.getD 0)) (N := n.getD 0) (by simp) hm1 hready
    rw [hst'] at hk
    have hk' : Keep false s1 st'.stack := hk
    have hst'' : (sw u st').stack = swS u st'.stack := rfl
    rw [hst'', (onArrays_sw hu (u := u) unfreezeIn (hsl.keep hk') (fun l hl' => by
      rw [hk'.length, hlen]; exact hb l hl')).1, Out.bind_map, Out.map_bind]
    rfl

theorem setAll_sw : ∀ {ms : List (Str × Val)} {g : Frame} {s : List Frame}, Inv false s → Sealed t s →
    setAll 1 ms (g :: swS u s) = (setAll 1 ms (g :: s)).map (swS u)
  | [], g, s, _, h => by simp [setAll, swS_cons hu _ h]
  | m :: ms, g, s, hi, h => by
    unfold setAll
    have e : ∀ s, setAt m.1 m.2 1 (g :: s) = setAt m.1 m.2 0 s >>= fun fs => pure (g :: fs) := fun _ => rfl
    have e1 := setAt_sw hu (u := u) m.1 m.2 (frame := none) h trivial
    simp only [Option.getD_none] at e1
    rw [e, e, e1]
    cases hs : setAt m.1 m.2 0 s with
    | ok s1 =>
      have hp := setAt_post (frame := none) m.1 m.2 hi trivial
      simp only [Option.getD_none] at hp
      rw [hs] at hp
      exact setAll_sw (Step.inv hp hi) (h.ext hp.1)
    | err => rfl
    | assert w => rfl
    | fuel => rfl

theorem fnUsing_sw {st : St} {g : Frame} {s : List Frame} {hdr : List Tok} (hst : st.stack = g :: s) (hi : Inv false s)
    (h : Sealed t s) : fnUsing (sw u st) hdr = (fnUsing st hdr).map (sw u) := by
  have hv := (show Sealed t st.stack by rw [hst]; exact h.push _).view hu (u := u)
  have hsw : (sw u st).stack = swS u st.stack := rfl
  unfold fnUsing
  split
  · rw [hsw, varName_view hv, Out.map_bind]
    refine Out.bind_congr ?_
    rintro ⟨n, p⟩ _
    dsimp only
    rw [hv.par2, hv.look]
    split
    · rfl
    · split
      · rw [hst, swS_cons hu _ h, setAll_sw hu hi h, Out.bind_map, Out.map_bind]
        rfl
      · rfl
  · rfl

theorem fnPrint_sw {st : St} {hdr : List Tok} (h : Sealed t st.stack) :
    fnPrint (sw u st) hdr = (fnPrint st hdr).map (sw u) := by
  have hv := h.view hu (u := u)
  have hsw : (sw u st).stack = swS u st.stack := rfl
  unfold fnPrint
  split
  · rw [hsw, subst_view hv, Out.map_bind]
    rfl
  · rw [hsw, varName_view hv, Out.map_bind]
    refine Out.bind_congr ?_
    rintro ⟨n, p⟩ _
    dsimp only
    rw [hv.par2, hv.look]
    split <;> rfl
  · rfl

theorem dispatch_sw {commit : List Event → Event → Bool} {rec : Rec} {m : Nat} (hr : RecSpec rec m) (hs : RecSim t u rec m)
    {st : St} {s : List Frame} (hst : st.stack = ⟨[], none, true⟩ :: s) (hi : Inv false s) (h : Sealed t s) {fn : Str}
    {fi : FInfo} {hdr bd : List Tok} (hm : m ≤ s.length + 1) :
    dispatch commit rec (sw u st) fn fi hdr bd = (dispatch commit rec st fn fi hdr bd).map (sw u) := by
  have hsl : Sealed t st.stack := by rw [hst]; exact h.push _
  unfold dispatch
  split
  · exact fnIf_sw hu hr hs hst plain_new hm h
  · exact fnForEach_sw hu hr hs (by rw [hst]; simp; omega) hsl
  · exact fnUsing_sw hu hst hi h
  · exact fnPrint_sw hu hsl
  · rfl
  · unfold fnNode
    have hsw : (sw u st).stack = swS u st.stack := rfl
    rw [hsw, alias_view (hsl.view hu), Out.map_bind]
    refine Out.bind_congr fun a _ => ?_
    obtain ⟨h1, h2⟩ := rec_new hu hr hs hst plain_new hm h bd
    rw [h1, Out.bind_map, Out.map_bind]
    refine Out.bind_congr fun st' hst' => ?_
    have hv := ((h2 st' hst').2.2.1).view hu (u := u)
    have : (sw u st').stack = swS u st'.stack := rfl
    dsimp only
    rw [this, hv.vis]
    have : (sw u st').log = st'.log := rfl
    rw [this]
    split <;> rfl

theorem function_sw {commit : List Event → Event → Bool} {rec : Rec} {m : Nat} (hr : RecSpec rec m) (hs : RecSim t u rec m)
    {st : St} (hi : Inv false st.stack) (h : Sealed t st.stack) {fn : Str} {ts : List Tok} {e : Tok}
    (hm : m ≤ st.stack.length + 1) :
    function commit rec (sw u st) fn ts e = (function commit rec st fn ts e).map (sw2 u) := by
  unfold function
  split
  · rfl
  · rename_i fi _
    have : (sw u st).seen = st.seen := rfl
    rw [this]
    split
    · rfl
    · rw [Out.map_bind]
      refine Out.bind_congr ?_
      rintro ⟨hdr, ts1⟩ _
      dsimp only
      rw [Out.map_bind]
      refine Out.bind_congr ?_
      rintro ⟨bd, ts2⟩ _
      dsimp only
      have e1 : push { sw u st with seen := if fi.unique then fn :: st.seen else st.seen } =
          sw u (push { st with seen := if fi.unique then fn :: st.seen else st.seen }) := by
        simp only [push, sw, St.set]
        rw [swS_cons hu _ h]
      rw [e1, dispatch_sw hu (s := st.stack) hr hs rfl hi h hm, Out.bind_map, Out.map_bind]
      refine Out.bind_congr fun st' hst' => ?_
      have hb := dispatch_post (K := false) (commit := commit) (fn := fn) (fi := fi) (hdr := hdr) (bd := bd) hr
        (st := push { st with seen := if fi.unique then fn :: st.seen else st.seen }) rfl hi (by simp) hm
      rw [hst'] at hb
      obtain ⟨g, s', hs', hstep⟩ := hb
      have hsl := h.ext hstep.1
      have : pop (sw u st') = sw u (pop st') := by
        simp only [pop, sw, St.set]
        rw [hs', swS_cons hu _ hsl]
        rfl
      rw [this]
      rfl

theorem declareFn_sw {st : St} {ts : List Tok} {e : Tok} :
    declareFn (sw u st) ts e = (declareFn st ts e).map (sw2 u) := by
  have : (sw u st).funcs = st.funcs := rfl
  unfold declareFn
  rw [this]
  split
  · split
    · rfl
    · split
      · rw [Out.map_bind]
        refine Out.bind_congr ?_
        rintro ⟨hdr, ts1⟩ _
        dsimp only
        rw [Out.map_bind]
        refine Out.bind_congr fun ps _ => ?_
        split
        · rw [Out.map_bind]
          rfl
        · rfl
      · rfl
  · rfl

theorem bindArgs_sw : ∀ {l : List (Str × Tok)} {g : Frame} {s : List Frame}, Sealed t s → Plain g →
    bindArgs l (g :: swS u s) = (bindArgs l (g :: s)).map (swS u)
  | [], g, s, h, _ => by simp [bindArgs, swS_cons hu _ h]
  | (n, a) :: l, g, s, h, hg => by
    unfold bindArgs
    have hv := (h.push g).view hu (u := u)
    rw [swS_cons hu _ h] at hv
    rw [argVal_view hv, Out.map_bind]
    refine Out.bind_congr fun x _ => ?_
    have e1 := setAt_sw hu (u := u) n x (frame := none) (h.push g) trivial
    rw [swS_cons hu _ h] at e1
    simp only [Option.getD_none] at e1
    rw [e1, Out.bind_map, Out.map_bind]
    refine Out.bind_congr fun s' hs' => ?_
    have hp := setAt_plain (s := s) n x hg
    rw [hs'] at hp
    obtain ⟨g', rfl, hg'⟩ := hp
    rw [swS_cons hu _ h]
    exact bindArgs_sw h hg'

theorem call_sw {rec : Rec} {m : Nat} (hr : RecSpec rec m) (hs : RecSim t u rec m) {st : St} {f : UFunc} {ts : List Tok}
    {e : Tok} (hm : m ≤ st.stack.length + 1) (h : Sealed t st.stack) :
    call rec (sw u st) f ts e = (call rec st f ts e).map (sw2 u) := by
  unfold call
  split
  · rw [Out.map_bind]
    refine Out.bind_congr ?_
    rintro ⟨hdr, ts1⟩ _
    dsimp only
    rw [Out.map_bind]
    refine Out.bind_congr fun as _ => ?_
    split
    · rfl
    · have e1 : bindArgs (f.args.zip as) (push (sw u st)).stack = (bindArgs (f.args.zip as) (push st).stack).map (swS u) :=
        bindArgs_sw hu h plain_new
      rw [e1, Out.bind_map, Out.map_bind]
      refine Out.bind_congr fun s1 hs1 => ?_
      have hp := bindArgs_post (l := f.args.zip as) (s := st.stack) plain_new
      have hs1' : bindArgs (f.args.zip as) (⟨[], none, true⟩ :: st.stack) = .ok s1 := hs1
      rw [hs1'] at hp
      obtain ⟨g, rfl, hg⟩ := hp
      have e2 : (sw u st).set (disconnect (swS u (g :: st.stack))) = sw u (st.set (disconnect (g :: st.stack))) := by
        simp only [sw, St.set]
        rw [swS_cons hu _ h]
        simp only [disconnect]
        rw [swS_cons hu _ h]
      have hm' : m ≤ (st.set (disconnect (g :: st.stack))).stack.length := by simpa [St.set, disconnect] using hm
      have hi' : Inv false (st.set (disconnect (g :: st.stack))).stack :=
        ⟨hg.2.2, by intro n i hn; simp only [hg.1] at hn; cases hn⟩
      rw [e2, hs _ _ hm' hi' (h.push _), Out.bind_map, Out.map_bind]
      refine Out.bind_congr fun st' hst' => ?_
      obtain ⟨he, _⟩ := hr.out hm' hi' hst'
      have he' : Ext false ({ g with linked := false } :: st.stack) st'.stack := he
      cases hs2 : st'.stack with
      | nil => rw [hs2] at he'; exact he'.elim
      | cons g' s' =>
        rw [hs2] at he'
        have hsl : Sealed t s' := h.keep he'.2
        have : pop (sw u st') = sw u (pop st') := by
          simp only [pop, sw, St.set]
          rw [hs2, swS_cons hu _ hsl]
          rfl
        rw [this]
        rfl
  · rfl

theorem stmt_sw {commit : List Event → Event → Bool} {rec : Rec} {m : Nat} (hr : RecSpec rec m) (hs : RecSim t u rec m)
    {st : St} (hi : Inv false st.stack) (h : Sealed t st.stack) {tok : Tok} {ts : List Tok} {e : Tok}
    (hm : m ≤ st.stack.length + 1) :
    stmt commit rec (sw u st) tok ts e = (stmt commit rec st tok ts e).map (sw2 u) := by
  have : (sw u st).funcs = st.funcs := rfl
  unfold stmt
  split
  · exact named_sw hu hr hs hm hi h
  · exact unnamed_sw hu hr hs hm hi h
  · exact unnamed_sw hu hr hs hm hi h
  · split
    · exact scope_sw hu hr hs hm h
    · split
      · exact function_sw hu hr hs hi h hm
      · exact declareFn_sw hu
      · rw [this]
        split
        · exact call_sw hu hr hs hm h
        · rfl
      · split <;> rfl
      · rfl

theorem stmts_sw {commit : List Event → Event → Bool} {rec : Rec} {m : Nat} (hr : RecSpec rec m) (hs : RecSim t u rec m)
    {e : Tok} (he : Stop e) : ∀ {k : Nat} {st : St} {ts : List Tok}, Inv false st.stack → Sealed t st.stack →
    m ≤ st.stack.length + 1 → stmts commit rec e k (sw u st) ts = (stmts commit rec e k st ts).map (sw u)
  | k, st, [], _, _, _ => by cases k <;> rfl
  | 0, st, _ :: _, _, _, _ => rfl
  | k + 1, st, tok :: ts, hi, h, hm => by
    unfold stmts
    rw [stmt_sw hu hr hs hi h hm, Out.bind_map, Out.map_bind]
    refine Out.bind_congr ?_
    rintro ⟨st', ts'⟩ h'
    have hp := stmt_post (K := false) (commit := commit) hr hi (t := tok) (ts := ts) he (by simp) hm
    rw [h'] at hp
    obtain ⟨⟨h1, h2⟩, _⟩ := hp
    exact stmts_sw hr hs he h2 (h.ext h1) (by rw [h1.length]; exact hm)

theorem parse_sw (commit : List Event → Event → Bool) : ∀ (k : Nat) {e : Tok}, Stop e → ∀ st ts,
    127 ≤ st.stack.length + k → Inv false st.stack → Sealed t st.stack →
      parse commit (k + 1) e (sw u st) ts = (parse commit (k + 1) e st ts).map (sw u)
  | 0, e, he, st, ts, hd, hi, h => by
    have : (sw u st).stack.length = st.stack.length := swS_length hu h
    unfold parse
    rw [this, if_pos (by omega), if_pos (by omega)]
    rfl
  | k + 1, e, he, st, ts, hd, hi, h => by
    have : (sw u st).stack.length = st.stack.length := swS_length hu h
    unfold parse
    rw [this]
    split
    · rfl
    · refine stmts_sw hu (m := st.stack.length + 1) ?_ ?_ he hi h (Nat.le_refl _)
      · intro K' st' ts' hl hi' hp'
        exact parse_post commit k (Or.inl rfl) K' st' ts' (by omega) hi' hp'
      · intro st' ts' hl hi' h'
        exact parse_sw commit k (Or.inl rfl) st' ts' (by omega) hi' h'

end

end Verif.Bff.Interp
