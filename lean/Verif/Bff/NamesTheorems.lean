import Verif.Bff.InterpProps
import Verif.Bff.NamesSpec
/-
C124: in each scope and each struct a name occurs once.
-/
namespace Verif.Bff.Names
open Interp

/-! ### outcomes -/

/-- if there is a result, it is so -/
def Ens {α : Type} (x : Out α) (P : α → Prop) : Prop := ∀ a, x = .ok a → P a

theorem Ens.ok {α : Type} {P : α → Prop} {a : α} (h : P a) : Ens (.ok a) P := fun b e => by cases e; exact h
theorem Ens.err {α : Type} {P : α → Prop} : Ens (.err : Out α) P := fun b e => by cases e
theorem Ens.assert {α : Type} {P : α → Prop} {w : Why} : Ens (.assert w : Out α) P := fun b e => by cases e
theorem Ens.fuel {α : Type} {P : α → Prop} : Ens (.fuel : Out α) P := fun b e => by cases e
theorem Ens.any {α : Type} {x : Out α} : Ens x (fun _ => True) := fun _ _ => trivial
theorem Ens.bind {α β : Type} {x : Out α} {f : α → Out β} {Q : α → Prop} {P : β → Prop} (h : Ens x Q) (hf : ∀ a, Q a → Ens (f a) P) :
    Ens (x >>= f) P := by
  intro b e
  obtain ⟨a, h1, h2⟩ := Out.bind_eq_ok.1 e
  exact hf a (h a h1) b h2

/-! ### values -/

theorem onceMs_iff {ms : List (Str × Val)} : OnceMs ms ↔ ∀ m ∈ ms, Once m.2 := by
  induction ms with
  | nil => simp [OnceMs]
  | cons m ms ih => simp [OnceMs, ih]

/-- a struct -/
def St1 (ms : List (Str × Val)) : Prop := (ms.map (·.1)).Nodup ∧ ∀ m ∈ ms, Once m.2

theorem once_struct {ms : List (Str × Val)} : Once (.struct ms) ↔ St1 ms := by
  rw [Once, onceMs_iff]; rfl

theorem onceAll_iff {l : List (List (Str × Val))} : OnceAll l ↔ ∀ ms ∈ l, St1 ms := by
  induction l with
  | nil => simp [OnceAll]
  | cons m ms ih => simp [OnceAll, ih, onceMs_iff, St1]

theorem once_structs {l : List (List (Str × Val))} : Once (.structs l) ↔ ∀ ms ∈ l, St1 ms := by
  rw [Once, onceAll_iff]

theorem once_str (x : Str) : Once (.str x) := by simp [Once]
theorem once_strs (x : List Str) : Once (.strs x) := by simp [Once]
theorem once_int (x : Int) : Once (.int x) := by simp [Once]
theorem once_bool (x : Bool) : Once (.bool x) := by simp [Once]

theorem member_none {n : Str} {ms : List (Str × Val)} : member n ms = none ↔ n ∉ ms.map (·.1) := by
  unfold member
  simp [List.find?_eq_none]
  exact ⟨fun h x hx => h n x hx rfl, fun h a b hab e => h b (e ▸ hab)⟩

theorem member_some {n : Str} {ms : List (Str × Val)} {v : Val} (h : member n ms = some v) : ∃ k, (k, v) ∈ ms := by
  unfold member at h
  rw [Option.map_eq_some_iff] at h
  obtain ⟨m, h1, h2⟩ := h
  exact ⟨m.1, h2 ▸ List.mem_of_find?_eq_some h1⟩

theorem st1_append {l : List (Str × Val)} {m : Str × Val} (h : St1 l) (hm : Once m.2) (hn : m.1 ∉ l.map (·.1)) : St1 (l ++ [m]) := by
  refine ⟨?_, ?_⟩
  · rw [List.map_append, List.nodup_append]
    refine ⟨h.1, by simp, ?_⟩
    intro a ha b hb e
    simp at hb
    subst hb
    exact hn (e ▸ ha)
  · intro x hx
    rcases List.mem_append.1 hx with hx | hx
    · exact h.2 x hx
    · simp at hx; subst hx; exact hm

theorem addNew_once : ∀ (ms l : List (Str × Val)), St1 l → (∀ m ∈ ms, Once m.2) → St1 (addNew l ms)
  | [], l, h, _ => h
  | m :: ms, l, h, hm => by
    rw [addNew]
    split
    · exact addNew_once ms l h fun x hx => hm x (List.mem_cons_of_mem _ hx)
    · next hs =>
      have : member m.1 l = none := by simpa using hs
      exact addNew_once ms _ (st1_append h (hm m (by simp)) (member_none.1 this)) fun x hx => hm x (List.mem_cons_of_mem _ hx)

mutual
theorem concat_once : ∀ (a b : Val), Once a → Once b → Ens (concat a b) Once := by
  intro a b ha hb
  unfold concat
  split
  · exact .ok (once_str _)
  · exact .ok (once_strs _)
  · refine .ok (once_structs.2 fun ms h => ?_)
    rcases List.mem_append.1 h with h | h
    · exact once_structs.1 ha ms h
    · exact once_structs.1 hb ms h
  · exact .bind .any fun _ _ => .ok (once_int _)
  · exact .ok (once_bool _)
  · next a b =>
    have ha := once_struct.1 ha
    have hb := once_struct.1 hb
    exact .bind (concatMs_once a b ha.2 hb.2) fun l hl => .ok (once_struct.2 (addNew_once b l ⟨hl.1 ▸ ha.1, hl.2⟩ hb.2))
  · exact .ok (once_strs _)
  · exact .assert
  · refine .ok (once_structs.2 fun ms h => ?_)
    rcases List.mem_append.1 h with h | h
    · exact once_structs.1 ha ms h
    · simp at h; subst h; exact once_struct.1 hb
  · refine .ok (once_structs.2 fun ms h => ?_)
    simp at h; subst h; exact once_struct.1 hb
  · exact .ok (once_strs _)
  · exact .ok ha
  · exact .ok hb
  · exact .ok hb
  · exact .err
theorem concatMs_once : ∀ (a b : List (Str × Val)), (∀ m ∈ a, Once m.2) → (∀ m ∈ b, Once m.2) →
    Ens (concatMs a b) (fun l => l.map (·.1) = a.map (·.1) ∧ ∀ m ∈ l, Once m.2)
  | [], b, _, _ => by rw [concatMs]; exact .ok ⟨rfl, by simp⟩
  | (n, v) :: a, b, ha, hb => by
    have hv := ha (n, v) (by simp)
    have ha' : ∀ m ∈ a, Once m.2 := fun x hx => ha x (List.mem_cons_of_mem _ hx)
    rw [concatMs]
    split
    · next w hw =>
      obtain ⟨k, hk⟩ := member_some hw
      refine .bind (concat_once v w hv (hb _ hk)) fun x hx => .bind (concatMs_once a b ha' hb) fun l hl => .ok ⟨by simp [hl.1], ?_⟩
      intro m hm
      rcases List.mem_cons.1 hm with e | hm
      · subst e; exact hx
      · exact hl.2 m hm
    · refine .bind (concatMs_once a b ha' hb) fun l hl => .ok ⟨by simp [hl.1], ?_⟩
      intro m hm
      rcases List.mem_cons.1 hm with e | hm
      · subst e; exact hv
      · exact hl.2 m hm
end

/-! ### frames -/

/-- the variables of a frame -/
def Vars (vs : List Var) : Prop := (vs.map (·.name)).Nodup ∧ ∀ v ∈ vs, Once v.val
/-- a stack -/
def Stk (s : List Frame) : Prop := ∀ f ∈ s, Vars f.vars

theorem vars_nil : Vars [] := ⟨by simp, by simp⟩

theorem Stk.cons {f : Frame} {s : List Frame} (h : Vars f.vars) (hs : Stk s) : Stk (f :: s) := by
  intro g hg
  rcases List.mem_cons.1 hg with e | hg
  · subst e; exact h
  · exact hs g hg

theorem Stk.head {f : Frame} {s : List Frame} (h : Stk (f :: s)) : Vars f.vars := h f (by simp)
theorem Stk.tail {f : Frame} {s : List Frame} (h : Stk (f :: s)) : Stk s := fun g hg => h g (List.mem_cons_of_mem _ hg)
theorem Stk.drop {s : List Frame} (h : Stk s) : Stk (s.drop 1) := fun g hg => h g (List.mem_of_mem_drop hg)

theorem find_once {f : Frame} {n : Str} {v : Var} (h : Vars f.vars) (e : f.find n = some v) : Once v.val :=
  h.2 v (List.mem_of_find?_eq_some e)

theorem lookup_once {n : Str} : ∀ {s : List Frame} {i : Nat} {v : Var}, Stk s → lookup n s = some (i, v) → Once v.val
  | [], _, _, _, e => by simp [lookup] at e
  | f :: fs, i, v, h, e => by
    rw [lookup] at e
    split at e
    · next w hw => cases e; exact find_once h.head hw
    · split at e
      · rw [Option.map_eq_some_iff] at e
        obtain ⟨⟨j, w⟩, h1, h2⟩ := e
        cases h2
        exact lookup_once h.tail h1
      · cases e

theorem parent_once {n : Str} {s : List Frame} {i : Nat} {v : Var} (h : Stk s) (e : parentDecl n s = some (i, v)) : Once v.val := by
  cases s with
  | nil => simp [parentDecl] at e
  | cons f fs =>
    rw [parentDecl] at e
    split at e
    · rw [Option.map_eq_some_iff] at e
      obtain ⟨⟨j, w⟩, h1, h2⟩ := e
      cases h2
      exact lookup_once h.tail h1
    · cases e

theorem parent2_once {n : Str} {s : List Frame} {i : Nat} {v : Var} (h : Stk s) (e : parentDecl2 n s = some (i, v)) : Once v.val := by
  cases s with
  | nil => simp [parentDecl2] at e
  | cons f fs =>
    rw [parentDecl2] at e
    split at e
    · rw [Option.map_eq_some_iff] at e
      obtain ⟨⟨j, w⟩, h1, h2⟩ := e
      cases h2
      exact parent_once h.tail h1
    · cases e

theorem getElem_once {n : Str} {s : List Frame} {i : Nat} {v : Var} (h : Stk s) (e : (s[i]?).bind (·.find n) = some v) : Once v.val := by
  rw [Option.bind_eq_some_iff] at e
  obtain ⟨f, h1, h2⟩ := e
  exact find_once (h f (List.mem_of_getElem? h1)) h2

/-- what there is is so -/
def Opt (o : Option Val) : Prop := ∀ v, o = some v → Once v

theorem getVar_once {n : Str} {s : List Frame} (fr : Option Nat) (h : Stk s) : Opt ((getVar n fr s).map (·.2.val)) := by
  intro x hx
  rw [Option.map_eq_some_iff] at hx
  obtain ⟨⟨i, v⟩, h1, rfl⟩ := hx
  cases fr with
  | none => exact lookup_once h h1
  | some i =>
    rw [getVar, Option.map_eq_some_iff] at h1
    obtain ⟨w, h1, h2⟩ := h1
    cases h2
    exact getElem_once h h1

theorem setIn_once {n : Str} {x : Val} (hx : Once x) : ∀ (vs : List Var), Vars vs →
    Ens (setIn n x vs) (fun r => Vars r ∧ ∀ a ∈ r.map (·.name), a = n ∨ a ∈ vs.map (·.name))
  | [], _ => .ok ⟨⟨by simp, by simpa using hx⟩, by simp⟩
  | v :: vs, h => by
    have hn := List.nodup_cons.1 (show ((v.name :: vs.map (·.name)) : List Str).Nodup from h.1)
    have ht : Vars vs := ⟨hn.2, fun w hw => h.2 w (List.mem_cons_of_mem _ hw)⟩
    rw [setIn]
    split
    · split
      · refine .ok ⟨⟨h.1, fun w hw => ?_⟩, fun a ha => .inr ha⟩
        rcases List.mem_cons.1 hw with e | hw
        · subst e; exact hx
        · exact ht.2 w hw
      · exact .assert
    · next hne =>
      refine .bind (setIn_once hx vs ht) fun r hr => .ok ⟨⟨?_, fun w hw => ?_⟩, fun a ha => ?_⟩
      · show ((v.name :: r.map (·.name)) : List Str).Nodup
        refine List.nodup_cons.2 ⟨fun hm => ?_, hr.1.1⟩
        rcases hr.2 _ hm with e | e
        · exact hne e
        · exact hn.1 e
      · rcases List.mem_cons.1 hw with e | hw
        · subst e; exact h.2 _ (by simp)
        · exact hr.1.2 w hw
      · rcases List.mem_cons.1 (show a ∈ v.name :: r.map (·.name) from ha) with e | ha
        · subst e; exact .inr (by simp)
        · exact (hr.2 a ha).imp id (fun h => List.mem_cons_of_mem _ h)

theorem onVars_once {g : List Var → Out (List Var)} (hg : ∀ vs, Vars vs → Ens (g vs) Vars) : ∀ (i : Nat) (s : List Frame), Stk s → Ens (onVars g i s) Stk
  | _, [], _ => by rw [onVars]; exact .assert
  | 0, f :: fs, h => by rw [onVars]; exact .bind (hg _ h.head) fun vs hv => .ok (.cons hv h.tail)
  | i + 1, f :: fs, h => by rw [onVars]; exact .bind (onVars_once hg i fs h.tail) fun r hr => .ok (.cons h.head hr)

theorem setAt_once {n : Str} {x : Val} (hx : Once x) : ∀ (i : Nat) (s : List Frame), Stk s → Ens (setAt n x i s) Stk
  | _, [], _ => by rw [setAt]; exact .assert
  | 0, f :: fs, h => by rw [setAt]; exact .bind (setIn_once hx _ h.head) fun vs hv => .ok (.cons hv.1 h.tail)
  | i + 1, f :: fs, h => by rw [setAt]; exact .bind (setAt_once hx i fs h.tail) fun r hr => .ok (.cons h.head hr)

theorem freeze_names (n : Str) : ∀ (vs : List Var), Ens (freezeIn n vs) (fun r => r.map (·.name) = vs.map (·.name) ∧ r.map (·.val) = vs.map (·.val))
  | [] => .assert
  | v :: vs => by
    rw [freezeIn]
    split
    · split
      · exact .ok ⟨rfl, rfl⟩
      · exact .assert
    · exact .bind (freeze_names n vs) fun r hr => .ok ⟨by simp [hr.1], by simp [hr.2]⟩

theorem unfreeze_names (n : Str) : ∀ (vs : List Var), Ens (unfreezeIn n vs) (fun r => r.map (·.name) = vs.map (·.name) ∧ r.map (·.val) = vs.map (·.val))
  | [] => .assert
  | v :: vs => by
    rw [unfreezeIn]
    split
    · split
      · exact .ok ⟨rfl, rfl⟩
      · exact .assert
    · exact .bind (unfreeze_names n vs) fun r hr => .ok ⟨by simp [hr.1], by simp [hr.2]⟩

theorem vars_same {vs r : List Var} (h : Vars vs) (hr : r.map (·.name) = vs.map (·.name) ∧ r.map (·.val) = vs.map (·.val)) : Vars r := by
  refine ⟨hr.1 ▸ h.1, fun v hv => ?_⟩
  have : v.val ∈ vs.map (·.val) := hr.2 ▸ List.mem_map.2 ⟨v, hv, rfl⟩
  obtain ⟨w, hw, e⟩ := List.mem_map.1 this
  exact e ▸ h.2 w hw

/-! ### assignments -/

theorem storeString_once {op : Op} {x : Str} {o : Option Val} : Ens (storeString op x o) Once := by
  unfold storeString
  split
  · split
    · exact .ok (once_str _)
    · exact .err
  · exact .ok (once_str _)
  · exact .ok (once_strs _)
  · split
    · exact .ok (once_strs _)
    · exact .assert
  · exact .err

theorem storeInt_once {op : Op} {i : Int} {o : Option Val} : Ens (storeInt op i o) Once := by
  unfold storeInt
  split
  · split
    · exact .ok (once_int _)
    · exact .err
  · exact .bind .any fun _ _ => .ok (once_int _)
  · exact .err

theorem storeBool_once {op : Op} {b : Bool} {o : Option Val} : Ens (storeBool op b o) Once := by
  unfold storeBool
  split
  · split
    · exact .ok (once_bool _)
    · exact .err
  · split
    · exact .ok (once_bool _)
    · exact .err
  · exact .err

theorem srcVar_once {s : List Frame} (h : Stk s) (t : Str) : Ens (srcVar s t) Once := by
  unfold srcVar
  refine .bind .any ?_
  rintro ⟨n, p⟩ -
  simp only
  split
  · exact .err
  · next q hq =>
    obtain ⟨i, v⟩ := q
    refine .ok ?_
    split at hq
    · exact parent_once h hq
    · exact lookup_once h hq

theorem item_once {s : List Frame} (h : Stk s) {op : Op} {a : Acc} (ha : ∀ m ∈ a.svals, St1 m) (t : Tok) :
    Ens (item s op a t) (fun a => ∀ m ∈ a.svals, St1 m) := by
  unfold item
  split
  · split
    · exact .err
    · split
      · exact .err
      · exact .bind .any fun _ _ => .ok ha
  · refine .bind (srcVar_once h _) fun v hv => ?_
    split
    · exact .err
    · split
      · exact .ok ha
      · exact .ok ha
      · split
        · exact .err
        · exact .ok ha
      · split
        · exact .err
        · exact .ok ha
      · split
        · exact .err
        · refine .ok fun m hm => ?_
          rcases List.mem_append.1 hm with hm | hm
          · exact ha m hm
          · simp at hm; subst hm; exact once_struct.1 hv
      · split
        · exact .err
        · refine .ok fun m hm => ?_
          rcases List.mem_append.1 hm with hm | hm
          · exact ha m hm
          · exact once_structs.1 hv m hm
      · exact .err
  · exact .err

theorem items_once {s : List Frame} (h : Stk s) {op : Op} (a : Acc) (ts : List Tok) (ha : ∀ m ∈ a.svals, St1 m) :
    Ens (items s op a ts) (fun a => ∀ m ∈ a.svals, St1 m) := by
  fun_induction items s op a ts with
  | case1 a => exact .ok ha
  | case2 a t ts ih => exact .bind (item_once h ha t) fun b hb => ih b hb
  | case3 a t ts _ ih => exact .bind (item_once h ha t) fun b hb => ih b hb

theorem storeArray_once {s : List Frame} (h : Stk s) {op : Op} {ts : List Tok} {o : Option Val} (ho : Opt o) : Ens (storeArray s op ts o) Once := by
  unfold storeArray
  refine .bind (Q := fun a => ∀ m ∈ a.svals, St1 m) ?_ fun a ha => .bind (items_once h a ts ha) fun a ha => ?_
  · unfold acc0
    split
    · split
      · exact .ok (by simp)
      · exact .err
    · exact .ok (by simp)
    · refine .ok ?_
      intro m hm
      simp only at hm
      split at hm
      · simp at hm
      · exact once_structs.1 (ho _ rfl) m hm
    · exact .err
  · split
    · exact .assert
    · split
      · exact .ok (once_strs _)
      · exact .ok (once_structs.2 ha)
      · split
        · exact .ok (once_structs.2 ha)
        · exact .ok (once_strs _)

theorem structs_append {a b : List (List (Str × Val))} (ha : Once (.structs a)) (hb : Once (.structs b)) : Once (.structs (a ++ b)) := by
  refine once_structs.2 fun ms h => ?_
  rcases List.mem_append.1 h with h | h
  · exact once_structs.1 ha ms h
  · exact once_structs.1 hb ms h

theorem structs_one {m : List (Str × Val)} (h : Once (.struct m)) : Once (.structs [m]) := by
  refine once_structs.2 fun ms hm => ?_
  simp at hm; subst hm; exact once_struct.1 h

theorem combine_once {op : Op} {o : Option Val} {v : Val} (ho : Opt o) (hv : Once v) : Ens (combine op o v) Once := by
  have hnil : Once (.structs []) := once_structs.2 (by simp)
  unfold combine
  split
  · split
    · exact .ok hv
    · exact .err
  · exact .ok (once_strs _)
  · exact .assert
  · split
    · exact .err
    · exact .ok (structs_append (ho _ rfl) (structs_one hv))
    · exact .ok (structs_one hv)
  · split
    · exact .err
    · exact .ok (structs_one hv)
  · split
    · exact .err
    · exact .ok (once_strs _)
    · exact .ok (once_strs _)
  · split
    · exact .err
    · exact .ok (ho _ rfl)
    · exact .ok hnil
  · split
    · exact .err
    · exact .ok (once_strs _)
  · split
    · exact .err
    · exact .ok hv
  · exact .ok (once_str _)
  · split
    · exact .err
    · exact .ok (once_strs _)
    · exact .ok (once_strs _)
  · split
    · exact .err
    · exact .ok (structs_append (ho _ rfl) hv)
    · exact .ok hv
  · exact .bind .any fun _ _ => .ok (once_int _)
  · split
    · exact .ok (once_bool _)
    · exact .err
  · split
    · exact .err
    · exact concat_once _ _ (ho _ rfl) hv
    · exact .ok hv
  · exact .err

theorem storeVar_once {s : List Frame} (h : Stk s) {n t : Str} {op : Op} {fr : Option Nat} : Ens (storeVar s n t op fr) Stk := by
  unfold storeVar
  refine .bind .any ?_
  rintro ⟨sn, p⟩ -
  simp only
  split
  · exact .err
  · next j v hv =>
    have hv : Once v.val := by
      split at hv
      · exact parent_once h hv
      · exact lookup_once h hv
    split
    · exact .ok h
    · exact .bind (combine_once (getVar_once fr h) hv) fun x hx => setAt_once hx _ _ h

/-! ### statements -/

/-- an event -/
def Ev : Event → Prop
  | .commit _ _ env => ∀ vs ∈ env, Scope vs
  | .line _ => True
  | .dump _ v => Once v

structure Good (st : St) : Prop where
  stack : Stk st.stack
  log : ∀ e ∈ st.log, Ev e

theorem Good.set {st : St} (h : Good st) {s : List Frame} (hs : Stk s) : Good (st.set s) := ⟨hs, h.log⟩
theorem Good.push {st : St} (h : Good st) : Good (push st) := h.set (.cons vars_nil h.stack)
theorem Good.pop {st : St} (h : Good st) : Good (pop st) := h.set h.stack.drop

def RecGood (rec : Rec) : Prop := ∀ st ts, Good st → Ens (rec st ts) Good

theorem storeStruct_good {rec : Rec} (hr : RecGood rec) {st : St} (h : Good st) {n : Str} {body : List Tok} {op : Op} {fr : Option Nat} :
    Ens (storeStruct rec st n body op fr) Good := by
  have main : Ens (do
      let st ← rec (Interp.push st) body
      match st.stack with
      | [] => .assert .dangling
      | f :: fs => do
        let s ← setAt n (.struct (f.vars.map fun v => (v.name, v.val))) (fr.getD 0) fs
        pure (st.set s)) Good := by
    refine .bind (hr _ _ h.push) fun st' h' => ?_
    have hs := h'.stack
    split
    · exact .assert
    · next f fs e =>
      rw [e] at hs
      have hx : Once (.struct (f.vars.map fun v => (v.name, v.val))) := by
        refine once_struct.2 ⟨?_, ?_⟩
        · have := hs.head.1
          rwa [List.map_map]
        · intro m hm
          obtain ⟨v, hv, rfl⟩ := List.mem_map.1 hm
          exact hs.head.2 v hv
      exact .bind (setAt_once hx _ _ hs.tail) fun s hs => .ok (h'.set hs)
  unfold storeStruct
  split
  · exact .err
  · simp only
    split
    · exact main
    · exact main
    · exact .err

/-- the first of a pair -/
def Good1 {α : Type} (p : St × α) : Prop := Good p.1

theorem declare_good {rec : Rec} (hr : RecGood rec) {st : St} (h : Good st) {n : Str} {fr : Option Nat} {ts : List Tok} {e : Tok} :
    Ens (declare rec st n fr ts e) Good1 := by
  have store : ∀ (x : Out Val) (ts : List Tok), Ens x Once →
      Ens (do let x ← x; let s ← setAt n x (fr.getD 0) st.stack; pure (st.set s, ts) : Out (St × List Tok)) Good1 := fun x ts hx =>
    .bind hx fun x hx => .bind (setAt_once hx _ _ h.stack) fun s hs => .ok (h.set hs)
  have ho := getVar_once (n := n) fr h.stack
  unfold declare
  split
  · split
    · simp only
      split
      · exact store _ _ (.bind .any fun _ _ => storeString_once)
      · split
        · refine .bind .any ?_
          rintro ⟨b, ts⟩ -
          exact store _ _ (storeArray_once h.stack ho)
        · split
          · refine .bind .any ?_
            rintro ⟨b, ts⟩ -
            exact .bind (storeStruct_good hr h) fun st' h' => .ok h'
          · split
            · exact store _ _ storeInt_once
            · exact store _ _ storeBool_once
            · exact .bind (storeVar_once h.stack) fun s hs => .ok (h.set hs)
            · exact .err
    · exact .err
  · exact .err

theorem setLast_good {st : St} (h : Good st) {n : Str} {fr : Option Nat} : Good (st.set (setLast n fr st.stack)) := by
  refine h.set ?_
  have hs := h.stack
  cases e : st.stack with
  | nil => intro f hf; simp [setLast] at hf
  | cons f fs => rw [e] at hs; exact .cons hs.head hs.tail

theorem named_good {rec : Rec} (hr : RecGood rec) {st : St} (h : Good st) {v : Str} {ts : List Tok} {e : Tok} : Ens (named rec st v ts e) Good1 := by
  unfold named
  refine .bind .any ?_
  rintro ⟨n, p⟩ -
  simp only
  split
  · split
    · exact .err
    · split
      · exact .err
      · exact declare_good hr (setLast_good h)
  · exact declare_good hr (setLast_good h)

theorem unnamed_good {rec : Rec} (hr : RecGood rec) {st : St} (h : Good st) {ts : List Tok} {e : Tok} : Ens (unnamed rec st ts e) Good1 := by
  unfold unnamed
  split
  · exact .assert
  · split
    · exact .err
    · exact declare_good hr h

theorem scope_good {rec : Rec} (hr : RecGood rec) {st : St} (h : Good st) {ts : List Tok} : Ens (scope rec st ts) Good1 := by
  unfold scope
  refine .bind .any ?_
  rintro ⟨b, ts⟩ -
  exact .bind (hr _ _ h.push) fun st' h' => .ok h'.pop

theorem fnIf_good {rec : Rec} (hr : RecGood rec) {st : St} (h : Good st) {hdr bd : List Tok} : Ens (fnIf rec st hdr bd) Good := by
  unfold fnIf
  split
  · exact hr _ _ h
  · exact .ok h
  · exact .err
  · exact .assert
  · exact .fuel

theorem onArrays_once {g : Str → List Var → Out (List Var)} (hg : ∀ n vs, Vars vs → Ens (g n vs) Vars) : ∀ (ls : List Loop) (s : List Frame), Stk s →
    Ens (onArrays g ls s) Stk
  | [], _, h => .ok h
  | l :: ls, s, h => by rw [onArrays]; exact .bind (onVars_once (hg _) _ _ h) fun s hs => onArrays_once hg ls s hs

theorem elem_once {i : Nat} {v x : Val} (h : Once v) (e : arrElem i v = some x) : Once x := by
  unfold arrElem at e
  split at e
  · rw [Option.map_eq_some_iff] at e; obtain ⟨y, _, rfl⟩ := e; exact once_str _
  · rw [Option.map_eq_some_iff] at e
    obtain ⟨y, h1, rfl⟩ := e
    exact once_struct.2 (once_structs.1 h y (List.mem_of_getElem? h1))
  · cases e

theorem bindLoops_once {i : Nat} : ∀ (ls : List Loop) (s : List Frame), Stk s → Ens (bindLoops i ls s) Stk
  | [], _, h => .ok h
  | l :: ls, s, h => by
    rw [bindLoops]
    split
    · exact .assert
    · next v hv =>
      split
      · exact .assert
      · next x hx => exact .bind (setAt_once (elem_once (getElem_once h hv) hx) _ _ h) fun s hs => bindLoops_once ls s hs

theorem iterate_good {rec : Rec} (hr : RecGood rec) {ls : List Loop} {body : List Tok} : ∀ (is : List Nat) (st : St), Good st →
    Ens (iterate rec ls body is st) Good
  | [], _, h => .ok h
  | i :: is, st, h => by
    rw [iterate]
    exact .bind (bindLoops_once ls _ h.push.stack) fun s hs => .bind (hr _ _ (h.set hs)) fun st' h' => iterate_good hr is _ h'.pop

theorem fnForEach_good {rec : Rec} (hr : RecGood rec) {st : St} (h : Good st) {hdr bd : List Tok} : Ens (fnForEach rec st hdr bd) Good := by
  unfold fnForEach
  refine .bind .any ?_
  rintro ⟨ls, n⟩ -
  simp only
  split
  · exact .ok h
  · refine .bind (onArrays_once (fun n vs hv => fun r e => vars_same hv (freeze_names n vs r e)) ls _ h.stack) fun s hs => ?_
    refine .bind (iterate_good hr _ _ (h.set hs)) fun st' h' => ?_
    exact .bind (onArrays_once (fun n vs hv => fun r e => vars_same hv (unfreeze_names n vs r e)) ls _ h'.stack) fun s hs => .ok (h'.set hs)

theorem setAll_once {i : Nat} : ∀ (ms : List (Str × Val)) (s : List Frame), (∀ m ∈ ms, Once m.2) → Stk s → Ens (setAll i ms s) Stk
  | [], _, _, h => .ok h
  | m :: ms, s, hm, h => by
    rw [setAll]
    exact .bind (setAt_once (hm m (by simp)) _ _ h) fun s hs => setAll_once ms s (fun x hx => hm x (List.mem_cons_of_mem _ hx)) hs

theorem usingOrder_mem {n : Str} {ms : List (Str × Val)} {m : Str × Val} (h : m ∈ usingOrder n ms) : m ∈ ms := by
  unfold usingOrder at h
  split at h
  · exact h
  · next k hk =>
    rcases List.mem_append.1 h with h | h
    · exact List.mem_of_mem_eraseP h
    · simp at h; subst h; exact List.mem_of_find?_eq_some hk

theorem fnUsing_good {st : St} (h : Good st) {hdr : List Tok} : Ens (fnUsing st hdr) Good := by
  unfold fnUsing
  split
  · refine .bind .any ?_
    rintro ⟨n, p⟩ -
    simp only
    split
    · exact .err
    · next j v hv =>
      have hv : Once v.val := by
        split at hv
        · exact parent2_once h.stack hv
        · exact lookup_once h.stack hv
      split
      · next ms e =>
        rw [e] at hv
        refine .bind (setAll_once _ _ (fun m hm => (once_struct.1 hv).2 m ?_) h.stack) fun s hs => .ok (h.set hs)
        split at hm
        · exact hm
        · exact usingOrder_mem hm
      · exact .err
  · exact .err

theorem Good.logged {st : St} (h : Good st) {e : Event} (he : Ev e) : Good { st with log := st.log ++ [e] } := by
  refine ⟨h.stack, fun x hx => ?_⟩
  rcases List.mem_append.1 hx with hx | hx
  · exact h.log x hx
  · simp at hx; subst hx; exact he

theorem fnPrint_good {st : St} (h : Good st) {hdr : List Tok} : Ens (fnPrint st hdr) Good := by
  unfold fnPrint
  split
  · exact .bind .any fun x _ => .ok (h.logged trivial)
  · refine .bind .any ?_
    rintro ⟨n, p⟩ -
    simp only
    split
    · exact .err
    · next j v hv =>
      refine .ok (h.logged ?_)
      show Once v.val
      split at hv
      · exact parent2_once h.stack hv
      · exact lookup_once h.stack hv
  · exact .err

theorem visible_once : ∀ {s : List Frame}, Stk s → ∀ vs ∈ visible s, Scope vs
  | [], _, vs, h => by simp [visible] at h
  | f :: fs, hs, vs, h => by
    rw [visible] at h
    rcases List.mem_cons.1 h with e | h
    · subst e
      refine ⟨?_, ?_⟩
      · have := hs.head.1
        rwa [List.map_map]
      · intro m hm
        obtain ⟨v, hv, rfl⟩ := List.mem_map.1 hm
        exact hs.head.2 v hv
    · split at h
      · exact visible_once hs.tail vs h
      · simp at h

theorem fnNode_good {commit : List Event → Event → Bool} {rec : Rec} (hr : RecGood rec) {st : St} (h : Good st) {fn : Str} {fi : FInfo} {hdr bd : List Tok} :
    Ens (fnNode commit rec st fn fi hdr bd) Good := by
  unfold fnNode
  refine .bind .any fun a _ => .bind (hr _ _ h) fun st' h' => ?_
  simp only
  split
  · exact .ok (h'.logged (visible_once h'.stack))
  · exact .err

theorem dispatch_good {commit : List Event → Event → Bool} {rec : Rec} (hr : RecGood rec) {st : St} (h : Good st) {fn : Str} {fi : FInfo} {hdr bd : List Tok} :
    Ens (dispatch commit rec st fn fi hdr bd) Good := by
  unfold dispatch
  split
  · exact fnIf_good hr h
  · exact fnForEach_good hr h
  · exact fnUsing_good h
  · exact fnPrint_good h
  · exact .err
  · exact fnNode_good hr h

theorem function_good {commit : List Event → Event → Bool} {rec : Rec} (hr : RecGood rec) {st : St} (h : Good st) {fn : Str} {ts : List Tok} {e : Tok} :
    Ens (function commit rec st fn ts e) Good1 := by
  unfold function
  split
  · exact .err
  · split
    · exact .err
    · refine .bind .any ?_
      rintro ⟨hdr, ts⟩ -
      refine .bind .any ?_
      rintro ⟨bd, ts⟩ -
      refine .bind (dispatch_good hr (st := Interp.push _) ?_) fun st' h' => .ok h'.pop
      exact ⟨.cons vars_nil h.stack, h.log⟩

theorem declareFn_good {st : St} (h : Good st) {ts : List Tok} {e : Tok} : Ens (declareFn st ts e) Good1 := by
  unfold declareFn
  split
  · split
    · exact .err
    · split
      · refine .bind .any ?_
        rintro ⟨hdr, ts⟩ -
        refine .bind .any fun ps _ => ?_
        split
        · refine .bind .any ?_
          rintro ⟨bd, ts⟩ -
          exact .ok ⟨h.stack, h.log⟩
        · exact .err
      · exact .err
  · exact .err

theorem argVal_once {s : List Frame} (h : Stk s) (t : Tok) : Ens (argVal s t) Once := by
  unfold argVal
  split
  · exact .bind .any fun _ _ => .ok (once_str _)
  · exact .ok (once_bool _)
  · exact .ok (once_int _)
  · exact srcVar_once h _
  · exact .assert

theorem bindArgs_once : ∀ (l : List (Str × Tok)) (s : List Frame), Stk s → Ens (bindArgs l s) Stk
  | [], _, h => .ok h
  | (n, t) :: r, s, h => by
    rw [bindArgs]
    exact .bind (argVal_once h t) fun x hx => .bind (setAt_once hx _ _ h) fun s hs => bindArgs_once r s hs

theorem call_good {rec : Rec} (hr : RecGood rec) {st : St} (h : Good st) {u : UFunc} {ts : List Tok} {e : Tok} : Ens (call rec st u ts e) Good1 := by
  unfold call
  split
  · refine .bind .any ?_
    rintro ⟨hdr, ts⟩ -
    refine .bind .any fun as _ => ?_
    split
    · exact .err
    · refine .bind (bindArgs_once _ _ h.push.stack) fun s hs => ?_
      have hd : Stk (disconnect s) := by
        cases s with
        | nil => exact hs
        | cons f fs => exact .cons hs.head hs.tail
      exact .bind (hr _ _ (h.set hd)) fun st' h' => .ok h'.pop
  · exact .err

theorem stmt_good {commit : List Event → Event → Bool} {rec : Rec} (hr : RecGood rec) {st : St} (h : Good st) {t : Tok} {ts : List Tok} {e : Tok} :
    Ens (stmt commit rec st t ts e) Good1 := by
  unfold stmt
  split
  · exact named_good hr h
  · exact unnamed_good hr h
  · exact unnamed_good hr h
  · split
    · exact scope_good hr h
    · split
      · exact function_good hr h
      · exact declareFn_good h
      · split
        · exact call_good hr h
        · exact .err
      · split
        · exact .ok h
        · exact .assert
      · exact .err

theorem stmts_good {commit : List Event → Event → Bool} {rec : Rec} (hr : RecGood rec) {e : Tok} : ∀ (k : Nat) (st : St) (ts : List Tok), Good st →
    Ens (stmts commit rec e k st ts) Good
  | _, _, [], h => by rw [stmts]; exact .ok h
  | 0, _, _ :: _, _ => by rw [stmts]; exact .fuel
  | k + 1, st, t :: ts, h => by
    rw [stmts]
    refine .bind (stmt_good hr h) ?_
    rintro ⟨st', ts'⟩ h'
    exact stmts_good hr k st' ts' h'

theorem parse_good (commit : List Event → Event → Bool) : ∀ (k : Nat) (e : Tok), RecGood (parse commit k e)
  | 0, _ => fun _ _ _ => .fuel
  | k + 1, e => fun st ts h => by
    rw [parse]
    split
    · exact .err
    · exact stmts_good (parse_good commit k _) _ _ _ h

/-! ### C124 -/

/-- what a state has: scopes with their variables -/
def scopes (st : St) : List (List (Str × Val)) := st.stack.map fun f => f.vars.map fun v => (v.name, v.val)

theorem good_iff (st : St) : Good st ↔ (∀ vs ∈ scopes st, Scope vs) ∧ ∀ e ∈ st.log, Ev e := by
  have : Stk st.stack ↔ ∀ vs ∈ scopes st, Scope vs := by
    unfold Stk scopes Scope Vars
    simp [List.map_map, Function.comp_def]
    exact ⟨fun h f hf => ⟨(h f hf).1, fun _ _ v hv _ e => e ▸ (h f hf).2 v hv⟩, fun h f hf => ⟨(h f hf).1, fun v hv => (h f hf).2 _ _ v hv rfl rfl⟩⟩
  rw [← this]
  exact ⟨fun h => ⟨h.1, h.2⟩, fun h => ⟨h.1, h.2⟩⟩

/-- C124: evaluation of statements, at any depth, keeps each name once in each scope and each struct. -/
theorem C124_kept (commit : List Event → Event → Bool) (k : Nat) (e : Tok) (st st' : St) (ts : List Tok)
    (hs : ∀ vs ∈ scopes st, Scope vs) (hl : ∀ x ∈ st.log, Ev x) (h : parse commit k e st ts = .ok st') :
    (∀ vs ∈ scopes st', Scope vs) ∧ ∀ x ∈ st'.log, Ev x :=
  (good_iff st').1 (parse_good commit k e st ts ((good_iff st).2 ⟨hs, hl⟩) st' h)

/-- C124: when a build file is evaluated from built-in variables with different names, what each function that makes nodes can see are
scopes in which each name occurs once, with structs in which each name occurs once; the same for each variable printed. -/
theorem C124_run (commit : List Event → Event → Bool) (base : List Var) (ts : List Tok) (st : St)
    (hb : Scope (base.map fun v => (v.name, v.val))) (h : run commit base ts = .ok st) :
    (∀ vs ∈ scopes st, Scope vs) ∧ ∀ x ∈ st.log, Ev x :=
  C124_kept commit 128 .eof _ st ts (by intro vs hv; simp [scopes] at hv; subst hv; exact hb) (by simp) h

end Verif.Bff.Names
