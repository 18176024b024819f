import Verif.Bff.InterpModel
/-
What a statement of a build file may do to the stack of frames: an invariant and a relation between the stacks before
and after, preserved by every statement. The theorems are in Verif/Bff/InterpTheorems.lean.
-/
namespace Verif.Bff.Interp

/-! ### outcomes -/

/-- the model's recursion is long enough, no frozen variable is written, no frame or variable is missing, and if there
is a result it satisfies `P` -/
def Out.Post {α : Type} (x : Out α) (P : α → Prop) : Prop :=
  match x with
  | .ok a => P a
  | .err => True
  | .assert w => w ≠ .frozen ∧ w ≠ .dangling
  | .fuel => False

theorem Out.Post.bind {α β : Type} {x : Out α} {f : α → Out β} {P : α → Prop} {Q : β → Prop} (h : x.Post P)
    (hf : ∀ a, P a → (f a).Post Q) : (x >>= f).Post Q := by
  cases x with
  | ok a => exact hf a h
  | err => trivial
  | assert w => exact h
  | fuel => exact h

theorem Out.Post.mono {α : Type} {x : Out α} {P Q : α → Prop} (h : x.Post P) (hf : ∀ a, P a → Q a) : x.Post Q := by
  cases x with
  | ok a => exact hf a h
  | err => trivial
  | assert w => exact h
  | fuel => exact h

theorem Out.Post.and_eq {α : Type} {x : Out α} {P : α → Prop} (h : x.Post P) : x.Post (fun a => P a ∧ x = .ok a) := by
  cases x with
  | ok a => exact ⟨h, rfl⟩
  | err => trivial
  | assert w => exact h
  | fuel => exact h

@[simp] theorem Out.post_ok {α : Type} {a : α} {P : α → Prop} : (Out.ok a).Post P ↔ P a := Iff.rfl
@[simp] theorem Out.post_err {α : Type} {P : α → Prop} : (Out.err : Out α).Post P ↔ True := Iff.rfl
@[simp] theorem Out.post_assert {α : Type} {w : Why} {P : α → Prop} :
    (Out.assert w : Out α).Post P ↔ w ≠ .frozen ∧ w ≠ .dangling := Iff.rfl

/-- no result is promised -/
abbrev Out.Tame {α : Type} (x : Out α) : Prop := x.Post (fun _ => True)

/-! ### relations -/

/-- a variable before and after: a frozen one keeps its value -/
def VarKeep (v w : Var) : Prop := w.name = v.name ∧ w.frozen = v.frozen ∧ (v.frozen ≠ 0 → w.val = v.val)

/-- variables of a frame that is not the head: none is added -/
def VarsKeep : List Var → List Var → Prop
  | [], ws => ws = []
  | _ :: _, [] => False
  | v :: vs, w :: ws => VarKeep v w ∧ VarsKeep vs ws

/-- variables of the head frame -/
def VarsExt : List Var → List Var → Prop
  | [], ws => ∀ w ∈ ws, w.frozen = 0
  | _ :: _, [] => False
  | v :: vs, w :: ws => VarKeep v w ∧ VarsExt vs ws

/-- frames that are not the head. `strict`: nothing changes. -/
def Keep : Bool → List Frame → List Frame → Prop
  | true, s, t => t = s
  | false, [], t => t = []
  | false, _ :: _, [] => False
  | false, f :: s, g :: t => (g.linked = f.linked ∧ g.last = f.last ∧ VarsKeep f.vars g.vars) ∧ Keep (!f.linked) s t

/-- the whole stack -/
def Ext (K : Bool) : List Frame → List Frame → Prop
  | f :: s, g :: t => (g.linked = f.linked ∧ VarsExt f.vars g.vars) ∧ Keep (K || !f.linked) s t
  | _, _ => False

theorem VarKeep.refl (v : Var) : VarKeep v v := ⟨rfl, rfl, fun _ => rfl⟩

theorem VarKeep.trans {a b c : Var} (h : VarKeep a b) (g : VarKeep b c) : VarKeep a c :=
  ⟨g.1.trans h.1, g.2.1.trans h.2.1, fun hn => (g.2.2 (by rw [h.2.1]; exact hn)).trans (h.2.2 hn)⟩

theorem VarsKeep.refl : ∀ vs, VarsKeep vs vs
  | [] => rfl
  | v :: vs => ⟨VarKeep.refl v, VarsKeep.refl vs⟩

theorem VarsKeep.trans : ∀ {a b c : List Var}, VarsKeep a b → VarsKeep b c → VarsKeep a c
  | [], b, c, h, g => by cases h; exact g
  | _ :: _, [], _, h, _ => h.elim
  | _ :: _, _ :: _, [], _, g => g.elim
  | _ :: _, _ :: _, _ :: _, h, g => ⟨h.1.trans g.1, VarsKeep.trans h.2 g.2⟩

theorem VarsKeep.ext : ∀ {a b : List Var}, VarsKeep a b → VarsExt a b
  | [], b, h => by cases h; intro w hw; cases hw
  | _ :: _, [], h => h
  | _ :: _, _ :: _, h => ⟨h.1, VarsKeep.ext h.2⟩

theorem VarsExt.refl (vs : List Var) : VarsExt vs vs := (VarsKeep.refl vs).ext

theorem VarsExt.unfrozen : ∀ {a b : List Var}, VarsExt a b → (∀ v ∈ a, v.frozen = 0) → ∀ w ∈ b, w.frozen = 0
  | [], _, h, _ => h
  | _ :: _, [], h, _ => h.elim
  | v :: vs, w :: ws, h, hz => by
    intro x hx
    rcases List.mem_cons.mp hx with rfl | hx
    · rw [h.1.2.1]; exact hz v (by simp)
    · exact VarsExt.unfrozen h.2 (fun y hy => hz y (by simp [hy])) x hx

theorem VarsExt.trans : ∀ {a b c : List Var}, VarsExt a b → VarsExt b c → VarsExt a c
  | [], _, _, h, g => g.unfrozen h
  | _ :: _, [], _, h, _ => h.elim
  | _ :: _, _ :: _, [], _, g => g.elim
  | _ :: _, _ :: _, _ :: _, h, g => ⟨h.1.trans g.1, VarsExt.trans h.2 g.2⟩

theorem Keep.refl : ∀ (K : Bool) s, Keep K s s
  | true, _ => by simp [Keep]
  | false, [] => rfl
  | false, f :: s => ⟨⟨rfl, rfl, VarsKeep.refl _⟩, Keep.refl _ s⟩

theorem Keep.trans : ∀ {K : Bool} {a b c : List Frame}, Keep K a b → Keep K b c → Keep K a c
  | true, _, _, _, h, g => by
    have h' := h; have g' := g
    simp only [Keep] at h' g' ⊢
    rw [g', h']
  | false, [], b, c, h, g => by
    have h' : b = [] := h
    subst h'; exact g
  | false, _ :: _, [], _, h, _ => h.elim
  | false, _ :: _, _ :: _, [], _, g => g.elim
  | false, _ :: _, _ :: _, _ :: _, h, g =>
    ⟨⟨g.1.1.trans h.1.1, g.1.2.1.trans h.1.2.1, h.1.2.2.trans g.1.2.2⟩, Keep.trans h.2 (by
      have := g.2; rw [h.1.1] at this; exact this)⟩

theorem Keep.length : ∀ {K : Bool} {a b : List Frame}, Keep K a b → b.length = a.length
  | true, _, _, h => by
    simp only [Keep] at h; rw [h]
  | false, [], b, h => by
    have h' : b = [] := h
    subst h'; rfl
  | false, _ :: _, [], h => h.elim
  | false, _ :: _, _ :: _, h => by
    simp [Keep.length h.2]

/-- what is allowed strictly is allowed -/
theorem Keep.weaken {K : Bool} {a b : List Frame} (h : Keep true a b) : Keep K a b := by
  simp only [Keep] at h
  subst h
  exact Keep.refl _ _

theorem Ext.refl (K : Bool) (f : Frame) (s : List Frame) : Ext K (f :: s) (f :: s) :=
  ⟨⟨rfl, VarsExt.refl _⟩, Keep.refl _ _⟩

theorem Ext.trans {K : Bool} : ∀ {a b c : List Frame}, Ext K a b → Ext K b c → Ext K a c
  | [], _, _, h, _ => h.elim
  | _ :: _, [], _, h, _ => h.elim
  | _ :: _, _ :: _, [], _, g => g.elim
  | _ :: _, _ :: _, _ :: _, h, g =>
    ⟨⟨g.1.1.trans h.1.1, h.1.2.trans g.1.2⟩, Keep.trans h.2 (by
      have := g.2; rw [h.1.1] at this; exact this)⟩

theorem Ext.length {K : Bool} : ∀ {a b : List Frame}, Ext K a b → b.length = a.length
  | [], _, h => h.elim
  | _ :: _, [], h => h.elim
  | _ :: _, _ :: _, h => by simp [h.2.length]

/-- frames below a linked head -/
theorem Keep.ext {K : Bool} : ∀ {a b : List Frame}, a ≠ [] → Keep K a b → Ext K a b
  | [], _, hn, _ => (hn rfl).elim
  | f :: s, b, _, h => by
    cases K with
    | true =>
      simp only [Keep] at h
      subst h
      exact Ext.refl _ _ _
    | false =>
      cases b with
      | nil => exact h.elim
      | cons g t => exact ⟨⟨h.1.1, h.1.2.2.ext⟩, h.2⟩

/-- the variable of that name in the frame at a position that can be seen -/
def seen (n : Str) : Nat → List Frame → Option Var
  | _, [] => none
  | 0, f :: _ => f.find n
  | i + 1, f :: s => if f.linked then seen n i s else none

theorem lookup_seen {n : Str} {i : Nat} {v : Var} : ∀ {s : List Frame}, lookup n s = some (i, v) → seen n i s = some v
  | [], h => by simp [lookup] at h
  | f :: s, h => by
    unfold lookup at h
    split at h
    · rename_i w hw
      cases h
      exact hw
    · split at h
      · rename_i hl
        rw [Option.map_eq_some_iff] at h
        obtain ⟨⟨j, w⟩, hp, he⟩ := h
        cases he
        simp only [seen, hl, if_true]
        exact lookup_seen hp
      · cases h

theorem parentDecl_seen {n : Str} {i : Nat} {v : Var} : ∀ {s : List Frame}, parentDecl n s = some (i, v) →
    seen n i s = some v ∧ 1 ≤ i
  | [], h => by simp [parentDecl] at h
  | f :: s, h => by
    simp only [parentDecl] at h
    split at h
    · rename_i hl
      rw [Option.map_eq_some_iff] at h
      obtain ⟨⟨j, w⟩, hp, he⟩ := h
      cases he
      simp only [seen, hl, if_true]
      exact ⟨lookup_seen hp, by omega⟩
    · cases h

theorem parentDecl2_seen {n : Str} {i : Nat} {v : Var} : ∀ {s : List Frame}, parentDecl2 n s = some (i, v) →
    seen n i s = some v ∧ 2 ≤ i
  | [], h => by simp [parentDecl2] at h
  | f :: s, h => by
    simp only [parentDecl2] at h
    split at h
    · rename_i hl
      rw [Option.map_eq_some_iff] at h
      obtain ⟨⟨j, w⟩, hp, he⟩ := h
      cases he
      have := parentDecl_seen hp
      simp only [seen, hl, if_true]
      exact ⟨this.1, by omega⟩
    · cases h

theorem seen_getElem {n : Str} {v : Var} : ∀ {i : Nat} {s : List Frame}, seen n i s = some v →
    (s[i]?).bind (·.find n) = some v
  | _, [], h => by simp [seen] at h
  | 0, f :: s, h => by simpa [seen] using h
  | i + 1, f :: s, h => by
    unfold seen at h
    split at h
    · simpa using seen_getElem h
    · cases h

/-! ### the invariant -/

/-- variables of the head frame are not frozen, and the last variable seen can be modified. Strict: it is not one of
a parent scope. -/
def Inv (K : Bool) : List Frame → Prop
  | [] => False
  | f :: s => (∀ v ∈ f.vars, v.frozen = 0) ∧
    ∀ n i, f.last = some (n, some i) → K = false ∧ 1 ≤ i ∧ ∃ v, seen n i (f :: s) = some v ∧ v.frozen = 0

/-- how a variable found changes -/
theorem VarsKeep.find {n : Str} {v : Var} : ∀ {a b : List Var}, VarsExt a b →
    a.find? (fun v => v.name = n) = some v → ∃ w, b.find? (fun v => v.name = n) = some w ∧ VarKeep v w
  | [], _, _, h => by simp at h
  | _ :: _, [], h, _ => h.elim
  | x :: a, y :: b, h, hf => by
    rw [List.find?_cons] at hf ⊢
    by_cases hx : x.name = n
    · have hy : y.name = n := by rw [h.1.1]; exact hx
      simp only [hx, decide_true] at hf
      cases hf
      exact ⟨y, by simp [hy], h.1⟩
    · have hy : ¬y.name = n := by rw [h.1.1]; exact hx
      simp only [hx, decide_false] at hf
      obtain ⟨w, hw, hk⟩ := VarsKeep.find h.2 hf
      exact ⟨w, by simp [hy, hw], hk⟩

theorem Keep.seen {n : Str} {v : Var} : ∀ {K : Bool} {i : Nat} {a b : List Frame}, Keep K a b → seen n i a = some v →
    ∃ w, seen n i b = some w ∧ VarKeep v w
  | true, _, _, _, h, hs => by
    simp only [Keep] at h; subst h
    exact ⟨v, hs, VarKeep.refl v⟩
  | false, _, [], _, _, hs => by simp [Interp.seen] at hs
  | false, _, _ :: _, [], h, _ => h.elim
  | false, 0, f :: a, g :: b, h, hs => by
    simp only [Interp.seen] at hs ⊢
    exact VarsKeep.find h.1.2.2.ext hs
  | false, i + 1, f :: a, g :: b, h, hs => by
    simp only [Interp.seen] at hs ⊢
    split at hs
    · rename_i hl
      obtain ⟨w, hw, hk⟩ := Keep.seen h.2 hs
      exact ⟨w, by rw [h.1.1, if_pos hl, hw], hk⟩
    · cases hs

theorem Ext.seen {K : Bool} {n : Str} {v : Var} {i : Nat} : ∀ {a b : List Frame}, Ext K a b → seen n i a = some v →
    ∃ w, seen n i b = some w ∧ VarKeep v w
  | [], _, h, _ => h.elim
  | _ :: _, [], h, _ => h.elim
  | f :: a, g :: b, h, hs => by
    cases i with
    | zero =>
      simp only [Interp.seen] at hs ⊢
      exact VarsKeep.find h.1.2 hs
    | succ i =>
      simp only [Interp.seen] at hs ⊢
      split at hs
      · rename_i hl
        obtain ⟨w, hw, hk⟩ := Keep.seen h.2 hs
        exact ⟨w, by rw [h.1.1, if_pos hl, hw], hk⟩
      · cases hs

/-- the invariant is kept as long as the last variable seen is -/
theorem Inv.ext {K K' : Bool} {f g : Frame} {a b : List Frame} (hi : Inv K (f :: a)) (h : Ext K' (f :: a) (g :: b))
    (hl : g.last = f.last) : Inv K (g :: b) := by
  refine ⟨h.1.2.unfrozen hi.1, fun n i hn => ?_⟩
  rw [hl] at hn
  obtain ⟨hk, h1, v, hs, hv⟩ := hi.2 n i hn
  obtain ⟨w, hw, hkw⟩ := h.seen hs
  exact ⟨hk, h1, w, hw, by rw [hkw.2.1]; exact hv⟩

/-! ### setting variables -/

theorem setIn_post (n : Str) (x : Val) : ∀ {vs : List Var}, (∀ v, vs.find? (fun v => v.name = n) = some v → v.frozen = 0) →
    (setIn n x vs).Post fun ws => VarsExt vs ws ∧ ((vs.find? (fun v => v.name = n)).isSome → VarsKeep vs ws)
  | [], _ => by simp [setIn, VarsExt]
  | v :: vs, h => by
    unfold setIn
    split
    · rename_i hn
      have h0 : v.frozen = 0 := h v (by simp [hn])
      rw [if_pos h0]
      exact ⟨⟨⟨rfl, rfl, fun hc => (hc h0).elim⟩, VarsExt.refl _⟩, fun _ => ⟨⟨rfl, rfl, fun hc => (hc h0).elim⟩, VarsKeep.refl _⟩⟩
    · rename_i hn
      refine (setIn_post n x (vs := vs) (fun w hw => h w (by simp [hn, hw]))).bind fun ws hws => ?_
      exact ⟨⟨VarKeep.refl v, hws.1⟩, fun hf => ⟨VarKeep.refl v, hws.2 (by simpa [hn] using hf)⟩⟩

theorem mem_find {n : Str} {v : Var} {vs : List Var} (h : vs.find? (fun v => v.name = n) = some v) : v ∈ vs :=
  List.mem_of_find?_eq_some h

/-- setting a variable of the head -/
theorem setAt_head (n : Str) (x : Val) {f : Frame} {s : List Frame} (h : ∀ v ∈ f.vars, v.frozen = 0) :
    (setAt n x 0 (f :: s)).Post fun t => ∃ g, t = g :: s ∧ g.linked = f.linked ∧ g.last = f.last ∧
      VarsExt f.vars g.vars := by
  unfold setAt
  refine (setIn_post n x (fun v hv => h v (mem_find hv))).bind fun ws hws => ?_
  exact ⟨_, rfl, rfl, rfl, hws.1⟩

/-- setting a variable that exists -/
theorem setAt_seen (n : Str) (x : Val) : ∀ {i : Nat} {s : List Frame} {v : Var}, seen n i s = some v → v.frozen = 0 →
    (setAt n x i s).Post fun t => Keep false s t
  | _, [], _, h, _ => by simp [seen] at h
  | 0, f :: s, v, h, h0 => by
    unfold setAt
    have hf : f.vars.find? (fun v => v.name = n) = some v := by simpa [seen, Frame.find] using h
    refine (setIn_post n x (vs := f.vars) (fun w hw => by rw [hf] at hw; cases hw; exact h0)).bind fun ws hws => ?_
    exact ⟨⟨rfl, rfl, hws.2 (by rw [hf]; rfl)⟩, Keep.refl _ _⟩
  | i + 1, f :: s, v, h, h0 => by
    unfold setAt
    simp only [seen] at h
    split at h
    · rename_i hl
      refine (setAt_seen n x h h0).bind fun t ht => ?_
      exact ⟨⟨rfl, rfl, VarsKeep.refl _⟩, by rw [hl]; exact ht⟩
    · cases h

/-- where a variable may be set -/
def Target (K : Bool) (n : Str) (frame : Option Nat) (s : List Frame) : Prop :=
  match frame with
  | none => True
  | some i => K = false ∧ 1 ≤ i ∧ ∃ v, seen n i s = some v ∧ v.frozen = 0

theorem Target.ext {K K' : Bool} {n : Str} {frame : Option Nat} {a b : List Frame} (h : Target K n frame a)
    (he : Ext K' a b) : Target K n frame b := by
  cases frame with
  | none => trivial
  | some i =>
    obtain ⟨hk, h1, v, hs, hv⟩ := h
    obtain ⟨w, hw, hkw⟩ := he.seen hs
    exact ⟨hk, h1, w, hw, by rw [hkw.2.1]; exact hv⟩

/-- the last variable seen by the head frame -/
def lastOf : List Frame → Option (Str × Option Nat)
  | [] => none
  | f :: _ => f.last

/-- what a statement other than the naming of a variable does -/
def Step (K : Bool) (s t : List Frame) : Prop := Ext K s t ∧ lastOf t = lastOf s

theorem Step.inv {K : Bool} {s t : List Frame} (h : Step K s t) (hi : Inv K s) : Inv K t := by
  cases s with
  | nil => exact hi.elim
  | cons f s =>
    cases t with
    | nil => exact h.1.elim
    | cons g t => exact hi.ext h.1 h.2

theorem setAt_post {K : Bool} (n : Str) (x : Val) {frame : Option Nat} {s : List Frame} (hi : Inv K s)
    (ht : Target K n frame s) : (setAt n x (frame.getD 0) s).Post (Step K s) := by
  cases s with
  | nil => exact hi.elim
  | cons f s =>
    cases frame with
    | none =>
      refine (setAt_head n x hi.1).mono ?_
      rintro t ⟨g, rfl, hl, hla, hv⟩
      exact ⟨⟨⟨hl, hv⟩, Keep.refl _ _⟩, hla⟩
    | some i =>
      obtain ⟨rfl, h1, v, hs, hv⟩ := ht
      obtain ⟨i, rfl⟩ : ∃ j, i = j + 1 := ⟨i - 1, by omega⟩
      refine (setAt_seen n x hs hv).mono fun t ht => ?_
      cases t with
      | nil => exact ht.elim
      | cons g t => exact ⟨⟨⟨ht.1.1, ht.1.2.2.ext⟩, ht.2⟩, ht.1.2.1⟩

/-! ### functions without effect -/

theorem Out.Tame.bind {α β : Type} {x : Out α} {f : α → Out β} (h : x.Tame) (hf : ∀ a, (f a).Tame) : (x >>= f).Tame :=
  Out.Post.bind h fun a _ => hf a

theorem subst_tame (s : List Frame) (m : Option Str) (x : Str) : (subst s m x).Tame := by
  fun_induction subst s m x <;> simp_all [Out.Tame] <;>
    exact Out.Tame.bind (by assumption) fun _ => trivial

theorem varName_tame (s : List Frame) (x : Str) : (varName s x).Tame := by
  unfold varName
  split
  · simp
  · split
    · exact (subst_tame _ _ _).bind fun _ => trivial
    · trivial

theorem srcVar_tame (s : List Frame) (x : Str) : (srcVar s x).Tame := by
  unfold srcVar
  refine (varName_tame _ _).bind ?_
  rintro ⟨n, p⟩
  dsimp only
  split <;> trivial

theorem int32_tame (i : Int) : (int32 i).Tame := by
  unfold int32
  split <;> simp

theorem item_tame (s : List Frame) (op : Op) (a : Acc) (t : Tok) : (item s op a t).Tame := by
  unfold item
  split
  · split
    · trivial
    · split
      · trivial
      · exact (subst_tame _ _ _).bind fun _ => trivial
  · refine (srcVar_tame _ _).bind fun v => ?_
    split
    · trivial
    · cases v <;> (repeat' split) <;> trivial
  · trivial

theorem items_tame (s : List Frame) (op : Op) (a : Acc) (ts : List Tok) : (items s op a ts).Tame := by
  fun_induction items s op a ts
  · trivial
  · exact (item_tame _ _ _ _).bind (by assumption)
  · exact (item_tame _ _ _ _).bind (by assumption)

theorem storeString_tame (op : Op) (x : Str) (o : Option Val) : (storeString op x o).Tame := by
  unfold storeString
  (repeat' split) <;> simp

theorem storeArray_tame (s : List Frame) (op : Op) (ts : List Tok) (o : Option Val) : (storeArray s op ts o).Tame := by
  unfold storeArray
  refine Out.Tame.bind ?_ fun a => ?_
  · unfold acc0
    (repeat' split) <;> trivial
  · refine (items_tame _ _ _ _).bind fun a => ?_
    (repeat' split) <;> simp

theorem arith_tame (op : Op) (a b : Int) : (arith op a b).Tame := by
  unfold arith
  split
  · exact int32_tame _
  · exact int32_tame _
  · trivial

theorem storeInt_tame (op : Op) (i : Int) (o : Option Val) : (storeInt op i o).Tame := by
  unfold storeInt
  split
  · split <;> trivial
  · exact (arith_tame _ _ _).bind fun a => trivial
  · trivial

theorem storeBool_tame (op : Op) (b : Bool) (o : Option Val) : (storeBool op b o).Tame := by
  unfold storeBool
  (repeat' split) <;> trivial

mutual
theorem concat_tame : ∀ (a b : Val), (concat a b).Tame
  | a, b => by
    cases a with
    | struct a =>
      cases b with
      | struct b =>
        unfold concat
        exact (concatMs_tame a b).bind fun _ => trivial
      | _ => unfold concat; simp
    | int a =>
      cases b with
      | int b =>
        unfold concat
        exact (int32_tame _).bind fun _ => trivial
      | _ => unfold concat; simp
    | _ =>
      unfold concat
      split <;> simp_all
theorem concatMs_tame : ∀ (a b : List (Str × Val)), (concatMs a b).Tame
  | [], b => by unfold concatMs; trivial
  | (n, v) :: a, b => by
    unfold concatMs
    split
    · exact (concat_tame v _).bind fun _ => (concatMs_tame a b).bind fun _ => trivial
    · exact (concatMs_tame a b).bind fun _ => trivial
end

theorem combine_tame (op : Op) (o : Option Val) (v : Val) : (combine op o v).Tame := by
  unfold combine
  split
  all_goals try (split <;> trivial)
  all_goals try (simp; done)
  · exact (arith_tame _ _ _).bind fun a => trivial
  · split
    · trivial
    · exact concat_tame _ _
    · trivial

end Verif.Bff.Interp
