import Verif.Mig.Spec
/-! Lemmas for C61: comparison of properties, and what a visit preserves. -/
namespace Verif.Mig
open Verif.Sched

mutual
theorem sameVal_iff : ∀ (k : Kind) (a b : Val), confVal k a = true → confVal k b = true →
    (sameVal a b = true ↔ eraseVal a = eraseVal b)
  | .str, .str a, .str b, _, _ => by simp [sameVal, eraseVal]
  | .strs, .strs a, .strs b, _, _ => by simp [sameVal, eraseVal]
  | .num, .num a, .num b, _, _ => by simp [sameVal, eraseVal]
  | .bool, .bool a, .bool b, _, _ => by simp [sameVal, eraseVal]
  | .ref, .ref a, .ref b, _, _ => by cases a <;> cases b <;> simp [sameVal, eraseVal]
  | .refs, .refs a, .refs b, _, _ => by simp [sameVal, eraseVal]
  | .struct s, .struct a, .struct b, ha, hb => by
    simp only [confVal] at ha hb
    simp [sameVal, eraseVal, sameFields_iff s a b ha hb]
  | .structs s, .structs a, .structs b, ha, hb => by
    simp only [confVal] at ha hb
    simp only [sameVal, eraseVal, Bool.and_eq_true, beq_iff_eq, Val.structs.injEq]
    exact sameElems_iff s a b ha hb
theorem sameFields_iff : ∀ (s : Schema) (a b : Fields), confFields s a = true → confFields s b = true →
    (sameFields a b = true ↔ erase a = erase b)
  | .nil, .nil, .nil, _, _ => by simp [sameFields, erase]
  | .cons i k s, .cons j v r, .cons j' v' r', ha, hb => by
    simp only [confFields, Bool.and_eq_true, beq_iff_eq] at ha hb
    obtain ⟨⟨rfl, hv⟩, hr⟩ := ha
    obtain ⟨⟨rfl, hv'⟩, hr'⟩ := hb
    simp only [sameFields, erase, Bool.and_eq_true, Bool.or_eq_true, Fields.cons.injEq, true_and]
    rw [sameFields_iff s r r' hr hr', sameVal_iff k v v' hv hv']
    cases i <;> simp
theorem sameElems_iff : ∀ (s : Schema) (a b : Elems), confElems s a = true → confElems s b = true →
    ((a.size = b.size ∧ sameElems a b = true) ↔ eraseElems a = eraseElems b)
  | _, .nil, .nil, _, _ => by simp [sameElems, eraseElems, Elems.size]
  | _, .nil, .cons _ _, _, _ => by simp [eraseElems, Elems.size]
  | _, .cons _ _, .nil, _, _ => by simp [eraseElems, Elems.size]
  | s, .cons a r, .cons b r', ha, hb => by
    simp only [confElems, Bool.and_eq_true] at ha hb
    simp only [sameElems, eraseElems, Elems.size, Bool.and_eq_true, Elems.cons.injEq, Nat.add_right_cancel_iff]
    rw [sameFields_iff s a b ha.1 hb.1, ← sameElems_iff s r r' ha.2 hb.2]
    constructor
    · rintro ⟨a, b, c⟩; exact ⟨b, a, c⟩
    · rintro ⟨a, b, c⟩; exact ⟨b, a, c⟩
end

theorem Res.bind_ok {α β : Type} {r : Res α} {f : α → Res β} {b : β} (h : r.bind f = .ok b) :
    ∃ a, r = .ok a ∧ f a = .ok b := by
  cases r with
  | ok a => exact ⟨a, rfl, h⟩
  | fuel => cases h
  | crash => cases h

mutual
theorem migrateVal_conf (g : NG) : ∀ (k : Kind) (a b : Val), confVal k a = true →
    migrateVal g a = .ok b → confVal k b = true
  | .str, .str a, b, _, h => by simp only [migrateVal, Res.ok.injEq] at h; subst h; rfl
  | .strs, .strs a, b, _, h => by simp only [migrateVal, Res.ok.injEq] at h; subst h; rfl
  | .num, .num a, b, _, h => by simp only [migrateVal, Res.ok.injEq] at h; subst h; rfl
  | .bool, .bool a, b, _, h => by simp only [migrateVal, Res.ok.injEq] at h; subst h; rfl
  | .ref, .ref none, b, _, h => by simp [migrateVal] at h
  | .ref, .ref (some a), b, _, h => by simp only [migrateVal, Res.ok.injEq] at h; subst h; rfl
  | .refs, .refs a, b, _, h => by
    simp only [migrateVal] at h
    split at h
    · cases h; rfl
    · cases h
  | .struct s, .struct a, b, ha, h => by
    simp only [migrateVal] at h
    obtain ⟨f', hf, h⟩ := Res.bind_ok h
    cases h
    simp only [confVal] at ha ⊢
    exact migrateFields_conf g s a f' ha hf
  | .structs s, .structs a, b, ha, h => by
    simp only [migrateVal] at h
    obtain ⟨f', hf, h⟩ := Res.bind_ok h
    cases h
    simp only [confVal] at ha ⊢
    exact migrateElems_conf g s a f' ha hf
theorem migrateFields_conf (g : NG) : ∀ (s : Schema) (a b : Fields), confFields s a = true →
    migrateFields g a = .ok b → confFields s b = true
  | .nil, .nil, b, _, h => by simp only [migrateFields, Res.ok.injEq] at h; subst h; rfl
  | .cons i k s, .cons j v r, b, ha, h => by
    simp only [confFields, Bool.and_eq_true, beq_iff_eq] at ha
    simp only [migrateFields] at h
    obtain ⟨v', hv, h⟩ := Res.bind_ok h
    obtain ⟨r', hr, h⟩ := Res.bind_ok h
    cases h
    simp only [confFields, Bool.and_eq_true, beq_iff_eq]
    exact ⟨⟨ha.1.1, migrateVal_conf g k v v' ha.1.2 hv⟩, migrateFields_conf g s r r' ha.2 hr⟩
theorem migrateElems_conf (g : NG) : ∀ (s : Schema) (a b : Elems), confElems s a = true →
    migrateElems g a = .ok b → confElems s b = true
  | _, .nil, b, _, h => by simp only [migrateElems, Res.ok.injEq] at h; subst h; rfl
  | s, .cons a r, b, ha, h => by
    simp only [confElems, Bool.and_eq_true] at ha
    simp only [migrateElems] at h
    obtain ⟨v', hv, h⟩ := Res.bind_ok h
    obtain ⟨r', hr, h⟩ := Res.bind_ok h
    cases h
    simp only [confElems, Bool.and_eq_true]
    exact ⟨migrateFields_conf g s a v' ha.1 hv, migrateElems_conf g s r r' ha.2 hr⟩
end

theorem copyIgnored_erase : ∀ (a b : Fields), erase (copyIgnored a b) = erase b
  | .cons _ v r, .cons i w s => by
    simp only [copyIgnored, erase, copyIgnored_erase r s]
    cases i <;> simp
  | .nil, .nil => rfl
  | .nil, .cons _ _ _ => rfl
  | .cons _ _ _, .nil => rfl

theorem copyIgnored_conf : ∀ (s : Schema) (a b : Fields), confFields s a = true → confFields s b = true →
    confFields s (copyIgnored a b) = true
  | .nil, .nil, .nil, _, _ => rfl
  | .cons i k s, .cons j v r, .cons j' v' r', ha, hb => by
    simp only [confFields, Bool.and_eq_true, beq_iff_eq] at ha hb
    simp only [copyIgnored, confFields, Bool.and_eq_true, beq_iff_eq]
    refine ⟨⟨hb.1.1, ?_⟩, copyIgnored_conf s r r' ha.2 hb.2⟩
    split
    · exact ha.1.2
    · exact hb.1.2

theorem restamp_keep : ∀ (a b : List Dep), (restamp a b).map (fun d => (d.node, d.weak)) =
    b.map (fun d => (d.node, d.weak))
  | [], _ => by simp [restamp]
  | _ :: _, [] => by simp [restamp]
  | a :: as, b :: bs => by simp [restamp, restamp_keep as bs]

theorem restamp_stamps : ∀ (a b : List Dep), a.length = b.length →
    (restamp a b).map (·.stamp) = a.map (·.stamp)
  | [], [], _ => by simp [restamp]
  | [], _ :: _, h => by simp at h
  | _ :: _, [], h => by simp at h
  | a :: as, b :: bs, h => by
    simp only [List.length_cons, Nat.add_right_cancel_iff] at h
    simp [restamp, restamp_stamps as bs h]

theorem sig_keep (g : NG) {a b : List Dep} (h : a.map (fun d => (d.node, d.weak)) = b.map (fun d => (d.node, d.weak))) :
    sig g a = sig g b := by
  have e : ∀ l : List Dep, sig g l =
      (l.map (fun d => (d.node, d.weak))).map (fun p => (g.node p.1).map fun x => (x.name, x.type, x.stamp)) := by
    intro l; simp [sig]
  rw [e, e, h]

theorem depsMatch_sig {O g : NG} : ∀ {a b : List Dep}, depsMatch O g a b = true →
    sig g b = sig O a ∧ none ∉ sig O a ∧ a.length = b.length
  | [], [], _ => by simp [sig]
  | [], _ :: _, h => by simp [depsMatch] at h
  | _ :: _, [], h => by simp [depsMatch] at h
  | a :: as, b :: bs, h => by
    simp only [depsMatch, List.length_cons, depsLoop, Bool.and_eq_true, beq_iff_eq, Nat.add_right_cancel_iff] at h
    obtain ⟨i1, i2, i3⟩ := depsMatch_sig (a := as) (b := bs) (O := O) (g := g)
      (by simp only [depsMatch, Bool.and_eq_true, beq_iff_eq]; exact ⟨h.1, h.2.2⟩)
    have hm := h.2.1
    unfold depMatch at hm
    split at hm
    · rename_i x y hx hy
      simp only [Bool.and_eq_true, beq_iff_eq] at hm
      refine ⟨?_, ?_, by simp [h.1]⟩
      · simp only [sig, List.map_cons, hx, hy, Option.map_some] at i1 ⊢
        rw [i1]; simp [hm.1.1, hm.1.2, hm.2]
      · simp only [sig, List.map_cons, hx, Option.map_some] at i2 ⊢
        simp only [List.mem_cons, reduceCtorEq, false_or]
        exact i2
    · cases hm

variable {schema : Nat → Schema} {init : Init} {O : NG}

/-- the invariant of the graph under migration -/
structure Inv (schema : Nat → Schema) (O g : NG) : Prop where
  key : ∀ n nd, g.node n = some nd → nd.name.key = n
  conf : ∀ n nd, g.node n = some nd → confFields (schema nd.type) nd.props = true
  clean : ∀ n nd, g.node n = some nd → nd.tag = false → nd.stamp = 0 ∧ nd.dyn = []
  file : ∀ n nd, g.node n = some nd → nd.type = fileType → nd.stamp = 0
  ok : ∀ n nd, g.node n = some nd → nd.stamp ≠ 0 → ∃ o, O.node n = some o ∧ Carried O g o nd

/-- a node only gains tag and state -/
structure NodeKeep (O : NG) (m : Nat) (nd nd' : MNode) : Prop extends SameRule nd nd' where
  tag : nd.tag = true → nd'.tag = true
  stamp : nd'.stamp = nd.stamp ∨ (nd.stamp = 0 ∧ ∃ o, O.node m = some o ∧ nd'.stamp = o.stamp)

theorem NodeKeep.refl (m : Nat) (nd : MNode) : NodeKeep O m nd nd :=
  { name := rfl, type := rfl, props := rfl, pre := rfl, static := rfl, tag := id, stamp := .inl rfl }

theorem NodeKeep.trans {m : Nat} {a b c : MNode} (h : NodeKeep O m a b) (k : NodeKeep O m b c) :
    NodeKeep O m a c where
  name := k.name.trans h.name
  type := k.type.trans h.type
  props := k.props.trans h.props
  pre := k.pre.trans h.pre
  static := k.static.trans h.static
  tag x := k.tag (h.tag x)
  stamp := by
    rcases k.stamp with e | ⟨e, o, ho, h2⟩
    · rw [e]; exact h.stamp
    · rcases h.stamp with e' | ⟨e', o', ho', h2'⟩
      · exact .inr ⟨by rw [← e', e], o, ho, h2⟩
      · exact .inr ⟨e', o, ho, h2⟩

def Keep (O g g' : NG) : Prop := ∀ m nd, g.node m = some nd → ∃ nd', g'.node m = some nd' ∧ NodeKeep O m nd nd'

def Frozen (g g' : NG) : Prop := ∀ m nd, g.node m = some nd → nd.tag = true → g'.node m = some nd

theorem Keep.refl (g : NG) : Keep O g g := fun m nd h => ⟨nd, h, NodeKeep.refl m nd⟩

theorem Keep.trans {a b c : NG} (h : Keep O a b) (k : Keep O b c) : Keep O a c := by
  intro m nd hm
  obtain ⟨nd', h1, h2⟩ := h m nd hm
  obtain ⟨nd'', h3, h4⟩ := k m nd' h1
  exact ⟨nd'', h3, h2.trans h4⟩

theorem Frozen.trans {a b c : NG} (h : Frozen a b) (k : Frozen b c) : Frozen a c :=
  fun m nd hm ht => k m nd (h m nd hm ht) ht

/-- matching dependencies stay matching -/
theorem Keep.sig_eq {g g' : NG} (kO : ∀ n nd, O.node n = some nd → nd.name.key = n)
    (kg : ∀ n nd, g.node n = some nd → nd.name.key = n)
    (h : Keep O g g') : ∀ {l a : List Dep}, sig g l = sig O a → none ∉ sig O a → sig g' l = sig O a
  | [], [], _, _ => rfl
  | [], _ :: _, e, _ => by simp [sig] at e
  | _ :: _, [], e, _ => by simp [sig] at e
  | d :: l, b :: a, e, hn => by
    simp only [sig, List.map_cons, List.cons.injEq, List.mem_cons, not_or] at e hn ⊢
    refine ⟨?_, h.sig_eq kO kg e.2 hn.2⟩
    cases hx : O.node b.node with
    | none => simp [hx] at hn
    | some x =>
      cases hy : g.node d.node with
      | none => simp [hx, hy] at e
      | some y =>
        obtain ⟨y', hy', hk⟩ := h _ _ hy
        simp only [hx, hy, Option.map_some, Option.some.injEq, Prod.mk.injEq] at e
        simp only [hy', Option.map_some, Option.some.injEq, Prod.mk.injEq]
        refine ⟨hk.name.trans e.1.1, hk.type.trans e.1.2.1, ?_⟩
        rcases hk.stamp with h1 | ⟨h1, o, ho, h2⟩
        · rw [h1, e.1.2.2]
        · have : d.node = b.node := by rw [← kO _ _ hx, ← kg _ _ hy, e.1.1]
          rw [this, hx] at ho
          cases ho
          exact h2

theorem Carried.mono {g g' : NG} {o nd : MNode} (kO : ∀ n nd, O.node n = some nd → nd.name.key = n)
    (kg : ∀ n nd, g.node n = some nd → nd.name.key = n)
    (h : Keep O g g') (c : Carried O g o nd) : Carried O g' o nd :=
  { c with
    pre := h.sig_eq kO kg c.pre c.some_pre
    static := h.sig_eq kO kg c.static c.some_static }

theorem set_node (g : NG) (k : Nat) (nd : MNode) (m : Nat) :
    (g.set k nd).node m = if m = k then some nd else g.node m := rfl

theorem keep_set {g : NG} {n : Nat} {nd nd' : MNode} (h : g.node n = some nd) (k : NodeKeep O n nd nd') :
    Keep O g (g.set n nd') := by
  intro m x hm
  rw [set_node]
  split
  · rename_i e; subst e
    rw [h] at hm; cases hm
    exact ⟨_, rfl, k⟩
  · exact ⟨x, hm, NodeKeep.refl m x⟩

/-- changing one node -/
theorem inv_set {g : NG} {n : Nat} {nd nd' : MNode} (kO : ∀ n nd, O.node n = some nd → nd.name.key = n)
    (I : Inv schema O g) (h : g.node n = some nd)
    (k : NodeKeep O n nd nd') (hc : confFields (schema nd'.type) nd'.props = true)
    (hl : nd'.tag = false → nd'.stamp = 0 ∧ nd'.dyn = [])
    (hf : nd'.type = fileType → nd'.stamp = 0)
    (ho : nd'.stamp ≠ 0 → ∃ o, O.node n = some o ∧ Carried O (g.set n nd') o nd') :
    Inv schema O (g.set n nd') := by
  have kp := keep_set h k
  have aux : ∀ m x, (g.set n nd').node m = some x → (m = n ∧ x = nd') ∨ (m ≠ n ∧ g.node m = some x) := by
    intro m x hm
    rw [set_node] at hm
    split at hm
    · rename_i e; cases hm; exact .inl ⟨e, rfl⟩
    · rename_i e; exact .inr ⟨e, hm⟩
  constructor
  · intro m x hm
    rcases aux m x hm with ⟨rfl, rfl⟩ | ⟨-, hm⟩
    · rw [k.name]; exact I.key _ _ h
    · exact I.key _ _ hm
  · intro m x hm
    rcases aux m x hm with ⟨rfl, rfl⟩ | ⟨-, hm⟩
    · exact hc
    · exact I.conf _ _ hm
  · intro m x hm
    rcases aux m x hm with ⟨rfl, rfl⟩ | ⟨-, hm⟩
    · exact hl
    · exact I.clean _ _ hm
  · intro m x hm
    rcases aux m x hm with ⟨rfl, rfl⟩ | ⟨-, hm⟩
    · exact hf
    · exact I.file _ _ hm
  · intro m x hm
    rcases aux m x hm with ⟨rfl, rfl⟩ | ⟨-, hm⟩
    · exact ho
    · intro hs
      obtain ⟨o, h1, h2⟩ := I.ok _ _ hm hs
      exact ⟨o, h1, h2.mono kO I.key kp⟩

theorem add_node (g : NG) (nd : MNode) (m : Nat) :
    (g.add nd).node m = if m = nd.name.key then some nd else g.node m := rfl

theorem keep_add {g : NG} {nd : MNode} (h : g.node nd.name.key = none) : Keep O g (g.add nd) := by
  intro m x hm
  rw [add_node, if_neg (by rintro rfl; rw [h] at hm; cases hm)]
  exact ⟨x, hm, NodeKeep.refl m x⟩

theorem frozen_add {g : NG} {nd : MNode} (h : g.node nd.name.key = none) : Frozen g (g.add nd) := by
  intro m x hm _
  rw [add_node, if_neg (by rintro rfl; rw [h] at hm; cases hm)]
  exact hm

/-- adding a clean node -/
theorem inv_add {g : NG} {nd : MNode} (kO : ∀ n nd, O.node n = some nd → nd.name.key = n)
    (I : Inv schema O g) (h : g.node nd.name.key = none)
    (hc : confFields (schema nd.type) nd.props = true) (hl : nd.stamp = 0 ∧ nd.dyn = []) :
    Inv schema O (g.add nd) := by
  have aux : ∀ m x, (g.add nd).node m = some x → (m = nd.name.key ∧ x = nd) ∨ g.node m = some x := by
    intro m x hm
    rw [add_node] at hm
    split at hm
    · rename_i e; cases hm; exact .inl ⟨e, rfl⟩
    · exact .inr hm
  constructor
  · intro m x hm
    rcases aux m x hm with ⟨rfl, rfl⟩ | hm
    · rfl
    · exact I.key _ _ hm
  · intro m x hm
    rcases aux m x hm with ⟨rfl, rfl⟩ | hm
    · exact hc
    · exact I.conf _ _ hm
  · intro m x hm
    rcases aux m x hm with ⟨rfl, rfl⟩ | hm
    · exact fun _ => hl
    · exact I.clean _ _ hm
  · intro m x hm
    rcases aux m x hm with ⟨rfl, rfl⟩ | hm
    · exact fun _ => hl.1
    · exact I.file _ _ hm
  · intro m x hm hs
    rcases aux m x hm with ⟨rfl, rfl⟩ | hm
    · exact absurd hl.1 hs
    · obtain ⟨o, h1, h2⟩ := I.ok _ _ hm hs
      exact ⟨o, h1, h2.mono kO I.key (keep_add h)⟩

theorem addFiles_inv (kO : ∀ n nd, O.node n = some nd → nd.name.key = n)
    (hs : schema fileType = .nil) : ∀ (l : List (Name × Bool)) {g : NG}, Inv schema O g →
    Inv schema O (addFiles g l) ∧ Keep O g (addFiles g l) ∧ Frozen g (addFiles g l) ∧
    (∀ m nd, g.node m = some nd → (addFiles g l).node m = some nd)
  | [], g, I => ⟨I, Keep.refl g, fun _ _ h _ => h, fun _ _ h => h⟩
  | (nm, _) :: l, g, I => by
    simp only [addFiles]
    split
    · exact addFiles_inv kO hs l I
    · rename_i h
      have h : g.node nm.key = none := by simpa using h
      have I1 := inv_add (nd := { name := nm, type := fileType }) kO I h (by rw [hs]; rfl) ⟨rfl, rfl⟩
      obtain ⟨a, b, c, d⟩ := addFiles_inv kO hs l I1
      refine ⟨a, (keep_add h).trans b, (frozen_add h).trans c, ?_⟩
      intro m nd hm
      apply d
      rw [add_node, if_neg (by rintro rfl; rw [h] at hm; cases hm)]
      exact hm

theorem createDep_inv (L : Loaded schema O) (hs : schema fileType = .nil) {g g' : NG} {n : Nat} {o : MNode}
    (ho : O.node n = some o) (I : Inv schema O g) (hn : g.node o.name.key = none)
    (h : createDep init g o = .ok g') : Inv schema O g' ∧ Keep O g g' ∧ Frozen g g' := by
  unfold createDep at h
  split at h
  · rename_i ht
    cases h
    exact ⟨inv_add L.key I hn (by show confFields (schema o.type) .nil = true; rw [ht, hs]; rfl) ⟨rfl, rfl⟩,
      keep_add hn, frozen_add hn⟩
  · obtain ⟨p, hp, h⟩ := Res.bind_ok h
    simp only [Res.ok.injEq] at h
    have hc := migrateFields_conf _ _ _ _ (L.conf _ _ ho) hp
    have I1 := inv_add (nd := { name := o.name, type := o.type, props := p }) L.key I hn hc ⟨rfl, rfl⟩
    obtain ⟨I2, K2, F2, E2⟩ := addFiles_inv L.key hs
      (init (g.add { name := o.name, type := o.type, props := p }) { name := o.name, type := o.type, props := p }).1 I1
    obtain ⟨I3, K3, F3, E3⟩ := addFiles_inv L.key hs
      (init (g.add { name := o.name, type := o.type, props := p }) { name := o.name, type := o.type, props := p }).2 I2
    have e1 : (g.add { name := o.name, type := o.type, props := p }).node o.name.key =
      some { name := o.name, type := o.type, props := p } := by rw [add_node, if_pos rfl]
    have e3 := E3 _ _ (E2 _ _ e1)
    subst h
    have aux : ∀ (X : NG) (P S : List Dep), Inv schema O X →
        X.node o.name.key = some { name := o.name, type := o.type, props := p } →
        (∀ m x, g.node m = some x → X.node m = some x) →
        Inv schema O (X.set o.name.key { name := o.name, type := o.type, props := p, pre := P, static := S }) ∧
        Keep O g (X.set o.name.key { name := o.name, type := o.type, props := p, pre := P, static := S }) ∧
        Frozen g (X.set o.name.key { name := o.name, type := o.type, props := p, pre := P, static := S }) := by
      intro X P S IX hX hE
      have hne : ∀ m x, g.node m = some x → m ≠ o.name.key := by
        rintro m x hm rfl; rw [hn] at hm; cases hm
      have aux2 : ∀ m x, (X.set o.name.key { name := o.name, type := o.type, props := p, pre := P, static := S }).node m = some x →
          (m = o.name.key ∧ x = { name := o.name, type := o.type, props := p, pre := P, static := S }) ∨
            (m ≠ o.name.key ∧ X.node m = some x) := by
        intro m x hm
        rw [set_node] at hm
        split at hm
        · rename_i e; cases hm; exact .inl ⟨e, rfl⟩
        · rename_i e; exact .inr ⟨e, hm⟩
      refine ⟨⟨?_, ?_, ?_, ?_, ?_⟩, ?_, ?_⟩
      · intro m x hm
        rcases aux2 m x hm with ⟨rfl, rfl⟩ | ⟨-, hm⟩
        · rfl
        · exact IX.key _ _ hm
      · intro m x hm
        rcases aux2 m x hm with ⟨rfl, rfl⟩ | ⟨-, hm⟩
        · exact hc
        · exact IX.conf _ _ hm
      · intro m x hm
        rcases aux2 m x hm with ⟨rfl, rfl⟩ | ⟨-, hm⟩
        · exact fun _ => ⟨rfl, rfl⟩
        · exact IX.clean _ _ hm
      · intro m x hm
        rcases aux2 m x hm with ⟨rfl, rfl⟩ | ⟨-, hm⟩
        · exact fun _ => rfl
        · exact IX.file _ _ hm
      · intro m x hm hs
        rcases aux2 m x hm with ⟨rfl, rfl⟩ | ⟨-, hm⟩
        · exact absurd rfl hs
        · obtain ⟨o', h1, h2⟩ := IX.ok _ _ hm hs
          refine ⟨o', h1, { h2 with pre := ?_, static := ?_ }⟩
          · rw [← h2.pre]
            apply List.map_congr_left
            intro d _
            rw [set_node]
            split
            · rename_i e; rw [e, hX]; rfl
            · rfl
          · rw [← h2.static]
            apply List.map_congr_left
            intro d _
            rw [set_node]
            split
            · rename_i e; rw [e, hX]; rfl
            · rfl
      · intro m x hm
        exact ⟨x, by rw [set_node, if_neg (hne m x hm)]; exact hE m x hm, NodeKeep.refl m x⟩
      · intro m x hm _
        rw [set_node, if_neg (hne m x hm)]; exact hE m x hm
    refine aux _ _ _ I3 e3 ?_
    intro m x hm
    apply E3; apply E2
    rw [add_node, if_neg (by rintro rfl; rw [hn] at hm; cases hm)]
    exact hm

/-- what a visit of a node guarantees -/
def Good (schema : Nat → Schema) (O : NG) (rec : NG → Nat → Res NG) : Prop :=
  ∀ g n g', rec g n = .ok g' → Inv schema O g → Inv schema O g' ∧ Keep O g g' ∧ Frozen g g'

theorem visitAll_inv {rec : NG → Nat → Res NG} (H : Good schema O rec) : ∀ (l : List Dep) {g g' : NG},
    visitAll rec g l = .ok g' → Inv schema O g → Inv schema O g' ∧ Keep O g g' ∧ Frozen g g'
  | [], g, g', h, I => by cases h; exact ⟨I, Keep.refl g, fun _ _ h _ => h⟩
  | d :: l, g, g', h, I => by
    obtain ⟨g1, h1, h⟩ := Res.bind_ok h
    obtain ⟨I1, K1, F1⟩ := H _ _ _ h1 I
    obtain ⟨I2, K2, F2⟩ := visitAll_inv H l h I1
    exact ⟨I2, K1.trans K2, F1.trans F2⟩

theorem dynLoop_inv (L : Loaded schema O) (hs : schema fileType = .nil) {rec : NG → Nat → Res NG}
    (H : Good schema O rec) : ∀ (l : List Dep) (acc : List Dep) {g : NG} {r : NG × Option (List Dep)},
    dynLoop rec init O g l acc = .ok r → Inv schema O g →
    Inv schema O r.1 ∧ Keep O g r.1 ∧ Frozen g r.1 ∧ (∀ ds, r.2 = some ds → ds = acc ++ l)
  | [], acc, g, r, h, I => by
    simp only [dynLoop, Res.ok.injEq] at h
    subst h
    exact ⟨I, Keep.refl g, fun _ _ h _ => h, by rintro ds h; cases h; simp⟩
  | d :: l, acc, g, r, h, I => by
    simp only [dynLoop] at h
    split at h
    · cases h
    · rename_i o ho
      split at h
      · split at h
        · cases h
          exact ⟨I, Keep.refl g, fun _ _ h _ => h, by rintro ds h; cases h⟩
        · obtain ⟨a, b, c, e⟩ := dynLoop_inv L hs H l _ h I
          exact ⟨a, b, c, fun ds h => by rw [e ds h]; simp⟩
      · rename_i hn
        obtain ⟨g1, h1, h⟩ := Res.bind_ok h
        obtain ⟨I1, K1, F1⟩ := createDep_inv L hs ho I hn h1
        split at h
        · obtain ⟨a, b, c, e⟩ := dynLoop_inv L hs H l _ h I1
          exact ⟨a, K1.trans b, F1.trans c, fun ds h => by rw [e ds h]; simp⟩
        · obtain ⟨g2, h2, h⟩ := Res.bind_ok h
          obtain ⟨I2, K2, F2⟩ := H _ _ _ h2 I1
          obtain ⟨a, b, c, e⟩ := dynLoop_inv L hs H l _ h I2
          exact ⟨a, (K1.trans K2).trans b, (F1.trans F2).trans c, fun ds h => by rw [e ds h]; simp⟩

theorem transfer_inv (L : Loaded schema O) (hs : schema fileType = .nil) {rec : NG → Nat → Res NG}
    (H : Good schema O rec) {g g' : NG} {n : Nat} {nd : MNode} (hn : g.node n = some nd)
    (ht : nd.tag = true) (h0 : nd.stamp = 0) (hd : nd.dyn = []) (hty : nd.type ≠ fileType)
    (h : transfer rec init O g n = .ok g') (I : Inv schema O g) :
    Inv schema O g' ∧ Keep O g g' ∧
      (∀ m x, m ≠ n → g.node m = some x → x.tag = true → g'.node m = some x) := by
  unfold transfer at h
  split at h
  · cases h; exact ⟨I, Keep.refl g, fun _ _ _ h _ => h⟩
  · rename_i o ho
    rw [hn] at h
    simp only at h
    split at h
    · rename_i hu
      obtain ⟨r, h1, h⟩ := Res.bind_ok h
      simp only [unchanged, Bool.and_eq_true, beq_iff_eq] at hu
      obtain ⟨⟨⟨hty', hpr⟩, hpre⟩, hst⟩ := hu
      have kA : NodeKeep O n nd { nd with static := restamp o.static nd.static } :=
        { name := rfl, type := rfl, props := rfl, pre := rfl, static := restamp_keep _ _, tag := id, stamp := .inl rfl }
      have KA := keep_set hn kA
      have IA : Inv schema O (g.set n { nd with static := restamp o.static nd.static }) := by
        refine inv_set L.key I hn kA (show confFields (schema nd.type) nd.props = true from I.conf n nd hn) ?_ ?_ ?_
        · intro hf; rw [show nd.tag = true from ht] at hf; cases hf
        · exact fun _ => h0
        · intro hc; exact absurd h0 hc
      obtain ⟨IB, KB, FB, hds⟩ := dynLoop_inv L hs H _ _ h1 IA
      have eB := FB n { nd with static := restamp o.static nd.static } (by rw [set_node, if_pos rfl]) ht
      have FBm : ∀ m x, m ≠ n → g.node m = some x → x.tag = true → r.1.node m = some x := by
        intro m x hm hx hxt
        exact FB m x (by rw [set_node, if_neg hm]; exact hx) hxt
      unfold finishNode at h
      split at h
      · cases h
        exact ⟨IB, KA.trans KB, FBm⟩
      · rename_i ds hdse
        rw [eB] at h
        simp only [Res.ok.injEq] at h
        have hds := hds ds hdse
        simp only [List.nil_append] at hds
        subst hds
        have kB : NodeKeep O n { nd with static := restamp o.static nd.static }
            (takeState o { nd with static := restamp o.static nd.static } o.dyn) :=
          { name := rfl, type := rfl, props := copyIgnored_erase _ _, pre := rfl, static := rfl, tag := id,
            stamp := .inr ⟨h0, o, ho, rfl⟩ }
        have KC := keep_set eB kB
        subst h
        refine ⟨?_, (KA.trans KB).trans KC, ?_⟩
        · have cn := I.conf _ _ hn
          have co := L.conf _ _ ho
          rw [hty'] at co
          refine inv_set L.key IB eB kB ?_ ?_ ?_ ?_
          · exact copyIgnored_conf _ _ _ co cn
          · intro hf; exact absurd (show nd.tag = false from hf) (by rw [ht]; decide)
          · exact fun h => absurd h hty
          · intro _
            refine ⟨o, ho, ?_⟩
            obtain ⟨p1, p2, -⟩ := depsMatch_sig hpre
            obtain ⟨s1, s2, s3⟩ := depsMatch_sig hst
            have K := (KA.trans KB).trans KC
            exact {
              type := hty'.symm
              stamp := rfl
              time := rfl
              props := by
                rw [show (takeState o { nd with static := restamp o.static nd.static } o.dyn).props =
                  copyIgnored o.props nd.props from rfl, copyIgnored_erase]
                exact ((sameFields_iff _ _ _ co cn).mp hpr).symm
              pre := K.sig_eq L.key I.key p1 p2
              static := by
                rw [show (takeState o { nd with static := restamp o.static nd.static } o.dyn).static =
                  restamp o.static nd.static from rfl, sig_keep _ (restamp_keep o.static nd.static)]
                exact K.sig_eq L.key I.key s1 s2
              some_pre := p2
              some_static := s2
              recorded := restamp_stamps _ _ s3
              dyn := by
                show nd.dyn ++ o.dyn = o.dyn
                rw [hd]; rfl }
        · intro m x hm hx hxt
          rw [set_node, if_neg hm]
          exact FBm m x hm hx hxt
    · cases h; exact ⟨I, Keep.refl g, fun _ _ _ h _ => h⟩

theorem migrateNode_inv (L : Loaded schema O) (hs : schema fileType = .nil) (f : Nat) :
    Good schema O (migrateNode init O f) := by
  induction f with
  | zero => intro g n g' h; cases h
  | succ f ih =>
    intro g n g' h I
    simp only [migrateNode] at h
    split at h
    · cases h
    · rename_i nd hn
      split at h
      · cases h; exact ⟨I, Keep.refl g, fun _ _ h _ => h⟩
      · rename_i ht
        have ht : nd.tag = false := by simpa using ht
        obtain ⟨h0, hd⟩ := I.clean _ _ hn ht
        have kT : NodeKeep O n nd { nd with tag := true } :=
          { name := rfl, type := rfl, props := rfl, pre := rfl, static := rfl, tag := fun _ => rfl, stamp := .inl rfl }
        have KT := keep_set hn kT
        have FT : Frozen g (g.set n { nd with tag := true }) := by
          intro m x hm hx
          rw [set_node, if_neg (by rintro rfl; rw [hn] at hm; cases hm; rw [ht] at hx; cases hx)]
          exact hm
        have IT : Inv schema O (g.set n { nd with tag := true }) := by
          refine inv_set L.key I hn kT (show confFields (schema nd.type) nd.props = true from I.conf n nd hn) ?_
            (fun h => I.file n nd hn h) ?_
          · intro hf; cases hf
          · intro hc; exact absurd h0 hc
        split at h
        · cases h; exact ⟨IT, KT, FT⟩
        · rename_i hty
          obtain ⟨g1, h1, h⟩ := Res.bind_ok h
          obtain ⟨g2, h2, h⟩ := Res.bind_ok h
          obtain ⟨I1, K1, F1⟩ := visitAll_inv ih _ h1 IT
          obtain ⟨I2, K2, F2⟩ := visitAll_inv ih _ h2 I1
          have e2 : g2.node n = some { nd with tag := true } :=
            F2 _ _ (F1 _ _ (by rw [set_node, if_pos rfl]) rfl) rfl
          obtain ⟨I3, K3, F3⟩ := transfer_inv L hs ih e2 rfl h0 hd hty h I2
          refine ⟨I3, ((KT.trans K1).trans K2).trans K3, ?_⟩
          intro m x hm hx
          have hne : m ≠ n := by rintro rfl; rw [hn] at hm; cases hm; rw [ht] at hx; cases hx
          exact F3 m x hne (F2 _ _ (F1 _ _ (FT _ _ hm hx) hx) hx) hx

theorem migrateList_inv (L : Loaded schema O) (hs : schema fileType = .nil) {f : Nat} : ∀ (l : List Nat)
    {g g' : NG}, migrateList init O f g l = .ok g' → Inv schema O g → Inv schema O g' ∧ Keep O g g'
  | [], g, g', h, I => by cases h; exact ⟨I, Keep.refl g⟩
  | n :: l, g, g', h, I => by
    obtain ⟨g1, h1, h⟩ := Res.bind_ok h
    obtain ⟨I1, K1, -⟩ := migrateNode_inv L hs f _ _ _ h1 I
    obtain ⟨I2, K2⟩ := migrateList_inv L hs l h I1
    exact ⟨I2, K1.trans K2⟩

theorem Parsed.inv {g : NG} (P : Parsed schema g) : Inv schema O g where
  key := P.key
  conf := P.conf
  clean n nd h _ := ⟨(P.clean n nd h).1, (P.clean n nd h).2.1⟩
  file n nd h _ := (P.clean n nd h).1
  ok n nd h hs := absurd (P.clean n nd h).1 hs

end Verif.Mig
