import Verif.Mig.Lemmas
/-! C62: a build file that says the same as before costs nothing. Specification and lemmas. -/
namespace Verif.Mig
open Verif.Sched

variable {schema : Nat → Schema} {init : Init} {O : NG} {r : Nat → Nat}

mutual
theorem migrateVal_refs {g0 g : NG} (E : Extends g0 g) : ∀ v, refsVal g0 v → migrateVal g v = .ok v
  | .str _, _ => rfl
  | .strs _, _ => rfl
  | .num _, _ => rfl
  | .bool _, _ => rfl
  | .struct f, h => by
    simp only [refsVal] at h
    simp only [migrateVal, migrateFields_refs E f h, Res.bind]
  | .structs f, h => by
    simp only [refsVal] at h
    simp only [migrateVal, migrateElems_refs E f h, Res.bind]
  | .ref none, h => by simp [refsVal] at h
  | .ref (some nm), h => by
    simp only [refsVal] at h
    obtain ⟨nd, h1, h2⟩ := h
    obtain ⟨nd', h3, h4⟩ := E _ _ h1
    simp [migrateVal, h3, h4.name, h2]
  | .refs l, h => by
    simp only [refsVal] at h
    have e : ∀ nm ∈ l, (g.node nm.key).map (·.name) = some nm := by
      intro nm hm
      obtain ⟨nd, h1, h2⟩ := h nm hm
      obtain ⟨nd', h3, h4⟩ := E _ _ h1
      simp [h3, h4.name, h2]
    have e1 : l.all (fun nm => (g.node nm.key).isSome) = true := by
      rw [List.all_eq_true]
      intro nm hm
      have := e nm hm
      cases hg : g.node nm.key with
      | none => rw [hg] at this; cases this
      | some x => rfl
    have e2 : ∀ l' : List Name, (∀ nm ∈ l', (g.node nm.key).map (·.name) = some nm) →
        l'.filterMap (fun nm => (g.node nm.key).map (·.name)) = l' := by
      intro l'
      induction l' with
      | nil => intro _; rfl
      | cons a l' ih =>
        intro h
        rw [List.filterMap_cons, h a (List.mem_cons_self ..), ih (fun b hb => h b (List.mem_cons_of_mem _ hb))]
    simp only [migrateVal, e1, if_true, e2 l e]
theorem migrateFields_refs {g0 g : NG} (E : Extends g0 g) : ∀ f, refsIn g0 f → migrateFields g f = .ok f
  | .nil, _ => rfl
  | .cons i v rest, h => by
    simp only [refsIn] at h
    simp only [migrateFields, migrateVal_refs E v h.1, migrateFields_refs E rest h.2, Res.bind]
theorem migrateElems_refs {g0 g : NG} (E : Extends g0 g) : ∀ l, refsElems g0 l → migrateElems g l = .ok l
  | .nil, _ => rfl
  | .cons f rest, h => by
    simp only [refsElems] at h
    simp only [migrateElems, migrateFields_refs E f h.1, migrateElems_refs E rest h.2, Res.bind]
end

theorem SameRule.refl (nd : MNode) : SameRule nd nd := ⟨rfl, rfl, rfl, rfl, rfl⟩

theorem SameRule.trans {a b c : MNode} (h : SameRule a b) (k : SameRule b c) : SameRule a c :=
  ⟨k.name.trans h.name, k.type.trans h.type, k.props.trans h.props, k.pre.trans h.pre, k.static.trans h.static⟩

theorem Extends.trans_keep {a b c : NG} (h : Extends a b) (k : Keep O b c) : Extends a c := by
  intro n nd hn
  obtain ⟨x, h1, h2⟩ := h n nd hn
  obtain ⟨y, h3, h4⟩ := k n x h1
  exact ⟨y, h3, h2.trans h4.toSameRule⟩

/-- description of a node agrees with the old database -/
structure Desc (O : NG) (m : Nat) (nd : MNode) (o : MNode) : Prop where
  old : O.node m = some o
  name : nd.name = o.name
  type : nd.type = o.type
  props : erase nd.props = erase o.props
  pre : nd.type ≠ fileType → keys nd.pre = keys o.pre
  static : nd.type ≠ fileType → keys nd.static = keys o.static

structure Inv2 (schema : Nat → Schema) (O g0 g : NG) : Prop where
  inv : Inv schema O g
  ext : Extends g0 g
  desc : ∀ m nd, g.node m = some nd → ∃ o, Desc O m nd o
  closed : ∀ m nd, g.node m = some nd → ∀ d ∈ nd.pre ++ nd.static, ∃ x, g.node d.node = some x

/-- the node is finished -/
structure Done (O g : NG) (m : Nat) (nd : MNode) : Prop where
  file : nd.type = fileType ∨ ∃ o, O.node m = some o ∧ nd.stamp = o.stamp ∧ nd.time = o.time ∧
    keys nd.pre = keys o.pre ∧ nd.static = o.static ∧ nd.dyn = o.dyn ∧ ∀ d ∈ o.dyn, ∃ x, g.node d.node = some x

theorem Done.keep {g g' : NG} {m : Nat} {nd : MNode} (k : Keep O g g') (h : Done O g m nd) : Done O g' m nd where
  file := by
    rcases h.file with h | ⟨o, h1, h2, h2', h3, h4, h5, h6⟩
    · exact .inl h
    · refine .inr ⟨o, h1, h2, h2', h3, h4, h5, fun d hd => ?_⟩
      obtain ⟨x, hx⟩ := h6 d hd
      obtain ⟨y, hy, -⟩ := k _ _ hx
      exact ⟨y, hy⟩

def DoneBelow (O : NG) (r : Nat → Nat) (g : NG) (k : Nat) : Prop :=
  ∀ m nd, g.node m = some nd → nd.tag = true → r m < k → Done O g m nd

/-- progress of a visit -/
structure Prog (schema : Nat → Schema) (O g0 g g' : NG) : Prop where
  inv : Inv2 schema O g0 g'
  keep : Keep O g g'
  frozen : Frozen g g'
  tagged : ∀ m nd', g'.node m = some nd' → nd'.tag = true → (∃ nd, g.node m = some nd ∧ nd.tag = true) ∨ Done O g' m nd'
  new : ∀ m nd', g'.node m = some nd' → g.node m = none → nd'.type ≠ fileType → nd'.tag = true

theorem Prog.refl {g0 g : NG} (I : Inv2 schema O g0 g) : Prog schema O g0 g g where
  inv := I
  keep := Keep.refl g
  frozen _ _ h _ := h
  tagged m nd h ht := .inl ⟨nd, h, ht⟩
  new m nd h hn := by rw [hn] at h; cases h

theorem Prog.trans {g0 a b c : NG} (h : Prog schema O g0 a b) (k : Prog schema O g0 b c) : Prog schema O g0 a c where
  inv := k.inv
  keep := h.keep.trans k.keep
  frozen := h.frozen.trans k.frozen
  tagged m nd hm ht := by
    rcases k.tagged m nd hm ht with ⟨x, hx, hxt⟩ | hd
    · rcases h.tagged m x hx hxt with hh | hh
      · exact .inl hh
      · have := k.frozen m x hx hxt
        rw [hm] at this; cases this
        exact .inr (hh.keep k.keep)
    · exact .inr hd
  new m nd hm hn ht := by
    cases hb : b.node m with
    | none => exact k.new m nd hm hb ht
    | some x =>
      obtain ⟨y, hy, hk⟩ := k.keep _ _ hb
      rw [hm] at hy; cases hy
      exact hk.tag (h.new m x hb hn (by rw [← hk.type]; exact ht))

theorem Prog.below {g0 g g' : NG} {k : Nat} (p : Prog schema O g0 g g') (h : DoneBelow O r g k) :
    DoneBelow O r g' k := by
  intro m nd hm ht hr
  rcases p.tagged m nd hm ht with ⟨x, hx, hxt⟩ | hd
  · have := p.frozen m x hx hxt
    rw [hm] at this; cases this
    exact (h m _ hx hxt hr).keep p.keep
  · exact hd

/-- specification of a visit -/
def Visit (schema : Nat → Schema) (O g0 : NG) (r : Nat → Nat) (f : Nat) (rec : NG → Nat → Res NG) : Prop :=
  ∀ g n nd, Inv2 schema O g0 g → g.node n = some nd → r n < f → DoneBelow O r g (r n) →
    ∃ g', rec g n = .ok g' ∧ Prog schema O g0 g g' ∧ ∃ nd', g'.node n = some nd' ∧ nd'.tag = true

theorem DoneBelow.mono {g : NG} {k k' : Nat} (h : DoneBelow O r g k) (hk : k' ≤ k) : DoneBelow O r g k' :=
  fun m nd hm ht hr => h m nd hm ht (Nat.lt_of_lt_of_le hr hk)

theorem visitAll_prog {g0 : NG} {f k : Nat} {rec : NG → Nat → Res NG} (H : Visit schema O g0 r f rec) :
    ∀ (l : List Dep) (g : NG), Inv2 schema O g0 g → (∀ d ∈ l, ∃ x, g.node d.node = some x) →
    (∀ d ∈ l, r d.node < f ∧ r d.node ≤ k) → DoneBelow O r g k →
    ∃ g', visitAll rec g l = .ok g' ∧ Prog schema O g0 g g' ∧
      ∀ d ∈ l, ∃ x, g'.node d.node = some x ∧ x.tag = true
  | [], g, I, _, _, _ => ⟨g, rfl, Prog.refl I, by intro d hd; cases hd⟩
  | d :: l, g, I, he, hr, hb => by
    obtain ⟨x, hx⟩ := he d (List.mem_cons_self ..)
    obtain ⟨r1, r2⟩ := hr d (List.mem_cons_self ..)
    obtain ⟨g1, h1, p1, y, hy, hyt⟩ := H g d.node x I hx r1 (hb.mono r2)
    obtain ⟨g2, h2, p2, ht⟩ := visitAll_prog H l g1 p1.inv
      (fun e he' => by
        obtain ⟨z, hz⟩ := he e (List.mem_cons_of_mem _ he')
        obtain ⟨z', hz', -⟩ := p1.keep _ _ hz
        exact ⟨z', hz'⟩)
      (fun e he' => hr e (List.mem_cons_of_mem _ he')) (p1.below hb)
    refine ⟨g2, by simp only [visitAll, h1, Res.bind]; exact h2, p1.trans p2, ?_⟩
    intro e he'
    rcases List.mem_cons.mp he' with rfl | he'
    · exact ⟨y, p2.frozen _ _ hy hyt, hyt⟩
    · exact ht e he'

theorem Inv2.set {g0 g : NG} {n : Nat} {nd nd' : MNode} (I : Inv2 schema O g0 g) (h : g.node n = some nd)
    (J : Inv schema O (g.set n nd')) (k : NodeKeep O n nd nd') : Inv2 schema O g0 (g.set n nd') where
  inv := J
  ext := I.ext.trans_keep (keep_set h k)
  desc m x hm := by
    rw [set_node] at hm
    split at hm
    · rename_i e; subst e; cases hm
      obtain ⟨o, D⟩ := I.desc _ _ h
      exact ⟨o, D.old, k.name.trans D.name, k.type.trans D.type, k.props.trans D.props,
        fun ht => by rw [k.pre]; exact D.pre (by rw [← k.type]; exact ht),
        fun ht => (show keys nd'.static = _ from k.static).trans (D.static (by rw [← k.type]; exact ht))⟩
    · exact I.desc _ _ hm
  closed m x hm d hd := by
    have aux : ∀ e, (∃ x, g.node e = some x) → ∃ x, (g.set n nd').node e = some x := by
      rintro e ⟨x, hx⟩
      obtain ⟨y, hy, -⟩ := keep_set h k _ _ hx
      exact ⟨y, hy⟩
    apply aux
    rw [set_node] at hm
    split at hm
    · rename_i e; subst e; cases hm
      rcases List.mem_append.mp hd with hd | hd
      · rw [k.pre] at hd; exact I.closed _ _ h d (List.mem_append_left _ hd)
      · have : (d.node, d.weak) ∈ nd'.static.map (fun d => (d.node, d.weak)) := List.mem_map.mpr ⟨d, hd, rfl⟩
        rw [k.static] at this
        obtain ⟨e, he, hee⟩ := List.mem_map.mp this
        have := I.closed _ _ h e (List.mem_append_right _ he)
        simp only [Prod.mk.injEq] at hee
        rwa [hee.1] at this
    · exact I.closed _ _ hm d hd

/-- adding a node without dependencies -/
theorem Inv2.add {g0 g : NG} {nd : MNode} (I : Inv2 schema O g0 g) (h : g.node nd.name.key = none)
    (J : Inv schema O (g.add nd)) (D : ∃ o, Desc O nd.name.key nd o) (hp : nd.pre = []) (hs : nd.static = []) :
    Inv2 schema O g0 (g.add nd) where
  inv := J
  ext := I.ext.trans_keep (keep_add (O := O) h)
  desc m x hm := by
    rw [add_node] at hm
    split at hm
    · rename_i e; subst e; cases hm; exact D
    · exact I.desc _ _ hm
  closed m x hm d hd := by
    rw [add_node] at hm
    split at hm
    · cases hm; rw [hp, hs] at hd; cases hd
    · obtain ⟨y, hy⟩ := I.closed _ _ hm d hd
      obtain ⟨z, hz, -⟩ := keep_add (O := O) h _ _ hy
      exact ⟨z, hz⟩

theorem prog_add_file {g0 g : NG} (kO : ∀ n nd, O.node n = some nd → nd.name.key = n)
    (hs : schema fileType = .nil) (I : Inv2 schema O g0 g) {o : MNode} {m : Nat}
    (ho : O.node m = some o) (ht : o.type = fileType) (hn : g.node m = none)
    (hp : erase o.props = .nil) :
    Prog schema O g0 g (g.add { name := o.name, type := fileType }) := by
  have hk := kO _ _ ho
  have hn' : g.node o.name.key = none := by rw [hk]; exact hn
  have J := inv_add (nd := { name := o.name, type := fileType }) kO I.inv hn' (by rw [hs]; rfl) ⟨rfl, rfl⟩
  refine ⟨I.add hn' J ⟨o, ?_, rfl, ht.symm, ?_, ?_, ?_⟩ rfl rfl, keep_add hn', frozen_add hn', ?_, ?_⟩
  · show O.node o.name.key = some o
    rw [hk]; exact ho
  · show erase .nil = _; rw [hp]; rfl
  · intro h; exact absurd rfl h
  · intro h; exact absurd rfl h
  · intro x nd hx htg
    rw [add_node] at hx
    split at hx
    · cases hx; cases htg
    · exact .inl ⟨nd, hx, htg⟩
  · intro x nd hx hxn ht
    rw [add_node] at hx
    split at hx
    · cases hx; exact absurd rfl ht
    · rw [hxn] at hx; cases hx

theorem file_props (hs : schema fileType = .nil) {o : MNode} (hc : confFields (schema o.type) o.props = true)
    (ht : o.type = fileType) : erase o.props = .nil := by
  rw [ht, hs] at hc
  cases hp : o.props with
  | nil => rfl
  | cons i v rest => rw [hp] at hc; simp [confFields] at hc

theorem named_keys (L : Loaded schema O) : ∀ (l : List Dep), (∀ d ∈ l, ∃ x, O.node d.node = some x) →
    keys (freshDeps (named O l)) = keys l
  | [], _ => rfl
  | d :: l, h => by
    obtain ⟨x, hx⟩ := h d (List.mem_cons_self ..)
    have ih := named_keys L l (fun e he => h e (List.mem_cons_of_mem _ he))
    have en : named O (d :: l) = (x.name, d.weak) :: named O l := by
      simp [named, hx]
    rw [en]
    simp only [keys, freshDeps, List.map_cons, List.map_map] at ih ⊢
    rw [ih, L.key _ _ hx]

/-- creation of a node found in an earlier build -/
theorem createDep_prog {g0 g : NG} (L : Loaded schema O) (hs : schema fileType = .nil)
    (B : SameBuild schema init O g0 r) (I : Inv2 schema O g0 g) {m : Nat} {o : MNode}
    (ho : O.node m = some o) (hn : g.node m = none) :
    ∃ g', createDep init g o = .ok g' ∧ Inv2 schema O g0 g' ∧ Keep O g g' ∧ Frozen g g' ∧
      (∃ x, g'.node m = some x) ∧
      (∀ k nd', g'.node k = some nd' → nd'.tag = true → ∃ nd, g.node k = some nd ∧ nd.tag = true) ∧
      (∀ k nd', g'.node k = some nd' → g.node k = none → nd'.type ≠ fileType → k = m ∧ o.type ≠ fileType) := by
  have hk := L.key _ _ ho
  have hn' : g.node o.name.key = none := by rw [hk]; exact hn
  unfold createDep
  by_cases ht : o.type = fileType
  · rw [if_pos ht, ht]
    have p := prog_add_file L.key hs I ho ht hn (file_props hs (L.conf _ _ ho) ht)
    refine ⟨_, rfl, p.inv, p.keep, p.frozen, ⟨_, by rw [add_node, if_pos hk.symm]⟩, ?_, ?_⟩
    · intro k nd' hk' htg
      rw [add_node] at hk'
      split at hk'
      · cases hk'; cases htg
      · exact ⟨nd', hk', htg⟩
    · intro k nd' hk' hkn htt
      rw [add_node] at hk'
      split at hk'
      · cases hk'; exact absurd rfl htt
      · rw [hkn] at hk'; cases hk'
  · rw [if_neg ht]
    have h0 : g0.node m = none := by
      cases h : g0.node m with
      | none => rfl
      | some x =>
        obtain ⟨y, hy, -⟩ := I.ext _ _ h
        rw [hn] at hy; cases hy
    have E1 : Extends g0 (g.add { name := o.name, type := o.type }) :=
      I.ext.trans_keep (keep_add (O := O) (nd := { name := o.name, type := o.type }) hn')
    have hm := migrateFields_refs E1 _ (B.refs m o ho ht h0)
    rw [hm]
    simp only [Res.bind]
    have hc : confFields (schema o.type) o.props = true := L.conf _ _ ho
    have J1 := inv_add (nd := { name := o.name, type := o.type, props := o.props }) L.key I.inv hn' hc ⟨rfl, rfl⟩
    have E2 : Extends g0 (g.add { name := o.name, type := o.type, props := o.props }) :=
      I.ext.trans_keep (keep_add (O := O) (nd := { name := o.name, type := o.type, props := o.props }) hn')
    have hinit := B.init m o ho ht h0 (g.add { name := o.name, type := o.type, props := o.props })
      { name := o.name, type := o.type, props := o.props } E2 rfl rfl rfl
    rw [hinit]
    dsimp only
    have hco := B.closedOld m o ho
    have hdeps := B.deps m o ho ht h0
    -- a graph with the node, described fully apart from its dependencies
    have key : ∀ X : NG, Inv schema O X →
        X.node o.name.key = some { name := o.name, type := o.type, props := o.props } →
        (∀ k x, g.node k = some x → X.node k = some x) →
        (∀ k x, X.node k = some x → g.node k = none → k = m ∨ (x.type = fileType ∧ x.tag = false ∧ ∃ p, Desc O k x p ∧ x.pre = [] ∧ x.static = [])) →
        (∀ d ∈ o.pre ++ o.static, ∃ x, X.node d.node = some x) →
        Inv2 schema O g0 (X.set o.name.key
          { name := o.name, type := o.type, props := o.props, pre := freshDeps (named O o.pre),
            static := freshDeps (named O o.static) }) ∧ Keep O g (X.set o.name.key
          { name := o.name, type := o.type, props := o.props, pre := freshDeps (named O o.pre),
            static := freshDeps (named O o.static) }) ∧ Frozen g (X.set o.name.key
          { name := o.name, type := o.type, props := o.props, pre := freshDeps (named O o.pre),
            static := freshDeps (named O o.static) }) := by
      intro X JX hX hE hnew hdx
      have hne : ∀ k x, g.node k = some x → k ≠ o.name.key := by
        rintro k x hkx rfl; rw [hn'] at hkx; cases hkx
      have KX : Keep O g (X.set o.name.key
          { name := o.name, type := o.type, props := o.props, pre := freshDeps (named O o.pre),
            static := freshDeps (named O o.static) }) := by
        intro k x hkx
        exact ⟨x, by rw [set_node, if_neg (hne k x hkx)]; exact hE k x hkx, NodeKeep.refl k x⟩
      have ex : ∀ e, (∃ x, X.node e = some x) → ∃ x, (X.set o.name.key
          { name := o.name, type := o.type, props := o.props, pre := freshDeps (named O o.pre),
            static := freshDeps (named O o.static) }).node e = some x := by
        rintro e ⟨x, hx⟩
        rw [set_node]
        split
        · exact ⟨_, rfl⟩
        · exact ⟨x, hx⟩
      refine ⟨⟨?_, I.ext.trans_keep KX, ?_, ?_⟩, KX, ?_⟩
      · -- the plain invariant
        have aux2 : ∀ k x, (X.set o.name.key
            { name := o.name, type := o.type, props := o.props, pre := freshDeps (named O o.pre),
              static := freshDeps (named O o.static) }).node k = some x →
            (k = o.name.key ∧ x =
              { name := o.name, type := o.type, props := o.props, pre := freshDeps (named O o.pre),
                static := freshDeps (named O o.static) }) ∨ (k ≠ o.name.key ∧ X.node k = some x) := by
          intro k x hm
          rw [set_node] at hm
          split at hm
          · rename_i e; cases hm; exact .inl ⟨e, rfl⟩
          · rename_i e; exact .inr ⟨e, hm⟩
        refine ⟨?_, ?_, ?_, ?_, ?_⟩
        · intro k x hm
          rcases aux2 k x hm with ⟨rfl, rfl⟩ | ⟨-, hm⟩
          · rfl
          · exact JX.key _ _ hm
        · intro k x hm
          rcases aux2 k x hm with ⟨rfl, rfl⟩ | ⟨-, hm⟩
          · exact hc
          · exact JX.conf _ _ hm
        · intro k x hm
          rcases aux2 k x hm with ⟨rfl, rfl⟩ | ⟨-, hm⟩
          · exact fun _ => ⟨rfl, rfl⟩
          · exact JX.clean _ _ hm
        · intro k x hm
          rcases aux2 k x hm with ⟨rfl, rfl⟩ | ⟨-, hm⟩
          · exact fun _ => rfl
          · exact JX.file _ _ hm
        · intro k x hm hs
          rcases aux2 k x hm with ⟨rfl, rfl⟩ | ⟨-, hm⟩
          · exact absurd rfl hs
          · obtain ⟨o', h1, h2⟩ := JX.ok _ _ hm hs
            refine ⟨o', h1, { h2 with pre := ?_, static := ?_ }⟩
            · rw [← h2.pre]
              apply List.map_congr_left
              intro d _
              rw [set_node]
              split
              · rename_i e; rw [e, hX]; rfl
              · rfl
            · rw [← h2.static]
              apply List.map_congr_left
              intro d _
              rw [set_node]
              split
              · rename_i e; rw [e, hX]; rfl
              · rfl
      · intro k x hkx
        rw [set_node] at hkx
        split at hkx
        · rename_i e; subst e; cases hkx
          refine ⟨o, by rw [hk]; exact ho, rfl, rfl, rfl, fun _ => ?_, fun _ => ?_⟩
          · exact named_keys L _ (fun d hd => hco d (by simp [hd]))
          · exact named_keys L _ (fun d hd => hco d (by simp [hd]))
        · rename_i e
          cases hg : g.node k with
          | some y =>
            have := hE k y hg
            rw [hkx] at this; cases this
            exact I.desc _ _ hg
          | none =>
            rcases hnew k x hkx hg with rfl | ⟨-, -, p, hp, -⟩
            · exact absurd hk.symm e
            · exact ⟨p, hp⟩
      · intro k x hkx d hd
        apply ex
        rw [set_node] at hkx
        split at hkx
        · cases hkx
          have fd : ∀ (l : List Dep), (∀ d ∈ l, ∃ x, O.node d.node = some x) → ∀ d ∈ freshDeps (named O l),
              ∃ e ∈ l, e.node = d.node := by
            intro l hl d hd
            have e := named_keys L l hl
            have : (d.node, d.weak) ∈ keys (freshDeps (named O l)) := List.mem_map.mpr ⟨d, hd, rfl⟩
            rw [e] at this
            obtain ⟨b, hb, he⟩ := List.mem_map.mp this
            simp only [Prod.mk.injEq] at he
            exact ⟨b, hb, he.1⟩
          rcases List.mem_append.mp hd with hd | hd
          · obtain ⟨b, hb, he⟩ := fd _ (fun d hd => hco d (by simp [hd])) d hd
            rw [← he]; exact hdx b (List.mem_append_left _ hb)
          · obtain ⟨b, hb, he⟩ := fd _ (fun d hd => hco d (by simp [hd])) d hd
            rw [← he]; exact hdx b (List.mem_append_right _ hb)
        · rename_i e
          cases hg : g.node k with
          | some y =>
            have := hE k y hg
            rw [hkx] at this; cases this
            obtain ⟨z, hz⟩ := I.closed _ _ hg d hd
            exact ⟨z, hE _ _ hz⟩
          | none =>
            rcases hnew k x hkx hg with rfl | ⟨-, -, p, -, e1, e2⟩
            · exact absurd hk.symm e
            · rw [e1, e2] at hd; cases hd
      · intro k x hkx _
        rw [set_node, if_neg (hne k x hkx)]; exact hE k x hkx
    -- the files
    have files : ∀ (l : List Dep) (X : NG), (∀ d ∈ l, ∃ x, O.node d.node = some x) →
        (∀ d ∈ l, (∃ x, X.node d.node = some x) ∨ ∀ x, O.node d.node = some x → x.type = fileType) →
        Inv schema O X → X.node o.name.key = some { name := o.name, type := o.type, props := o.props } →
        (∀ k x, g.node k = some x → X.node k = some x) →
        (∀ k x, X.node k = some x → g.node k = none → k = m ∨ (x.type = fileType ∧ x.tag = false ∧ ∃ p, Desc O k x p ∧ x.pre = [] ∧ x.static = [])) →
        Inv schema O (addFiles X (named O l)) ∧
        (addFiles X (named O l)).node o.name.key = some { name := o.name, type := o.type, props := o.props } ∧
        (∀ k x, g.node k = some x → (addFiles X (named O l)).node k = some x) ∧
        (∀ k x, (addFiles X (named O l)).node k = some x → g.node k = none → k = m ∨ (x.type = fileType ∧ x.tag = false ∧ ∃ p, Desc O k x p ∧ x.pre = [] ∧ x.static = [])) ∧
        (∀ k x, X.node k = some x → (addFiles X (named O l)).node k = some x) ∧
        (∀ d ∈ l, ∃ x, (addFiles X (named O l)).node d.node = some x) := by
      intro l
      induction l with
      | nil =>
        intro X _ _ a b c d
        exact ⟨a, b, c, d, fun _ _ h => h, by intro d hd; cases hd⟩
      | cons d l ih =>
        intro X hO hd a b c e
        obtain ⟨x, hx⟩ := hO d (List.mem_cons_self ..)
        have hkx := L.key _ _ hx
        have en : named O (d :: l) = (x.name, d.weak) :: named O l := by simp [named, hx]
        rw [en]
        simp only [addFiles]
        split
        · rename_i h
          obtain ⟨i1, i2, i3, i4, i5, i6⟩ := ih X (fun e he => hO e (List.mem_cons_of_mem _ he))
            (fun e he => hd e (List.mem_cons_of_mem _ he)) a b c e
          refine ⟨i1, i2, i3, i4, i5, ?_⟩
          intro y hy
          rcases List.mem_cons.mp hy with rfl | hy
          · rw [hkx] at h
            obtain ⟨z, hz⟩ := Option.isSome_iff_exists.mp h
            exact ⟨z, i5 _ _ hz⟩
          · exact i6 y hy
        · rename_i h
          rw [hkx] at h
          have hn2 : X.node d.node = none := by simpa using h
          have htx : x.type = fileType := by
            rcases hd d (List.mem_cons_self ..) with ⟨y, hy⟩ | ht
            · rw [hn2] at hy; cases hy
            · exact ht x hx
          have hn3 : X.node x.name.key = none := by rw [hkx]; exact hn2
          have old : ∀ k y, X.node k = some y → (X.add { name := x.name, type := fileType }).node k = some y := by
            intro k y hy
            rw [add_node, if_neg (by rintro rfl; rw [hn3] at hy; cases hy)]
            exact hy
          obtain ⟨i1, i2, i3, i4, i5, i6⟩ := ih (X.add { name := x.name, type := fileType })
            (fun e he => hO e (List.mem_cons_of_mem _ he))
            (fun e he => by
              rcases hd e (List.mem_cons_of_mem _ he) with ⟨y, hy⟩ | h
              · exact .inl ⟨y, old _ _ hy⟩
              · exact .inr h)
            (inv_add (nd := { name := x.name, type := fileType }) L.key a hn3 (by rw [hs]; rfl) ⟨rfl, rfl⟩)
            (old _ _ b) (fun k y hy => old _ _ (c k y hy))
            (by
              intro k y hy hg
              rw [add_node] at hy
              split at hy
              · rename_i e'; cases hy
                refine .inr ⟨rfl, rfl, x, ⟨?_, rfl, htx.symm, ?_, ?_, ?_⟩, rfl, rfl⟩
                · rw [e']; show O.node x.name.key = _; rw [hkx]; exact hx
                · exact (file_props hs (L.conf _ _ hx) htx).symm
                · intro h; exact absurd rfl h
                · intro h; exact absurd rfl h
              · exact e k y hy hg)
          refine ⟨i1, i2, i3, i4, fun k y hy => i5 _ _ (old _ _ hy), ?_⟩
          intro y hy
          rcases List.mem_cons.mp hy with rfl | hy
          · exact ⟨_, i5 _ _ (by rw [add_node, if_pos hkx.symm])⟩
          · exact i6 y hy
    have base : ∀ k x, g.node k = some x → (g.add { name := o.name, type := o.type, props := o.props }).node k = some x := by
      intro k x hx
      rw [add_node, if_neg (by rintro rfl; rw [hn'] at hx; cases hx)]
      exact hx
    have inG : ∀ (d : Dep), (∃ x, g0.node d.node = some x) → ∃ x, g.node d.node = some x := by
      rintro d ⟨x, hx⟩
      obtain ⟨y, hy, -⟩ := I.ext _ _ hx
      exact ⟨y, hy⟩
    obtain ⟨a1, a2, a3, a4, a5, a6⟩ := files o.pre (g.add { name := o.name, type := o.type, props := o.props })
      (fun d hd => hco d (by simp [hd]))
      (fun d hd => by
        rcases hdeps d (List.mem_append_left _ hd) with h | h
        · obtain ⟨x, hx⟩ := inG d h
          exact .inl ⟨x, base _ _ hx⟩
        · exact .inr h)
      J1 (by rw [add_node, if_pos rfl]) base
      (by
        intro k x hx hg
        rw [add_node] at hx
        split at hx
        · rename_i e; left; rw [e]; exact hk
        · rw [hg] at hx; cases hx)
    obtain ⟨b1, b2, b3, b4, b5, b6⟩ := files o.static
      (addFiles (g.add { name := o.name, type := o.type, props := o.props }) (named O o.pre))
      (fun d hd => hco d (by simp [hd]))
      (fun d hd => by
        rcases hdeps d (List.mem_append_right _ hd) with h | h
        · obtain ⟨x, hx⟩ := inG d h
          exact .inl ⟨x, a3 _ _ hx⟩
        · exact .inr h)
      a1 a2 a3 a4
    obtain ⟨c1, c2, c3⟩ := key _ b1 b2 b3 b4 (fun d hd => by
      rcases List.mem_append.mp hd with hd | hd
      · obtain ⟨x, hx⟩ := a6 d hd
        exact ⟨x, b5 _ _ hx⟩
      · exact b6 d hd)
    refine ⟨_, rfl, c1, c2, c3, ⟨_, by rw [set_node, if_pos hk.symm]⟩, ?_, ?_⟩
    · intro k nd' hk' htg
      rw [set_node] at hk'
      split at hk'
      · cases hk'; cases htg
      · rename_i e
        cases hg : g.node k with
        | some y =>
          have := b3 k y hg
          rw [hk'] at this; cases this
          exact ⟨_, rfl, htg⟩
        | none =>
          rcases b4 k nd' hk' hg with rfl | ⟨-, h, -⟩
          · exact absurd hk.symm e
          · rw [h] at htg; cases htg
    · intro k nd' hk' hkn htt
      rw [set_node] at hk'
      split at hk'
      · rename_i e; exact ⟨e.trans hk, ht⟩
      · rename_i e
        rcases b4 k nd' hk' hkn with rfl | ⟨h, -⟩
        · exact absurd hk.symm e
        · exact absurd h htt

theorem dynLoop_prog {g0 : NG} (L : Loaded schema O) (hs : schema fileType = .nil)
    (B : SameBuild schema init O g0 r) {f k : Nat} {rec : NG → Nat → Res NG} (H : Visit schema O g0 r f rec) :
    ∀ (l acc : List Dep) (g : NG), Inv2 schema O g0 g → (∀ d ∈ l, ∃ x, O.node d.node = some x) →
    (∀ d ∈ l, r d.node < f ∧ r d.node ≤ k) → DoneBelow O r g k →
    ∃ g', dynLoop rec init O g l acc = .ok (g', some (acc ++ l)) ∧ Prog schema O g0 g g' ∧
      ∀ d ∈ l, ∃ x, g'.node d.node = some x
  | [], acc, g, I, _, _, _ => ⟨g, by simp [dynLoop], Prog.refl I, by intro d hd; cases hd⟩
  | d :: l, acc, g, I, hO, hr, hb => by
    obtain ⟨o, ho⟩ := hO d (List.mem_cons_self ..)
    obtain ⟨r1, r2⟩ := hr d (List.mem_cons_self ..)
    have hk := L.key _ _ ho
    -- the rest of the loop
    have rest : ∀ g1, Prog schema O g0 g g1 → (∃ x, g1.node d.node = some x) →
        ∃ g', dynLoop rec init O g1 l (acc ++ [d]) = .ok (g', some (acc ++ d :: l)) ∧ Prog schema O g0 g g' ∧
          ∀ e ∈ d :: l, ∃ x, g'.node e.node = some x := by
      intro g1 p1 he
      obtain ⟨g', h1, h2, h3⟩ := dynLoop_prog L hs B H l (acc ++ [d]) g1 p1.inv
        (fun e he => hO e (List.mem_cons_of_mem _ he)) (fun e he => hr e (List.mem_cons_of_mem _ he)) (p1.below hb)
      refine ⟨g', by rw [h1]; simp, p1.trans h2, ?_⟩
      intro e he'
      rcases List.mem_cons.mp he' with rfl | he'
      · obtain ⟨x, hx⟩ := he
        obtain ⟨y, hy, -⟩ := h2.keep _ _ hx
        exact ⟨y, hy⟩
      · exact h3 e he'
    simp only [dynLoop, ho]
    rw [hk]
    cases hn : g.node d.node with
    | some nd =>
      obtain ⟨o', D⟩ := I.desc _ _ hn
      have : o' = o := by have := D.old; rw [ho] at this; cases this; rfl
      subst this
      simp only [D.type, ne_eq, not_true_eq_false, if_false]
      exact rest g (Prog.refl I) ⟨nd, hn⟩
    | none =>
      obtain ⟨g1, h1, I1, K1, F1, ⟨x, hx⟩, T1, N1⟩ := createDep_prog L hs B I ho hn
      simp only [h1, Res.bind]
      split
      · rename_i ht
        refine rest g1 ⟨I1, K1, F1, fun m nd hm htg => .inl (T1 m nd hm htg), ?_⟩ ⟨x, hx⟩
        intro m nd hm hmn htt
        exact absurd ht (N1 m nd hm hmn htt).2
      · rename_i ht
        have hb1 : DoneBelow O r g1 k := by
          intro m nd hm htg hlt
          obtain ⟨nd0, h0, h0t⟩ := T1 m nd hm htg
          have := F1 _ _ h0 h0t
          rw [hm] at this; cases this
          exact (hb m _ h0 h0t hlt).keep K1
        obtain ⟨g2, h2, p2, y, hy, hyt⟩ := H g1 d.node x I1 hx r1 (hb1.mono r2)
        simp only [h2]
        refine rest g2 ⟨p2.inv, K1.trans p2.keep, F1.trans p2.frozen, ?_, ?_⟩ ⟨y, hy⟩
        · intro m nd hm htg
          rcases p2.tagged m nd hm htg with ⟨z, hz, hzt⟩ | h
          · exact .inl (T1 _ _ hz hzt)
          · exact .inr h
        · intro m nd hm hmn htt
          cases h1m : g1.node m with
          | none => exact p2.new m nd hm h1m htt
          | some z =>
            obtain ⟨z', hz', hkk⟩ := p2.keep _ _ h1m
            rw [hm] at hz'; cases hz'
            obtain ⟨rfl, -⟩ := N1 m z h1m hmn (by rw [← hkk.type]; exact htt)
            rw [hm] at hy; cases hy; exact hyt

/-- dependencies with finished targets match -/
theorem depsMatch_done {g0 g : NG} (B : SameBuild schema init O g0 r) (I : Inv2 schema O g0 g) {k : Nat}
    (hb : DoneBelow O r g k) : ∀ (a b : List Dep), keys a = keys b →
    (∀ d ∈ b, ∃ x, g.node d.node = some x ∧ x.tag = true) → (∀ d ∈ b, r d.node < k) →
    depsMatch O g a b = true
  | [], [], _, _, _ => rfl
  | [], _ :: _, h, _, _ => by simp [keys] at h
  | _ :: _, [], h, _, _ => by simp [keys] at h
  | a :: as, b :: bs, h, ht, hr => by
    have h' := h
    simp only [keys, List.map_cons, List.cons.injEq, Prod.mk.injEq] at h
    have ih := depsMatch_done B I hb as bs h.2 (fun d hd => ht d (List.mem_cons_of_mem _ hd))
      (fun d hd => hr d (List.mem_cons_of_mem _ hd))
    simp only [depsMatch, Bool.and_eq_true, beq_iff_eq] at ih
    obtain ⟨y, hy, hyt⟩ := ht b (List.mem_cons_self ..)
    obtain ⟨x, D⟩ := I.desc _ _ hy
    have hx : O.node a.node = some x := by rw [h.1.1]; exact D.old
    have hst : x.stamp = y.stamp := by
      rcases (hb _ _ hy hyt (hr b (List.mem_cons_self ..))).file with hf | ⟨o, h1, h2, -⟩
      · rw [I.inv.file _ _ hy hf]
        exact B.file _ _ hx (by rw [← D.type]; exact hf)
      · rw [D.old] at h1; cases h1; exact h2.symm
    simp [depsMatch, depsLoop, ih.1, ih.2, depMatch, hx, hy, hst, D.type, D.name]

theorem keys_stamps : ∀ (a b : List Dep), keys a = keys b → a.map (·.stamp) = b.map (·.stamp) → a = b
  | [], [], _, _ => rfl
  | [], _ :: _, h, _ => by simp [keys] at h
  | _ :: _, [], h, _ => by simp [keys] at h
  | a :: as, b :: bs, h, hs => by
    simp only [keys, List.map_cons, List.cons.injEq, Prod.mk.injEq] at h hs
    rw [keys_stamps as bs h.2 hs.2]
    cases a; cases b; simp_all

theorem keys_length {a b : List Dep} (h : keys a = keys b) : a.length = b.length := by
  have := congrArg List.length h
  simpa [keys] using this

theorem transfer_prog {g0 g : NG} (L : Loaded schema O) (hs : schema fileType = .nil)
    (B : SameBuild schema init O g0 r) {f : Nat} {rec : NG → Nat → Res NG} (HG : Good schema O rec)
    (H : Visit schema O g0 r f rec) {n : Nat} {nd : MNode} (hn : g.node n = some nd)
    (ht : nd.tag = true) (h0 : nd.stamp = 0) (hd : nd.dyn = []) (hty : nd.type ≠ fileType)
    (I : Inv2 schema O g0 g) (hr : r n ≤ f) (hb : DoneBelow O r g (r n))
    (hv : ∀ d ∈ nd.pre ++ nd.static, ∃ x, g.node d.node = some x ∧ x.tag = true) :
    ∃ g', transfer rec init O g n = .ok g' ∧ Inv2 schema O g0 g' ∧ Keep O g g' ∧
      (∀ m x, m ≠ n → g.node m = some x → x.tag = true → g'.node m = some x) ∧
      (∃ x, g'.node n = some x ∧ x.tag = true ∧ Done O g' n x) ∧
      (∀ m x, m ≠ n → g'.node m = some x → x.tag = true →
        (∃ y, g.node m = some y ∧ y.tag = true) ∨ Done O g' m x) ∧
      (∀ m x, g'.node m = some x → g.node m = none → x.type ≠ fileType → x.tag = true) := by
  obtain ⟨o, D⟩ := I.desc _ _ hn
  have ho := D.old
  have rk := B.rank _ _ ho
  have mem_keys : ∀ {a b : List Dep}, keys a = keys b → ∀ d ∈ a, ∃ e ∈ b, e.node = d.node := by
    intro a b h d hd
    have : (d.node, d.weak) ∈ keys a := List.mem_map.mpr ⟨d, hd, rfl⟩
    rw [h] at this
    obtain ⟨e, he, hh⟩ := List.mem_map.mp this
    simp only [Prod.mk.injEq] at hh
    exact ⟨e, he, hh.1⟩
  have rp : ∀ d ∈ nd.pre, r d.node < r n := by
    intro d hd
    obtain ⟨e, he, h⟩ := mem_keys (D.pre hty) d hd
    rw [← h]; exact rk e (by simp [he])
  have rs : ∀ d ∈ nd.static, r d.node < r n := by
    intro d hd
    obtain ⟨e, he, h⟩ := mem_keys (D.static hty) d hd
    rw [← h]; exact rk e (by simp [he])
  have hu : unchanged O g o nd = true := by
    have co := L.conf _ _ ho
    have cn := I.inv.conf _ _ hn
    rw [← D.type] at co
    have e1 : sameFields o.props nd.props = true := (sameFields_iff _ _ _ co cn).mpr D.props.symm
    have e2 := depsMatch_done B I hb o.pre nd.pre (D.pre hty).symm
      (fun d hd => hv d (List.mem_append_left _ hd)) rp
    have e3 := depsMatch_done B I hb o.static nd.static (D.static hty).symm
      (fun d hd => hv d (List.mem_append_right _ hd)) rs
    simp [unchanged, e1, e2, e3, D.type]
  have kA : NodeKeep O n nd { nd with static := restamp o.static nd.static } :=
    { name := rfl, type := rfl, props := rfl, pre := rfl, static := restamp_keep _ _, tag := id, stamp := .inl rfl }
  have KA := keep_set hn kA
  have JA : Inv schema O (g.set n { nd with static := restamp o.static nd.static }) := by
    refine inv_set L.key I.inv hn kA (show confFields (schema nd.type) nd.props = true from I.inv.conf n nd hn) ?_ ?_ ?_
    · intro hf; rw [show nd.tag = true from ht] at hf; cases hf
    · exact fun _ => h0
    · intro hc; exact absurd h0 hc
  have IA := I.set hn JA kA
  have hbA : DoneBelow O r (g.set n { nd with static := restamp o.static nd.static }) (r n) := by
    intro m x hm hx hlt
    rw [set_node] at hm
    split at hm
    · rename_i e; subst e; exact absurd hlt (Nat.lt_irrefl _)
    · exact (hb m x hm hx hlt).keep KA
  obtain ⟨g1, h1, p1, hdyn⟩ := dynLoop_prog L hs B H o.dyn [] _ IA (fun d hd => B.closedOld _ _ ho d (by simp [hd]))
    (fun d hd => ⟨Nat.lt_of_lt_of_le (rk d (by simp [hd])) hr, Nat.le_of_lt (rk d (by simp [hd]))⟩) hbA
  have eB := p1.frozen n { nd with static := restamp o.static nd.static } (by rw [set_node, if_pos rfl]) ht
  have htr : transfer rec init O g n =
      .ok (g1.set n (takeState o { nd with static := restamp o.static nd.static } o.dyn)) := by
    simp only [transfer, ho, hn, hu, if_true, h1, Res.bind, List.nil_append, finishNode, eB]
  obtain ⟨JC, KC, FC⟩ := transfer_inv L hs HG hn ht h0 hd hty htr I.inv
  have kB : NodeKeep O n { nd with static := restamp o.static nd.static }
      (takeState o { nd with static := restamp o.static nd.static } o.dyn) :=
    { name := rfl, type := rfl, props := copyIgnored_erase _ _, pre := rfl, static := rfl, tag := id,
      stamp := .inr ⟨h0, o, ho, rfl⟩ }
  have KB := keep_set eB kB
  refine ⟨_, htr, p1.inv.set eB JC kB, KC, FC, ?_, ?_, ?_⟩
  · refine ⟨takeState o { nd with static := restamp o.static nd.static } o.dyn, by rw [set_node, if_pos rfl], ht, ⟨.inr ⟨o, ho, rfl, rfl, D.pre hty, ?_, ?_, ?_⟩⟩⟩
    · exact keys_stamps _ _ ((restamp_keep o.static nd.static).trans (D.static hty))
        (restamp_stamps _ _ (keys_length (D.static hty)).symm)
    · show nd.dyn ++ o.dyn = o.dyn
      rw [hd]; rfl
    · intro d hd
      obtain ⟨x, hx⟩ := hdyn d hd
      obtain ⟨y, hy, -⟩ := KB _ _ hx
      exact ⟨y, hy⟩
  · intro m x hm hx hxt
    rw [set_node, if_neg hm] at hx
    rcases p1.tagged m x hx hxt with ⟨y, hy, hyt⟩ | hdn
    · rw [set_node, if_neg hm] at hy
      exact .inl ⟨y, hy, hyt⟩
    · exact .inr (hdn.keep KB)
  · intro m x hx hxn hxt
    have hm : m ≠ n := by rintro rfl; rw [hn] at hxn; cases hxn
    rw [set_node, if_neg hm] at hx
    exact p1.new m x hx (by rw [set_node, if_neg hm]; exact hxn) hxt

theorem migrateNode_prog {g0 : NG} (L : Loaded schema O) (hs : schema fileType = .nil)
    (B : SameBuild schema init O g0 r) (f : Nat) : Visit schema O g0 r f (migrateNode init O f) := by
  induction f with
  | zero => intro g n nd _ _ h; exact absurd h (Nat.not_lt_zero _)
  | succ f ih =>
    intro g n nd I hn hr hb
    have hr' : r n ≤ f := Nat.le_of_lt_succ hr
    simp only [migrateNode, hn]
    split
    · rename_i ht
      exact ⟨g, rfl, Prog.refl I, nd, hn, ht⟩
    · rename_i ht
      have ht : nd.tag = false := by simpa using ht
      obtain ⟨h0, hd⟩ := I.inv.clean _ _ hn ht
      have kT : NodeKeep O n nd { nd with tag := true } :=
        { name := rfl, type := rfl, props := rfl, pre := rfl, static := rfl, tag := fun _ => rfl, stamp := .inl rfl }
      have KT := keep_set hn kT
      have FT : Frozen g (g.set n { nd with tag := true }) := by
        intro m x hm hx
        rw [set_node, if_neg (by rintro rfl; rw [hn] at hm; cases hm; rw [ht] at hx; cases hx)]
        exact hm
      have JT : Inv schema O (g.set n { nd with tag := true }) := by
        refine inv_set L.key I.inv hn kT (show confFields (schema nd.type) nd.props = true from I.inv.conf n nd hn) ?_
          (fun h => I.inv.file n nd hn h) ?_
        · intro hf; cases hf
        · intro hc; exact absurd h0 hc
      have IT := I.set hn JT kT
      have eT : (g.set n { nd with tag := true }).node n = some { nd with tag := true } := by
        rw [set_node, if_pos rfl]
      split
      · rename_i hty
        refine ⟨_, rfl, ⟨IT, KT, FT, ?_, ?_⟩, _, eT, rfl⟩
        · intro m x hm hx
          rw [set_node] at hm
          split at hm
          · cases hm; exact .inr ⟨.inl hty⟩
          · exact .inl ⟨x, hm, hx⟩
        · intro m x hm hmn hxt
          rw [set_node] at hm
          split at hm
          · cases hm; rfl
          · rw [hmn] at hm; cases hm
      · rename_i hty
        obtain ⟨o, D⟩ := I.desc _ _ hn
        have rk := B.rank _ _ D.old
        have rr : ∀ d ∈ nd.pre ++ nd.static, r d.node < r n := by
          have aux : ∀ {a b : List Dep}, keys a = keys b → (∀ e ∈ b, r e.node < r n) → ∀ d ∈ a, r d.node < r n := by
            intro a b h hb d hd
            have : (d.node, d.weak) ∈ keys a := List.mem_map.mpr ⟨d, hd, rfl⟩
            rw [h] at this
            obtain ⟨e, he, hh⟩ := List.mem_map.mp this
            simp only [Prod.mk.injEq] at hh
            rw [← hh.1]; exact hb e he
          intro d hd
          rcases List.mem_append.mp hd with hd | hd
          · exact aux (D.pre hty) (fun e he => rk e (by simp [he])) d hd
          · exact aux (D.static hty) (fun e he => rk e (by simp [he])) d hd
        have hbT : DoneBelow O r (g.set n { nd with tag := true }) (r n) := by
          intro m x hm hx hlt
          rw [set_node] at hm
          split at hm
          · rename_i e; subst e; exact absurd hlt (Nat.lt_irrefl _)
          · exact (hb m x hm hx hlt).keep KT
        have lift : ∀ {a b : NG}, Keep O a b → (∀ d ∈ nd.pre ++ nd.static, ∃ x, a.node d.node = some x) →
            ∀ d ∈ nd.pre ++ nd.static, ∃ x, b.node d.node = some x := by
          intro a b k h d hd
          obtain ⟨x, hx⟩ := h d hd
          obtain ⟨y, hy, -⟩ := k _ _ hx
          exact ⟨y, hy⟩
        have ex := lift KT (I.closed _ _ hn)
        obtain ⟨g1, h1, p1, t1⟩ := visitAll_prog ih nd.pre _ IT (fun d hd => ex d (List.mem_append_left _ hd))
          (fun d hd => ⟨Nat.lt_of_lt_of_le (rr d (List.mem_append_left _ hd)) hr',
            Nat.le_of_lt (rr d (List.mem_append_left _ hd))⟩) hbT
        have ex1 := lift p1.keep ex
        obtain ⟨g2, h2, p2, t2⟩ := visitAll_prog ih nd.static _ p1.inv (fun d hd => ex1 d (List.mem_append_right _ hd))
          (fun d hd => ⟨Nat.lt_of_lt_of_le (rr d (List.mem_append_right _ hd)) hr',
            Nat.le_of_lt (rr d (List.mem_append_right _ hd))⟩) (p1.below hbT)
        have p12 := p1.trans p2
        have e2 := p12.frozen _ _ eT rfl
        obtain ⟨g3, h3, I3, K3, F3, ⟨z, hz, hzt, hzd⟩, T3, N3⟩ := transfer_prog (g := g2) L hs B
          (migrateNode_inv L hs f) ih e2 rfl h0 hd hty p2.inv hr' (p12.below hbT)
          (by
            intro d hd
            rcases List.mem_append.mp hd with hd | hd
            · obtain ⟨x, hx, hxt⟩ := t1 d hd
              exact ⟨x, p2.frozen _ _ hx hxt, hxt⟩
            · exact t2 d hd)
        refine ⟨g3, by simp only [h1, Res.bind, h2]; exact h3, ⟨I3, (KT.trans p12.keep).trans K3, ?_, ?_, ?_⟩, z, hz, hzt⟩
        · intro m x hm hx
          have hne : m ≠ n := by rintro rfl; rw [hn] at hm; cases hm; rw [ht] at hx; cases hx
          exact F3 m x hne (p12.frozen _ _ (FT _ _ hm hx) hx) hx
        · intro m x hm hx
          by_cases hne : m = n
          · subst hne
            rw [hz] at hm; cases hm
            exact .inr hzd
          · rcases T3 m x hne hm hx with ⟨y, hy, hyt⟩ | h
            · rcases p12.tagged m y hy hyt with ⟨y', hy', hyt'⟩ | h
              · rw [set_node, if_neg hne] at hy'
                exact .inl ⟨y', hy', hyt'⟩
              · have := F3 m y hne hy hyt
                rw [hm] at this; cases this
                exact .inr (h.keep K3)
            · exact .inr h
        · intro m x hm hmn hxt
          have hne : m ≠ n := by rintro rfl; rw [hn] at hmn; cases hmn
          cases h2m : g2.node m with
          | none => exact N3 m x hm h2m hxt
          | some y =>
            obtain ⟨y', hy', hk⟩ := K3 _ _ h2m
            rw [hm] at hy'; cases hy'
            exact hk.tag (p12.new m y h2m (by rw [set_node, if_neg hne]; exact hmn) (by rw [← hk.type]; exact hxt))

theorem migrateList_prog {g0 : NG} (L : Loaded schema O) (hs : schema fileType = .nil)
    (B : SameBuild schema init O g0 r) {f : Nat} : ∀ (l : List Nat) (g : NG), Inv2 schema O g0 g →
    (∀ n ∈ l, (∃ x, g.node n = some x) ∧ r n < f) → (∀ k, DoneBelow O r g k) →
    ∃ g', migrateList init O f g l = .ok g' ∧ Prog schema O g0 g g' ∧
      ∀ n ∈ l, ∃ x, g'.node n = some x ∧ x.tag = true
  | [], g, I, _, _ => ⟨g, rfl, Prog.refl I, by intro n hn; cases hn⟩
  | n :: l, g, I, h, hb => by
    obtain ⟨⟨x, hx⟩, hr⟩ := h n (List.mem_cons_self ..)
    obtain ⟨g1, h1, p1, y, hy, hyt⟩ := migrateNode_prog L hs B f g n x I hx hr (hb _)
    obtain ⟨g2, h2, p2, t2⟩ := migrateList_prog L hs B l g1 p1.inv
      (fun m hm => by
        obtain ⟨⟨z, hz⟩, hr⟩ := h m (List.mem_cons_of_mem _ hm)
        obtain ⟨z', hz', -⟩ := p1.keep _ _ hz
        exact ⟨⟨z', hz'⟩, hr⟩)
      (fun k => p1.below (hb k))
    refine ⟨g2, by simp only [migrateList, h1, Res.bind]; exact h2, p1.trans p2, ?_⟩
    intro m hm
    rcases List.mem_cons.mp hm with rfl | hm
    · exact ⟨y, p2.frozen _ _ hy hyt, hyt⟩
    · exact t2 m hm

theorem SameBuild.inv2 {g : NG} (P : Parsed schema g) (B : SameBuild schema init O g r) : Inv2 schema O g g where
  inv := P.inv
  ext n nd h := ⟨nd, h, SameRule.refl nd⟩
  desc n nd h := by
    obtain ⟨o, h1, h2, h3, h4, h5⟩ := B.same n nd h
    exact ⟨o, h1, h2.symm, h3.symm, h4.symm, fun ht => (h5 ht).1.symm, fun ht => (h5 ht).2.symm⟩
  closed := B.closed

end Verif.Mig
