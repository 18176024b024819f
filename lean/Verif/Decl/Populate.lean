import Verif.Decl.Strings
/-! Lemmas about properties and definitions. -/
namespace Verif.Decl
open Verif.Bff (Val)

theorem targets_plain {g : Graph} (h : WF g) {n m : Nat} (hm : m ∈ targets g n) : ∃ d, g[m]? = some d ∧ d.type ≠ .alias := by
  have hlt := targets_lt h hm
  unfold targets at hm
  split at hm
  · rename_i d hd
    split at hm
    · rename_i ha
      exact ⟨g[m], List.getElem?_eq_getElem hlt, h.flat d (List.mem_of_getElem? hd) ha m hm _ (List.getElem?_eq_getElem hlt)⟩
    · rename_i ha
      simp at hm; subst hm; exact ⟨d, hd, ha⟩
  · cases hm

theorem picked_mem {o : Opts} {g : Graph} {n m : Nat} (hm : m ∈ picked o g n) : m ∈ targets g n := by
  unfold picked at hm
  split at hm
  · exact ((firsts_spec _).2 m).1 hm
  · exact hm

/-- only files were added -/
def Files (K : Ctx) (N : Name → Prop) (g g' : Graph) : Prop :=
  (∃ fs, g' = WithFiles K g fs ∧ ∀ s ∈ fs, find K g s = none) ∧ WF g' ∧ Extends K N g g' ∧ ∀ s ∈ g'.drop g.length, s.type = .file

theorem Files.refl {K : Ctx} {N : Name → Prop} {g : Graph} (h : WF g) : Files K N g g :=
  ⟨⟨[], (withFiles_nil K g).symm, by simp⟩, h, Extends.refl K N g, by simp⟩

theorem withFiles_append (K : Ctx) (g : Graph) (a b : List Name) : WithFiles K (WithFiles K g a) b = WithFiles K g (a ++ b) := by
  simp [WithFiles]

theorem exact_of_append_none {g : Graph} {s : Name} (l : List Nd) (h : exact (g ++ l) s = none) : exact g s = none := by
  rw [exact_none] at *
  intro d hd; exact h d (List.mem_append_left _ hd)

theorem find_of_withFiles {K : Ctx} {g : Graph} {fs : List Name} {s : Name} (h : find K (WithFiles K g fs) s = none) : find K g s = none := by
  rw [find_none] at *
  exact ⟨exact_of_append_none _ h.1, exact_of_append_none _ h.2⟩

theorem withFiles_drop (K : Ctx) (g : Graph) (fs : List Name) : ∀ s ∈ (WithFiles K g fs).drop g.length, s.type = .file := by
  intro s hs
  simp only [WithFiles, List.drop_left, List.mem_map] at hs
  obtain ⟨x, _, rfl⟩ := hs
  rfl

theorem Files.trans {K : Ctx} {N : Name → Prop} {a b c : Graph} (h1 : Files K N a b) (h2 : Files K N b c) : Files K N a c := by
  obtain ⟨⟨f1, rfl, n1⟩, _, e1, _⟩ := h1
  obtain ⟨⟨f2, rfl, n2⟩, w2, e2, _⟩ := h2
  refine ⟨⟨f1 ++ f2, withFiles_append K a f1 f2, ?_⟩, w2, e1.trans e2, ?_⟩
  · intro s hs
    rcases List.mem_append.1 hs with hs | hs
    · exact n1 s hs
    · exact find_of_withFiles (n2 s hs)
  · rw [withFiles_append]; exact withFiles_drop K a (f1 ++ f2)

theorem listProp_spec {K : Ctx} {N : Name → Prop} (ht : Tidy K N) (hc : CleanNe K N) (hv : Vars K N) (o : Opts) (prop : Name) (req : Bool)
    {g g' : Graph} {l : List Nat} (h : WF g) (hr : listProp K o prop req g = .ok (g', l)) :
    Files K N g g' ∧ ∀ i ∈ l, ∃ d, g'[i]? = some d ∧ d.type ≠ .alias := by
  have key : ∀ ss : List Name, (∀ s ∈ ss, N s) → listEach K o ss g [] = .ok (g', l) →
      Files K N g g' ∧ ∀ i ∈ l, ∃ d, g'[i]? = some d ∧ d.type ≠ .alias := by
    intro ss hN hh
    obtain ⟨fs, e1, e2, e3, e4, _, e6⟩ := (listEach_spec ht hc o ss g [] h hN).2 g' l hh
    refine ⟨⟨⟨fs, e1, fun s hs => (e2 s hs).2⟩, e3, e4, by rw [e1]; exact withFiles_drop K g fs⟩, ?_⟩
    intro i hi
    rw [e6, List.nil_append, List.mem_flatMap] at hi
    obtain ⟨s, _, hs⟩ := hi
    unfold namedBy at hs
    split at hs
    · exact targets_plain e3 (picked_mem hs)
    · cases hs
  unfold listProp at hr
  cases hvar : K.var prop with
  | none =>
    rw [hvar] at hr
    cases req with
    | true => simp at hr
    | false =>
      simp at hr
      obtain ⟨rfl, rfl⟩ := hr
      exact ⟨Files.refl h, by simp⟩
  | some v =>
    rw [hvar] at hr
    cases v with
    | strs ss => exact key ss ((hv prop _ hvar).2 ss rfl) hr
    | str s =>
      apply key [s] _ hr
      intro x hx; simp at hx; subst hx; exact (hv prop _ hvar).1 _ rfl
    | _ => cases hr

theorem popNodes_spec {K : Ctx} {N : Name → Prop} (ht : Tidy K N) (hc : CleanNe K N) (hv : Vars K N) (m : Meta) (arr : Bool)
    {g g' : Graph} {x : PV} (h : WF g) (hr : popNodes K g m arr = .ok (g', x)) :
    Files K N g g' ∧ ∀ l, x = .nodes l → ∀ i ∈ l, ∃ d, g'[i]? = some d ∧ d.type ≠ .alias := by
  unfold popNodes at hr
  cases hl : listProp K customOpts ('.' :: m.name) m.required g with
  | error e => rw [hl] at hr; cases hr
  | ok r =>
    obtain ⟨g1, l⟩ := r
    have hs := listProp_spec ht hc hv customOpts ('.' :: m.name) m.required h hl
    rw [hl] at hr
    dsimp only at hr
    cases arr with
    | true =>
      simp only [if_true, Except.ok.injEq, Prod.mk.injEq] at hr
      obtain ⟨rfl, rfl⟩ := hr
      refine ⟨hs.1, ?_⟩
      intro l' hl'; cases hl'; exact hs.2
    | false =>
      simp only [Bool.false_eq_true, if_false] at hr
      split at hr
      · cases hr; exact ⟨hs.1, fun l' hl' => by cases hl'⟩
      · cases hr; exact ⟨hs.1, fun l' hl' => by cases hl'⟩
      · cases hr

theorem Extends.good {K : Ctx} {N : Name → Prop} {g g' : Graph} (h : Extends K N g g') {l : List Nat}
    (hl : ∀ i ∈ l, ∃ d, g[i]? = some d ∧ d.type ≠ .alias) : ∀ i ∈ l, ∃ d, g'[i]? = some d ∧ d.type ≠ .alias := by
  intro i hi
  obtain ⟨d, h1, h2⟩ := hl i hi
  obtain ⟨e, e1, _, e3⟩ := h.nodes i d h1
  exact ⟨e, e1, by rw [e3]; exact h2⟩

theorem elems_spec {K : Ctx} {N : Name → Prop} (f : List (Name × Val) → Graph → Res (Graph × Obj))
    (hf : ∀ ms g g' o, WF g → f ms g = .ok (g', o) → Files K N g g') : ∀ (l : List (List (Name × Val))) (g g' : Graph) (os : List Obj),
    WF g → elems f l g = .ok (g', os) → Files K N g g'
  | [], g, g', os, h, hr => by
    simp only [elems, Except.ok.injEq, Prod.mk.injEq] at hr
    obtain ⟨rfl, rfl⟩ := hr
    exact Files.refl h
  | s :: l, g, g', os, h, hr => by
    simp only [elems] at hr
    cases h1 : f s g with
    | error e => rw [h1] at hr; cases hr
    | ok r =>
      obtain ⟨g1, o⟩ := r
      rw [h1] at hr
      dsimp only at hr
      have hF := hf s g g1 o h h1
      cases h2 : elems f l g1 with
      | error e => rw [h2] at hr; cases hr
      | ok r =>
        obtain ⟨g2, os'⟩ := r
        rw [h2] at hr
        simp only [Except.ok.injEq, Prod.mk.injEq] at hr
        obtain ⟨rfl, rfl⟩ := hr
        exact hF.trans (elems_spec f hf l g1 g2 os' hF.2.1 h2)

/-- a property without a value -/
theorem property_none (K : Ctx) (t : Ty) (m : Meta) (g : Graph) (ht : ∀ c, t ≠ .embed c) :
    property K t m none g = if m.required then .error .missing else .ok (g, none) := by
  cases t with
  | embed c => exact absurd rfl (ht c)
  | _ => rw [property]; intro c h; cases h

theorem property_bool (K : Ctx) (m : Meta) (v : Val) (g : Graph) : property K .bool m (some v) g = match v with
    | .bool b => .ok (g, some (.bool b))
    | _ => .error .type := by
  cases v <;> simp [property]

theorem property_int (K : Ctx) (m : Meta) (v : Val) (g : Graph) : property K .int m (some v) g = match v with
    | .int i => if inRange m i then .ok (g, some (.int i)) else .error .range
    | _ => .error .type := by
  cases v <;> simp [property]

theorem property_uint (K : Ctx) (m : Meta) (v : Val) (g : Graph) : property K .uint m (some v) g = match v with
    | .int i => if inRange m i then .ok (g, some (.uint (toUInt i))) else .error .range
    | _ => .error .type := by
  cases v <;> simp [property]

theorem property_structs (K : Ctx) (c : Cls) (m : Meta) (v : Val) (g : Graph) : property K (.structs c) m (some v) g = match v with
    | .structs l => match elems (fun ms g => populate K c (look K ms) g) l g with
      | .error e => .error e
      | .ok (g, os) => .ok (g, some (.objs os))
    | .struct ms => match populate K c (look K ms) g with
      | .error e => .error e
      | .ok (g, o) => .ok (g, some (.objs [o]))
    | _ => .error .type := by
  cases v with
  | struct ms => simp only [property]; cases populate K c (look K ms) g <;> rfl
  | structs l => simp only [property]; cases elems (fun ms g => populate K c (look K ms) g) l g <;> rfl
  | _ => simp [property]

mutual
theorem populate_spec {K : Ctx} {N : Name → Prop} (ht : Tidy K N) (hc : CleanNe K N) (hv : Vars K N) : ∀ (c : Cls) (lk : Meta → Option Val)
    (g g' : Graph) (o : Obj), WF g → populate K c lk g = .ok (g', o) → Files K N g g' ∧ Good g' o
  | .nil, lk, g, g', o, h, hr => by
    rw [populate] at hr
    simp only [Except.ok.injEq, Prod.mk.injEq] at hr
    obtain ⟨rfl, rfl⟩ := hr
    exact ⟨Files.refl h, by intro n x hx; cases hx⟩
  | .cons m t c, lk, g, g', o, h, hr => by
    rw [populate] at hr
    by_cases hh : m.hidden = true
    · rw [if_pos hh] at hr
      exact populate_spec ht hc hv c lk g g' o h hr
    · rw [if_neg hh] at hr
      cases h1 : property K t m (lk m) g with
      | error e => rw [h1] at hr; cases hr
      | ok r =>
        obtain ⟨g1, p⟩ := r
        rw [h1] at hr
        dsimp only at hr
        obtain ⟨hF, hG⟩ := property_spec ht hc hv t m (lk m) g g1 p h h1
        cases h2 : populate K c lk g1 with
        | error e => rw [h2] at hr; cases hr
        | ok r =>
          obtain ⟨g2, o2⟩ := r
          rw [h2] at hr
          dsimp only at hr
          obtain ⟨hF2, hG2⟩ := populate_spec ht hc hv c lk g1 g2 o2 hF.2.1 h2
          simp only [Except.ok.injEq, Prod.mk.injEq] at hr
          obtain ⟨rfl, rfl⟩ := hr
          refine ⟨hF.trans hF2, ?_⟩
          intro n x hx l hl
          cases p with
          | none => exact hG2 n x hx l hl
          | some y =>
            rcases List.mem_cons.1 hx with hx | hx
            · cases hx
              exact hF2.2.2.1.good (hG l (by rw [hl]))
            · exact hG2 n x hx l hl
theorem property_spec {K : Ctx} {N : Name → Prop} (ht : Tidy K N) (hc : CleanNe K N) (hv : Vars K N) : ∀ (t : Ty) (m : Meta) (v : Option Val)
    (g g' : Graph) (p : Option PV), WF g → property K t m v g = .ok (g', p) →
    Files K N g g' ∧ ∀ l, p = some (.nodes l) → ∀ i ∈ l, ∃ d, g'[i]? = some d ∧ d.type ≠ .alias
  | .embed c, m, v, g, g', p, h, hr => by
    rw [property] at hr
    cases h1 : populate K c (fun m => K.var ('.' :: m.name)) g with
    | error e => rw [h1] at hr; cases hr
    | ok r =>
      obtain ⟨g1, o⟩ := r
      rw [h1] at hr
      simp only [Except.ok.injEq, Prod.mk.injEq] at hr
      obtain ⟨rfl, rfl⟩ := hr
      exact ⟨(populate_spec ht hc hv c _ g g1 o h h1).1, by intro l hl; cases hl⟩
  | .structs c, m, some v, g, g', p, h, hr => by
    rw [property_structs] at hr
    split at hr
    · rename_i l
      cases h1 : elems (fun ms g => populate K c (look K ms) g) l g with
      | error e => rw [h1] at hr; cases hr
      | ok r =>
        obtain ⟨g1, os⟩ := r
        rw [h1] at hr
        simp only [Except.ok.injEq, Prod.mk.injEq] at hr
        obtain ⟨rfl, rfl⟩ := hr
        exact ⟨elems_spec _ (fun ms a b o ha hb => (populate_spec ht hc hv c _ a b o ha hb).1) l g g1 os h h1, by intro l hl; cases hl⟩
    · rename_i ms
      cases h1 : populate K c (look K ms) g with
      | error e => rw [h1] at hr; cases hr
      | ok r =>
        obtain ⟨g1, o⟩ := r
        rw [h1] at hr
        simp only [Except.ok.injEq, Prod.mk.injEq] at hr
        obtain ⟨rfl, rfl⟩ := hr
        exact ⟨(populate_spec ht hc hv c _ g g1 o h h1).1, by intro l hl; cases hl⟩
    · cases hr
  | .structs c, m, none, g, g', p, h, hr => by
    rw [property_none _ _ _ _ (by intro c h; cases h)] at hr
    split at hr
    · cases hr
    · cases hr; exact ⟨Files.refl h, by intro l hl; cases hl⟩
  | .str, m, none, g, g', p, h, hr => by
    rw [property_none _ _ _ _ (by intro c h; cases h)] at hr
    split at hr
    · cases hr
    · cases hr; exact ⟨Files.refl h, by intro l hl; cases hl⟩
  | .strs, m, none, g, g', p, h, hr => by
    rw [property_none _ _ _ _ (by intro c h; cases h)] at hr
    split at hr
    · cases hr
    · cases hr; exact ⟨Files.refl h, by intro l hl; cases hl⟩
  | .bool, m, none, g, g', p, h, hr => by
    rw [property_none _ _ _ _ (by intro c h; cases h)] at hr
    split at hr
    · cases hr
    · cases hr; exact ⟨Files.refl h, by intro l hl; cases hl⟩
  | .int, m, none, g, g', p, h, hr => by
    rw [property_none _ _ _ _ (by intro c h; cases h)] at hr
    split at hr
    · cases hr
    · cases hr; exact ⟨Files.refl h, by intro l hl; cases hl⟩
  | .uint, m, none, g, g', p, h, hr => by
    rw [property_none _ _ _ _ (by intro c h; cases h)] at hr
    split at hr
    · cases hr
    · cases hr; exact ⟨Files.refl h, by intro l hl; cases hl⟩
  | .node, m, none, g, g', p, h, hr => by
    rw [property_none _ _ _ _ (by intro c h; cases h)] at hr
    split at hr
    · cases hr
    · cases hr; exact ⟨Files.refl h, by intro l hl; cases hl⟩
  | .nodes, m, none, g, g', p, h, hr => by
    rw [property_none _ _ _ _ (by intro c h; cases h)] at hr
    split at hr
    · cases hr
    · cases hr; exact ⟨Files.refl h, by intro l hl; cases hl⟩
  | .other, m, none, g, g', p, h, hr => by
    rw [property_none _ _ _ _ (by intro c h; cases h)] at hr
    split at hr
    · cases hr
    · cases hr; exact ⟨Files.refl h, by intro l hl; cases hl⟩
  | .strs, m, some v, g, g', p, h, hr => by
    rw [property] at hr
    cases h1 : popStrs K g m v with
    | error e => rw [h1] at hr; cases hr
    | ok x =>
      rw [h1] at hr; cases hr
      refine ⟨Files.refl h, ?_⟩
      intro l hl; cases hl
      unfold popStrs at h1
      split at h1
      · cases h1
      · split at h1
        · cases h1
        · split at h1 <;> cases h1
  | .str, m, some v, g, g', p, h, hr => by
    rw [property] at hr
    cases h1 : popStr K g m v with
    | error e => rw [h1] at hr; cases hr
    | ok x =>
      rw [h1] at hr; cases hr
      refine ⟨Files.refl h, ?_⟩
      intro l hl; cases hl
      unfold popStr at h1
      split at h1
      · cases h1
      · split at h1
        · split at h1
          · split at h1 <;> cases h1
          · split at h1 <;> cases h1
        · cases h1
  | .bool, m, some v, g, g', p, h, hr => by
    rw [property_bool] at hr
    split at hr
    · cases hr; exact ⟨Files.refl h, by intro l hl; cases hl⟩
    · cases hr
  | .int, m, some v, g, g', p, h, hr => by
    rw [property_int] at hr
    split at hr
    · split at hr
      · cases hr; exact ⟨Files.refl h, by intro l hl; cases hl⟩
      · cases hr
    · cases hr
  | .uint, m, some v, g, g', p, h, hr => by
    rw [property_uint] at hr
    split at hr
    · split at hr
      · cases hr; exact ⟨Files.refl h, by intro l hl; cases hl⟩
      · cases hr
    · cases hr
  | .node, m, some v, g, g', p, h, hr => by
    rw [property] at hr
    cases h1 : popNodes K g m false with
    | error e => rw [h1] at hr; cases hr
    | ok r =>
      obtain ⟨g1, x⟩ := r
      rw [h1] at hr; cases hr
      have := popNodes_spec ht hc hv m false h h1
      exact ⟨this.1, by intro l hl; cases hl; exact this.2 l rfl⟩
  | .nodes, m, some v, g, g', p, h, hr => by
    rw [property] at hr
    cases h1 : popNodes K g m true with
    | error e => rw [h1] at hr; cases hr
    | ok r =>
      obtain ⟨g1, x⟩ := r
      rw [h1] at hr; cases hr
      have := popNodes_spec ht hc hv m true h h1
      exact ⟨this.1, by intro l hl; cases hl; exact this.2 l rfl⟩
  | .other, m, some v, g, g', p, h, hr => by
    rw [property] at hr; cases hr
end

end Verif.Decl
