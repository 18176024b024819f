import Verif.Decl.Props
/-
Theorems about definitions (C95).
-/
namespace Verif.Decl
open Verif.Bff (Val)

theorem selfDep_false {g : Graph} {before : Nat} (h : selfDep g before = false) : ∀ (i : Nat) d, before ≤ i → g[i]? = some d →
    i ∉ d.deps ∧ i ∉ d.pre := by
  intro i d hi hd
  unfold selfDep at h
  rw [List.any_eq_false] at h
  have hlt := (List.getElem?_eq_some_iff.1 hd).1
  have := h i (by simpa using hlt)
  rw [hd] at this
  simp [hi] at this
  exact ⟨this.2, this.1⟩

theorem nameFor_new {K : Ctx} {g : Graph} {no : Option (Name × Option Bool)} {n : Name} (h : nameFor K g no = .ok n) :
    (no = none ∧ n = []) ∨ (no ≠ none ∧ n ≠ [] ∧ find K g n = none) := by
  unfold nameFor at h
  split at h
  · cases h; exact Or.inl ⟨rfl, rfl⟩
  · split at h
    · cases h
    · split at h
      · split at h
        · cases h
        · split at h
          · cases h
          · rename_i hne
            split at h
            · split at h
              · cases h
              · rename_i hf
                cases h
                right
                refine ⟨by simp, by simpa using hne, by simpa using hf⟩
            · cases h
      · cases h

/-- What a definition that is accepted does: the name of the target, and the header if it is another one, were not known before and are
afterwards; all other names mean what they meant, and the nodes that were there are as they were; no two nodes have the same name; no new
node depends on itself. -/
theorem C95_define {K : Ctx} {N : Name → Prop} (ht : Tidy K N) (hc : CleanNe K N) (hv : Vars K N) (f : Fn) (hi : InitOK K N f)
    (hty : f.nameOf ≠ none → f.type ≠ .alias) {g g' : Graph} (hn : ∀ n, nameFor K g f.nameOf = .ok n → n ≠ [] → N n)
    (hh : f.header ≠ [] → N f.header) (h : WF g) (hr : define K f g = .ok g') :
    WF g' ∧ Extends K N g g' ∧ (∀ j, j < g.length → g'[j]? = g[j]?) ∧
    (∃ name d, name ≠ [] ∧ find K g name = none ∧ find K g' name = some g.length ∧ g'[g.length]? = some d ∧ d.name = name ∧ d.type = f.type) ∧
    (f.header ≠ [] → find K g f.header = none ∧ ∃ i, find K g' f.header = some i ∧ (i = g.length ∨ targets g' i = [g.length])) ∧
    (∀ (i : Nat) d, g.length ≤ i → g'[i]? = some d → i ∉ d.deps ∧ i ∉ d.pre) := by
  unfold define at hr
  cases hcm : commit K f g with
  | error e => rw [hcm] at hr; cases hr
  | ok g1 =>
    rw [hcm] at hr
    dsimp only at hr
    cases hsd : selfDep g1 g.length with
    | true => rw [hsd] at hr; cases hr
    | false =>
      rw [hsd] at hr
      cases hr
      unfold commit at hcm
      cases hnm : nameFor K g f.nameOf with
      | error e => rw [hnm] at hcm; cases hcm
      | ok n =>
        rw [hnm] at hcm
        dsimp only at hcm
        generalize hname : (if n = [] then f.header else n) = name at hcm
        by_cases hne : name = []
        · rw [if_pos hne] at hcm; cases hcm
        · rw [if_neg hne] at hcm
          by_cases hf : (find K g name).isSome = true
          · rw [if_pos hf] at hcm; cases hcm
          · rw [if_neg hf] at hcm
            have hfn : find K g name = none := by simpa using hf
            have hNn : N name := by
              by_cases h0 : n = []
              · rw [if_pos h0] at hname; subst hname; exact hh hne
              · rw [if_neg h0] at hname; subst hname; exact hn n hnm h0
            let d0 : Nd := ⟨name, f.type, [], []⟩
            have hd0 : d0.name = name := rfl
            obtain ⟨hx1, hx2⟩ := find_none.1 hfn
            have hwf0 : WF (g ++ [d0]) := wf_append h hne hx1 (by simp [d0]) (by simp [d0]) (by simp [d0])
            have hext0 : Extends K N g (g ++ [d0]) := extends_append ht hNn hx1 hx2
            have hget0 : (g ++ [d0])[g.length]? = some d0 := by simp
            cases hp : populate K f.cls (fun m => K.var ('.' :: m.name)) (g ++ [⟨name, f.type, [], []⟩]) with
            | error e => rw [hp] at hcm; cases hcm
            | ok r =>
              obtain ⟨g2, o⟩ := r
              rw [hp] at hcm
              dsimp only at hcm
              obtain ⟨hF, hG⟩ := populate_spec ht hc hv f.cls _ _ g2 o hwf0 hp
              cases hin : f.init g2 g.length o with
              | error e => rw [hin] at hcm; cases hcm
              | ok g3 =>
                rw [hin] at hcm
                dsimp only at hcm
                obtain ⟨d2, hd2, _, _⟩ := hF.2.2.1.nodes g.length d0 hget0
                have hlt2 := (List.getElem?_eq_some_iff.1 hd2).1
                obtain ⟨hwf3, hext3, hsame3⟩ := hi g2 g.length o g3 hF.2.1 hlt2 hG hin
                have hextA : Extends K N (g ++ [d0]) g3 := hF.2.2.1.trans hext3
                have hext : Extends K N g g3 := hext0.trans hextA
                have hsame : ∀ j, j < g.length → g3[j]? = g[j]? := by
                  intro j hj
                  rw [hsame3 j (by omega) (by omega)]
                  obtain ⟨⟨fs, e, _⟩, _⟩ := hF
                  have hj1 : j < (g ++ [d0]).length := by rw [List.length_append]; omega
                  rw [e, WithFiles, List.getElem?_append_left hj1, List.getElem?_append_left hj]
                obtain ⟨d3, hd3, hn3, ht3⟩ := hextA.nodes g.length d0 hget0
                have hfind0 : find K (g ++ [d0]) name = some g.length := by
                  have := find_of_name (K := K) hwf0 hget0
                  exact this
                have hfind3 := hextA.names name g.length hNn hfind0
                by_cases h0 : n = []
                · rw [if_pos h0] at hcm hname
                  cases hcm
                  subst hname
                  refine ⟨hwf3, hext, hsame, ⟨_, d3, hne, hfn, hfind3, hd3, hn3, ht3⟩, ?_, selfDep_false hsd⟩
                  intro _
                  exact ⟨hfn, g.length, hfind3, Or.inl rfl⟩
                · rw [if_neg h0] at hcm hname
                  subst hname
                  have htype : f.type ≠ .alias := by
                    rcases nameFor_new hnm with ⟨_, h1⟩ | ⟨h1, _⟩
                    · exact absurd h1 h0
                    · exact hty h1
                  unfold processAlias at hcm
                  by_cases hhd : f.header = []
                  · rw [if_pos hhd] at hcm
                    cases hcm
                    exact ⟨hwf3, hext, hsame, ⟨_, d3, hne, hfn, hfind3, hd3, hn3, ht3⟩, fun hx => absurd hhd hx, selfDep_false hsd⟩
                  · rw [if_neg hhd] at hcm
                    by_cases hfh : (find K g3 f.header).isSome = true
                    · rw [if_pos hfh] at hcm; cases hcm
                    · rw [if_neg hfh] at hcm
                      cases hcm
                      have hfh' : find K g3 f.header = none := by simpa using hfh
                      have hlt3 := (List.getElem?_eq_some_iff.1 hd3).1
                      obtain ⟨hy1, hy2⟩ := find_none.1 hfh'
                      let da : Nd := ⟨f.header, .alias, [g.length], []⟩
                      have hwf4 : WF (g3 ++ [da]) := by
                        refine wf_append hwf3 hhd hy1 ?_ (by simp [da]) ?_
                        · intro x hx; simp [da] at hx; rw [hx]; exact hlt3
                        · intro _ x hx e he
                          simp [da] at hx; subst hx
                          rw [hd3] at he; cases he
                          rw [ht3]; exact htype
                      have hext4 : Extends K N g3 (g3 ++ [da]) := extends_append ht (hh hhd) hy1 hy2
                      have hgeta : (g3 ++ [da])[g3.length]? = some da := by simp
                      have hsame4 : ∀ j, j < g.length → (g3 ++ [da])[j]? = g[j]? := by
                        intro j hj
                        rw [List.getElem?_append_left (by omega), hsame j hj]
                      refine ⟨hwf4, hext.trans hext4, hsame4, ⟨_, d3, hne, hfn, hext4.names _ _ hNn hfind3, getElem?_append_some _ hd3, hn3, ht3⟩, ?_, selfDep_false hsd⟩
                      intro _
                      refine ⟨?_, g3.length, find_of_name (K := K) hwf4 hgeta, Or.inr ?_⟩
                      · cases hfg : find K g f.header with
                        | none => rfl
                        | some j => rw [hext.names _ j (hh hhd) hfg] at hfh'; cases hfh'
                      · unfold targets
                        rw [hgeta]
                        rfl

/-- Nothing is defined under a name that is known: a target without an output by its header, -/
theorem C95_known_header (K : Ctx) (f : Fn) (g : Graph) (hno : f.nameOf = none) (hne : f.header ≠ []) (hf : (find K g f.header).isSome = true) :
    define K f g = .error .defined := by
  unfold define commit
  rw [hno]
  simp only [nameFor, if_true, hne, if_false, hf]

/-- and a target with an output by the path of the output. -/
theorem C95_known_output (K : Ctx) (f : Fn) {g : Graph} (h : WF g) (p s : Name) (hno : f.nameOf = some (p, some false))
    (hv : K.var ('.' :: p) = some (.str s)) (hs : s ≠ []) (hfo : K.isFolder (K.clean s) = false) (hne : K.clean s ≠ [])
    (hfile : ∀ n d, find K g s = some n → g[n]? = some d → d.type.isFile = true)
    (hf : (find K g (K.clean s)).isSome = true) : define K f g = .error .defined := by
  let m : Meta := { name := [], file := some false }
  have hnames : ∀ d, Names K g m s d → d.type.isFile = true := by
    rintro d ⟨_, hd⟩
    cases hx : find K g s with
    | none => rw [hx] at hd; cases hd
    | some n => rw [hx] at hd; exact hfile n d hx hd
  have hparts : parts K g m [s] = [s] := by
    unfold parts
    simp only [m, if_true, List.flatMap_cons, List.flatMap_nil, List.append_nil, hs, if_false]
    unfold stands
    split
    · rename_i d hd
      have := hnames d ⟨rfl, hd⟩
      rw [if_neg]
      intro ha; rw [ha] at this; cases this
    · rfl
  have hstr : strings K g none (some false) none (.str s) = .ok [K.clean s] := by
    refine (strings_ok h m (.str s) [K.clean s]).2 ⟨[s], Or.inr ⟨s, rfl, rfl⟩, ?_⟩
    rw [hparts]
    exact .cons (.path s _ hs hnames (.file rfl rfl hfo)) .nil
  have hnm : nameFor K g f.nameOf = .error .defined := by
    unfold nameFor
    rw [hno]
    simp only [hv, hstr]
    simp [hne, hf]
  unfold define commit
  rw [hnm]

/-- So a name that was used before it is defined, and is a file by that, cannot be defined later. -/
theorem C95_used {K : Ctx} {N : Name → Prop} (ht : Tidy K N) (hc : CleanNe K N) {g g' : Graph} (h : WF g) (prop : Name) (req : Bool) (v : Val)
    (ss : List Name) (hv : K.var prop = some v) (hs : Strs v ss) (hN : ∀ s ∈ ss, N s) (l : List Nat)
    (hr : listProp K customOpts prop req g = .ok (g', l)) (f : Fn) (hno : f.nameOf = none) (hne : f.header ≠ []) (hf : f.header ∈ ss) :
    define K f g' = .error .defined := by
  obtain ⟨fs, _, _, _, _, e5, _⟩ := C94_list ht hc h prop req v ss hv hs hN l hr
  exact C95_known_header K f g' hno hne (e5 _ hf)

/-! ### sequences of definitions -/

/-- definitions one after the other, each with the variables in scope at its place -/
def defineAll (K : Ctx) : List ((Name → Option Val) × Fn) → Graph → Res Graph
  | [], g => .ok g
  | (v, f) :: l, g => match define { K with var := v } f g with
    | .error e => .error e
    | .ok g => defineAll K l g

/-- what is asked of each definition -/
def FnOK (K : Ctx) (N : Name → Prop) (x : (Name → Option Val) × Fn) : Prop :=
  Vars { K with var := x.1 } N ∧ InitOK K N x.2 ∧ (x.2.nameOf ≠ none → x.2.type ≠ .alias) ∧ (x.2.header ≠ [] → N x.2.header) ∧
    ∀ g n, nameFor { K with var := x.1 } g x.2.nameOf = .ok n → n ≠ [] → N n

theorem tidy_var {K : Ctx} {N : Name → Prop} (ht : Tidy K N) (v : Name → Option Val) : Tidy { K with var := v } N := ⟨ht.closed, ht.same, ht.idem⟩

theorem extends_var {K : Ctx} {N : Name → Prop} (v : Name → Option Val) {g g' : Graph} (h : Extends { K with var := v } N g g') : Extends K N g g' :=
  ⟨h.nodes, h.names⟩

theorem extends_var' {K : Ctx} {N : Name → Prop} (v : Name → Option Val) {g g' : Graph} (h : Extends K N g g') : Extends { K with var := v } N g g' :=
  ⟨h.nodes, h.names⟩

/-- node `i` is what definition `x` made: it has its type and is found by its name, and the header is its name or that of an alias of it -/
def Made (K : Ctx) (g : Graph) (x : (Name → Option Val) × Fn) (i : Nat) : Prop :=
  (∃ d, g[i]? = some d ∧ find K g d.name = some i ∧ d.type = x.2.type) ∧
    (x.2.header ≠ [] → ∃ j, find K g x.2.header = some j ∧ (j = i ∨ targets g j = [i]))

/-- A whole build file: no two nodes share a name, what was there is as it was, each definition made a node of its own, and its names mean
that node to the end. -/
theorem C95_file {K : Ctx} {N : Name → Prop} (ht : Tidy K N) (hc : CleanNe K N) : ∀ (l : List ((Name → Option Val) × Fn)) {g g' : Graph},
    (∀ x ∈ l, FnOK K N x) → WF g → defineAll K l g = .ok g' → WF g' ∧ Extends K N g g' ∧ (∀ j, j < g.length → g'[j]? = g[j]?) ∧
      ∃ is : List Nat, is.Pairwise (· < ·) ∧ (∀ i ∈ is, g.length ≤ i) ∧ All2 (Made K g') l is
  | [], g, g', _, h, hr => by
    simp only [defineAll, Except.ok.injEq] at hr
    subst hr
    exact ⟨h, Extends.refl K N g, fun _ _ => rfl, [], List.Pairwise.nil, by simp, .nil⟩
  | (v, f) :: l, g, g', hl, h, hr => by
    simp only [defineAll] at hr
    cases hd : define { K with var := v } f g with
    | error e => rw [hd] at hr; cases hr
    | ok g1 =>
      rw [hd] at hr
      dsimp only at hr
      obtain ⟨o1, o2, o3, o4, o5⟩ := hl (v, f) List.mem_cons_self
      have hi : InitOK { K with var := v } N f := by
        intro a i o b h1 h2 h3 h4
        obtain ⟨r1, r2, r3⟩ := o2 a i o b h1 h2 h3 h4
        exact ⟨r1, extends_var' v r2, r3⟩
      obtain ⟨w1, x1, s1, ⟨name, d, _, _, n3, n4, n5, n6⟩, hd1, _⟩ :=
        C95_define (tidy_var ht v) (show CleanNe { K with var := v } N from hc) o1 f hi o3 (o5 g) o4 h hd
      have x1 := extends_var v x1
      obtain ⟨w2, x2, s2, is, p1, p2, p3⟩ := C95_file ht hc l (fun x hx => hl x (List.mem_cons_of_mem _ hx)) w1 hr
      have hlt : g.length < g1.length := (List.getElem?_eq_some_iff.1 n4).1
      have hget : g'[g.length]? = some d := by rw [s2 _ hlt]; exact n4
      refine ⟨w2, x1.trans x2, ?_, g.length :: is, ?_, ?_, .cons ⟨⟨d, hget, find_of_name w2 hget, n6⟩, ?_⟩ p3⟩
      · intro j hj; rw [s2 j (by omega), s1 j hj]
      · rw [List.pairwise_cons]
        exact ⟨fun i hi => by have := p2 i hi; omega, p1⟩
      · intro i hi
        rcases List.mem_cons.1 hi with rfl | hi
        · exact Nat.le_refl _
        · have := p2 i hi; omega
      · intro hne
        obtain ⟨_, j, hj, hj2⟩ := hd1 hne
        refine ⟨j, x2.names _ j (o4 hne) hj, ?_⟩
        rcases hj2 with hj2 | hj2
        · exact Or.inl hj2
        · right
          have hjlt : j < g1.length := find_lt hj
          unfold targets at hj2 ⊢
          rw [s2 j hjlt]; exact hj2

/-! ### aliases -/

theorem setDeps_get (g : Graph) (i j : Nat) (l : List Nat) : (setDeps g i l)[j]? =
    (if i = j then (g[j]?).map fun d => { d with deps := l } else g[j]?) := by
  unfold setDeps
  rw [List.getElem?_modify]
  by_cases h : i = j <;> simp [h]

/-- `Alias` keeps graphs in order -/
theorem C95_alias_init (K : Ctx) (N : Name → Prop) (header : Name) : InitOK K N (aliasFn header) := by
  intro g i o g' h hi hG hr
  have hr' : aliasInit g i o = .ok g' := hr
  unfold aliasInit at hr'
  split at hr'
  · rename_i nm l rest
    cases hr'
    have hl := hG nm (.nodes l) List.mem_cons_self l rfl
    have hget : ∀ (j : Nat) e, (setDeps g i l)[j]? = some e → ∃ d, g[j]? = some d ∧ e.name = d.name ∧ e.type = d.type ∧ e.pre = d.pre ∧
        (e.deps = d.deps ∨ e.deps = l) := by
      intro j e he
      rw [setDeps_get] at he
      split at he
      · cases hx : g[j]? with
        | none => rw [hx] at he; cases he
        | some d =>
          rw [hx] at he
          simp at he
          subst he
          exact ⟨d, rfl, rfl, rfl, rfl, Or.inr rfl⟩
      · exact ⟨e, he, rfl, rfl, rfl, Or.inl rfl⟩
    have hget' : ∀ (j : Nat) d, g[j]? = some d → ∃ e, (setDeps g i l)[j]? = some e ∧ e.name = d.name ∧ e.type = d.type := by
      intro j d hd
      rw [setDeps_get, hd]
      split
      · exact ⟨_, rfl, rfl, rfl⟩
      · exact ⟨d, rfl, rfl, rfl⟩
    have hlen : (setDeps g i l).length = g.length := by simp [setDeps]
    have hwf : WF (setDeps g i l) := by
      refine ⟨?_, ?_, ?_, ?_, ?_⟩
      · intro a b x y hx hy hxy
        obtain ⟨dx, h1, h2, _⟩ := hget a x hx
        obtain ⟨dy, h3, h4, _⟩ := hget b y hy
        exact h.uniq a b dx dy h1 h3 (by rw [← h2, ← h4]; exact hxy)
      · intro e he
        obtain ⟨j, hj⟩ := List.getElem?_of_mem he
        obtain ⟨d, h1, h2, _⟩ := hget j e hj
        rw [h2]; exact h.named d (List.mem_of_getElem? h1)
      · intro e he n hn
        obtain ⟨j, hj⟩ := List.getElem?_of_mem he
        obtain ⟨d, h1, _, _, _, h2⟩ := hget j e hj
        rw [hlen]
        rcases h2 with h2 | h2 <;> rw [h2] at hn
        · exact h.deps d (List.mem_of_getElem? h1) n hn
        · obtain ⟨x, hx, _⟩ := hl n hn
          exact (List.getElem?_eq_some_iff.1 hx).1
      · intro e he n hn
        obtain ⟨j, hj⟩ := List.getElem?_of_mem he
        obtain ⟨d, h1, _, _, h2, _⟩ := hget j e hj
        rw [hlen]; rw [h2] at hn
        exact h.pre d (List.mem_of_getElem? h1) n hn
      · intro e he ha n hn x hx
        obtain ⟨j, hj⟩ := List.getElem?_of_mem he
        obtain ⟨d, h1, _, h3, _, h2⟩ := hget j e hj
        obtain ⟨y, hy, _, hyt, _⟩ := hget n x hx
        rw [hyt]
        rcases h2 with h2 | h2 <;> rw [h2] at hn
        · exact h.flat d (List.mem_of_getElem? h1) (h3 ▸ ha) n hn y hy
        · obtain ⟨z, hz, hz2⟩ := hl n hn
          rw [hy] at hz; cases hz; exact hz2
    have hexact : ∀ s, exact (setDeps g i l) s = exact g s := by
      intro s
      cases he : exact g s with
      | some n =>
        obtain ⟨d, h1, h2⟩ := exact_some he
        obtain ⟨e, h3, h4, _⟩ := hget' n d h1
        exact exact_of_name hwf h3 (by rw [h4]; exact h2)
      | none =>
        rw [exact_none] at he ⊢
        intro e hm
        obtain ⟨j, hj⟩ := List.getElem?_of_mem hm
        obtain ⟨d, h1, h2, _⟩ := hget j e hj
        rw [h2]; exact he d (List.mem_of_getElem? h1)
    refine ⟨hwf, ⟨fun j d hd => hget' j d hd, ?_⟩, ?_⟩
    · intro s n _ hn
      unfold find at hn ⊢
      rw [hexact, hexact]; exact hn
    · intro j _ hj
      rw [setDeps_get, if_neg (Ne.symm hj)]
  · cases hr'

/-- An alias stands for exactly what its targets stand for when it is defined. -/
theorem C95_alias {K : Ctx} {N : Name → Prop} (ht : Tidy K N) (hc : CleanNe K N) (hv : Vars K N) (header : Name) (hh : header ≠ []) (hN : N header)
    {g g' : Graph} (h : WF g) (hr : define K (aliasFn header) g = .ok g') :
    ∃ g1 l, listProp K customOpts ".Targets".toList true (g ++ [⟨header, .alias, [], []⟩]) = .ok (g1, l) ∧ g' = setDeps g1 g.length l ∧
      find K g' header = some g.length ∧ targets g' g.length = l := by
  have hD := C95_define ht hc hv (aliasFn header) (C95_alias_init K N header) (fun h => absurd rfl h)
    (fun n hn hne => by rw [show (aliasFn header).nameOf = none from rfl] at hn; cases hn; exact absurd rfl hne) (fun _ => hN) h hr
  obtain ⟨hwf', _, _, _, hhead, _⟩ := hD
  have hfree : find K g header = none := (hhead hh).1
  unfold define at hr
  cases hcm : commit K (aliasFn header) g with
  | error e => rw [hcm] at hr; cases hr
  | ok g3 =>
    rw [hcm] at hr
    dsimp only at hr
    cases hsd : selfDep g3 g.length with
    | true => rw [hsd] at hr; cases hr
    | false =>
      rw [hsd] at hr; cases hr
      unfold commit at hcm
      simp only [aliasFn, nameFor, if_true, hh, if_false] at hcm
      split at hcm
      · cases hcm
      · split at hcm
        · cases hcm
        · rename_i g2 o hp
          split at hcm
          · cases hcm
          · rename_i g4 hin
            cases hcm
            unfold aliasInit at hin
            split at hin
            · rename_i nm l rest
              cases hin
              unfold aliasCls at hp
              rw [populate] at hp
              simp only [Bool.false_eq_true, if_false] at hp
              cases hvar : K.var ('.' :: "Targets".toList) with
              | none =>
                rw [hvar] at hp
                rw [property_none _ _ _ _ (by intro c h; cases h)] at hp
                cases hp
              | some v =>
                rw [hvar] at hp
                split at hp
                · cases hp
                · rename_i ga p hprop
                  obtain ⟨l', hl', rfl⟩ := (C93_nodes K _ v _ ga p).1.1 hprop
                  split at hp
                  · cases hp
                  · rename_i gb ob hrest
                    have hgb : gb = ga := by
                      rw [populate] at hrest
                      simp only [Bool.false_eq_true, if_false] at hrest
                      split at hrest
                      · cases hrest
                      · rename_i gc pc hb
                        have hgc : gc = ga := by
                          cases hv2 : K.var ('.' :: "Hidden".toList) with
                          | none => rw [hv2] at hb; exact ((C93_missing K .bool (by intro c h; cases h) _ ga gc pc).1 hb).2.1
                          | some w => rw [hv2] at hb; obtain ⟨_, _, h3, _⟩ := (C93_bool K _ w ga gc pc).1 hb; exact h3
                        rw [populate] at hrest
                        simp only [Except.ok.injEq, Prod.mk.injEq] at hrest
                        rw [← hrest.1]; exact hgc
                    simp only [Except.ok.injEq, Prod.mk.injEq, List.cons.injEq] at hp
                    obtain ⟨rfl, ⟨_, hx⟩, _⟩ := hp
                    cases hx
                    subst hgb
                    obtain ⟨hx1, hx2⟩ := find_none.1 hfree
                    have hwf0 : WF (g ++ [⟨header, .alias, [], []⟩]) := wf_append h hh hx1 (by simp) (by simp) (by simp)
                    have hF := (listProp_spec ht hc hv customOpts _ _ hwf0 hl').1
                    obtain ⟨⟨fs, e, _⟩, _⟩ := hF
                    have hget1 : gb[g.length]? = some ⟨header, .alias, [], []⟩ := by
                      rw [e]; exact getElem?_append_some _ (by simp)
                    have hget2 : (setDeps gb g.length l)[g.length]? = some ⟨header, .alias, l, []⟩ := by
                      rw [setDeps_get, if_pos rfl, hget1]; rfl
                    refine ⟨gb, l, hl', rfl, find_of_name (K := K) hwf' hget2, ?_⟩
                    unfold targets
                    rw [hget2]
                    rfl
            · cases hin

end Verif.Decl
