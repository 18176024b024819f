import Verif.Decl.Proof
/-! Lemmas about lists of nodes and about strings. -/
namespace Verif.Decl
open Verif.Bff (Val)

theorem takes_alias (o : Opts) : o.takes .alias = false := by
  simp [Opts.takes, NType.isFile]

/-- the nodes of one name -/
def picked (o : Opts) (g : Graph) (n : Nat) : List Nat := if o.dedup then firsts (targets g n) else targets g n

theorem listNode_spec (o : Opts) {g : Graph} (h : WF g) {n : Nat} (hn : n < g.length) (out : List Nat) :
    ((∃ w, listNode o g (g.length + 1) n ⟨[], out⟩ = .ok w) ↔ Usable (fun t => o.takes t = true) g n) ∧
    (∀ w, listNode o g (g.length + 1) n ⟨[], out⟩ = .ok w → w.out = out ++ picked o g n) := by
  obtain ⟨k, hk⟩ : ∃ k, g.length = k + 1 := ⟨g.length - 1, by omega⟩
  obtain ⟨d, hd⟩ : ∃ d, g[n]? = some d := ⟨g[n], List.getElem?_eq_getElem hn⟩
  have hmem := List.mem_of_getElem? hd
  have e0 : listNode o g (g.length + 1) n ⟨[], out⟩ =
      (if o.takes d.type then .ok ⟨if o.dedup then [n] else [], out ++ [n]⟩
        else if d.type = .alias then each (listNode o g (k + 1)) d.deps ⟨if o.dedup then [n] else [], out⟩ else .error .node) := by
    rw [hk, listNode]
    simp only [List.not_mem_nil, and_false, if_false, hd]
    cases o.dedup <;> rfl
  rw [e0]
  by_cases ha : d.type = .alias
  · have ht : o.takes d.type = false := by rw [ha]; exact takes_alias o
    have hT : targets g n = d.deps := by simp [targets, hd, ha]
    have hdeps : ∀ m ∈ d.deps, ∃ e, g[m]? = some e ∧ e.type ≠ .alias := by
      intro m hm
      have hlt := h.deps d hmem m hm
      exact ⟨g[m], List.getElem?_eq_getElem hlt, h.flat d hmem ha m hm _ (List.getElem?_eq_getElem hlt)⟩
    have hself : n ∉ d.deps := by
      intro hc
      obtain ⟨e, h1, h2⟩ := hdeps n hc
      rw [hd] at h1; cases h1; exact h2 ha
    have key := each_flat o g k d.deps ⟨if o.dedup then [n] else [], out⟩ hdeps
    rw [if_neg (by simp [ht]), if_pos ha]
    refine ⟨?_, ?_⟩
    · rw [key.1]
      unfold Usable
      rw [hT]
      constructor
      · intro hh m hm
        rcases hh m hm with ⟨h1, h2⟩ | hh
        · simp only [h1, if_true, List.mem_singleton] at h2
          subst h2; exact absurd hm hself
        · exact hh
      · intro hh m hm; exact Or.inr (hh m hm)
    · intro w hw
      rw [key.2 w hw]
      unfold picked
      rw [hT]
      cases hdd : o.dedup with
      | false => simp
      | true =>
        simp only [if_true]
        congr 1
        unfold fresh
        rw [List.filter_eq_self]
        intro x hx
        have := ((firsts_spec d.deps).2 x).1 hx
        simp only [List.mem_singleton, decide_eq_true_eq]
        intro hxn; subst hxn; exact hself this
  · have hT : targets g n = [n] := by simp [targets, hd, ha]
    have hU : Usable (fun t => o.takes t = true) g n ↔ o.takes d.type = true := by
      unfold Usable; rw [hT]; simp [hd]
    have hP : picked o g n = [n] := by unfold picked; rw [hT]; simp [firsts]
    rw [hU, hP]
    by_cases ht : o.takes d.type = true
    · simp only [ht, if_true]
      refine ⟨by simp, ?_⟩
      intro w hw; cases hw; rfl
    · simp only [ht, if_false, ha]
      simp

/-- one name -/
theorem listName_spec (K : Ctx) (o : Opts) {g : Graph} (h : WF g) (s : Name) (out : List Nat) :
    ((∃ r, listName K o g s ⟨[], out⟩ = .ok r) ↔ ∀ n, find K g s = some n → Usable (fun t => o.takes t = true) g n) ∧
    (∀ g' w, listName K o g s ⟨[], out⟩ = .ok (g', w) →
      (find K g s = none ∧ g' = newFile K g s ∧ w.out = out ++ [g.length]) ∨
      (∃ n, find K g s = some n ∧ g' = g ∧ w.out = out ++ picked o g n)) := by
  unfold listName
  cases hf : find K g s with
  | none =>
    refine ⟨by simp, ?_⟩
    intro g' w hw
    simp only [Except.ok.injEq, Prod.mk.injEq] at hw
    obtain ⟨rfl, rfl⟩ := hw
    exact Or.inl ⟨rfl, rfl, rfl⟩
  | some n =>
    have key := listNode_spec o h (find_lt hf) out
    dsimp only
    cases hl : listNode o g (g.length + 1) n ⟨[], out⟩ with
    | error e =>
      rw [hl] at key
      refine ⟨?_, by simp⟩
      constructor
      · rintro ⟨_, hr⟩; cases hr
      · intro hh
        obtain ⟨w, hw⟩ := key.1.2 (hh n rfl)
        cases hw
    | ok w =>
      rw [hl] at key
      refine ⟨?_, ?_⟩
      · constructor
        · intro _ m hm; cases hm; exact key.1.1 ⟨w, rfl⟩
        · intro _; exact ⟨_, rfl⟩
      · intro g' w' hw
        simp only [Except.ok.injEq, Prod.mk.injEq] at hw
        obtain ⟨rfl, rfl⟩ := hw
        exact Or.inr ⟨n, rfl, rfl, key.2 _ rfl⟩

/-! ### targets in graphs with more files -/

theorem targets_append {g : Graph} {n : Nat} (hn : n < g.length) (l : List Nd) : targets (g ++ l) n = targets g n := by
  unfold targets; rw [List.getElem?_append_left hn]

theorem targets_lt {g : Graph} (h : WF g) {n m : Nat} (hm : m ∈ targets g n) : m < g.length := by
  unfold targets at hm
  split at hm
  · rename_i d hd
    split at hm
    · exact h.deps d (List.mem_of_getElem? hd) m hm
    · simp at hm; subst hm; exact (List.getElem?_eq_some_iff.1 hd).1
  · cases hm

theorem usable_append {T : NType → Prop} {g : Graph} (h : WF g) {n : Nat} (hn : n < g.length) (l : List Nd) :
    Usable T (g ++ l) n ↔ Usable T g n := by
  unfold Usable
  rw [targets_append hn]
  constructor
  · intro hh m hm
    have := hh m hm
    rw [List.getElem?_append_left (targets_lt h hm)] at this
    exact this
  · intro hh m hm
    rw [List.getElem?_append_left (targets_lt h hm)]
    exact hh m hm

theorem targets_file {K : Ctx} (g : Graph) (s : Name) : targets (newFile K g s) g.length = [g.length] := by
  simp [targets, newFile]

theorem usable_file {K : Ctx} (o : Opts) (g : Graph) (s : Name) : Usable (fun t => o.takes t = true) (newFile K g s) g.length := by
  unfold Usable
  rw [targets_file]
  simp [newFile, Opts.takes, NType.isFile]

/-- the list of one name in a graph -/
def namedBy (K : Ctx) (o : Opts) (g : Graph) (s : Name) : List Nat :=
  match find K g s with
  | some n => picked o g n
  | none => []

theorem withFiles_nil (K : Ctx) (g : Graph) : WithFiles K g [] = g := by simp [WithFiles]

theorem withFiles_cons (K : Ctx) (g : Graph) (s : Name) (fs : List Name) : WithFiles K g (s :: fs) = WithFiles K (newFile K g s) fs := by
  simp [WithFiles, newFile]

theorem namedBy_withFiles {K : Ctx} {o : Opts} {g : Graph} {s : Name} {n : Nat} (fs : List Name) (h : find K g s = some n)
    (h' : find K (WithFiles K g fs) s = some n) : namedBy K o (WithFiles K g fs) s = picked o g n := by
  unfold namedBy
  rw [h']
  unfold picked WithFiles
  simp only [targets_append (find_lt h)]

/-- the loop over names -/
theorem listEach_spec {K : Ctx} {N : Name → Prop} (ht : Tidy K N) (hc : CleanNe K N) (o : Opts) : ∀ (l : List Name) (g : Graph) (out : List Nat),
    WF g → (∀ s ∈ l, N s) →
    ((∃ r, listEach K o l g out = .ok r) ↔ ∀ s ∈ l, s ≠ [] ∧ ∀ n, find K g s = some n → Usable (fun t => o.takes t = true) g n) ∧
    (∀ g' out', listEach K o l g out = .ok (g', out') → ∃ fs, g' = WithFiles K g fs ∧
      (∀ s ∈ fs, s ∈ l ∧ find K g s = none) ∧ WF g' ∧ Extends K N g g' ∧ (∀ s ∈ l, (find K g' s).isSome) ∧
      out' = out ++ l.flatMap (namedBy K o g'))
  | [], g, out, h, _ => by
    refine ⟨by simp [listEach], ?_⟩
    intro g' out' hr
    simp only [listEach, Except.ok.injEq, Prod.mk.injEq] at hr
    obtain ⟨rfl, rfl⟩ := hr
    exact ⟨[], (withFiles_nil K g).symm, by simp, h, Extends.refl K N g, by simp, by simp⟩
  | s :: l, g, out, h, hN => by
    have hNs : N s := hN s List.mem_cons_self
    have hNl : ∀ x ∈ l, N x := fun x hx => hN x (List.mem_cons_of_mem _ hx)
    by_cases hs : s = []
    · simp only [listEach, if_pos hs]
      refine ⟨?_, by simp⟩
      constructor
      · rintro ⟨_, hr⟩; cases hr
      · intro hh; exact absurd hs (hh s List.mem_cons_self).1
    · simp only [listEach, if_neg hs]
      have key := listName_spec K o h s out
      cases hl : listName K o g s ⟨[], out⟩ with
      | error e =>
        rw [hl] at key
        refine ⟨?_, by simp⟩
        constructor
        · rintro ⟨_, hr⟩; cases hr
        · intro hh
          obtain ⟨_, hr⟩ := key.1.2 (hh s List.mem_cons_self).2
          cases hr
      | ok r =>
        obtain ⟨g1, w⟩ := r
        rw [hl] at key
        dsimp only
        rcases key.2 g1 w rfl with ⟨hf, hg1, hw⟩ | ⟨n, hf, hg1, hw⟩
        · rw [hg1]
          have hwf1 := wf_newFile hc h hNs hs hf
          have hext := extends_newFile ht hNs hf
          have ih := listEach_spec ht hc o l (newFile K g s) w.out hwf1 hNl
          have hU : ∀ x ∈ l, ((∀ n, find K (newFile K g s) x = some n → Usable (fun t => o.takes t = true) (newFile K g s) n) ↔
              ∀ n, find K g x = some n → Usable (fun t => o.takes t = true) g n) := by
            intro x hx
            cases hfx : find K g x with
            | some m =>
              rw [hext.names x m (hNl x hx) hfx]
              simp only [Option.some.injEq, forall_eq']
              exact usable_append h (find_lt hfx) _
            | none =>
              constructor
              · intro _ n hn; cases hn
              · intro _ n hn
                rcases find_newFile_other (x := s) hfx with h1 | h1
                · rw [h1] at hn; cases hn
                · rw [h1] at hn; cases hn; exact usable_file o g s
          refine ⟨?_, ?_⟩
          · rw [ih.1]
            constructor
            · intro hh x hx
              rcases List.mem_cons.1 hx with rfl | hx
              · exact ⟨hs, by rw [hf]; simp⟩
              · exact ⟨(hh x hx).1, (hU x hx).1 (hh x hx).2⟩
            · intro hh x hx
              have := hh x (List.mem_cons_of_mem _ hx)
              exact ⟨this.1, (hU x hx).2 this.2⟩
          · intro g' out' hr
            obtain ⟨fs, e1, e2, e3, e4, e5, e6⟩ := ih.2 g' out' hr
            have hs' := e4.names s g.length hNs (find_newFile hf)
            refine ⟨s :: fs, by rw [withFiles_cons]; exact e1, ?_, e3, hext.trans e4, ?_, ?_⟩
            · intro x hx
              rcases List.mem_cons.1 hx with rfl | hx
              · exact ⟨List.mem_cons_self, hf⟩
              · obtain ⟨h1, h2⟩ := e2 x hx
                refine ⟨List.mem_cons_of_mem _ h1, ?_⟩
                cases hfx : find K g x with
                | none => rfl
                | some m => rw [hext.names x m (hNl x h1) hfx] at h2; cases h2
            · intro x hx
              rcases List.mem_cons.1 hx with rfl | hx
              · rw [hs']; rfl
              · exact e5 x hx
            · rw [e6, hw, List.flatMap_cons, ← List.append_assoc]
              congr 2
              rw [e1] at hs' ⊢
              rw [namedBy_withFiles fs (find_newFile hf) hs']
              unfold picked
              rw [targets_file]
              simp [firsts]
        · rw [hg1]
          have ih := listEach_spec ht hc o l g w.out h hNl
          refine ⟨?_, ?_⟩
          · rw [ih.1]
            constructor
            · intro hh x hx
              rcases List.mem_cons.1 hx with rfl | hx
              · exact ⟨hs, key.1.1 ⟨_, rfl⟩⟩
              · exact hh x hx
            · intro hh x hx; exact hh x (List.mem_cons_of_mem _ hx)
          · intro g' out' hr
            obtain ⟨fs, e1, e2, e3, e4, e5, e6⟩ := ih.2 g' out' hr
            have hs' := e4.names s n hNs hf
            refine ⟨fs, e1, fun x hx => ⟨List.mem_cons_of_mem _ (e2 x hx).1, (e2 x hx).2⟩, e3, e4, ?_, ?_⟩
            · intro x hx
              rcases List.mem_cons.1 hx with rfl | hx
              · rw [hs']; rfl
              · exact e5 x hx
            · rw [e6, hw, List.flatMap_cons, ← List.append_assoc]
              congr 2
              rw [e1] at hs' ⊢
              rw [namedBy_withFiles fs hf hs']

/-- without removing duplicates it makes no difference whether there is one sweep or one for each name -/
theorem listNode_tags (o : Opts) (hd : o.dedup = false) (g : Graph) : ∀ (fuel n : Nat) (t : List Nat) (out : List Nat),
    listNode o g fuel n ⟨t, out⟩ = match listNode o g fuel n ⟨[], out⟩ with
      | .ok w => .ok ⟨t, w.out⟩
      | .error e => .error e
  | 0, _, _, _ => by simp [listNode]
  | fuel + 1, n, t, out => by
    simp only [listNode, hd, Bool.false_eq_true, false_and, if_false]
    cases hg : g[n]? with
    | none => rfl
    | some d =>
      dsimp only
      split
      · rfl
      · split
        · have hloop : ∀ (l : List Nat) (out : List Nat), each (listNode o g fuel) l ⟨t, out⟩ =
              match each (listNode o g fuel) l ⟨[], out⟩ with
                | .ok w => .ok ⟨t, w.out⟩
                | .error e => .error e := by
            intro l
            induction l with
            | nil => intro out; rfl
            | cons m l ih =>
              intro out
              simp only [each]
              rw [listNode_tags o hd g fuel m t out]
              cases hm : listNode o g fuel m ⟨[], out⟩ with
              | error e => rfl
              | ok w =>
                dsimp only
                have hw : w.tags = [] := by
                  have := listNode_tags o hd g fuel m [] out
                  rw [hm] at this
                  simp only [Except.ok.injEq] at this
                  rw [this]
                have : w = ⟨[], w.out⟩ := by cases w; simp_all
                rw [this]
                exact ih w.out
          exact hloop d.deps out
        · rfl

theorem listSweep_each (K : Ctx) (o : Opts) (hd : o.dedup = false) : ∀ (l : List Name) (g : Graph) (w : Sweep), (∀ s ∈ l, s ≠ []) →
    (match listSweep K o l g w with
      | .ok (g, w) => .ok (g, w.out)
      | .error e => .error e) = listEach K o l g w.out
  | [], g, w, _ => rfl
  | s :: l, g, w, hl => by
    have hs := hl s List.mem_cons_self
    have hl' : ∀ s ∈ l, s ≠ [] := fun x hx => hl x (List.mem_cons_of_mem _ hx)
    simp only [listSweep, listEach, if_neg hs]
    unfold listName
    cases hf : find K g s with
    | none => exact listSweep_each K o hd l _ _ hl'
    | some n =>
      dsimp only
      obtain ⟨t, out⟩ := w
      rw [listNode_tags o hd g (g.length + 1) n t out]
      cases hm : listNode o g (g.length + 1) n ⟨[], out⟩ with
      | error e => rfl
      | ok w => exact listSweep_each K o hd l _ _ hl'

end Verif.Decl
