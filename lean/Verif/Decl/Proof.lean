import Verif.Decl.Spec
/-! Lemmas about names, lists of nodes and strings. -/
namespace Verif.Decl
open Verif.Bff (Val)

/-! ### finding nodes -/

theorem exact_some {g : Graph} {s : Name} {n : Nat} (h : exact g s = some n) : ∃ d, g[n]? = some d ∧ key d.name = key s := by
  unfold exact at h
  rw [List.findIdx?_eq_some_iff_getElem] at h
  obtain ⟨h1, h2, _⟩ := h
  exact ⟨g[n], List.getElem?_eq_getElem h1, of_decide_eq_true h2⟩

theorem exact_none {g : Graph} {s : Name} : exact g s = none ↔ ∀ d ∈ g, key d.name ≠ key s := by
  unfold exact
  rw [List.findIdx?_eq_none_iff]
  constructor
  · intro h d hd; have := h d hd; simpa using this
  · intro h d hd; simpa using h d hd

theorem exact_key (g : Graph) {s t : Name} (h : key s = key t) : exact g s = exact g t := by
  unfold exact; rw [h]

theorem exact_append {g : Graph} {s : Name} (l : List Nd) {n : Nat} (h : exact g s = some n) : exact (g ++ l) s = some n := by
  unfold exact at *
  rw [List.findIdx?_append, h]; rfl

theorem exact_append_none {g : Graph} {s : Name} (d : Nd) (h : exact g s = none) :
    exact (g ++ [d]) s = if key d.name = key s then some g.length else none := by
  unfold exact at *
  rw [List.findIdx?_append, h]
  by_cases hk : key d.name = key s <;> simp [hk, List.findIdx?_cons]

theorem exact_of_name {g : Graph} (h : WF g) {i : Nat} {d : Nd} (hi : g[i]? = some d) {s : Name} (hs : key d.name = key s) :
    exact g s = some i := by
  cases he : exact g s with
  | none => exact absurd hs (exact_none.1 he d (List.mem_of_getElem? hi))
  | some n =>
    obtain ⟨e, h1, h2⟩ := exact_some he
    rw [h.uniq n i e d h1 hi (h2.trans hs.symm)]

theorem find_some {K : Ctx} {g : Graph} {s : Name} {n : Nat} (h : find K g s = some n) :
    ∃ d, g[n]? = some d ∧ (key d.name = key s ∨ key d.name = key (K.clean s)) := by
  unfold find at h
  split at h
  · rename_i m hm
    cases h
    obtain ⟨d, h1, h2⟩ := exact_some hm
    exact ⟨d, h1, Or.inl h2⟩
  · obtain ⟨d, h1, h2⟩ := exact_some h
    exact ⟨d, h1, Or.inr h2⟩

theorem find_lt {K : Ctx} {g : Graph} {s : Name} {n : Nat} (h : find K g s = some n) : n < g.length := by
  obtain ⟨d, h1, _⟩ := find_some h
  exact (List.getElem?_eq_some_iff.1 h1).1

theorem find_none {K : Ctx} {g : Graph} {s : Name} : find K g s = none ↔ exact g s = none ∧ exact g (K.clean s) = none := by
  unfold find
  split
  · rename_i h; simp [h]
  · rename_i h; simp [h]

theorem find_of_name {K : Ctx} {g : Graph} (h : WF g) {i : Nat} {d : Nd} (hi : g[i]? = some d) : find K g d.name = some i := by
  unfold find
  rw [exact_of_name h hi rfl]

theorem getElem?_append_some {α : Type} {g : List α} {i : Nat} {d : α} (l : List α) (h : g[i]? = some d) : (g ++ l)[i]? = some d := by
  rw [List.getElem?_append_left (List.getElem?_eq_some_iff.1 h).1]; exact h

/-! ### adding nodes -/

theorem wf_append {g : Graph} (h : WF g) {d : Nd} (hn : d.name ≠ []) (hk : exact g d.name = none) (hd : ∀ n ∈ d.deps, n < g.length)
    (hp : ∀ n ∈ d.pre, n < g.length) (hf : d.type = .alias → ∀ n ∈ d.deps, ∀ e, g[n]? = some e → e.type ≠ .alias) : WF (g ++ [d]) := by
  have hk' := exact_none.1 hk
  have get : ∀ (i : Nat) a, (g ++ [d])[i]? = some a → g[i]? = some a ∨ i = g.length ∧ a = d := by
    intro i a ha
    rcases Nat.lt_or_ge i g.length with hi | hi
    · rw [List.getElem?_append_left hi] at ha; exact Or.inl ha
    · rw [List.getElem?_append_right hi] at ha
      cases hj : i - g.length with
      | zero => rw [hj] at ha; simp at ha; exact Or.inr ⟨by omega, ha.symm⟩
      | succ k => rw [hj] at ha; simp at ha
  refine ⟨?_, ?_, ?_, ?_, ?_⟩
  · intro i j a b ha hb hab
    rcases get i a ha with h1 | ⟨h1, rfl⟩ <;> rcases get j b hb with h2 | ⟨h2, rfl⟩
    · exact h.uniq i j a b h1 h2 hab
    · exact absurd hab (hk' a (List.mem_of_getElem? h1))
    · exact absurd hab.symm (hk' b (List.mem_of_getElem? h2))
    · rw [h1, h2]
  · intro a ha
    rcases List.mem_append.1 ha with ha | ha
    · exact h.named a ha
    · simp at ha; subst ha; exact hn
  · intro a ha n hn'
    rw [List.length_append]
    rcases List.mem_append.1 ha with ha | ha
    · have := h.deps a ha n hn'; omega
    · simp at ha; subst ha; have := hd n hn'; omega
  · intro a ha n hn'
    rw [List.length_append]
    rcases List.mem_append.1 ha with ha | ha
    · have := h.pre a ha n hn'; omega
    · simp at ha; subst ha; have := hp n hn'; omega
  · intro a ha hal n hn' e he
    rcases List.mem_append.1 ha with ha | ha
    · have hlt := h.deps a ha n hn'
      rw [List.getElem?_append_left hlt] at he
      exact h.flat a ha hal n hn' e he
    · simp at ha; subst ha
      have hlt := hd n hn'
      rw [List.getElem?_append_left hlt] at he
      exact hf hal n hn' e he

theorem wf_newFile {K : Ctx} {N : Name → Prop} (hc : CleanNe K N) {g : Graph} (h : WF g) {s : Name} (hN : N s) (hs : s ≠ []) (hn : find K g s = none) :
    WF (newFile K g s) :=
  wf_append h (hc s hN hs) (find_none.1 hn).2 (by simp) (by simp) (by simp)

/-- adding a node under a name that is not found does not take other names away -/
theorem find_append {K : Ctx} {N : Name → Prop} (ht : Tidy K N) {g : Graph} {d : Nd} (hd : N d.name) (hn : exact g d.name = none)
    (hc : exact g (K.clean d.name) = none) {s : Name} (hs : N s) {n : Nat} (h : find K g s = some n) : find K (g ++ [d]) s = some n := by
  unfold find at h ⊢
  split at h
  · rename_i m hm
    cases h
    rw [exact_append _ hm]
  · rename_i hm
    rw [exact_append_none d hm]
    by_cases hk : key d.name = key s
    · exfalso
      have := ht.same _ _ hd hs hk
      rw [exact_key g this] at hc
      rw [hc] at h; cases h
    · rw [if_neg hk]; exact exact_append _ h

theorem extends_append {K : Ctx} {N : Name → Prop} (ht : Tidy K N) {g : Graph} {d : Nd} (hd : N d.name) (hn : exact g d.name = none)
    (hc : exact g (K.clean d.name) = none) : Extends K N g (g ++ [d]) :=
  ⟨fun i e he => ⟨e, getElem?_append_some _ he, rfl, rfl⟩, fun _ _ hs h => find_append ht hd hn hc hs h⟩

theorem extends_newFile {K : Ctx} {N : Name → Prop} (ht : Tidy K N) {g : Graph} {s : Name} (hs : N s) (hn : find K g s = none) :
    Extends K N g (newFile K g s) := by
  obtain ⟨_, h2⟩ := find_none.1 hn
  exact extends_append ht (d := ⟨K.clean s, .file, [], []⟩) (ht.closed s hs) h2 (by show exact g (K.clean (K.clean s)) = none; rw [ht.idem s hs]; exact h2)

theorem Extends.refl (K : Ctx) (N : Name → Prop) (g : Graph) : Extends K N g g := ⟨fun _ d h => ⟨d, h, rfl, rfl⟩, fun _ _ _ h => h⟩

theorem Extends.trans {K : Ctx} {N : Name → Prop} {a b c : Graph} (h1 : Extends K N a b) (h2 : Extends K N b c) : Extends K N a c :=
  ⟨fun i d h => by
    obtain ⟨e, e1, e2, e3⟩ := h1.nodes i d h
    obtain ⟨f, f1, f2, f3⟩ := h2.nodes i e e1
    exact ⟨f, f1, f2.trans e2, f3.trans e3⟩, fun s n hs h => h2.names s n hs (h1.names s n hs h)⟩

theorem find_newFile {K : Ctx} {g : Graph} {s : Name} (hn : find K g s = none) : find K (newFile K g s) s = some g.length := by
  obtain ⟨h1, h2⟩ := find_none.1 hn
  unfold find newFile
  rw [exact_append_none _ h1, exact_append_none _ h2]
  split
  · rename_i m hm; split at hm
    · exact hm.symm
    · cases hm
  · simp

/-- what is not found before and is found after a file is added is the file -/
theorem find_newFile_other {K : Ctx} {g : Graph} {x s : Name} (hn : find K g s = none) :
    find K (newFile K g x) s = none ∨ find K (newFile K g x) s = some g.length := by
  obtain ⟨h1, h2⟩ := find_none.1 hn
  unfold find newFile
  rw [exact_append_none _ h1, exact_append_none _ h2]
  split
  · rename_i m hm; split at hm
    · right; exact hm.symm
    · cases hm
  · split
    · exact Or.inr rfl
    · exact Or.inl rfl

/-! ### lists of nodes -/

theorem firsts_spec (l : List Nat) : (firsts l).Nodup ∧ ∀ x, x ∈ firsts l ↔ x ∈ l := by
  induction l with
  | nil => simp [firsts]
  | cons a l ih =>
    obtain ⟨h1, h2⟩ := ih
    refine ⟨?_, ?_⟩
    · rw [firsts, List.nodup_cons]
      exact ⟨by simp, h1.filter _⟩
    · intro x
      rw [firsts, List.mem_cons, List.mem_filter, List.mem_cons, h2]
      simp only [decide_eq_true_eq]
      by_cases hx : x = a <;> simp [hx]

/-- the nodes that get into the result, given the tags -/
def fresh (tags : List Nat) (l : List Nat) : List Nat := (firsts l).filter fun y => decide (y ∉ tags)

theorem fresh_cons (tags : List Nat) (n : Nat) (l : List Nat) :
    fresh tags (n :: l) = if n ∈ tags then fresh tags l else n :: fresh (n :: tags) l := by
  unfold fresh
  rw [firsts]
  by_cases h : n ∈ tags
  · rw [if_pos h]
    simp only [List.filter_cons, h, not_true_eq_false, decide_false, Bool.false_eq_true, if_false, List.filter_filter]
    apply List.filter_congr
    intro x _
    by_cases hx : x = n
    · simp [hx, h]
    · simp [hx]
  · rw [if_neg h]
    simp only [List.filter_cons, h, not_false_eq_true, decide_true, if_true, List.filter_filter]
    congr 1
    apply List.filter_congr
    intro x _
    by_cases hx : x = n <;> simp [hx, h]

theorem fresh_nil_tags (l : List Nat) : fresh [] l = firsts l := by
  unfold fresh; simp

/-- the loop over nodes that are no aliases -/
theorem each_flat (o : Opts) (g : Graph) (fuel : Nat) : ∀ (l : List Nat) (w : Sweep),
    (∀ n ∈ l, ∃ d, g[n]? = some d ∧ d.type ≠ .alias) →
    ((∃ w', each (listNode o g (fuel + 1)) l w = .ok w') ↔ ∀ n ∈ l, (o.dedup = true ∧ n ∈ w.tags) ∨ ∃ d, g[n]? = some d ∧ o.takes d.type = true) ∧
    (∀ w', each (listNode o g (fuel + 1)) l w = .ok w' → w'.out = w.out ++ (if o.dedup then fresh w.tags l else l))
  | [], w, _ => by
    refine ⟨by simp [each], ?_⟩
    intro w' h
    simp only [each, Except.ok.injEq] at h
    subst h
    simp [fresh, firsts]
  | n :: l, w, hl => by
    obtain ⟨d, hd, hna⟩ := hl n List.mem_cons_self
    have hl' : ∀ n ∈ l, ∃ d, g[n]? = some d ∧ d.type ≠ .alias := fun m hm => hl m (List.mem_cons_of_mem _ hm)
    by_cases hs : o.dedup = true ∧ n ∈ w.tags
    · have e : listNode o g (fuel + 1) n w = .ok w := by rw [listNode, if_pos hs]
      have ih := each_flat o g fuel l w hl'
      simp only [each, e]
      refine ⟨?_, ?_⟩
      · rw [ih.1]
        constructor
        · intro h m hm
          rcases List.mem_cons.1 hm with rfl | hm
          · exact Or.inl hs
          · exact h m hm
        · intro h m hm; exact h m (List.mem_cons_of_mem _ hm)
      · intro w' hw'
        rw [ih.2 w' hw']
        simp only [hs.1, if_true]
        rw [fresh_cons, if_pos hs.2]
    · by_cases ht : o.takes d.type = true
      · let w1 : Sweep := { (if o.dedup then { w with tags := n :: w.tags } else w : Sweep) with out := w.out ++ [n] }
        have e : listNode o g (fuel + 1) n w = .ok w1 := by
          rw [listNode, if_neg hs]
          simp only [hd, ht, if_true]
          cases hdd : o.dedup <;> simp [w1, hdd]
        have ih := each_flat o g fuel l w1 hl'
        simp only [each, e]
        refine ⟨?_, ?_⟩
        · rw [ih.1]
          constructor
          · intro h m hm
            rcases List.mem_cons.1 hm with rfl | hm
            · exact Or.inr ⟨d, hd, ht⟩
            · rcases h m hm with ⟨h1, h2⟩ | h
              · simp only [w1, h1, if_true] at h2
                rcases List.mem_cons.1 h2 with rfl | h2
                · exact Or.inr ⟨d, hd, ht⟩
                · exact Or.inl ⟨h1, h2⟩
              · exact Or.inr h
          · intro h m hm
            rcases h m (List.mem_cons_of_mem _ hm) with ⟨h1, h2⟩ | h
            · left; refine ⟨h1, ?_⟩
              simp only [w1, h1, if_true]; exact List.mem_cons_of_mem _ h2
            · exact Or.inr h
        · intro w' hw'
          rw [ih.2 w' hw']
          cases hdd : o.dedup with
          | false => simp [w1]
          | true =>
            have hnt : n ∉ w.tags := fun h => hs ⟨hdd, h⟩
            simp only [w1, hdd, if_true]
            rw [fresh_cons, if_neg hnt]
            simp
      · have e : listNode o g (fuel + 1) n w = .error .node := by
          rw [listNode, if_neg hs]
          simp only [hd, ht, if_false, hna]
          simp
        simp only [each, e]
        refine ⟨?_, by simp⟩
        constructor
        · rintro ⟨_, h⟩; cases h
        · intro h
          rcases h n List.mem_cons_self with h | ⟨d', h1, h2⟩
          · exact absurd h hs
          · rw [hd] at h1; cases h1; exact absurd h2 ht

end Verif.Decl
