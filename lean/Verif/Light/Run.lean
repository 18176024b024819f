import Verif.Light.Walk
/-
The search ends; what it finds depends neither on the fuel nor on the shared cache.
-/
namespace Verif.Light
open Verif.Str

/-! ## The fuel does not matter -/

theorem fold_mono {go go' : State → List Char → IncType → Option State} (h : ∀ st q t r, go st q t = some r → go' st q t = some r) :
    ∀ (l : List (List Char × IncType)) (st r : State), l.foldlM (fun st i => go st i.1 i.2) st = some r →
      l.foldlM (fun st i => go' st i.1 i.2) st = some r
  | [], _, _, hr => hr
  | i :: l, st, r, hr => by
    rw [List.foldlM_cons] at hr ⊢
    cases hg : go st i.1 i.2 with
    | none => rw [hg] at hr; simp at hr
    | some st1 =>
      rw [hg] at hr
      rw [h _ _ _ _ hg]
      exact fold_mono h l st1 r hr

theorem visit_mono {go go' : State → List Char → IncType → Option State} (h : ∀ st q t r, go st q t = some r → go' st q t = some r)
    {f : Found} {st r : State} (hr : visit go f st = some r) : visit go' f st = some r := by
  rw [visit] at hr ⊢
  cases hf : f.file with
  | none => rw [hf] at hr; exact hr
  | some e =>
    rw [hf] at hr
    simp only at hr ⊢
    split
    · rename_i h1; rw [if_pos h1] at hr; exact hr
    · rename_i h1
      rw [if_neg h1] at hr
      split
      · rename_i h2; rw [if_pos h2] at hr; exact hr
      · rename_i h2
        rw [if_neg h2] at hr
        split
        · rename_i h3; rw [if_pos h3] at hr; exact hr
        · rename_i h3
          rw [if_neg h3] at hr
          cases hfo : e.parsed.includes.foldlM (fun st i => go st i.1 i.2) { st with all := st.all ++ [e], stack := e :: st.stack } with
          | none => rw [hfo] at hr; simp at hr
          | some st1 =>
            rw [hfo] at hr
            rw [fold_mono h _ _ _ hfo]
            exact hr

theorem fuel_mono (w : World) (s : Settings) : ∀ (n : Nat) (st : State) (q : List Char) (t : IncType) (r : State),
    processInclude w s n st q t = some r → processInclude w s (n + 1) st q t = some r
  | 0, _, _, _, _, h => by simp [processInclude] at h
  | n + 1, st, q, t, r, h => by
    have ih := fuel_mono w s n
    rw [processInclude] at h ⊢
    split
    · rename_i hm
      rw [if_pos hm] at h
      cases hf : st.incDefs.find? (·.1 = q) with
      | none => rw [hf] at h; exact h
      | some d =>
        rw [hf] at h
        exact ih _ _ _ _ h
    · rename_i hm
      rw [if_neg hm] at h
      cases hl : lookup w s (cands w s st.stack q t) st with
      | mk f st1 =>
        rw [hl] at h
        exact visit_mono ih h

theorem process_mono {w : World} {s : Settings} {n : Nat} {cache : List Entry} {roots : List (List Char)} {st : State}
    (h : process w s n cache roots = some st) : ∀ k, process w s (n + k) cache roots = some st
  | 0 => h
  | k + 1 => by
    have ih := process_mono h k
    have key : ∀ (l : List (List Char)) (a r : State), l.foldlM (fun st x => processInclude w s (n + k) st x .quote) a = some r →
        l.foldlM (fun st x => processInclude w s (n + k + 1) st x .quote) a = some r := by
      intro l
      induction l with
      | nil => intro a r hr; exact hr
      | cons i l ih =>
        intro a r hr
        rw [List.foldlM_cons] at hr ⊢
        cases hg : processInclude w s (n + k) a i .quote with
        | none => rw [hg] at hr; simp at hr
        | some a1 =>
          rw [hg] at hr
          rw [fuel_mono w s _ _ _ _ _ hg]
          exact ih a1 r hr
    exact key _ _ _ ih

/-! ## The search ends -/

/-- a macro never stands for a macro -/
theorem includeStr_not_macro (s : List Char) {p : List Char} {t : IncType} {r : List Char} (h : includeStr s = (some (p, t), r)) :
    t ≠ .macro := by
  rw [includeStr.eq_def] at h
  split at h
  · rename_i s
    cases hq : quotedStr '"' s with
    | mk o x => rw [hq] at h; cases o <;> simp at h; obtain ⟨⟨_, rfl⟩, _⟩ := h; simp
  · rename_i s
    cases hq : quotedStr '>' s with
    | mk o x => rw [hq] at h; cases o <;> simp at h; obtain ⟨⟨_, rfl⟩, _⟩ := h; simp
  · simp at h

theorem dirInclude_not_def (s : List Char) (m p : List Char) (t : IncType) : (dirInclude s).1 ≠ .incDef m p t := by
  rw [dirInclude]
  generalize optComment (skipWs s) = x
  cases x with
  | nil => simp
  | cons c x =>
    simp only
    split
    · split <;> simp
    · split <;> simp

theorem directive_not_macro (s : List Char) {m p : List Char} {t : IncType} (h : (directive s).1 = .incDef m p t) : t ≠ .macro := by
  rw [directive] at h
  generalize skipWs s = x at h
  by_cases h1 : "include".toList.isPrefixOf x
  · rw [if_pos h1] at h
    exact absurd h (dirInclude_not_def _ _ _ _)
  · rw [if_neg h1] at h
    by_cases h2 : "define".toList.isPrefixOf x
    · rw [if_pos h2, dirDefine] at h
      cases hm : macroName (optComment (skipWs (x.drop 6))) with
      | none => rw [hm] at h; simp at h
      | some d =>
        rw [hm] at h
        simp only at h
        cases hi : includeStr (optComment (skipWs d.2)) with
        | mk o r =>
          rw [hi] at h
          cases o with
          | none => simp at h
          | some y =>
            simp only [Act.incDef.injEq] at h
            obtain ⟨_, _, rfl⟩ := h
            exact includeStr_not_macro _ hi
    · rw [if_neg h2] at h
      by_cases h3 : "import".toList.isPrefixOf x
      · rw [if_pos h3] at h; simp at h
      · rw [if_neg h3] at h; simp at h

theorem lineAct_not_macro (s : List Char) {m p : List Char} {t : IncType} (h : (lineAct s).1 = .incDef m p t) : t ≠ .macro := by
  rw [lineAct.eq_def] at h
  split at h
  · exact directive_not_macro _ h
  · simp at h

theorem add_not_macro {a : Parsed} {x : Act} (ha : ∀ d ∈ a.incDefs, d.2.2 ≠ .macro) (hx : ∀ m p t, x = .incDef m p t → t ≠ .macro) :
    ∀ d ∈ (a.add x).incDefs, d.2.2 ≠ .macro := by
  cases x with
  | incDef m p t =>
    intro d hd
    simp only [Parsed.add, List.mem_append, List.mem_singleton] at hd
    rcases hd with hd | rfl
    · exact ha d hd
    · exact hx m p t rfl
  | _ => exact ha

theorem loop_not_macro : ∀ (n : Nat) (a : Parsed) (s : List Char) (r : Parsed), parseLoop n a s = some r →
    (∀ d ∈ a.incDefs, d.2.2 ≠ .macro) → ∀ d ∈ r.incDefs, d.2.2 ≠ .macro
  | 0, _, _, _, h, _ => by simp [parseLoop] at h
  | n + 1, a, s, r, h, ha => by
    rw [parseLoop] at h
    split at h
    · simp only [Option.some.injEq] at h; rw [← h]; exact ha
    · rename_i c x _
      split at h
      · exact loop_not_macro n _ _ _ h ha
      · split at h
        · simp only [Option.some.injEq] at h; rw [← h]; exact ha
        · rename_i act s' _ hl
          refine loop_not_macro n _ _ _ h (add_not_macro ha ?_)
          intro m p t e
          exact lineAct_not_macro (c :: x) (by rw [hl]; exact e)

theorem parsed_not_macro {w : World} {s : Settings} {k : Prop} {e : Entry} (h : Cons w s k e) : ∀ d ∈ e.parsed.incDefs, d.2.2 ≠ .macro := by
  rw [h.2.2.1]
  cases hf : w.fs e.name with
  | none => simp
  | some text =>
    simp only [Option.bind_some]
    cases hp : parse text with
    | none => simp
    | some r =>
      simp only [Option.getD_some]
      rw [parse] at hp
      exact loop_not_macro _ _ _ _ hp (by simp)

theorem filter_le {α : Type} (p q : α → Bool) (hpq : ∀ x, q x = true → p x = true) : ∀ l : List α, (l.filter q).length ≤ (l.filter p).length
  | [] => Nat.le_refl _
  | y :: l => by
    have ih := filter_le p q hpq l
    rw [List.filter_cons, List.filter_cons]
    by_cases hqy : q y = true
    · rw [if_pos hqy, if_pos (hpq y hqy)]
      simpa using ih
    · rw [if_neg hqy]
      split
      · simp only [List.length_cons]; omega
      · exact ih

/-- the files not yet visited -/
def missing (L : List (List Char)) (st : State) : Nat := (L.filter (fun n => decide (n ∉ names st.all))).length

theorem missing_mono {L : List (List Char)} {a b : State} (h : ∀ e ∈ a.all, e ∈ b.all) : missing L b ≤ missing L a := by
  rw [missing, missing]
  refine filter_le _ _ ?_ L
  intro n hn
  simp only [decide_eq_true_eq] at hn ⊢
  exact fun hx => hn (names_mono h hx)

theorem filter_lt {α : Type} (p q : α → Bool) (hpq : ∀ x, q x = true → p x = true) : ∀ (l : List α) (x : α), x ∈ l → p x = true → q x = false →
    (l.filter q).length < (l.filter p).length
  | [], _, h, _, _ => by simp at h
  | y :: l, x, h, hp, hq => by
    have hle : (l.filter q).length ≤ (l.filter p).length := filter_le p q hpq l
    rcases List.mem_cons.1 h with rfl | h
    · rw [List.filter_cons, List.filter_cons, hp, hq]
      simp only [Bool.false_eq_true, if_false, if_true, List.length_cons]
      omega
    · have ih := filter_lt p q hpq l x h hp hq
      rw [List.filter_cons, List.filter_cons]
      by_cases hqy : q y = true
      · rw [if_pos hqy, if_pos (hpq y hqy)]
        simpa using ih
      · rw [if_neg hqy]
        split
        · simp only [List.length_cons]; omega
        · exact ih

theorem missing_lt {L : List (List Char)} {a b : State} {e : Entry} (h : ∀ x ∈ a.all, x ∈ b.all) (he : e ∈ b.all) (hn : e.name ∈ L)
    (ha : e.name ∉ names a.all) : missing L b < missing L a := by
  refine filter_lt _ _ ?_ L e.name hn (by simpa using ha) (by simpa using mem_names.2 ⟨e, he, rfl⟩)
  intro n hn
  simp only [decide_eq_true_eq] at hn ⊢
  exact fun hx => hn (names_mono h hx)

/-- the fuel needed for one include -/
def need (w : World) (L : List (List Char)) (st : State) (q : List Char) (t : IncType) : Nat :=
  2 * missing L st + if isFullPath w.platform q = false ∧ t = .macro then 2 else 1

theorem need_le (w : World) (L : List (List Char)) (st : State) (q : List Char) (t : IncType) : need w L st q t ≤ 2 * missing L st + 2 := by
  rw [need]; split <;> omega

theorem process_ends {w : World} {s : Settings} {k : Prop} {L : List (List Char)} (hL : ∀ f, (w.fs f).isSome → f ∈ L) :
    ∀ (n : Nat) (st : State) (q : List Char) (t : IncType), Inv w s k st → need w L st q t ≤ n → ∃ r, processInclude w s n st q t = some r
  | 0, st, q, t, _, h => by rw [need] at h; split at h <;> omega
  | n + 1, st, q, t, hi, h => by
    have ih := process_ends (w := w) (s := s) (k := k) hL n
    rw [processInclude]
    by_cases hm : isFullPath w.platform q = false ∧ t = .macro
    · rw [if_pos hm]
      rw [need, if_pos hm] at h
      cases hf : st.incDefs.find? (·.1 = q) with
      | none =>
        simp only
        split <;> exact ⟨_, rfl⟩
      | some d =>
        simp only
        refine ih _ _ _ hi ?_
        have hd := List.mem_of_find?_eq_some hf
        obtain ⟨e, he1, he2⟩ := hi.defs d hd
        have := parsed_not_macro (hi.cache e (hi.all e he1).1) d he2
        rw [need, if_neg (by simp [this])]
        omega
    · rw [if_neg hm]
      rw [need, if_neg hm] at h
      have hl := lookup_spec (w := w) (s := s) (k := k) (cands := cands w s st.stack q t) (st := st) hi.cache hi.ok
        (fun e he => ⟨(hi.all e (hi.stack e he)).1, (hi.all e (hi.stack e he)).2.1⟩)
      cases hlk : lookup w s (cands w s st.stack q t) st with
      | mk f st1 =>
        rw [hlk] at hl
        simp only at hl ⊢
        rw [visit]
        cases hf : f.file with
        | none => exact ⟨_, rfl⟩
        | some e =>
          simp only
          obtain ⟨k1, k2, k3, k4⟩ := hl.found e hf
          rw [if_neg (by simp [k2])]
          split
          · exact ⟨_, rfl⟩
          · rename_i hcy
            have hcy : f.cyclic = false := by simpa using hcy
            split
            · exact ⟨_, rfl⟩
            · rename_i hseen
              -- the state with the file
              have hnone : ∀ x ∈ st.all, x.name ≠ e.name := by
                intro x hx hne
                rw [hl.look.all] at hseen
                refine hseen ?_
                rw [List.find?_isSome]
                exact ⟨x, hx, by simp [hne]⟩
              have hd := k4 hcy
              have hinv2 : Inv w s k { st1 with all := st1.all ++ [e], stack := e :: st1.stack } := by
                refine ⟨hl.look.cache, hl.look.ok, ?_, ?_, ?_, ?_⟩
                · intro y hy
                  simp only [List.mem_append, List.mem_singleton] at hy
                  rcases hy with hy | rfl
                  · rw [hl.look.all] at hy
                    obtain ⟨a, b, c⟩ := hi.all y hy
                    refine ⟨hl.look.sub y a, b, fun d hdd => ?_⟩
                    simp only [hd]
                    exact List.mem_append_left _ (c d hdd)
                  · refine ⟨k1, k2, fun d hdd => ?_⟩
                    simp only [hd]
                    exact List.mem_append_right _ hdd
                · intro y hy
                  simp only [List.mem_cons] at hy
                  simp only [List.mem_append, List.mem_singleton]
                  rcases hy with rfl | hy
                  · exact Or.inr rfl
                  · rw [hl.look.stack] at hy
                    rw [hl.look.all]
                    exact Or.inl (hi.stack y hy)
                · intro d hdd
                  simp only [hd] at hdd
                  rcases List.mem_append.1 hdd with hdd | hdd
                  · obtain ⟨x, hx1, hx2⟩ := hi.defs d hdd
                    exact ⟨x, by simp only [hl.look.all]; exact List.mem_append_left _ hx1, hx2⟩
                  · exact ⟨e, by simp, hdd⟩
                · simp only [hl.look.all, names, List.map_append, List.map_cons, List.map_nil]
                  rw [List.nodup_append]
                  refine ⟨hi.nodup, by simp, ?_⟩
                  intro a ha b hb
                  obtain ⟨x, hx, rfl⟩ := List.mem_map.1 ha
                  simp only [List.mem_singleton] at hb
                  subst hb
                  exact hnone x hx
              have hmiss : missing L { st1 with all := st1.all ++ [e], stack := e :: st1.stack } < missing L st := by
                refine missing_lt (e := e) ?_ (by simp) ?_ ?_
                · intro x hx
                  simp only [hl.look.all]
                  exact List.mem_append_left _ hx
                · refine hL _ ?_
                  have := (hl.look.cache e k1).1
                  rw [k2] at this
                  exact this.symm
                · rw [mem_names]
                  rintro ⟨x, hx1, hx2⟩
                  exact hnone x hx1 hx2
              generalize ({ st1 with all := st1.all ++ [e], stack := e :: st1.stack } : State) = st2 at hinv2 hmiss
              have hfold : ∀ (l : List (List Char × IncType)) (a : State), Inv w s k a → 2 * missing L a + 2 ≤ n →
                  ∃ r, l.foldlM (fun st i => processInclude w s n st i.1 i.2) a = some r := by
                intro l
                induction l with
                | nil => intro a _ _; exact ⟨a, rfl⟩
                | cons i l ih2 =>
                  intro a ha hb
                  obtain ⟨r, hr⟩ := ih a i.1 i.2 ha (Nat.le_trans (need_le _ _ _ _ _) hb)
                  rw [List.foldlM_cons, hr]
                  obtain ⟨w1, _⟩ := walk w s k n _ _ _ _ ha hr
                  have := missing_mono (L := L) w1.all
                  exact ih2 r w1.inv (by omega)
              obtain ⟨r, hr⟩ := hfold e.parsed.includes st2 hinv2 (by omega)
              rw [hr]
              exact ⟨_, rfl⟩

/-- The search ends in every file system with finitely many files. -/
theorem search_ends {w : World} {s : Settings} {cache : List Entry} {L : List (List Char)} (hL : ∀ f, (w.fs f).isSome → f ∈ L)
    (hf : Fresh w cache) (ho : ∀ e ∈ cache, e.parsed.ok = true) (roots : List (List Char)) :
    ∃ st, process w s (2 * L.length + 2) cache roots = some st := by
  have key : ∀ (l : List (List Char)) (a : State), Inv w s False a →
      ∃ r, l.foldlM (fun st r => processInclude w s (2 * L.length + 2) st r .quote) a = some r := by
    intro l
    induction l with
    | nil => intro a _; exact ⟨a, rfl⟩
    | cons i l ih =>
      intro a ha
      have hle : missing L a ≤ L.length := List.length_filter_le _ _
      obtain ⟨r, hr⟩ := process_ends hL (2 * L.length + 2) a i .quote ha (Nat.le_trans (need_le _ _ _ _ _) (by omega))
      rw [List.foldlM_cons, hr]
      exact ih r (walk w s False _ _ _ _ _ ha hr).1.inv
  exact key roots _ (inv_start (cons_of_fresh hf) ho)

/-! ## The shared cache does not matter -/

/-- two states which differ in the shared cache -/
structure Sim (w : World) (s : Settings) (a b : State) : Prop where
  all : a.all = b.all
  stack : a.stack = b.stack
  defs : a.incDefs = b.incDefs
  failed : a.failed = b.failed
  cacheA : ∀ e ∈ a.cache, Cons w s True e ∧ (e.parsed.ok = false → a.failed = true)
  cacheB : ∀ e ∈ b.cache, Cons w s True e ∧ (e.parsed.ok = false → b.failed = true)

theorem cons_eq {w : World} {s : Settings} {e : Entry} (h : Cons w s True e) : e = newEntry w s.basePath e.name := by
  obtain ⟨h1, h2, h3, h4⟩ := h
  cases e
  simp only [newEntry, Entry.mk.injEq, true_and]
  exact ⟨h1, h2, h4 trivial, h3⟩

theorem fileExists_eq {w : World} {s : Settings} {st : State} (h : ∀ e ∈ st.cache, Cons w s True e ∧ (e.parsed.ok = false → st.failed = true))
    (name : List Char) :
    ∃ cache, fileExists w s st name = (newEntry w s.basePath name,
      { st with cache := cache
                incDefs := st.incDefs ++ (newEntry w s.basePath name).parsed.incDefs
                failed := st.failed || !(newEntry w s.basePath name).parsed.ok }) ∧
      ∀ e ∈ cache, e ∈ st.cache ∨ e = newEntry w s.basePath name := by
  rw [fileExists]
  cases hf : st.cache.find? (·.name = name) with
  | none =>
    simp only
    exact ⟨_, rfl, fun e he => by simpa using he⟩
  | some e =>
    have hm := List.mem_of_find?_eq_some hf
    have hn := List.find?_some hf
    simp only [decide_eq_true_eq] at hn
    have he := cons_eq (h e hm).1
    rw [hn] at he
    refine ⟨st.cache, ?_, fun _ h => Or.inl h⟩
    simp only [← he, Prod.mk.injEq, true_and]
    have : (st.failed || !e.parsed.ok) = st.failed := by
      cases hk : e.parsed.ok
      · rw [(h e hm).2 hk]; rfl
      · simp
    rw [this]

theorem sim_fileExists {w : World} {s : Settings} {a b : State} (h : Sim w s a b) (name : List Char) :
    (fileExists w s a name).1 = (fileExists w s b name).1 ∧ Sim w s (fileExists w s a name).2 (fileExists w s b name).2 := by
  obtain ⟨c1, e1, m1⟩ := fileExists_eq h.cacheA name
  obtain ⟨c2, e2, m2⟩ := fileExists_eq h.cacheB name
  rw [e1, e2]
  refine ⟨rfl, ⟨h.all, h.stack, by simp [h.defs], by simp [h.failed], ?_, ?_⟩⟩
  · intro e he
    simp only at he ⊢
    rcases m1 e he with he | rfl
    · exact ⟨(h.cacheA e he).1, fun hk => by simp [(h.cacheA e he).2 hk]⟩
    · exact ⟨cons_new _ _ _ _, fun hk => by simp [hk]⟩
  · intro e he
    simp only at he ⊢
    rcases m2 e he with he | rfl
    · exact ⟨(h.cacheB e he).1, fun hk => by simp [(h.cacheB e he).2 hk]⟩
    · exact ⟨cons_new _ _ _ _, fun hk => by simp [hk]⟩

theorem sim_lookup {w : World} {s : Settings} : ∀ (l : List (List Char)) {a b : State}, Sim w s a b →
    (lookup w s l a).1 = (lookup w s l b).1 ∧ Sim w s (lookup w s l a).2 (lookup w s l b).2
  | [], a, b, h => by simp only [lookup]; exact ⟨trivial, h⟩
  | c :: l, a, b, h => by
    rw [lookup, lookup, h.stack]
    cases hf : b.stack.find? (·.name = c) with
    | some e => exact ⟨rfl, h⟩
    | none =>
      simp only
      obtain ⟨e1, e2⟩ := sim_fileExists h c
      rw [e1]
      split
      · exact ⟨rfl, e2⟩
      · exact sim_lookup l e2

/-- two outcomes of a search -/
def SimO (w : World) (s : Settings) : Option State → Option State → Prop
  | none, none => True
  | some a, some b => Sim w s a b
  | _, _ => False

theorem sim_fold {α : Type} {w : World} {s : Settings} {go : State → α → Option State} (hgo : ∀ a b i, Sim w s a b → SimO w s (go a i) (go b i)) :
    ∀ (l : List α) (a b : State), Sim w s a b → SimO w s (l.foldlM go a) (l.foldlM go b)
  | [], _, _, h => h
  | i :: l, a, b, h => by
    rw [List.foldlM_cons, List.foldlM_cons]
    have := hgo a b i h
    cases h1 : go a i <;> cases h2 : go b i <;> rw [h1, h2] at this
    · exact trivial
    · exact this.elim
    · exact this.elim
    · exact sim_fold hgo l _ _ this

theorem Sim.push {w : World} {s : Settings} {a b : State} (h : Sim w s a b) (e : Entry) :
    Sim w s { a with all := a.all ++ [e], stack := e :: a.stack } { b with all := b.all ++ [e], stack := e :: b.stack } :=
  ⟨by simp [h.all], by simp [h.stack], h.defs, h.failed, h.cacheA, h.cacheB⟩

theorem Sim.pop {w : World} {s : Settings} {a b : State} (h : Sim w s a b) :
    Sim w s { a with stack := a.stack.tail } { b with stack := b.stack.tail } :=
  ⟨h.all, by simp [h.stack], h.defs, h.failed, h.cacheA, h.cacheB⟩

theorem sim_visit {w : World} {s : Settings} {go : State → List Char → IncType → Option State}
    (hgo : ∀ a b q t, Sim w s a b → SimO w s (go a q t) (go b q t)) {f : Found} {a b : State} (h : Sim w s a b) :
    SimO w s (visit go f a) (visit go f b) := by
  rw [visit, visit]
  cases hf : f.file with
  | none => exact h
  | some e =>
    simp only
    split
    · exact h
    · split
      · exact h
      · rw [h.all]
        split
        · exact h
        · have := sim_fold (go := fun st i => go st i.1 i.2) (fun a b i hab => hgo a b i.1 i.2 hab) e.parsed.includes _ _ (h.push e)
          rw [h.all] at this
          cases h1 : e.parsed.includes.foldlM (fun st i => go st i.1 i.2) { a with all := b.all ++ [e], stack := e :: a.stack } <;>
            cases h2 : e.parsed.includes.foldlM (fun st i => go st i.1 i.2) { b with all := b.all ++ [e], stack := e :: b.stack } <;>
            rw [h1, h2] at this
          · exact trivial
          · exact this.elim
          · exact this.elim
          · exact Sim.pop this

theorem sim_process (w : World) (s : Settings) : ∀ (n : Nat) (a b : State) (q : List Char) (t : IncType), Sim w s a b →
    SimO w s (processInclude w s n a q t) (processInclude w s n b q t)
  | 0, _, _, _, _, _ => by simp only [processInclude]; exact trivial
  | n + 1, a, b, q, t, h => by
    have ih := sim_process w s n
    rw [processInclude, processInclude]
    split
    · rw [h.defs]
      cases hf : b.incDefs.find? (·.1 = q) with
      | some d => exact ih _ _ _ _ h
      | none =>
        simp only
        rw [h.all]
        split
        · exact ⟨rfl, h.stack, rfl, rfl, fun e he => ⟨(h.cacheA e he).1, fun _ => rfl⟩, fun e he => ⟨(h.cacheB e he).1, fun _ => rfl⟩⟩
        · exact h
    · rw [h.stack]
      obtain ⟨e1, e2⟩ := sim_lookup (cands w s b.stack q t) h
      cases ha : lookup w s (cands w s b.stack q t) a with
      | mk f x =>
        cases hb : lookup w s (cands w s b.stack q t) b with
        | mk g y =>
          rw [ha, hb] at e1 e2
          simp only at e1 e2 ⊢
          rw [e1]
          exact sim_visit (fun a b q t => ih a b q t) e2

end Verif.Light
