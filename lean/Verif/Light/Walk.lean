import Verif.Light.Parse
/-
The files which the light cache visits are closed under includes.
-/
namespace Verif.Light
open Verif.Str

/-- an entry agrees with the file system, if `k` also with the base path -/
def Cons (w : World) (s : Settings) (k : Prop) (e : Entry) : Prop :=
  e.exists = (w.fs e.name).isSome ∧ e.content = (w.fs e.name).getD [] ∧ e.parsed = ((w.fs e.name).bind parse).getD {} ∧
    (k → e.rel = if s.basePath = [] then none else some (w.relative s.basePath e.name))

theorem cons_new (w : World) (s : Settings) (k : Prop) (name : List Char) : Cons w s k (newEntry w s.basePath name) :=
  ⟨rfl, rfl, rfl, fun _ => rfl⟩

theorem cons_missing {w : World} {s : Settings} {k : Prop} {e : Entry} (h : Cons w s k e) (hx : e.exists = false) : e.parsed = {} := by
  obtain ⟨h1, h2, h3, _⟩ := h
  rw [hx] at h1
  cases hf : w.fs e.name with
  | none => rw [h3, hf]; rfl
  | some x => rw [hf] at h1; simp at h1

def names (l : List Entry) : List (List Char) := l.map (·.name)

theorem mem_names {l : List Entry} {n : List Char} : n ∈ names l ↔ ∃ e ∈ l, e.name = n := by simp [names]

structure Inv (w : World) (s : Settings) (k : Prop) (st : State) : Prop where
  cache : ∀ e ∈ st.cache, Cons w s k e
  ok : ∀ e ∈ st.cache, e.parsed.ok = false → st.failed = true
  all : ∀ e ∈ st.all, e ∈ st.cache ∧ e.exists = true ∧ ∀ d ∈ e.parsed.incDefs, d ∈ st.incDefs
  stack : ∀ e ∈ st.stack, e ∈ st.all
  defs : ∀ d ∈ st.incDefs, ∃ e ∈ st.all, d ∈ e.parsed.incDefs
  nodup : (names st.all).Nodup

/-- what looking up files does to the state -/
structure Look (w : World) (s : Settings) (k : Prop) (st st' : State) : Prop where
  all : st'.all = st.all
  stack : st'.stack = st.stack
  sub : ∀ e ∈ st.cache, e ∈ st'.cache
  cache : ∀ e ∈ st'.cache, Cons w s k e
  ok : ∀ e ∈ st'.cache, e.parsed.ok = false → st'.failed = true
  failed : st.failed = true → st'.failed = true

theorem fileExists_look {w : World} {s : Settings} {k : Prop} {st : State} {name : List Char} (hc : ∀ e ∈ st.cache, Cons w s k e)
    (ho : ∀ e ∈ st.cache, e.parsed.ok = false → st.failed = true) :
    Look w s k st (fileExists w s st name).2 ∧ (fileExists w s st name).1 ∈ (fileExists w s st name).2.cache ∧
      (fileExists w s st name).1.name = name ∧
      (fileExists w s st name).2.incDefs = st.incDefs ++ (fileExists w s st name).1.parsed.incDefs := by
  rw [fileExists]
  cases hf : st.cache.find? (·.name = name) with
  | some e =>
    have := List.mem_of_find?_eq_some hf
    have hn := List.find?_some hf
    simp only [decide_eq_true_eq] at hn
    exact ⟨⟨rfl, rfl, fun _ h => h, hc, ho, id⟩, this, hn, rfl⟩
  | none =>
    simp only
    refine ⟨⟨rfl, rfl, fun e h => List.mem_append_left _ h, ?_, ?_, ?_⟩, by simp, rfl, trivial⟩
    · intro e he
      simp only [List.mem_append, List.mem_singleton] at he
      rcases he with he | rfl
      · exact hc e he
      · exact cons_new _ _ _ _
    · intro e he hok
      simp only [List.mem_append, List.mem_singleton] at he
      simp only [Bool.or_eq_true, Bool.not_eq_true']
      rcases he with he | rfl
      · exact Or.inl (ho e he hok)
      · exact Or.inr hok
    · intro h; simp [h]

theorem Look.trans {w : World} {s : Settings} {k : Prop} {a b c : State} (h1 : Look w s k a b) (h2 : Look w s k b c) : Look w s k a c :=
  ⟨h2.all.trans h1.all, h2.stack.trans h1.stack, fun e h => h2.sub e (h1.sub e h), h2.cache, h2.ok, fun h => h2.failed (h1.failed h)⟩

/-- what the lookup found -/
structure LookedUp (w : World) (s : Settings) (k : Prop) (cands : List (List Char)) (st : State) (f : Found) (st' : State) : Prop where
  look : Look w s k st st'
  first : f.file.map (·.name) = first w.fs cands
  missing : f.file = none → st'.incDefs = st.incDefs
  found : ∀ e, f.file = some e → e ∈ st'.cache ∧ e.exists = true ∧
    (f.cyclic = true → e ∈ st.stack ∧ st'.incDefs = st.incDefs) ∧ (f.cyclic = false → st'.incDefs = st.incDefs ++ e.parsed.incDefs)

theorem lookup_spec {w : World} {s : Settings} {k : Prop} : ∀ {cands : List (List Char)} {st : State}, (∀ e ∈ st.cache, Cons w s k e) →
    (∀ e ∈ st.cache, e.parsed.ok = false → st.failed = true) → (∀ e ∈ st.stack, e ∈ st.cache ∧ e.exists = true) →
    LookedUp w s k cands st (lookup w s cands st).1 (lookup w s cands st).2
  | [], st, hc, ho, hs => by
    rw [lookup]
    exact ⟨⟨rfl, rfl, fun _ h => h, hc, ho, id⟩, rfl, fun _ => rfl, fun e h => by simp at h⟩
  | cand :: cands, st, hc, ho, hs => by
    rw [lookup]
    cases hf : st.stack.find? (·.name = cand) with
    | some e =>
      have hm := List.mem_of_find?_eq_some hf
      have hn := List.find?_some hf
      simp only [decide_eq_true_eq] at hn
      simp only
      refine ⟨⟨rfl, rfl, fun _ h => h, hc, ho, id⟩, ?_, fun h => by simp at h, ?_⟩
      · have := (hc e (hs e hm).1).1
        rw [(hs e hm).2, hn] at this
        simp [first, ← this, hn]
      · intro e' h
        simp only [Option.some.injEq] at h
        subst h
        exact ⟨(hs e hm).1, (hs e hm).2, fun _ => ⟨hm, rfl⟩, fun h => by simp at h⟩
    | none =>
      simp only
      obtain ⟨g1, g2, g3, g4⟩ := fileExists_look (s := s) (name := cand) hc ho
      cases hfe : fileExists w s st cand with
      | mk e st1 =>
        rw [hfe] at g1 g2 g3 g4
        simp only at g1 g2 g3 g4 ⊢
        have hcons := g1.cache e g2
        cases hx : e.exists
        · simp only [Bool.false_eq_true, if_false]
          have hd : st1.incDefs = st.incDefs := by rw [g4, cons_missing hcons hx]; simp
          have ih := lookup_spec (w := w) (s := s) (cands := cands) (st := st1) g1.cache g1.ok
            (fun x hx => by rw [g1.stack] at hx; exact ⟨g1.sub _ (hs x hx).1, (hs x hx).2⟩)
          refine ⟨g1.trans ih.look, ?_, fun h => (ih.missing h).trans hd, ?_⟩
          · have := hcons.1
            rw [hx, g3] at this
            rw [ih.first, Verif.Light.first, Verif.Light.first, List.find?_cons, ← this]
          · intro e' h
            obtain ⟨k1, k2, k3, k4⟩ := ih.found e' h
            refine ⟨k1, k2, ?_, ?_⟩
            · intro hcy
              obtain ⟨k5, k6⟩ := k3 hcy
              rw [g1.stack] at k5
              exact ⟨k5, k6.trans hd⟩
            · intro hcy
              rw [k4 hcy, hd]
        · simp only [if_true]
          refine ⟨g1, ?_, fun h => by simp at h, ?_⟩
          · have := hcons.1
            rw [hx, g3] at this
            simp [Verif.Light.first, ← this, g3]
          · intro e' h
            simp only [Option.some.injEq] at h
            subst h
            exact ⟨g2, hx, fun h => by simp at h, fun _ => g4⟩

theorem cands_places (w : World) (s : Settings) (stack : List Entry) (q : List Char) (t : IncType) :
    cands w s stack q t = places w s.paths (names stack) q t := by
  rw [cands.eq_def, places.eq_def]
  split
  · rfl
  · cases t <;> simp [stackCands, pathCands, names, List.map_map]

/-- the target of an include is among the files -/
def Target (w : World) (s : Settings) (files N : List (List Char)) (q : List Char) (t : IncType) : Prop :=
  ∀ g, first w.fs (places w s.paths N q t) = some g → g ∈ files

/-- an include was followed, also one of a macro if it has only one value -/
def Hits (w : World) (s : Settings) (A : List Entry) (N : List (List Char)) (D : List (List Char × List Char × IncType))
    (q : List Char) (t : IncType) : Prop :=
  Target w s (names A) N q t ∧ (t = .macro → isFullPath w.platform q = false → ∀ p t', (q, p, t') ∈ D →
    (∀ e ∈ A, ∀ d ∈ e.parsed.incDefs, d.1 = q → d.2 = (p, t')) → Target w s (names A) N p t')

theorem names_mono {A B : List Entry} (h : ∀ e ∈ A, e ∈ B) {n : List Char} (hn : n ∈ names A) : n ∈ names B := by
  obtain ⟨e, h1, h2⟩ := mem_names.1 hn
  exact mem_names.2 ⟨e, h e h1, h2⟩

theorem Hits.mono {w : World} {s : Settings} {A B : List Entry} {N : List (List Char)} {D D'} {q : List Char} {t : IncType}
    (h : Hits w s A N D q t) (hA : ∀ e ∈ A, e ∈ B) (hD : ∀ d ∈ D', d ∈ D) : Hits w s B N D' q t :=
  ⟨fun g hg => names_mono hA (h.1 g hg),
   fun h1 h2 p t' h3 h4 g hg => names_mono hA (h.2 h1 h2 p t' (hD _ h3) (fun e he => h4 e (hA e he)) g hg)⟩

/-- all includes of a file were followed -/
def Closed (w : World) (s : Settings) (A : List Entry) (e : Entry) : Prop :=
  ∃ S, (∀ n ∈ S, n ∈ names A) ∧ ∀ i ∈ e.parsed.includes, Hits w s A (e.name :: S) e.parsed.incDefs i.1 i.2

theorem Closed.mono {w : World} {s : Settings} {A B : List Entry} {e : Entry} (h : Closed w s A e) (hA : ∀ e ∈ A, e ∈ B) :
    Closed w s B e := by
  obtain ⟨S, h1, h2⟩ := h
  exact ⟨S, fun n hn => names_mono hA (h1 n hn), fun i hi => (h2 i hi).mono hA (fun _ h => h)⟩

/-- what processing an include does to the state -/
structure Walk (w : World) (s : Settings) (k : Prop) (st st' : State) : Prop where
  inv : Inv w s k st'
  all : ∀ e ∈ st.all, e ∈ st'.all
  stack : st'.stack = st.stack
  defs : ∀ d ∈ st.incDefs, d ∈ st'.incDefs
  failed : st.failed = true → st'.failed = true
  closed : ∀ e ∈ st'.all, e ∈ st.all ∨ Closed w s st'.all e

theorem Walk.refl {w : World} {s : Settings} {k : Prop} {st : State} (h : Inv w s k st) : Walk w s k st st :=
  ⟨h, fun _ h => h, rfl, fun _ h => h, id, fun _ h => Or.inl h⟩

theorem Walk.trans {w : World} {s : Settings} {k : Prop} {a b c : State} (h1 : Walk w s k a b) (h2 : Walk w s k b c) : Walk w s k a c := by
  refine ⟨h2.inv, fun e h => h2.all e (h1.all e h), h2.stack.trans h1.stack, fun d h => h2.defs d (h1.defs d h),
    fun h => h2.failed (h1.failed h), ?_⟩
  intro e he
  rcases h2.closed e he with he | he
  · rcases h1.closed e he with he | he
    · exact Or.inl he
    · exact Or.inr (he.mono h2.all)
  · exact Or.inr he

/-- the induction hypothesis for one include -/
def GoOk (w : World) (s : Settings) (k : Prop) (go : State → List Char → IncType → Option State) : Prop :=
  ∀ st q t st', Inv w s k st → go st q t = some st' → Walk w s k st st' ∧ Hits w s st'.all (names st.stack) st.incDefs q t

theorem fold_walk {w : World} {s : Settings} {k : Prop} {go : State → List Char → IncType → Option State} (hgo : GoOk w s k go) :
    ∀ (l : List (List Char × IncType)) (st st' : State), Inv w s k st → l.foldlM (fun st i => go st i.1 i.2) st = some st' →
      Walk w s k st st' ∧ ∀ i ∈ l, Hits w s st'.all (names st.stack) st.incDefs i.1 i.2
  | [], st, st', hi, h => by
    simp only [List.foldlM_nil, Option.pure_def, Option.some.injEq] at h
    subst h
    exact ⟨Walk.refl hi, by simp⟩
  | i :: l, st, st', hi, h => by
    rw [List.foldlM_cons] at h
    cases hg : go st i.1 i.2 with
    | none => rw [hg] at h; simp at h
    | some st1 =>
      rw [hg] at h
      obtain ⟨a1, a2⟩ := hgo _ _ _ _ hi hg
      obtain ⟨b1, b2⟩ := fold_walk hgo l st1 st' a1.inv h
      refine ⟨a1.trans b1, ?_⟩
      intro j hj
      rcases List.mem_cons.1 hj with rfl | hj
      · exact a2.mono b1.all (fun _ h => h)
      · have := b2 j hj
        rw [a1.stack] at this
        exact this.mono (fun _ h => h) a1.defs

/-- what happens with a file found -/
theorem visit_walk {w : World} {s : Settings} {k : Prop} {go : State → List Char → IncType → Option State} (hgo : GoOk w s k go)
    {cands : List (List Char)} {st st1 st' : State} {f : Found} (hi : Inv w s k st) (hl : LookedUp w s k cands st f st1)
    (h : visit go f st1 = some st') : Walk w s k st st' ∧ ∀ g, first w.fs cands = some g → g ∈ names st'.all := by
  have keep : ∀ (hd : st1.incDefs = st.incDefs), Walk w s k st st1 := by
    intro hd
    refine ⟨⟨hl.look.cache, hl.look.ok, ?_, ?_, ?_, ?_⟩, ?_, hl.look.stack, ?_, hl.look.failed, ?_⟩
    · intro e he
      rw [hl.look.all] at he
      obtain ⟨a, b, c⟩ := hi.all e he
      exact ⟨hl.look.sub e a, b, fun d hdd => by rw [hd]; exact c d hdd⟩
    · intro e he
      rw [hl.look.stack] at he
      rw [hl.look.all]
      exact hi.stack e he
    · intro d hdd
      rw [hd] at hdd
      rw [hl.look.all]
      exact hi.defs d hdd
    · rw [hl.look.all]; exact hi.nodup
    · intro e he; rw [hl.look.all]; exact he
    · intro d h; rw [hd]; exact h
    · intro e he; rw [hl.look.all] at he; exact Or.inl he
  rw [visit] at h
  cases hf : f.file with
  | none =>
    rw [hf] at h
    simp only [Option.some.injEq] at h
    subst h
    refine ⟨keep (hl.missing hf), ?_⟩
    intro g hg
    have := hl.first
    rw [hf, hg] at this
    simp at this
  | some e =>
    rw [hf] at h
    simp only at h
    obtain ⟨k1, k2, k3, k4⟩ := hl.found e hf
    have hfirst : ∀ g, first w.fs cands = some g → g = e.name := by
      intro g hg
      have := hl.first
      rw [hf, hg] at this
      simpa using this.symm
    rw [if_neg (by simp [k2])] at h
    cases hcy : f.cyclic
    · rw [hcy] at h
      simp only [Bool.false_eq_true, if_false] at h
      have hd := k4 hcy
      by_cases hseen : (st1.all.find? (·.name = e.name)).isSome
      · rw [if_pos hseen] at h
        simp only [Option.some.injEq] at h
        subst h
        -- the definitions are already known
        rw [hl.look.all] at hseen
        obtain ⟨x, hx⟩ := Option.isSome_iff_exists.1 hseen
        have hx1 := List.mem_of_find?_eq_some hx
        have hx2 := List.find?_some hx
        simp only [decide_eq_true_eq] at hx2
        have hsame : e.parsed = x.parsed := by
          have c1 := hl.look.cache e k1
          have c2 := hi.cache x (hi.all x hx1).1
          rw [c1.2.2.1, c2.2.2.1, hx2]
        refine ⟨⟨⟨hl.look.cache, hl.look.ok, ?_, ?_, ?_, ?_⟩, ?_, hl.look.stack, ?_, hl.look.failed, ?_⟩, ?_⟩
        · intro y hy
          rw [hl.look.all] at hy
          obtain ⟨a, b, c⟩ := hi.all y hy
          exact ⟨hl.look.sub y a, b, fun d hdd => by rw [hd]; exact List.mem_append_left _ (c d hdd)⟩
        · intro y hy
          rw [hl.look.stack] at hy
          rw [hl.look.all]
          exact hi.stack y hy
        · intro d hdd
          rw [hd] at hdd
          rw [hl.look.all]
          rcases List.mem_append.1 hdd with hdd | hdd
          · exact hi.defs d hdd
          · rw [hsame] at hdd
            exact ⟨x, hx1, hdd⟩
        · rw [hl.look.all]; exact hi.nodup
        · intro y hy; rw [hl.look.all]; exact hy
        · intro d h; rw [hd]; exact List.mem_append_left _ h
        · intro y hy; rw [hl.look.all] at hy; exact Or.inl hy
        · intro g hg
          rw [hfirst g hg, hl.look.all]
          exact mem_names.2 ⟨x, hx1, hx2⟩
      · rw [if_neg hseen] at h
        have hnone : ∀ x ∈ st.all, x.name ≠ e.name := by
          intro x hx hne
          rw [hl.look.all] at hseen
          refine hseen ?_
          rw [List.find?_isSome]
          exact ⟨x, hx, by simp [hne]⟩
        -- the state with the file
        let st2 : State := { st1 with all := st1.all ++ [e], stack := e :: st1.stack }
        have hinv2 : Inv w s k st2 := by
          refine ⟨hl.look.cache, hl.look.ok, ?_, ?_, ?_, ?_⟩
          · intro y hy
            simp only [st2, List.mem_append, List.mem_singleton] at hy
            rcases hy with hy | rfl
            · rw [hl.look.all] at hy
              obtain ⟨a, b, c⟩ := hi.all y hy
              refine ⟨hl.look.sub y a, b, fun d hdd => ?_⟩
              simp only [st2, hd]
              exact List.mem_append_left _ (c d hdd)
            · refine ⟨k1, k2, fun d hdd => ?_⟩
              simp only [st2, hd]
              exact List.mem_append_right _ hdd
          · intro y hy
            simp only [st2, List.mem_cons] at hy
            simp only [st2, List.mem_append, List.mem_singleton]
            rcases hy with rfl | hy
            · exact Or.inr rfl
            · rw [hl.look.stack] at hy
              rw [hl.look.all]
              exact Or.inl (hi.stack y hy)
          · intro d hdd
            simp only [st2, hd] at hdd
            rcases List.mem_append.1 hdd with hdd | hdd
            · obtain ⟨x, hx1, hx2⟩ := hi.defs d hdd
              exact ⟨x, by simp only [st2, hl.look.all]; exact List.mem_append_left _ hx1, hx2⟩
            · exact ⟨e, by simp [st2], hdd⟩
          · simp only [st2, hl.look.all, names, List.map_append, List.map_cons, List.map_nil]
            rw [List.nodup_append]
            refine ⟨hi.nodup, by simp, ?_⟩
            intro a ha b hb
            obtain ⟨x, hx, rfl⟩ := List.mem_map.1 ha
            simp only [List.mem_singleton] at hb
            subst hb
            exact hnone x hx
        cases hfo : e.parsed.includes.foldlM (fun st i => go st i.1 i.2) st2 with
        | none => simp only [st2] at hfo; rw [hfo] at h; simp at h
        | some st3 =>
          have hfo' := hfo
          simp only [st2] at hfo'
          rw [hfo'] at h
          simp only [Option.some.injEq] at h
          obtain ⟨w1, w2⟩ := fold_walk hgo _ _ _ hinv2 hfo
          have hst3 : st3.stack = e :: st.stack := by
            rw [w1.stack]; simp only [st2]; rw [hl.look.stack]
          have hall : ∀ x ∈ st.all, x ∈ st3.all := by
            intro x hx
            refine w1.all x ?_
            simp only [st2, hl.look.all]
            exact List.mem_append_left _ hx
          have he3 : e ∈ st3.all := w1.all e (by simp [st2])
          have hmem : st'.all = st3.all := by rw [← h]
          have hclosed : Closed w s st3.all e := by
            refine ⟨names st.stack, ?_, ?_⟩
            · intro n hn
              obtain ⟨x, hx1, hx2⟩ := mem_names.1 hn
              exact mem_names.2 ⟨x, hall x (hi.stack x hx1), hx2⟩
            · intro i hi'
              have := w2 i hi'
              have e1 : names st2.stack = e.name :: names st.stack := by
                simp only [st2, hl.look.stack, names, List.map_cons]
              rw [e1] at this
              refine this.mono (fun _ h => h) ?_
              intro d hdd
              simp only [st2, hd]
              exact List.mem_append_right _ hdd
          refine ⟨⟨?_, ?_, ?_, ?_, ?_, ?_⟩, ?_⟩
          · subst h
            refine ⟨w1.inv.cache, w1.inv.ok, w1.inv.all, ?_, w1.inv.defs, w1.inv.nodup⟩
            intro y hy
            simp only [hst3, List.tail_cons] at hy
            exact hall y (hi.stack y hy)
          · intro x hx
            rw [hmem]
            exact hall x hx
          · subst h
            simp only [hst3, List.tail_cons]
          · intro d hdd
            subst h
            refine w1.defs d ?_
            simp only [st2, hd]
            exact List.mem_append_left _ hdd
          · intro hfa
            subst h
            exact w1.failed (hl.look.failed hfa)
          · intro x hx
            rw [hmem] at hx ⊢
            rcases w1.closed x hx with hx | hx
            · simp only [st2, List.mem_append, List.mem_singleton] at hx
              rcases hx with hx | rfl
              · rw [hl.look.all] at hx
                exact Or.inl hx
              · exact Or.inr hclosed
            · exact Or.inr hx
          · intro g hg
            rw [hfirst g hg, hmem]
            exact mem_names.2 ⟨e, he3, rfl⟩
    · rw [hcy] at h
      simp only [if_true, Option.some.injEq] at h
      subst h
      obtain ⟨c1, c2⟩ := k3 hcy
      refine ⟨keep c2, ?_⟩
      intro g hg
      rw [hfirst g hg, hl.look.all]
      exact mem_names.2 ⟨e, hi.stack e c1, rfl⟩

theorem target_macro {w : World} {s : Settings} {F N : List (List Char)} {q : List Char} (h : isFullPath w.platform q = false) :
    Target w s F N q .macro := by
  intro g hg
  rw [places.eq_def, if_neg (by simp [h])] at hg
  simp [first] at hg

theorem walk (w : World) (s : Settings) (k : Prop) : ∀ fuel, GoOk w s k (processInclude w s fuel)
  | 0 => by intro st q t st' _ h; simp [processInclude] at h
  | fuel + 1 => by
    have ih := walk w s k fuel
    intro st q t st' hi h
    rw [processInclude] at h
    by_cases hm : isFullPath w.platform q = false ∧ t = .macro
    · rw [if_pos hm] at h
      obtain ⟨hm1, rfl⟩ := hm
      cases hf : st.incDefs.find? (·.1 = q) with
      | some d =>
        rw [hf] at h
        have hd1 := List.mem_of_find?_eq_some hf
        have hd2 := List.find?_some hf
        simp only [decide_eq_true_eq] at hd2
        obtain ⟨a, p, t⟩ := d
        simp only at h hd2
        obtain ⟨w1, w2⟩ := ih _ _ _ _ hi h
        refine ⟨w1, target_macro hm1, ?_⟩
        intro _ _ p' t' hp huniq
        obtain ⟨e, he1, he2⟩ := hi.defs _ hd1
        have := huniq e (w1.all e he1) _ he2 hd2
        simp only [Prod.mk.injEq] at this
        obtain ⟨rfl, rfl⟩ := this
        exact w2.1
      | none =>
        rw [hf] at h
        simp only at h
        have hnone : ∀ p t', (q, p, t') ∉ st.incDefs := by
          intro p t' hp
          have := List.find?_eq_none.1 hf _ hp
          simp at this
        split at h
        · simp only [Option.some.injEq] at h
          subst h
          refine ⟨⟨⟨hi.cache, fun _ _ _ => rfl, hi.all, hi.stack, hi.defs, hi.nodup⟩, fun _ h => h, rfl, fun _ h => h, fun _ => rfl,
            fun _ h => Or.inl h⟩, target_macro hm1, ?_⟩
          intro _ _ p' t' hp
          exact absurd hp (hnone _ _)
        · simp only [Option.some.injEq] at h
          subst h
          refine ⟨Walk.refl hi, target_macro hm1, ?_⟩
          intro _ _ p' t' hp
          exact absurd hp (hnone _ _)
    · rw [if_neg hm] at h
      have hl := lookup_spec (w := w) (s := s) (cands := cands w s st.stack q t) (st := st) hi.cache hi.ok
        (fun e he => ⟨(hi.all e (hi.stack e he)).1, (hi.all e (hi.stack e he)).2.1⟩)
      cases hlk : lookup w s (cands w s st.stack q t) st with
      | mk f st1 =>
        rw [hlk] at h hl
        obtain ⟨w1, w2⟩ := visit_walk ih hi hl h
        refine ⟨w1, ?_, ?_⟩
        · intro g hg
          rw [← cands_places] at hg
          exact w2 g hg
        · intro h1 h2
          exact absurd ⟨h2, h1⟩ hm

/-- the state at the beginning -/
theorem inv_start {w : World} {s : Settings} {k : Prop} {cache : List Entry} (h : ∀ e ∈ cache, Cons w s k e)
    (ho : ∀ e ∈ cache, e.parsed.ok = true) : Inv w s k { cache := cache } := by
  refine ⟨h, ?_, by simp, by simp, by simp, by simp [names]⟩
  intro e he hok
  rw [ho e he] at hok
  simp at hok

theorem fold_roots {w : World} {s : Settings} {k : Prop} {fuel : Nat} : ∀ (l : List (List Char)) (st st' : State), Inv w s k st →
    l.foldlM (fun st r => processInclude w s fuel st r .quote) st = some st' →
      Walk w s k st st' ∧ ∀ r ∈ l, Target w s (names st'.all) (names st.stack) r .quote
  | [], st, st', hi, h => by
    simp only [List.foldlM_nil, Option.pure_def, Option.some.injEq] at h
    subst h
    exact ⟨Walk.refl hi, by simp⟩
  | i :: l, st, st', hi, h => by
    rw [List.foldlM_cons] at h
    cases hg : processInclude w s fuel st i .quote with
    | none => rw [hg] at h; simp at h
    | some st1 =>
      rw [hg] at h
      obtain ⟨a1, a2⟩ := walk w s k fuel _ _ _ _ hi hg
      obtain ⟨b1, b2⟩ := fold_roots l st1 st' a1.inv h
      refine ⟨a1.trans b1, ?_⟩
      intro j hj
      rcases List.mem_cons.1 hj with rfl | hj
      · exact fun g hg => names_mono b1.all (a2.1 g hg)
      · have := b2 j hj
        rw [a1.stack] at this
        exact this

/-- what is known of the files visited -/
theorem process_closed {w : World} {s : Settings} {k : Prop} {fuel : Nat} {cache : List Entry} {roots : List (List Char)} {st : State}
    (hf : ∀ e ∈ cache, Cons w s k e) (ho : ∀ e ∈ cache, e.parsed.ok = true) (h : process w s fuel cache roots = some st) :
    Inv w s k st ∧ (∀ r ∈ roots, Target w s (names st.all) [] r .quote) ∧ ∀ e ∈ st.all, Closed w s st.all e := by
  obtain ⟨h1, h2⟩ := fold_roots roots _ st (inv_start hf ho) h
  refine ⟨h1.inv, h2, ?_⟩
  intro e he
  rcases h1.closed e he with h | h
  · simp at h
  · exact h

theorem cons_of_fresh {w : World} {s : Settings} {cache : List Entry} (h : Fresh w cache) : ∀ e ∈ cache, Cons w s False e :=
  fun e he => ⟨(h e he).1, (h e he).2.1, (h e he).2.2, False.elim⟩

/-! ## What a compiler opens was visited -/

/-- the first existing place does not depend on the files around -/
theorem target_local {w : World} {s : Settings} {A : List Entry} {f : List Char} {S S' : List (List Char)} {q : List Char} {t : IncType}
    (hloc : t = .quote → isFullPath w.platform q = false → ∀ g ∈ names A, (w.fs (clean w (dirOf g ++ q))).isSome →
      (w.fs (clean w (dirOf f ++ q))).isSome)
    (hS : ∀ n ∈ S, n ∈ names A) (hS' : ∀ n ∈ S', n ∈ names A) :
    first w.fs (places w s.paths (f :: S) q t) = first w.fs (places w s.paths (f :: S') q t) := by
  rw [places.eq_def, places.eq_def]
  split
  · rfl
  · rename_i hfull
    cases t with
    | angle => rfl
    | «macro» => rfl
    | quote =>
      simp only [first, List.map_cons, List.cons_append, List.find?_cons]
      cases hx : (w.fs (clean w (dirOf f ++ q))).isSome
      · simp only [Bool.false_eq_true]
        have key : ∀ T : List (List Char), (∀ n ∈ T, n ∈ names A) →
            (T.map fun f => clean w (dirOf f ++ q)).find? (fun f => (w.fs f).isSome) = none := by
          intro T hT
          rw [List.find?_eq_none]
          intro x hx'
          obtain ⟨n, hn, rfl⟩ := List.mem_map.1 hx'
          intro hsome
          have := hloc rfl (by simpa using hfull) n (hT n hn) hsome
          rw [hx] at this
          simp at this
        rw [List.find?_append, List.find?_append, key S hS, key S' hS']
      · rfl

theorem names_not_full {p : Platform} {s m r : List Char} (h : Names s m r) : isFullPath p m = false := by
  cases h with
  | mk c q r h1 h2 h3 =>
    cases p with
    | linux =>
      simp only [isFullPath, List.head?_cons, beq_eq_false_iff_ne, ne_eq, Option.some.injEq]
      rintro rfl
      revert h1; decide
    | windows =>
      have n1 : c ≠ '\\' := by rintro rfl; revert h1; decide
      have n2 : (c :: q)[1]? ≠ some ':' := by
        cases q with
        | nil => simp
        | cons d q =>
          simp only [List.getElem?_cons_succ, List.getElem?_cons_zero, ne_eq, Option.some.injEq]
          rintro rfl
          have := h2 ':' List.mem_cons_self
          revert this; decide
      simp only [isFullPath, Bool.or_eq_false_iff, beq_eq_false_iff_ne]
      refine ⟨n2, ?_⟩
      simp only [List.isPrefixOf, Bool.and_eq_false_iff, beq_eq_false_iff_ne]
      exact Or.inl (Ne.symm n1)

theorem opens_visited {w : World} {s : Settings} {fuel : Nat} {cache : List Entry} {roots : List (List Char)} {st : State}
    (hf : Fresh w cache) (ho : ∀ e ∈ cache, e.parsed.ok = true) (h : process w s fuel cache roots = some st)
    (hok : st.failed = false) (htame : ∀ f ∈ names st.all, ∀ text, w.fs f = some text → Tame text)
    (hloc : Local w (names st.all)) (hone : OneValue w (names st.all)) :
    ∀ {S : List (List Char)} {f : List Char}, Opens w s.paths roots S f → (∀ n ∈ S, n ∈ names st.all) ∧ f ∈ names st.all := by
  obtain ⟨hinv, hroot, hclosed⟩ := process_closed (k := False) (cons_of_fresh hf) ho h
  -- what the parser found in a visited file
  have hparse : ∀ e ∈ st.all, ∀ text, w.fs e.name = some text → ∃ r, parse text = some r ∧ e.parsed = r ∧ r.ok = true := by
    intro e he text ht
    obtain ⟨r, hr⟩ := parse_some text
    have hc := (hinv.cache e (hinv.all e he).1).2.2.1
    rw [ht] at hc
    simp only [Option.bind_some, hr, Option.getD_some] at hc
    refine ⟨r, hr, hc, ?_⟩
    cases hk : r.ok
    · have := hinv.ok e (hinv.all e he).1 (by rw [hc]; exact hk)
      rw [hok] at this
      simp at this
    · rfl
  have hinc : ∀ e ∈ st.all, ∀ text, w.fs e.name = some text → ∀ q t, SeesInclude text q t → (q, t) ∈ e.parsed.includes := by
    intro e he text ht q t hs
    obtain ⟨r, hr, hc, hk⟩ := hparse e he text ht
    obtain ⟨a, g, x, h1, h2, h3, h4⟩ := hs
    have := parse_finds (htame e.name (mem_names.2 ⟨e, he, rfl⟩) text ht) h1 hr
    rw [directive_path h2 h3 h4] at this
    rcases this with this | this
    · rw [hk] at this; simp at this
    · rw [hc]; exact this
  have hmac : ∀ e ∈ st.all, ∀ text, w.fs e.name = some text → ∀ m, SeesMacro text m → (m, IncType.macro) ∈ e.parsed.includes := by
    intro e he text ht m hs
    obtain ⟨r, hr, hc, hk⟩ := hparse e he text ht
    obtain ⟨a, g, x, y, h1, h2, h3, h4⟩ := hs
    have := parse_finds (htame e.name (mem_names.2 ⟨e, he, rfl⟩) text ht) h1 hr
    rw [directive_macro h2 h3 h4] at this
    rcases this with this | this
    · rw [hk] at this; simp at this
    · rw [hc]; exact this
  have hdef : ∀ e ∈ st.all, ∀ text, w.fs e.name = some text → ∀ m p t, Defines text m p t → (m, p, t) ∈ e.parsed.incDefs := by
    intro e he text ht m p t hs
    obtain ⟨r, hr, hc, hk⟩ := hparse e he text ht
    obtain ⟨a, g1, s1, g2, s2, h1, h2, h3, h4, h5, h6⟩ := hs
    have := parse_finds (htame e.name (mem_names.2 ⟨e, he, rfl⟩) text ht) h1 hr
    rw [directive_def h2 h3 h4 h5 h6] at this
    rcases this with this | this
    · rw [hk] at this; simp at this
    · rw [hc]; exact this
  intro S f hopen
  induction hopen with
  | @root r f hr hfirst => exact ⟨by simp, hroot r hr f hfirst⟩
  | @path S f text q t g _ ht hs hfirst ih =>
    obtain ⟨ihS, ihf⟩ := ih
    obtain ⟨e, he, rfl⟩ := mem_names.1 ihf
    have hi := hinc e he text ht q t hs
    obtain ⟨S', hS', hhits⟩ := hclosed e he
    refine ⟨?_, ?_⟩
    · intro n hn
      rcases List.mem_cons.1 hn with rfl | hn
      · exact ihf
      · exact ihS n hn
    · refine (hhits _ hi).1 g ?_
      rw [← hfirst]
      refine target_local (A := st.all) ?_ hS' ihS
      rintro rfl hfull g' hg' hsome
      obtain ⟨r, hr, hc, _⟩ := hparse e he text ht
      exact hloc _ ihf g' hg' text r q ht hr (Or.inl (by rw [← hc]; exact hi)) hfull hsome
  | @named S f text m S' f' text' p t g _ ht hs _ ht' hd hfirst ih ih' =>
    obtain ⟨ihS, ihf⟩ := ih
    obtain ⟨e, he, rfl⟩ := mem_names.1 ihf
    obtain ⟨e', he', rfl⟩ := mem_names.1 ih'.2
    have hi := hmac e he text ht m hs
    obtain ⟨S2, hS2, hhits⟩ := hclosed e he
    obtain ⟨p0, t0, hd0, huniq⟩ := hone _ ihf text m ht hs
    have hd1 := hdef e he text ht m p0 t0 hd0
    have hd2 := hdef e' he' text' ht' m p t hd
    have huniq' : ∀ e ∈ st.all, ∀ d ∈ e.parsed.incDefs, d.1 = m → d.2 = (p0, t0) := by
      intro x hx d hdx hm
      obtain ⟨tx, htx⟩ : ∃ tx, w.fs x.name = some tx := by
        have := (hinv.cache x (hinv.all x hx).1).1
        rw [(hinv.all x hx).2.1] at this
        exact Option.isSome_iff_exists.1 this.symm
      obtain ⟨r, hr, hc, _⟩ := hparse x hx tx htx
      exact huniq x.name (mem_names.2 ⟨x, hx, rfl⟩) tx r d htx hr (by rw [← hc]; exact hdx) hm
    have heq := huniq' e' he' _ hd2 rfl
    simp only [Prod.mk.injEq] at heq
    obtain ⟨rfl, rfl⟩ := heq
    refine ⟨?_, ?_⟩
    · intro n hn
      rcases List.mem_cons.1 hn with rfl | hn
      · exact ihf
      · exact ihS n hn
    · have hnf : isFullPath w.platform m = false := by
        obtain ⟨_, _, _, _, _, _, _, hn⟩ := hs
        exact names_not_full hn
      refine (hhits _ hi).2 rfl hnf p t hd1 huniq' g ?_
      rw [← hfirst]
      refine target_local (A := st.all) ?_ hS2 ihS
      rintro rfl hfull g' hg' hsome
      obtain ⟨r, hr, hc, _⟩ := hparse e he text ht
      exact hloc _ ihf g' hg' text r p ht hr (Or.inr ⟨m, by rw [← hc]; exact hd1⟩) hfull hsome

end Verif.Light
