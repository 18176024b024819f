import Verif.Decl.Populate
/-
Theorems about how targets are made of the variables of a build file: properties (C93), lists of targets (C94), definitions (C95).
-/
namespace Verif.Decl
open Verif.Bff (Val)

/-! ### lists of targets (C94) -/

theorem takes_custom (t : NType) : customOpts.takes t = true ↔ Target t := by
  cases t <;> simp [customOpts, Opts.takes, NType.isFile, Target]

/-- the options of `GetNodeList` if none are given, Function.h:28-36 -/
def plainOpts : Opts := ⟨false, false, false, false, false⟩

theorem takes_plain (t : NType) : plainOpts.takes t = true ↔ Input t := by
  cases t <;> simp [plainOpts, Opts.takes, NType.isFile, Input]

theorem usable_congr {S T : NType → Prop} (h : ∀ t, S t ↔ T t) (g : Graph) (n : Nat) : Usable S g n ↔ Usable T g n := by
  unfold Usable; simp only [h]

theorem listProp_strs {K : Ctx} {o : Opts} {prop : Name} {req : Bool} {g : Graph} {v : Val} {ss : List Name} (hv : K.var prop = some v)
    (hs : Strs v ss) : listProp K o prop req g = listEach K o ss g [] := by
  unfold listProp
  rw [hv]
  rcases hs with rfl | ⟨s, rfl, rfl⟩ <;> rfl

/-- A list of targets is accepted exactly if no name is empty and each that is known is, or stands for, targets only. -/
theorem C94_accepted {K : Ctx} {N : Name → Prop} (ht : Tidy K N) (hc : CleanNe K N) {g : Graph} (h : WF g) (prop : Name) (req : Bool) (v : Val)
    (ss : List Name) (hv : K.var prop = some v) (hs : Strs v ss) (hN : ∀ s ∈ ss, N s) :
    (∃ r, listProp K customOpts prop req g = .ok r) ↔ ∀ s ∈ ss, s ≠ [] ∧ ∀ n, find K g s = some n → Usable Target g n := by
  rw [listProp_strs hv hs, (listEach_spec ht hc customOpts ss g [] h hN).1]
  simp only [usable_congr takes_custom]

/-- What a list of targets gives: for each name what it stands for, without repetition, in order. Names not known are files and are
added to the graph; nothing else changes, and all names are known then. -/
theorem C94_list {K : Ctx} {N : Name → Prop} (ht : Tidy K N) (hc : CleanNe K N) {g g' : Graph} (h : WF g) (prop : Name) (req : Bool) (v : Val)
    (ss : List Name) (hv : K.var prop = some v) (hs : Strs v ss) (hN : ∀ s ∈ ss, N s) (l : List Nat)
    (hr : listProp K customOpts prop req g = .ok (g', l)) :
    ∃ fs, g' = WithFiles K g fs ∧ (∀ s ∈ fs, s ∈ ss ∧ find K g s = none) ∧ WF g' ∧ Extends K N g g' ∧ (∀ s ∈ ss, (find K g' s).isSome) ∧
      l = ss.flatMap fun s => match find K g' s with
        | some n => firsts (targets g' n)
        | none => [] := by
  rw [listProp_strs hv hs] at hr
  obtain ⟨fs, e1, e2, e3, e4, e5, e6⟩ := (listEach_spec ht hc customOpts ss g [] h hN).2 g' l hr
  refine ⟨fs, e1, e2, e3, e4, e5, ?_⟩
  rw [e6, List.nil_append]
  rfl

/-- without a value nothing is added, and a required list is refused; anything but strings is refused -/
theorem C94_other (K : Ctx) (o : Opts) (prop : Name) (req : Bool) (g : Graph) (r : Graph × List Nat) (hr : listProp K o prop req g = .ok r) :
    (K.var prop = none ∧ req = false ∧ r = (g, [])) ∨ ∃ v ss, K.var prop = some v ∧ Strs v ss := by
  unfold listProp at hr
  cases hv : K.var prop with
  | none =>
    rw [hv] at hr
    cases req with
    | true => simp at hr
    | false => simp at hr; exact Or.inl ⟨rfl, rfl, hr.symm⟩
  | some v =>
    rw [hv] at hr
    right
    cases v with
    | strs ss => exact ⟨_, ss, rfl, Or.inl rfl⟩
    | str s => exact ⟨_, [s], rfl, Or.inr ⟨s, rfl, rfl⟩⟩
    | _ => cases hr

/-- The inputs of other nodes, such as the files of a copy or the sources of a library: the same with files and lists of objects only, and
repetitions stay. -/
theorem C94_inputs {K : Ctx} {N : Name → Prop} (ht : Tidy K N) (hc : CleanNe K N) {g : Graph} (h : WF g) (ss : List Name) (hN : ∀ s ∈ ss, N s)
    (hne : ∀ s ∈ ss, s ≠ []) :
    ((∃ r, listAll K plainOpts ss g = .ok r) ↔ ∀ s ∈ ss, ∀ n, find K g s = some n → Usable Input g n) ∧
    (∀ g' l, listAll K plainOpts ss g = .ok (g', l) → ∃ fs, g' = WithFiles K g fs ∧ (∀ s ∈ fs, s ∈ ss ∧ find K g s = none) ∧ WF g' ∧
      Extends K N g g' ∧ (∀ s ∈ ss, (find K g' s).isSome) ∧
      l = ss.flatMap fun s => match find K g' s with
        | some n => targets g' n
        | none => []) := by
  have e : listAll K plainOpts ss g = listEach K plainOpts ss g [] := by
    unfold listAll
    exact listSweep_each K plainOpts rfl ss g ⟨[], []⟩ hne
  rw [e]
  have key := listEach_spec ht hc plainOpts ss g [] h hN
  refine ⟨?_, ?_⟩
  · rw [key.1]
    simp only [usable_congr takes_plain]
    constructor
    · intro hh s hs; exact (hh s hs).2
    · intro hh s hs; exact ⟨hne s hs, hh s hs⟩
  · intro g' l hr
    obtain ⟨fs, e1, e2, e3, e4, e5, e6⟩ := key.2 g' l hr
    exact ⟨fs, e1, e2, e3, e4, e5, by rw [e6, List.nil_append]; rfl⟩

/-- `firsts` has no repetition, the same elements, and keeps the order -/
theorem C94_firsts (l : List Nat) : (firsts l).Nodup ∧ (∀ x, x ∈ firsts l ↔ x ∈ l) ∧ (firsts l).Sublist l := by
  refine ⟨(firsts_spec l).1, (firsts_spec l).2, ?_⟩
  induction l with
  | nil => exact List.Sublist.slnil
  | cons a l ih => rw [firsts]; exact (List.filter_sublist.trans ih).cons_cons a

/-! ### strings (C93) -/

theorem C93_strs {K : Ctx} {g : Graph} (h : WF g) (m : Meta) (v : Val) (g' : Graph) (p : Option PV) :
    property K .strs m (some v) g = .ok (g', p) ↔ g' = g ∧ ∃ ss l, Strs v ss ∧ All2 (Value K g m) (parts K g m ss) l ∧
      (m.required = true → l ≠ []) ∧ [] ∉ l ∧ p = some (.strs l) := by
  rw [property]
  unfold popStrs
  constructor
  · intro hr
    cases hs : strings K g m.path m.file m.nonFile v with
    | error e => rw [hs] at hr; cases hr
    | ok l =>
      rw [hs] at hr
      dsimp only at hr
      obtain ⟨ss, h1, h2⟩ := (strings_ok h m v l).1 hs
      by_cases h3 : l = [] ∧ m.required = true
      · rw [if_pos h3] at hr; cases hr
      · rw [if_neg h3] at hr
        by_cases h4 : [] ∈ l
        · rw [if_pos h4] at hr; cases hr
        · rw [if_neg h4] at hr
          cases hr
          exact ⟨rfl, ss, l, h1, h2, fun hq hl => h3 ⟨hl, hq⟩, h4, rfl⟩
  · rintro ⟨rfl, ss, l, h1, h2, h3, h4, rfl⟩
    rw [(strings_ok h m v l).2 ⟨ss, h1, h2⟩]
    dsimp only
    rw [if_neg (by rintro ⟨ha, hb⟩; exact h3 hb ha), if_neg h4]

theorem C93_str {K : Ctx} {g : Graph} (h : WF g) (m : Meta) (v : Val) (g' : Graph) (p : Option PV) :
    property K .str m (some v) g = .ok (g', p) ↔ g' = g ∧ ∃ s, v = .str s ∧
      ((∃ r, All2 (Value K g m) (parts K g m [s]) [r] ∧ r ≠ [] ∧ p = some (.str r)) ∨
       (m.required = false ∧ (∃ l, All2 (Value K g m) (parts K g m [s]) l ∧ l.head?.getD [] = []) ∧ p = some (.str []))) := by
  rw [property]
  unfold popStr
  constructor
  · intro hr
    cases hs : strings K g m.path m.file m.nonFile v with
    | error e => rw [hs] at hr; cases hr
    | ok l =>
      rw [hs] at hr
      dsimp only at hr
      obtain ⟨ss, h1, h2⟩ := (strings_ok h m v l).1 hs
      rcases h1 with rfl | ⟨s, rfl, rfl⟩
      · cases hr
      · dsimp only at hr
        by_cases h3 : l.head?.getD [] = []
        · rw [if_pos h3] at hr
          cases hq : m.required with
          | true => rw [hq] at hr; cases hr
          | false =>
            rw [hq] at hr; cases hr
            exact ⟨rfl, s, rfl, Or.inr ⟨rfl, ⟨l, h2, h3⟩, rfl⟩⟩
        · rw [if_neg h3] at hr
          match l, h2, h3, hr with
          | [r], h2, h3, hr =>
            cases hr
            exact ⟨rfl, s, rfl, Or.inl ⟨r, h2, by simpa using h3, rfl⟩⟩
          | [], _, _, hr => cases hr
          | _ :: _ :: _, _, _, hr => cases hr
  · rintro ⟨rfl, s, rfl, ⟨r, h1, h2, rfl⟩ | ⟨hq, ⟨l, h1, h2⟩, rfl⟩⟩
    · rw [(strings_ok h m _ [r]).2 ⟨[s], Or.inr ⟨s, rfl, rfl⟩, h1⟩]
      dsimp only
      rw [if_neg (by simpa using h2)]
    · rw [(strings_ok h m _ l).2 ⟨[s], Or.inr ⟨s, rfl, rfl⟩, h1⟩]
      dsimp only
      rw [if_pos h2, hq]
      rfl

/-! ### the other types (C93) -/

/-- a property that is not there: nothing is set, unless it is required -/
theorem C93_missing (K : Ctx) (t : Ty) (ht : ∀ c, t ≠ .embed c) (m : Meta) (g g' : Graph) (p : Option PV) :
    property K t m none g = .ok (g', p) ↔ m.required = false ∧ g' = g ∧ p = none := by
  rw [property_none K t m g ht]
  cases m.required with
  | true => simp
  | false => simp [eq_comm]

theorem C93_bool (K : Ctx) (m : Meta) (v : Val) (g g' : Graph) (p : Option PV) :
    property K .bool m (some v) g = .ok (g', p) ↔ ∃ b, v = .bool b ∧ g' = g ∧ p = some (.bool b) := by
  rw [property_bool]
  cases v <;> simp [eq_comm]

/-- a number has to be in the range of the property, if it has one -/
theorem C93_int (K : Ctx) (m : Meta) (v : Val) (g g' : Graph) (p : Option PV) :
    property K .int m (some v) g = .ok (g', p) ↔ ∃ i, v = .int i ∧ (∀ a b, m.range = some (a, b) → a ≤ i ∧ i ≤ b) ∧ g' = g ∧
      p = some (.int i) := by
  rw [property_int]
  cases v with
  | int i =>
    have hq : inRange m i = true ↔ ∀ a b, m.range = some (a, b) → a ≤ i ∧ i ≤ b := by
      unfold inRange
      cases m.range with
      | none => simp
      | some r => obtain ⟨a, b⟩ := r; simp
    by_cases h : inRange m i = true
    · simp only [h, if_true, Except.ok.injEq, Prod.mk.injEq, Val.int.injEq]
      constructor
      · rintro ⟨rfl, rfl⟩; exact ⟨i, rfl, hq.1 h, rfl, rfl⟩
      · rintro ⟨j, rfl, _, rfl, rfl⟩; exact ⟨rfl, rfl⟩
    · simp only [h, if_false, Val.int.injEq]
      constructor
      · intro hh; cases hh
      · rintro ⟨j, rfl, hj, _⟩; exact absurd (hq.2 hj) h
  | _ => simp

/-- A number for an unsigned property has to be in its range; it is stored as it is if it is not negative. -/
theorem C93_uint (K : Ctx) (m : Meta) (v : Val) (g g' : Graph) (p : Option PV) :
    (property K .uint m (some v) g = .ok (g', p) ↔ ∃ i, v = .int i ∧ (∀ a b, m.range = some (a, b) → a ≤ i ∧ i ≤ b) ∧ g' = g ∧
      p = some (.uint (toUInt i))) ∧ ∀ i : Int, 0 ≤ i → i < 4294967296 → (toUInt i : Int) = i := by
  refine ⟨?_, ?_⟩
  · rw [property_uint]
    cases v with
    | int i =>
      have hq : inRange m i = true ↔ ∀ a b, m.range = some (a, b) → a ≤ i ∧ i ≤ b := by
        unfold inRange
        cases m.range with
        | none => simp
        | some r => obtain ⟨a, b⟩ := r; simp
      by_cases h : inRange m i = true
      · simp only [h, if_true, Except.ok.injEq, Prod.mk.injEq, Val.int.injEq]
        constructor
        · rintro ⟨rfl, rfl⟩; exact ⟨i, rfl, hq.1 h, rfl, rfl⟩
        · rintro ⟨j, rfl, _, rfl, rfl⟩; exact ⟨rfl, rfl⟩
      · simp only [h, if_false, Val.int.injEq]
        constructor
        · intro hh; cases hh
        · rintro ⟨j, rfl, hj, _⟩; exact absurd (hq.2 hj) h
    | _ => simp
  · intro i h1 h2
    unfold toUInt
    rw [Int.emod_eq_of_lt h1 h2]
    exact Int.toNat_of_nonneg h1

/-- A negative number for an unsigned property without a range is accepted: `.WorkerConnectionLimit = -1` is a limit of 4294967295. So it
is with `.ConcurrencyLimit` and `.ConcurrencyPerJobMiB`. -/
theorem C93_negative (K : Ctx) (g : Graph) : property K .uint { name := "WorkerConnectionLimit".toList } (some (.int (-1))) g =
    .ok (g, some (.uint 4294967295)) := by
  rw [property_uint]
  rfl

/-! ### classes (C93) -/

theorem look_from (K : Ctx) (ms : List (Name × Val)) (m : Meta) (v : Option Val) : look K ms m = v ↔ From K ms m v := by
  have hm : ∀ ms : List (Name × Val), (∃ a x b, ms = a ++ ('.' :: m.name, x) :: b ∧ (∀ y ∈ a, y.1 ≠ '.' :: m.name) ∧
      Verif.Bff.Interp.member ('.' :: m.name) ms = some x) ∨ ((∀ y ∈ ms, y.1 ≠ '.' :: m.name) ∧ Verif.Bff.Interp.member ('.' :: m.name) ms = none) := by
    intro ms
    induction ms with
    | nil => exact Or.inr ⟨by simp, rfl⟩
    | cons y ms ih =>
      obtain ⟨n, x⟩ := y
      by_cases hn : n = '.' :: m.name
      · subst hn
        exact Or.inl ⟨[], x, ms, rfl, by simp, by simp [Verif.Bff.Interp.member]⟩
      · have e : Verif.Bff.Interp.member ('.' :: m.name) ((n, x) :: ms) = Verif.Bff.Interp.member ('.' :: m.name) ms := by
          simp [Verif.Bff.Interp.member, hn]
        rw [e]
        rcases ih with ⟨a, z, b, h1, h2, h3⟩ | ⟨h1, h2⟩
        · left
          refine ⟨(n, x) :: a, z, b, by rw [h1]; rfl, ?_, h3⟩
          intro y hy
          rcases List.mem_cons.1 hy with rfl | hy
          · exact hn
          · exact h2 y hy
        · right
          refine ⟨?_, h2⟩
          intro y hy
          rcases List.mem_cons.1 hy with rfl | hy
          · exact hn
          · exact h1 y hy
  have uniq : ∀ (a : List (Name × Val)) x b a' x' b', a ++ ('.' :: m.name, x) :: b = a' ++ ('.' :: m.name, x') :: b' →
      (∀ y ∈ a, y.1 ≠ '.' :: m.name) → (∀ y ∈ a', y.1 ≠ '.' :: m.name) → x = x' := by
    intro a
    induction a with
    | nil =>
      intro x b a' x' b' e h1 h2
      cases a' with
      | nil => simp at e; exact e.1
      | cons y a' => simp at e; exact absurd (by rw [← e.1]) (h2 y List.mem_cons_self)
    | cons y a ih =>
      intro x b a' x' b' e h1 h2
      cases a' with
      | nil => simp at e; exact absurd (by rw [e.1]) (h1 y List.mem_cons_self)
      | cons z a' =>
        simp at e
        exact ih x b a' x' b' e.2 (fun w hw => h1 w (List.mem_cons_of_mem _ hw)) (fun w hw => h2 w (List.mem_cons_of_mem _ hw))
  unfold look From
  rcases hm ms with ⟨a, x, b, h1, h2, h3⟩ | ⟨h1, h2⟩
  · rw [h3]
    constructor
    · rintro rfl; exact Or.inl ⟨a, x, b, h1, h2, rfl⟩
    · rintro (⟨a', x', b', e1, e2, rfl⟩ | ⟨hno, _⟩)
      · rw [uniq a x b a' x' b' (h1.symm.trans e1) h2 e2]
      · exact absurd rfl (hno ('.' :: m.name, x) (by rw [h1]; simp))
  · rw [h2]
    constructor
    · rintro rfl; exact Or.inr ⟨h1, rfl⟩
    · rintro (⟨a', x', b', e1, _, _⟩ | ⟨_, rfl⟩)
      · exact absurd rfl (h1 ('.' :: m.name, x') (by rw [e1]; simp))
      · rfl

/-- what a property does, as a relation -/
abbrev Prop1 (K : Ctx) : Ty → Meta → Option Val → Graph → Graph → Option PV → Prop := fun t m v g g' p => property K t m v g = .ok (g', p)

/-- All properties of a class that are not hidden are set, in order, from the variables of their name, and one that is refused refuses
the whole. -/
theorem C93_class (K : Ctx) : ∀ (c : Cls) (lk : Meta → Option Val) (g g' : Graph) (o : Obj),
    populate K c lk g = .ok (g', o) ↔ Runs (Prop1 K) lk c.list g g' o
  | .nil, lk, g, g', o => by
    rw [populate, Cls.list]
    constructor
    · intro h; cases h; exact .nil g
    · intro h; cases h; rfl
  | .cons m t c, lk, g, g', o => by
    rw [populate, Cls.list]
    by_cases hh : m.hidden = true
    · rw [if_pos hh, C93_class K c lk g g' o]
      constructor
      · intro h; exact .hidden hh h
      · intro h
        cases h with
        | hidden _ h => exact h
        | set h => rw [hh] at h; cases h
        | keep h => rw [hh] at h; cases h
    · rw [if_neg hh]
      have hh' : m.hidden = false := by simpa using hh
      constructor
      · intro hr
        cases h1 : property K t m (lk m) g with
        | error e => rw [h1] at hr; cases hr
        | ok r =>
          obtain ⟨g1, p⟩ := r
          rw [h1] at hr
          dsimp only at hr
          cases h2 : populate K c lk g1 with
          | error e => rw [h2] at hr; cases hr
          | ok r =>
            obtain ⟨g2, o2⟩ := r
            rw [h2] at hr
            simp only [Except.ok.injEq, Prod.mk.injEq] at hr
            obtain ⟨rfl, rfl⟩ := hr
            have ih := (C93_class K c lk g1 g2 o2).1 h2
            cases p with
            | none => exact .keep hh' h1 ih
            | some x => exact .set hh' h1 ih
      · intro h
        cases h with
        | hidden h => rw [hh'] at h; cases h
        | set _ h1 h2 =>
          have h1' : property K t m (lk m) g = _ := h1
          rw [h1']
          dsimp only
          rw [(C93_class K c lk _ _ _).2 h2]
        | keep _ h1 h2 =>
          have h1' : property K t m (lk m) g = _ := h1
          rw [h1']
          dsimp only
          rw [(C93_class K c lk _ _ _).2 h2]

theorem elems_ok (f : List (Name × Val) → Graph → Res (Graph × Obj)) : ∀ (l : List (List (Name × Val))) (g g' : Graph) (os : List Obj),
    elems f l g = .ok (g', os) ↔ Elems (fun s a b o => f s a = .ok (b, o)) l g g' os
  | [], g, g', os => by
    simp only [elems]
    constructor
    · intro h; cases h; exact .nil g
    · intro h; cases h; rfl
  | s :: l, g, g', os => by
    simp only [elems]
    constructor
    · intro hr
      cases h1 : f s g with
      | error e => rw [h1] at hr; cases hr
      | ok r =>
        obtain ⟨g1, o⟩ := r
        rw [h1] at hr
        dsimp only at hr
        cases h2 : elems f l g1 with
        | error e => rw [h2] at hr; cases hr
        | ok r =>
          obtain ⟨g2, o2⟩ := r
          rw [h2] at hr
          cases hr
          exact .cons h1 ((elems_ok f l _ _ _).1 h2)
    · intro h
      cases h with
      | cons h1 h2 =>
        have h1' : f s g = _ := h1
        rw [h1']
        dsimp only
        rw [(elems_ok f l _ _ _).2 h2]

theorem elems_congr {p q : List (Name × Val) → Graph → Graph → Obj → Prop} (h : ∀ s a b o, p s a b o ↔ q s a b o) {l : List (List (Name × Val))}
    {g g' : Graph} {os : List Obj} : Elems p l g g' os ↔ Elems q l g g' os := by
  constructor
  · intro hh
    induction hh with
    | nil g => exact .nil g
    | cons h1 _ ih => exact .cons ((h _ _ _ _).1 h1) ih
  · intro hh
    induction hh with
    | nil g => exact .nil g
    | cons h1 _ ih => exact .cons ((h _ _ _ _).2 h1) ih

/-- An array of structs, or a struct alone: each is a set of properties, taken from its members or, if the property is inherited and the
member is not there, from the scope. Hidden properties and members that are no properties are ignored. -/
theorem C93_structs (K : Ctx) (c : Cls) (m : Meta) (v : Val) (g g' : Graph) (p : Option PV) :
    property K (.structs c) m (some v) g = .ok (g', p) ↔ ∃ l os, (v = .structs l ∨ ∃ s, v = .struct s ∧ l = [s]) ∧ p = some (.objs os) ∧
      Elems (fun s a b o => ∃ lk, (∀ m, From K s m (lk m)) ∧ Runs (Prop1 K) lk c.list a b o) l g g' os := by
  have hone : ∀ s a b o, populate K c (look K s) a = .ok (b, o) ↔ ∃ lk, (∀ m, From K s m (lk m)) ∧ Runs (Prop1 K) lk c.list a b o := by
    intro s a b o
    rw [C93_class]
    constructor
    · intro h; exact ⟨look K s, fun m => (look_from K s m _).1 rfl, h⟩
    · rintro ⟨lk, h1, h2⟩
      have : lk = look K s := by funext m; exact ((look_from K s m _).2 (h1 m)).symm
      rw [← this]; exact h2
  have hel : ∀ l os, elems (fun ms g => populate K c (look K ms) g) l g = .ok (g', os) ↔
      Elems (fun s a b o => ∃ lk, (∀ m, From K s m (lk m)) ∧ Runs (Prop1 K) lk c.list a b o) l g g' os := by
    intro l os
    rw [elems_ok]
    exact elems_congr hone
  rw [property_structs]
  cases v with
  | structs l =>
    dsimp only
    constructor
    · intro hr
      cases h1 : elems (fun ms g => populate K c (look K ms) g) l g with
      | error e => rw [h1] at hr; cases hr
      | ok r =>
        obtain ⟨g1, os⟩ := r
        rw [h1] at hr; cases hr
        exact ⟨l, os, Or.inl rfl, rfl, (hel l os).1 h1⟩
    · rintro ⟨l', os, h1 | ⟨s, h1, _⟩, rfl, h2⟩
      · cases h1; rw [(hel l os).2 h2]
      · cases h1
  | struct s =>
    dsimp only
    constructor
    · intro hr
      cases h1 : populate K c (look K s) g with
      | error e => rw [h1] at hr; cases hr
      | ok r =>
        obtain ⟨g1, o⟩ := r
        rw [h1] at hr; cases hr
        exact ⟨[s], [o], Or.inr ⟨s, rfl, rfl⟩, rfl, .cons ((hone _ _ _ _).1 h1) (.nil _)⟩
    · rintro ⟨l', os, h1 | ⟨s', h1, rfl⟩, rfl, h2⟩
      · cases h1
      · cases h1
        cases h2 with
        | cons h3 h4 =>
          cases h4
          rw [(hone _ _ _ _).2 h3]
  | _ =>
    dsimp only
    constructor
    · intro hr; cases hr
    · rintro ⟨l, os, h1 | ⟨s, h1, _⟩, _, _⟩ <;> cases h1

/-- members of a class that are shared with others are set from the variables in scope -/
theorem C93_embed (K : Ctx) (c : Cls) (m : Meta) (v : Option Val) (g g' : Graph) (p : Option PV) :
    property K (.embed c) m v g = .ok (g', p) ↔ ∃ o, p = some (.obj o) ∧ Runs (Prop1 K) (fun m => K.var ('.' :: m.name)) c.list g g' o := by
  rw [property]
  constructor
  · intro hr
    cases h1 : populate K c (fun m => K.var ('.' :: m.name)) g with
    | error e => rw [h1] at hr; cases hr
    | ok r =>
      obtain ⟨g1, o⟩ := r
      rw [h1] at hr; cases hr
      exact ⟨o, rfl, (C93_class K c _ g _ o).1 h1⟩
  · rintro ⟨o, rfl, h1⟩
    rw [(C93_class K c _ g g' o).2 h1]

/-- Lists of nodes are what `C94_list` says of the variable with the name of the property; a property that is one node takes at most
one. -/
theorem C93_nodes (K : Ctx) (m : Meta) (v : Val) (g g' : Graph) (p : Option PV) :
    (property K .nodes m (some v) g = .ok (g', p) ↔ ∃ l, listProp K customOpts ('.' :: m.name) m.required g = .ok (g', l) ∧ p = some (.nodes l)) ∧
    (property K .node m (some v) g = .ok (g', p) ↔ ∃ l, listProp K customOpts ('.' :: m.name) m.required g = .ok (g', l) ∧ l.length ≤ 1 ∧
      p = some (.node l.head?)) := by
  constructor
  · rw [property]; unfold popNodes
    cases h1 : listProp K customOpts ('.' :: m.name) m.required g with
    | error e => simp
    | ok r =>
      obtain ⟨g1, l⟩ := r
      simp only [if_true, Except.ok.injEq, Prod.mk.injEq]
      constructor
      · rintro ⟨rfl, rfl⟩; exact ⟨l, ⟨rfl, rfl⟩, rfl⟩
      · rintro ⟨l', ⟨rfl, rfl⟩, rfl⟩; exact ⟨rfl, rfl⟩
  · rw [property]; unfold popNodes
    cases h1 : listProp K customOpts ('.' :: m.name) m.required g with
    | error e => simp
    | ok r =>
      obtain ⟨g1, l⟩ := r
      match l with
      | [] =>
        simp only [Bool.false_eq_true, if_false, Except.ok.injEq, Prod.mk.injEq]
        constructor
        · rintro ⟨rfl, rfl⟩; exact ⟨[], ⟨rfl, rfl⟩, by simp, rfl⟩
        · rintro ⟨l', ⟨rfl, rfl⟩, _, rfl⟩; exact ⟨rfl, rfl⟩
      | [n] =>
        simp only [Bool.false_eq_true, if_false, Except.ok.injEq, Prod.mk.injEq]
        constructor
        · rintro ⟨rfl, rfl⟩; exact ⟨[n], ⟨rfl, rfl⟩, by simp, rfl⟩
        · rintro ⟨l', ⟨rfl, rfl⟩, _, rfl⟩; exact ⟨rfl, rfl⟩
      | a :: b :: l =>
        simp only [Bool.false_eq_true, if_false, Except.ok.injEq, Prod.mk.injEq]
        constructor
        · intro h; cases h
        · rintro ⟨l', ⟨rfl, rfl⟩, h2, _⟩; simp at h2

/-- setting properties only adds files to the graph -/
theorem C93_graph {K : Ctx} {N : Name → Prop} (ht : Tidy K N) (hc : CleanNe K N) (hv : Vars K N) (c : Cls) (lk : Meta → Option Val) (g g' : Graph)
    (o : Obj) (h : WF g) (hr : populate K c lk g = .ok (g', o)) :
    (∃ fs, g' = WithFiles K g fs ∧ ∀ s ∈ fs, find K g s = none) ∧ WF g' ∧ Extends K N g g' := by
  have := (populate_spec ht hc hv c lk g g' o h hr).1
  exact ⟨this.1, this.2.1, this.2.2.1⟩

end Verif.Decl
