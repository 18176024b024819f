import Verif.Bff.UsingSpec
import Verif.Bff.InterpTheorems
import Verif.Bff.IsolationProps
/-
C120: `Using` puts exactly the members of a struct into the scope.
-/
namespace Verif.Bff.Using
open Verif.Bff.Interp

/-- the variables of a frame as pairs -/
def pairs (f : Frame) : List (Str × Val) := f.vars.map (fun v => (v.name, v.val))

/-! ### setting one variable -/

theorem setIn_some {n : Str} {x : Val} : ∀ {vs : List Var}, (vs.map (·.name)).Nodup → (∀ v ∈ vs, v.frozen = 0) → n ∈ vs.map (·.name) →
    setIn n x vs = .ok (vs.map fun v => if v.name = n then { v with val := x } else v)
  | [], _, _, h => by simp at h
  | v :: vs, hn, hf, h => by
    rw [List.map_cons, List.nodup_cons] at hn
    unfold setIn
    by_cases hv : v.name = n
    · rw [if_pos hv, if_pos (hf v (by simp))]
      have : vs.map (fun w => if w.name = n then { w with val := x } else w) = vs := by
        conv => rhs; rw [← List.map_id vs]
        apply List.map_congr_left
        intro w hw
        have : w.name ≠ n := fun e => hn.1 (by rw [hv, ← e]; exact List.mem_map_of_mem hw)
        simp [this]
      simp only [List.map_cons, if_pos hv, this]
    · rw [if_neg hv]
      have h' : n ∈ vs.map (·.name) := by
        rw [List.map_cons, List.mem_cons] at h
        exact h.resolve_left (fun e => hv e.symm)
      rw [setIn_some hn.2 (fun w hw => hf w (by simp [hw])) h']
      simp [hv]

theorem setIn_none {n : Str} {x : Val} : ∀ {vs : List Var}, n ∉ vs.map (·.name) → setIn n x vs = .ok (vs ++ [⟨n, x, 0⟩])
  | [], _ => rfl
  | v :: vs, h => by
    rw [List.map_cons, List.mem_cons, not_or] at h
    unfold setIn
    rw [if_neg (fun e => h.1 e.symm), setIn_none h.2]
    rfl

/-! ### setting all -/

/-- the variables after all the members were set, in the order given -/
def putAll (os : List (Str × Val)) (vs : List Var) : List Var :=
  vs.map (fun v => { v with val := (find os v.name).getD v.val }) ++
    (os.filter (fun m => m.1 ∉ vs.map (·.name))).map (fun m => ⟨m.1, m.2, 0⟩)

theorem distinct_cons {m : Str × Val} {os : List (Str × Val)} (h : Distinct (m :: os)) : m.1 ∉ os.map (·.1) ∧ Distinct os :=
  List.nodup_cons.1 h

theorem find_none {n : Str} : ∀ {os : List (Str × Val)}, n ∉ os.map (·.1) → find os n = none
  | [], _ => rfl
  | m :: os, h => by
    rw [List.map_cons, List.mem_cons, not_or] at h
    unfold find
    rw [if_neg (fun e => h.1 e.symm)]
    exact find_none h.2

theorem find_some {n : Str} {x : Val} : ∀ {os : List (Str × Val)}, Distinct os → (n, x) ∈ os → find os n = some x
  | [], _, h => by simp at h
  | m :: os, hd, h => by
    have hd' := distinct_cons hd
    unfold find
    rcases List.mem_cons.1 h with e | h
    · subst e; simp
    · have : m.1 ≠ n := fun e => hd'.1 (by rw [e]; exact List.mem_map_of_mem (f := (·.1)) h)
      rw [if_neg this]
      exact find_some hd'.2 h

theorem find_mem {n : Str} {x : Val} : ∀ {os : List (Str × Val)}, find os n = some x → (n, x) ∈ os
  | [], h => by simp [find] at h
  | m :: os, h => by
    unfold find at h
    split at h
    · rename_i e
      cases h; subst e; simp
    · exact List.mem_cons_of_mem _ (find_mem h)

/-- one after the other -/
theorem setAll_eq (f : Frame) (s : List Frame) : ∀ (os : List (Str × Val)) (g : Frame), Distinct os → (g.vars.map (·.name)).Nodup →
    (∀ v ∈ g.vars, v.frozen = 0) → setAll 1 os (f :: g :: s) = .ok (f :: { g with vars := putAll os g.vars } :: s)
  | [], g, _, _, _ => by simp [setAll, putAll, find]
  | m :: os, g, hd, hn, hf => by
    have hd' := distinct_cons hd
    have ho : find os m.1 = none := find_none hd'.1
    unfold setAll
    by_cases hm : m.1 ∈ g.vars.map (·.name)
    · simp only [setAt, setIn_some hn hf hm, Out.bind_ok, Out.pure_eq]
      have hnames : (g.vars.map fun v => if v.name = m.1 then { v with val := m.2 } else v).map (·.name) = g.vars.map (·.name) := by
        rw [List.map_map]; apply List.map_congr_left; intro v _; by_cases h : v.name = m.1 <;> simp [h]
      rw [setAll_eq f s os _ hd'.2 (by simpa only [hnames] using hn) (by
        intro v hv
        obtain ⟨w, hw, rfl⟩ := List.mem_map.1 hv
        by_cases h : w.name = m.1 <;> simp [h, hf w hw])]
      have hput : putAll os (g.vars.map fun v => if v.name = m.1 then { v with val := m.2 } else v) = putAll (m :: os) g.vars := by
        unfold putAll
        rw [hnames]
        congr 1
        · rw [List.map_map]
          apply List.map_congr_left
          intro v _
          by_cases h : v.name = m.1
          · simp [h, find, ho]
          · simp [h, find, Ne.symm h]
        · rw [List.filter_cons_of_neg (by simpa using hm)]
      simp only [hput]
    · simp only [setAt, setIn_none hm, Out.bind_ok, Out.pure_eq]
      have hnames : (g.vars ++ [(⟨m.1, m.2, 0⟩ : Var)]).map (·.name) = g.vars.map (·.name) ++ [m.1] := by simp
      rw [setAll_eq f s os _ hd'.2 (by
        show (List.map _ (g.vars ++ [_])).Nodup
        rw [hnames]
        rw [List.nodup_append]
        refine ⟨hn, by simp, ?_⟩
        intro a ha b hb e
        rw [List.mem_singleton] at hb
        subst hb; subst e; exact hm ha) (by
        intro v hv
        rcases List.mem_append.1 hv with h | h
        · exact hf v h
        · rw [List.mem_singleton] at h; rw [h])]
      have hput : putAll os (g.vars ++ [⟨m.1, m.2, 0⟩]) = putAll (m :: os) g.vars := by
        unfold putAll
        rw [hnames, List.map_append, List.filter_cons_of_pos (by simpa using hm), List.map_cons, List.append_assoc]
        congr 1
        · apply List.map_congr_left
          intro v hv
          have : m.1 ≠ v.name := fun e => hm (by rw [e]; exact List.mem_map_of_mem hv)
          simp [find, this]
        · simp only [List.map_cons, List.map_nil, ho, Option.getD_none, List.singleton_append, List.cons.injEq, true_and]
          congr 1
          apply List.filter_congr
          intro k hk
          have : k.1 ≠ m.1 := fun e => hd'.1 (by rw [← e]; exact List.mem_map_of_mem hk)
          simp [this]
      simp only [hput]

/-! ### the order -/

theorem find?_find {n : Str} : ∀ (ms : List (Str × Val)), ms.find? (fun m => m.1 = n) = (find ms n).map (fun x => (n, x))
  | [] => rfl
  | m :: ms => by
    unfold find
    by_cases h : m.1 = n
    · obtain ⟨a, b⟩ := m
      simp only at h
      subst h
      simp
    · simp [h, find?_find ms]

theorem eraseP_eq {n : Str} : ∀ {ms : List (Str × Val)}, Distinct ms → ms.eraseP (fun m => m.1 = n) = ms.filter (fun m => m.1 ≠ n)
  | [], _ => rfl
  | m :: ms, hd => by
    have hd' := distinct_cons hd
    by_cases h : m.1 = n
    · rw [List.eraseP_cons_of_pos (by simpa using h), List.filter_cons_of_neg (by simpa using h)]
      symm
      apply List.filter_eq_self.2
      intro k hk
      have : k.1 ≠ m.1 := fun e => hd'.1 (by rw [← e]; exact List.mem_map_of_mem hk)
      rw [h] at this
      simpa using this
    · rw [List.eraseP_cons_of_neg (by simpa using h), List.filter_cons_of_pos (by simpa using h), eraseP_eq hd'.2]

theorem filter_own {n : Str} {x : Val} : ∀ {ms : List (Str × Val)}, Distinct ms → find ms n = some x →
    ms.filter (fun m => m.1 = n) = [(n, x)]
  | [], _, h => by simp [find] at h
  | m :: ms, hd, h => by
    have hd' := distinct_cons hd
    unfold find at h
    by_cases e : m.1 = n
    · rw [if_pos e] at h
      cases h
      rw [List.filter_cons_of_pos (by simpa using e)]
      have : ms.filter (fun m => m.1 = n) = [] := by
        apply List.filter_eq_nil_iff.2
        intro k hk
        have : k.1 ≠ m.1 := fun e => hd'.1 (by rw [← e]; exact List.mem_map_of_mem hk)
        rw [e] at this
        simpa using this
      rw [this, ← e]
    · rw [if_neg e] at h
      rw [List.filter_cons_of_neg (by simpa using e)]
      exact filter_own hd'.2 h

/-- the members in the order they are set: those with another name, then the one with the name of the struct -/
theorem usingOrder_eq {n : Str} {ms : List (Str × Val)} (hd : Distinct ms) :
    usingOrder n ms = ms.filter (fun m => m.1 ≠ n) ++ ms.filter (fun m => m.1 = n) := by
  unfold usingOrder
  rw [find?_find]
  cases h : find ms n with
  | none =>
    have hno : ∀ m ∈ ms, m.1 ≠ n := by
      intro m hm e
      rw [← e, find_some hd (show (m.1, m.2) ∈ ms from hm)] at h
      cases h
    have h1 : ms.filter (fun m => decide (m.1 ≠ n)) = ms := List.filter_eq_self.2 (by simpa using hno)
    have h2 : ms.filter (fun m => decide (m.1 = n)) = [] := List.filter_eq_nil_iff.2 (by simpa using hno)
    rw [h1, h2]; simp
  | some x =>
    simp only [Option.map_some]
    rw [eraseP_eq hd, filter_own hd h]

theorem order_perm (p : Str × Val → Bool) (ms : List (Str × Val)) : (ms.filter (fun m => !p m) ++ ms.filter p).Perm ms :=
  (List.perm_append_comm).trans (List.filter_append_perm p ms)

theorem distinct_perm {a b : List (Str × Val)} (h : a.Perm b) (hb : Distinct b) : Distinct a :=
  ((h.map (fun m : Str × Val => m.1)).nodup_iff).2 hb

theorem find_perm {a b : List (Str × Val)} (h : a.Perm b) (hb : Distinct b) (n : Str) : find a n = find b n := by
  cases hx : find b n with
  | some x => exact find_some (distinct_perm h hb) (h.mem_iff.2 (find_mem hx))
  | none =>
    cases hy : find a n with
    | none => rfl
    | some y => rw [find_some hb (h.mem_iff.1 (find_mem hy))] at hx; cases hx

/-- the variables after `Using`, as pairs -/
theorem putAll_pairs (f : Frame) (os : List (Str × Val)) (vs : List Var) :
    pairs { f with vars := putAll os vs } = (pairs { f with vars := vs }).map (fun v => (v.1, (find os v.1).getD v.2)) ++
      os.filter (fun m => m.1 ∉ (pairs { f with vars := vs }).map (·.1)) := by
  have : (vs.map (fun v => (v.name, v.val))).map (·.1) = vs.map (·.name) := by simp
  simp only [pairs, putAll, List.map_append, List.map_map, this]
  congr 1
  conv => rhs; rw [← List.map_id (List.filter _ os)]
  rfl

theorem bring_own {n : Str} {ms : List (Str × Val)} (hd : Distinct ms) (vs : List (Str × Val)) :
    vs.map (fun v => (v.1, (find (usingOrder n ms) v.1).getD v.2)) ++ (usingOrder n ms).filter (fun m => m.1 ∉ vs.map (·.1)) =
      bring ms (some n) vs := by
  have hp : (usingOrder n ms).Perm ms := by
    rw [usingOrder_eq hd]
    have := order_perm (fun m => decide (m.1 = n)) ms
    simpa using this
  unfold bring fresh
  congr 1
  · apply List.map_congr_left
    intro v _
    rw [find_perm hp hd]
  · rw [usingOrder_eq hd, List.filter_append]
    simp only [List.filter_filter, Option.some.injEq, ne_eq]
    congr 1 <;> (apply List.filter_congr; intro m _; rw [Bool.and_comm])

theorem bring_none {ms : List (Str × Val)} (vs : List (Str × Val)) :
    vs.map (fun v => (v.1, (find ms v.1).getD v.2)) ++ ms.filter (fun m => m.1 ∉ vs.map (·.1)) = bring ms none vs := by
  unfold bring fresh
  congr 1
  simp

/-! ### C120 -/

/-- the call `Using( .Name )` or `Using( ^Name )` with what follows it -/
def call (t : Str) (rest : List Tok) : List Tok := .brace .rl :: .var t :: .brace .rr :: rest

theorem function_using (commit : List Event → Event → Bool) (rec : Rec) (st : St) (t : Str) (rest : List Tok) (e : Tok) :
    function commit rec st "Using".toList (call t rest) e = (fnUsing (push st) [.var t]).map fun st => (pop st, rest) := by
  have hf : findFn "Using".toList = some ⟨.using_, true, true, false, false⟩ := by rfl
  generalize "Using".toList = fn at *
  unfold function
  simp only [hf]
  have hb : (Tok.brace Br.rl).byte = Br.rl.num := rfl
  simp [header, body, call, cur, Tok.is, braced, Br.close, scan, dispatch, hb]
  cases fnUsing (push st) [.var t] <;> rfl

/-- a name that is written without quotes -/
def Bare (n : Str) : Prop := n.head? ≠ some '"' ∧ n.head? ≠ some '\''

theorem varName_bare {s : List Frame} {c : Char} {n : Str} (h : Bare n) : varName s (c :: n) = .ok ('.' :: n, c = '^') := by
  simp only [varName]
  rw [if_neg (by simp [h.1, h.2])]

theorem lookup_push (n : Str) (s : List Frame) : lookup n (⟨[], none, true⟩ :: s) = (lookup n s).map fun p => (p.1 + 1, p.2) := by
  simp [lookup, Frame.find]

theorem lookup_name {n : Str} : ∀ {s : List Frame} {i : Nat} {v : Var}, lookup n s = some (i, v) → v.name = n
  | [], _, _, h => by simp [lookup] at h
  | f :: s, i, v, h => by
    unfold lookup at h
    cases hf : f.find n with
    | some w =>
      rw [hf] at h
      cases h
      simpa using List.find?_some hf
    | none =>
      rw [hf] at h
      simp only at h
      split at h
      · cases hl : lookup n s with
        | none => rw [hl] at h; cases h
        | some p =>
          rw [hl] at h
          cases h
          exact lookup_name (i := p.1) hl
      · cases h

/-- A scope as the parser has it: its variables have different names and none is frozen. -/
structure Scope (g : Frame) : Prop where
  names : (g.vars.map (·.name)).Nodup
  free : ∀ v ∈ g.vars, v.frozen = 0

/-- `Using( .S )`, where `.S` is a struct that can be seen: the scope has the members, and nothing else changes. -/
theorem C120_using (commit : List Event → Event → Bool) (rec : Rec) (st : St) (g : Frame) (s : List Frame) (c : Char) (n : Str)
    (i : Nat) (v : Var) (ms : List (Str × Val)) (rest : List Tok) (e : Tok)
    (hst : st.stack = g :: s) (hg : Scope g) (hc : c ≠ '^') (hb : Bare n) (hl : lookup ('.' :: n) (g :: s) = some (i, v))
    (hv : v.val = .struct ms) (hd : Distinct ms) :
    ∃ g', function commit rec st "Using".toList (call (c :: n) rest) e = .ok ({ st with stack := g' :: s }, rest) ∧
      pairs g' = bring ms (some ('.' :: n)) (pairs g) ∧ g'.last = g.last ∧ g'.linked = g.linked := by
  refine ⟨{ g with vars := putAll (usingOrder ('.' :: n) ms) g.vars }, ?_, ?_, rfl, rfl⟩
  · rw [function_using]
    have hn := lookup_name hl
    simp only [fnUsing, push, St.set, hst, varName_bare hb, hc, decide_false, Out.bind_ok, Bool.false_eq_true, if_false, lookup_push,
      hl, Option.map_some, hv, hn]
    rw [setAll_eq _ _ _ _ (distinct_perm (by
      rw [usingOrder_eq hd]
      simpa using order_perm (fun m => decide (m.1 = '.' :: n)) ms) hd) hg.names hg.free]
    simp [pop, St.set]
  · rw [putAll_pairs]
    exact bring_own hd _

/-- `Using( ^S )`: the struct is one of the scopes around, the members come in the order of the struct. -/
theorem C120_parent (commit : List Event → Event → Bool) (rec : Rec) (st : St) (g : Frame) (s : List Frame) (n : Str)
    (i : Nat) (v : Var) (ms : List (Str × Val)) (rest : List Tok) (e : Tok)
    (hst : st.stack = g :: s) (hg : Scope g) (hb : Bare n) (hl : g.linked = true) (hs : lookup ('.' :: n) s = some (i, v))
    (hv : v.val = .struct ms) (hd : Distinct ms) :
    ∃ g', function commit rec st "Using".toList (call ('^' :: n) rest) e = .ok ({ st with stack := g' :: s }, rest) ∧
      pairs g' = bring ms none (pairs g) ∧ g'.last = g.last ∧ g'.linked = g.linked := by
  refine ⟨{ g with vars := putAll ms g.vars }, ?_, ?_, rfl, rfl⟩
  · rw [function_using]
    simp only [fnUsing, push, St.set, hst, varName_bare hb, decide_true, Out.bind_ok, if_true, parentDecl2, parentDecl, hl, hs,
      Option.map_some, hv]
    rw [setAll_eq _ _ _ _ hd hg.names hg.free]
    simp [pop, St.set, hl]
  · rw [putAll_pairs]
    exact bring_none _

/-- A name that cannot be seen, or that is no struct, is an error. -/
theorem C120_error (commit : List Event → Event → Bool) (rec : Rec) (st : St) (c : Char) (n : Str) (rest : List Tok) (e : Tok)
    (hc : c ≠ '^') (hb : Bare n) (hl : ∀ i v ms, lookup ('.' :: n) st.stack = some (i, v) → v.val ≠ .struct ms) :
    function commit rec st "Using".toList (call (c :: n) rest) e = .err := by
  rw [function_using]
  simp only [fnUsing, push, St.set, varName_bare hb, hc, decide_false, Out.bind_ok, Bool.false_eq_true, if_false, lookup_push]
  cases h : lookup ('.' :: n) st.stack with
  | none => rfl
  | some p =>
    obtain ⟨i, v⟩ := p
    simp only [Option.map_some]
    cases hv : v.val with
    | struct ms => exact absurd hv (hl i v ms h)
    | _ => rfl

theorem find_map (ms : List (Str × Val)) (own : Option Str) (n : Str) : ∀ vs : List (Str × Val),
    find (vs.map (fun v => (v.1, (find ms v.1).getD v.2))) n = (find vs n).map (fun x => (find ms n).getD x)
  | [] => rfl
  | v :: vs => by
    simp only [List.map_cons, find]
    by_cases h : v.1 = n
    · simp [h]
    · simp [h, find_map ms own n vs]

theorem find_append (a b : List (Str × Val)) (n : Str) : find (a ++ b) n = (find a n).or (find b n) := by
  induction a with
  | nil => simp [find]
  | cons m a ih =>
    simp only [List.cons_append, find]
    by_cases h : m.1 = n <;> simp [h, ih]

theorem find_isSome {n : Str} {vs : List (Str × Val)} : (find vs n).isSome ↔ n ∈ vs.map (·.1) := by
  induction vs with
  | nil => simp [find]
  | cons m vs ih =>
    simp only [find, List.map_cons, List.mem_cons]
    by_cases h : m.1 = n
    · simp [h]
    · rw [if_neg h, ih]
      exact ⟨Or.inr, fun e => e.resolve_left (fun e => h e.symm)⟩

/-- What the scope has then: each member with its value, and any other variable with the value it had. -/
theorem C120_values (ms vs : List (Str × Val)) (own : Option Str) (hd : Distinct ms) (n : Str) :
    find (bring ms own vs) n = (find ms n).or (find vs n) := by
  unfold bring
  have hp : ((fresh ms vs).filter (fun m => some m.1 ≠ own) ++ (fresh ms vs).filter (fun m => some m.1 = own)).Perm (fresh ms vs) := by
    simpa using order_perm (fun m => decide (some m.1 = own)) (fresh ms vs)
  have hdf : Distinct (fresh ms vs) := by
    unfold fresh Distinct
    exact hd.sublist ((List.filter_sublist).map _)
  rw [find_append, find_map ms own, find_perm hp hdf]
  cases hv : find vs n with
  | some x => cases find ms n <;> simp
  | none =>
    have hno : n ∉ vs.map (·.1) := by rw [← find_isSome, hv]; simp
    simp only [Option.map_none, Option.none_or, Option.or_none]
    cases hm : find ms n with
    | some y => exact find_some hdf (List.mem_filter.2 ⟨find_mem hm, by simpa using hno⟩)
    | none =>
      apply find_none
      intro h
      obtain ⟨k, hk, e⟩ := List.mem_map.1 h
      have := (List.mem_filter.1 hk).1
      rw [← e, find_some hd (show (k.1, k.2) ∈ ms from this)] at hm
      cases hm

/-- The scope is again one with different names. -/
theorem C120_distinct (ms vs : List (Str × Val)) (own : Option Str) (hd : Distinct ms) (hv : Distinct vs) :
    Distinct (bring ms own vs) := by
  unfold bring Distinct
  rw [List.map_append, List.nodup_append]
  have hp : ((fresh ms vs).filter (fun m => some m.1 ≠ own) ++ (fresh ms vs).filter (fun m => some m.1 = own)).Perm (fresh ms vs) := by
    simpa using order_perm (fun m => decide (some m.1 = own)) (fresh ms vs)
  have hn : (vs.map (fun v => (v.1, (find ms v.1).getD v.2))).map (·.1) = vs.map (·.1) := by simp
  refine ⟨by rw [hn]; exact hv, distinct_perm hp (hd.sublist ((List.filter_sublist).map _)), ?_⟩
  rw [hn]
  intro a ha b hb e
  obtain ⟨k, hk, rfl⟩ := List.mem_map.1 hb
  have := (List.mem_filter.1 (hp.mem_iff.1 hk)).2
  simp only [decide_eq_true_eq] at this
  exact this (e ▸ ha)

/-- Using a struct a second time changes nothing. -/
theorem C120_again (ms vs : List (Str × Val)) (own : Option Str) (hd : Distinct ms) (hv : Distinct vs) :
    bring ms own (bring ms own vs) = bring ms own vs := by
  have h1 : fresh ms (bring ms own vs) = [] := by
    apply List.filter_eq_nil_iff.2
    intro m hm h
    simp only [decide_eq_true_eq] at h
    apply h
    rw [← find_isSome, C120_values ms vs own hd, find_some hd (show (m.1, m.2) ∈ ms from hm)]
    simp
  have h2 : (bring ms own vs).map (fun v => (v.1, (find ms v.1).getD v.2)) = bring ms own vs := by
    conv => rhs; rw [← List.map_id (bring ms own vs)]
    apply List.map_congr_left
    intro v hv'
    have := find_some (C120_distinct ms vs own hd hv) (show (v.1, v.2) ∈ _ from hv')
    rw [C120_values ms vs own hd] at this
    cases hm : find ms v.1 with
    | none => rfl
    | some x => rw [hm] at this; simp only [Option.some_or, Option.some.injEq] at this; simp [this]
  show (bring ms own vs).map _ ++ ((fresh ms (bring ms own vs)).filter _ ++ (fresh ms (bring ms own vs)).filter _) = _
  rw [h1, h2]
  simp

/-- the variables of a scope are found first by what follows -/
theorem C120_seen (g g' : Frame) (s : List Frame) (ms : List (Str × Val)) (own : Option Str) (hd : Distinct ms)
    (h : pairs g' = bring ms own (pairs g)) (hl : g'.linked = g.linked) (n : Str) :
    (lookup n (g' :: s)).map (fun p => (p.1, p.2.val)) =
      match find ms n with
      | some x => some (0, x)
      | none => (lookup n (g :: s)).map (fun p => (p.1, p.2.val)) := by
  have key : ∀ f : Frame, (f.find n).map (·.val) = find (pairs f) n := by
    intro f
    unfold Frame.find pairs
    induction f.vars with
    | nil => rfl
    | cons v vs ih =>
      simp only [List.map_cons, find]
      by_cases hv : v.name = n
      · simp [hv]
      · simp [hv, ih]
  have hk := key g'
  rw [h, C120_values ms _ own hd, ← key g] at hk
  unfold lookup
  cases hm : find ms n with
  | some x =>
    rw [hm] at hk
    cases hf : g'.find n with
    | none => rw [hf] at hk; simp at hk
    | some w => rw [hf] at hk; simp at hk; simp [hk]
  | none =>
    rw [hm, Option.none_or] at hk
    cases hf : g'.find n with
    | none =>
      cases hf2 : g.find n with
      | none => simp [hl]
      | some w => rw [hf, hf2] at hk; simp at hk
    | some w =>
      cases hf2 : g.find n with
      | none => rw [hf, hf2] at hk; simp at hk
      | some w2 => rw [hf, hf2] at hk; simp at hk; simp [hk]

/-! ### examples -/

/-- `.A = 'a' .S = [ .A = 'b' .S = 'c' .B = 'd' ] { .A = 'x' Using( .S ) Print( '$A$ $B$ $S$' ) } Print( '$A$' )` -/
example : printed (eval ([var ".A", .op .assign, text "a", var ".S", .op .assign, o .sl, var ".A", .op .assign, text "b",
    var ".S", .op .assign, text "c", var ".B", .op .assign, text "d", o .sr,
    o .cl, var ".A", .op .assign, text "x", fn "Using", o .rl, var ".S", o .rr] ++ put "$A$ $B$ $S$" ++ [o .cr] ++ put "$A$")) =
    some ["b d c".toList, "a".toList] := by decide +kernel

/-- a state that meets the hypotheses of `C120_using` -/
def exFrame : Frame := ⟨[⟨".A".toList, .str "a".toList, 0⟩,
  ⟨".S".toList, .struct [(".S".toList, .int 1), (".A".toList, .str "b".toList), (".B".toList, .bool true)], 0⟩], none, false⟩

example : Scope exFrame ∧ Bare "S".toList ∧ Distinct [(".S".toList, .int 1), (".A".toList, .str "b".toList), (".B".toList, .bool true)] := by
  refine ⟨⟨by decide +kernel, ?_⟩, by unfold Bare; decide +kernel, by unfold Distinct; decide +kernel⟩
  intro v hv
  simp only [exFrame, List.mem_cons, List.not_mem_nil, or_false] at hv
  rcases hv with rfl | rfl <;> rfl

/-- the struct is replaced by its own member, in its place -/
example : bring [(".S".toList, .int 1), (".A".toList, .str "b".toList), (".B".toList, .bool true)] (some ".S".toList) (pairs exFrame) =
    [(".A".toList, .str "b".toList), (".S".toList, .int 1), (".B".toList, .bool true)] := by rfl

end Verif.Bff.Using
