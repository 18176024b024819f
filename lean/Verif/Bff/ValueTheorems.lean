import Verif.Bff.InterpProps
import Verif.Bff.ValueSpec
import Verif.Bff.InterpModel
import Verif.Str.TextProps
/-
Theorems about the values of a build file (C92).
-/
namespace Verif.Bff.Value
open Verif.Bff.Interp

/-! ### structs -/

theorem member_mem {n : Str} {v : Val} {ms : List (Str × Val)} (h : member n ms = some v) : (n, v) ∈ ms := by
  unfold member at h
  cases hf : ms.find? (fun m => decide (m.1 = n)) with
  | none => simp [hf] at h
  | some m =>
    simp only [hf, Option.map_some, Option.some.injEq] at h
    have h1 := List.find?_some hf
    have h2 := List.mem_of_find?_eq_some hf
    obtain ⟨m1, m2⟩ := m
    simp only [decide_eq_true_eq] at h1
    subst h1; subst h; exact h2

theorem member_none {n : Str} {ms : List (Str × Val)} : member n ms = none ↔ n ∉ names ms := by
  unfold member names
  simp only [Option.map_eq_none_iff, List.find?_eq_none, decide_eq_true_eq, List.mem_map, not_exists, not_and]

theorem member_of_mem {n : Str} {v : Val} {ms : List (Str × Val)} (hn : (names ms).Nodup) (h : (n, v) ∈ ms) : member n ms = some v := by
  induction ms with
  | nil => cases h
  | cons m ms ih =>
    rw [show names (m :: ms) = m.1 :: names ms from rfl, List.nodup_cons] at hn
    rcases List.mem_cons.1 h with h | h
    · subst h; simp [member]
    · have hne : m.1 ≠ n := fun e => hn.1 (e ▸ List.mem_map.2 ⟨_, h, rfl⟩)
      have := ih hn.2 h
      simp only [member, List.find?_cons, hne, decide_false] at this ⊢
      exact this

theorem addNew_spec : ∀ (b l : List (Str × Val)), (names b).Nodup →
    addNew l b = l ++ b.filter (fun m => decide (m.1 ∉ names l))
  | [], l, _ => by simp [addNew]
  | m :: b, l, hn => by
    rw [show names (m :: b) = m.1 :: names b from rfl, List.nodup_cons] at hn
    by_cases hm : m.1 ∈ names l
    · have h1 : (member m.1 l).isSome = true := by
        cases h : member m.1 l with
        | some _ => rfl
        | none => exact absurd hm (member_none.1 h)
      rw [addNew, if_pos h1, addNew_spec b l hn.2]
      simp [hm]
    · have h1 : ¬ (member m.1 l).isSome = true := by rw [member_none.2 hm]; simp
      rw [addNew, if_neg h1, addNew_spec b (l ++ [m]) hn.2]
      simp only [List.filter_cons, hm, not_false_eq_true, decide_true, if_true, List.append_assoc, List.singleton_append]
      congr 2
      apply List.filter_congr
      intro x hx
      have hne : x.1 ≠ m.1 := fun e => hn.1 (e ▸ List.mem_map.2 ⟨x, hx, rfl⟩)
      have e : x.1 ∈ names (l ++ [m]) ↔ x.1 ∈ names l := by
        simp only [names, List.map_append, List.mem_append, List.map_cons, List.map_nil, List.mem_singleton]
        exact ⟨fun h => h.elim id (fun h => absurd h hne), Or.inl⟩
      exact decide_eq_decide.2 (not_congr e)

theorem concatMs_names : ∀ (a b l : List (Str × Val)), concatMs a b = .ok l → names l = names a
  | [], b, l, h => by
    rw [concatMs] at h; cases h; rfl
  | (n, v) :: a, b, l, h => by
    rw [concatMs] at h
    split at h
    · obtain ⟨x, _, h⟩ := Out.bind_eq_ok.1 h
      obtain ⟨l', h2, h⟩ := Out.bind_eq_ok.1 h
      cases h
      simp [names, show l'.map (·.1) = a.map (·.1) from concatMs_names a b l' h2]
    · obtain ⟨l', h2, h⟩ := Out.bind_eq_ok.1 h
      cases h
      simp [names, show l'.map (·.1) = a.map (·.1) from concatMs_names a b l' h2]

theorem concatMs_mem : ∀ (a b l : List (Str × Val)), concatMs a b = .ok l → ∀ n x, (n, x) ∈ a →
    (match member n b with
     | some y => ∃ z, concat x y = .ok z ∧ (n, z) ∈ l
     | none => (n, x) ∈ l)
  | [], b, l, _, n, x, hx => by cases hx
  | (m, v) :: a, b, l, h, n, x, hx => by
    rw [concatMs] at h
    cases hm : member m b with
    | some w =>
      rw [hm] at h
      obtain ⟨z, h1, h⟩ := Out.bind_eq_ok.1 h
      obtain ⟨l', h2, h⟩ := Out.bind_eq_ok.1 h
      cases h
      rcases List.mem_cons.1 hx with e | hx
      · cases e; rw [hm]; exact ⟨z, h1, List.mem_cons_self⟩
      · have := concatMs_mem a b l' h2 n x hx
        cases hb : member n b with
        | some y => rw [hb] at this; obtain ⟨z, z1, z2⟩ := this; exact ⟨z, z1, List.mem_cons_of_mem _ z2⟩
        | none => rw [hb] at this; exact List.mem_cons_of_mem _ this
    | none =>
      rw [hm] at h
      obtain ⟨l', h2, h⟩ := Out.bind_eq_ok.1 h
      cases h
      rcases List.mem_cons.1 hx with e | hx
      · cases e; rw [hm]; exact List.mem_cons_self
      · have := concatMs_mem a b l' h2 n x hx
        cases hb : member n b with
        | some y => rw [hb] at this; obtain ⟨z, z1, z2⟩ := this; exact ⟨z, z1, List.mem_cons_of_mem _ z2⟩
        | none => rw [hb] at this; exact List.mem_cons_of_mem _ this

theorem concatMs_ok : ∀ (a b : List (Str × Val)), (∀ n x y, (n, x) ∈ a → member n b = some y → ∃ z, concat x y = .ok z) →
    ∃ l, concatMs a b = .ok l
  | [], b, _ => ⟨[], by rw [concatMs]⟩
  | (m, v) :: a, b, h => by
    obtain ⟨l, hl⟩ := concatMs_ok a b (fun n x y hx hy => h n x y (List.mem_cons_of_mem _ hx) hy)
    rw [concatMs]
    cases hm : member m b with
    | some w =>
      obtain ⟨z, hz⟩ := h m v w List.mem_cons_self hm
      exact ⟨(m, z) :: l, by simp [hz, hl]⟩
    | none => exact ⟨(m, v) :: l, by simp [hl]⟩

theorem names_inj {a b : List (Str × Val)} (hn : (names a).Nodup) (e : names a = names b)
    (h : ∀ m ∈ a, m ∈ b) : a = b := by
  induction a generalizing b with
  | nil =>
    cases b with
    | nil => rfl
    | cons m b => simp [names] at e
  | cons m a ih =>
    cases b with
    | nil => simp [names] at e
    | cons k b =>
      have e' : m.1 :: names a = k.1 :: names b := e
      simp only [List.cons.injEq] at e'
      have hn' : m.1 ∉ names a ∧ (names a).Nodup := List.nodup_cons.1 hn
      have hmk : m = k := by
        rcases List.mem_cons.1 (h m List.mem_cons_self) with h1 | h1
        · exact h1
        · exfalso; apply hn'.1; rw [e'.2]; exact List.mem_map.2 ⟨m, h1, rfl⟩
      subst hmk
      rw [ih hn'.2 e'.2]
      intro x hx
      rcases List.mem_cons.1 (h x (List.mem_cons_of_mem _ hx)) with h1 | h1
      · exfalso; apply hn'.1; rw [← h1]; exact List.mem_map.2 ⟨x, hx, rfl⟩
      · exact h1

/-- Adding structs: the result, if there is one, is the one that puts together what has the same name and keeps all else, in order. -/
theorem C92_struct (a b : List (Str × Val)) (ha : (names a).Nodup) (hb : (names b).Nodup) (r : Val) :
    concat (.struct a) (.struct b) = .ok r ↔
      ∃ ms, r = .struct ms ∧ Merged (fun x y z => concat x y = .ok z) a b ms := by
  have key : ∀ l, concatMs a b = .ok l → Merged (fun x y z => concat x y = .ok z) a b (addNew l b) := by
    intro l hl
    have hnl := concatMs_names a b l hl
    have hm := concatMs_mem a b l hl
    rw [addNew_spec b l hb]
    refine ⟨?_, ?_, ?_, ?_⟩
    · have e : names (l ++ b.filter (fun m => decide (m.1 ∉ names l))) =
          names l ++ (names b).filter (fun n => decide (n ∉ names l)) := by
        unfold names
        rw [List.map_append, List.filter_map]
        rfl
      rw [e]
      simp only [hnl]
    · intro n x hx hnb
      have := hm n x hx
      rw [member_none.2 hnb] at this
      exact List.mem_append_left _ this
    · intro n y hy hna
      refine List.mem_append_right _ (List.mem_filter.2 ⟨hy, ?_⟩)
      rw [hnl]; simpa using hna
    · intro n x y hx hy
      have := hm n x hx
      rw [member_of_mem hb hy] at this
      obtain ⟨z, z1, z2⟩ := this
      exact ⟨z, z1, List.mem_append_left _ z2⟩
  constructor
  · intro h
    rw [concat] at h
    obtain ⟨l, hl, h⟩ := Out.bind_eq_ok.1 h
    cases h
    exact ⟨_, rfl, key l hl⟩
  · rintro ⟨ms, rfl, hM⟩
    obtain ⟨l, hl⟩ := concatMs_ok a b (fun n x y hx hy => by
      obtain ⟨z, hz, _⟩ := hM.both n x y hx (member_mem hy)
      exact ⟨z, hz⟩)
    rw [concat, hl]
    have hK := key l hl
    simp only [Out.bind_ok, Out.pure_eq]
    have hnd : (names (addNew l b)).Nodup := by
      rw [hK.order, List.nodup_append]
      refine ⟨ha, hb.filter _, ?_⟩
      intro x hx y hy e
      subst e
      have := (List.mem_filter.1 hy).2
      simp at this
      exact this hx
    have hnd2 : (names ms).Nodup := by rw [hM.order, ← hK.order]; exact hnd
    congr 2
    refine names_inj hnd (hK.order.trans hM.order.symm) ?_
    rintro ⟨n, z⟩ hz
    have hzn : n ∈ names (addNew l b) := List.mem_map.2 ⟨_, hz, rfl⟩
    have uniq : ∀ w, (n, w) ∈ addNew l b → w = z := fun w hw => by
      have h1 := member_of_mem hnd hw
      have h2 := member_of_mem hnd hz
      rw [h1] at h2; exact Option.some.inj h2
    by_cases hna : n ∈ names a
    · obtain ⟨⟨n', x⟩, hx, e⟩ := List.mem_map.1 hna
      dsimp only at e; subst e
      by_cases hnb : n' ∈ names b
      · obtain ⟨⟨n2, y⟩, hy, e⟩ := List.mem_map.1 hnb
        dsimp only at e; subst e
        obtain ⟨z1, h1, h2⟩ := hK.both _ x y hx hy
        obtain ⟨z2, h3, h4⟩ := hM.both _ x y hx hy
        rw [h1] at h3; cases h3
        rw [uniq _ h2] at h4; exact h4
      · have h1 := hK.left _ x hx hnb
        rw [← uniq _ h1]; exact hM.left _ x hx hnb
    · rw [hK.order, List.mem_append] at hzn
      have hnb : n ∈ names b := by
        rcases hzn with h | h
        · exact absurd h hna
        · exact (List.mem_filter.1 h).1
      obtain ⟨⟨n2, y⟩, hy, e⟩ := List.mem_map.1 hnb
      dsimp only at e; subst e
      have h1 := hK.right _ y hy hna
      rw [← uniq _ h1]; exact hM.right _ y hy hna

/-- what two structs put together have as names is again without repetition -/
theorem C92_struct_names (a b ms : List (Str × Val)) (ha : (names a).Nodup) (hb : (names b).Nodup)
    (h : concat (.struct a) (.struct b) = .ok (.struct ms)) : (names ms).Nodup := by
  obtain ⟨ms', e, hM⟩ := (C92_struct a b ha hb _).1 h
  cases e
  rw [hM.order, List.nodup_append]
  refine ⟨ha, hb.filter _, ?_⟩
  intro x hx y hy e
  subst e
  have := (List.mem_filter.1 hy).2
  simp at this
  exact this hx

/-- Adding values that are not both structs: the table. -/
theorem C92_plain (a b r : Val) (h : ¬ (kind a = .struct ∧ kind b = .struct)) : concat a b = .ok r ↔ Plus a b r := by
  constructor
  · intro h'
    cases a with
    | str a =>
      cases b with
      | str b => rw [concat] at h'; cases h'; exact .str a b
      | _ => simp [concat] at h'
    | bool a =>
      cases b with
      | bool b => rw [concat] at h'; cases h'; exact .bool a b
      | _ => simp [concat] at h'
    | int a =>
      cases b with
      | int b =>
        rw [concat, int32] at h'
        split at h'
        · rename_i hr
          simp only [Out.bind_ok, Out.pure_eq, Out.ok.injEq] at h'
          subst h'; exact .int a b hr.1 hr.2
        · simp at h'
      | _ => simp [concat] at h'
    | strs a =>
      cases b with
      | strs b => rw [concat] at h'; cases h'; exact .strs a b
      | str b => rw [concat] at h'; cases h'; exact .strsOne a b
      | struct b =>
        cases a with
        | nil => rw [concat] at h'; cases h'; exact .openOne b
        | cons _ _ => simp [concat] at h'
      | structs b =>
        cases b with
        | nil => rw [concat] at h'; cases h'; exact .strsOpen a
        | cons x b =>
          cases a with
          | nil => rw [concat] at h'; cases h'; exact .openStructs _ (by simp); all_goals simp
          | cons _ _ => simp [concat] at h'
      | _ => simp [concat] at h'
    | struct a =>
      cases b with
      | struct b => exact absurd ⟨rfl, rfl⟩ h
      | _ => simp [concat] at h'
    | structs a =>
      cases b with
      | structs b => rw [concat] at h'; cases h'; exact .structs a b
      | struct b => rw [concat] at h'; cases h'; exact .structsOne a b
      | str b => cases a <;> simp [concat] at h'
      | strs b =>
        cases b with
        | nil => rw [concat] at h'; cases h'; exact .structsOpen a
        | cons x b =>
          cases a with
          | nil => rw [concat] at h'; cases h'; exact .openStrs _ (by simp); all_goals simp
          | cons _ _ => simp [concat] at h'
      | _ => simp [concat] at h'
  · intro h'
    cases h' with
    | int a b h1 h2 => simp [concat, int32, h1, h2]
    | openStructs b hb => cases b with | nil => exact absurd rfl hb | cons _ _ => simp [concat]
    | openStrs b hb => cases b with | nil => exact absurd rfl hb | cons _ _ => simp [concat]
    | _ => simp [concat]

/-! ### assignments -/

/-- With `+` and a variable on the right, the new value is the sum, except that two bools cannot be added outside of structs. -/
theorem C92_plus (a b r : Val) : combine .plus (some a) b = .ok r ↔ concat a b = .ok r ∧ ¬ (kind a = .bool ∧ kind b = .bool) := by
  cases a with
  | str a => cases b <;> simp [combine, concat, kind]
  | bool a => cases b <;> simp [combine, concat, kind]
  | int a => cases b <;> simp [combine, concat, kind, arith]
  | strs a =>
    cases b with
    | structs b => cases a <;> cases b <;> simp [combine, concat, kind]
    | strs b => cases a <;> cases b <;> simp [combine, concat, kind]
    | struct b => cases a <;> simp [combine, concat, kind]
    | _ => simp [combine, concat, kind]
  | struct a => cases b <;> simp [combine, concat, kind]
  | structs a =>
    cases b with
    | structs b => cases a <;> cases b <;> simp [combine, concat, kind]
    | strs b => cases a <;> cases b <;> simp [combine, concat, kind]
    | struct b => cases a <;> simp [combine, concat, kind]
    | str b => cases a <;> simp [combine, concat, kind]
    | _ => simp [combine, concat, kind]

/-- A new variable has the value on the right. -/
theorem C92_new (op : Op) (v r : Val) : combine op none v = .ok r ↔ op = .assign ∧ r = v := by
  cases op <;> simp [combine, eq_comm]

/-- `=` gives a variable the value on the right if it has that type; a string or struct on the right is the one element of an array;
an array without elements leaves a variable that is an array of the type it has. Nothing else is accepted. -/
theorem C92_assign (a b r : Val) : combine .assign (some a) b = .ok r ↔
    (kind a = kind b ∧ r = b) ∨ (∃ x, kind a = .strs ∧ b = .str x ∧ r = .strs [x]) ∨
    (∃ m, (kind a = .structs ∨ a = .strs []) ∧ b = .struct m ∧ r = .structs [m]) ∨
    (kind a = .strs ∧ b = .structs [] ∧ r = .strs []) ∨ (kind a = .structs ∧ b = .strs [] ∧ r = .structs []) ∨
    (∃ l, a = .structs [] ∧ l ≠ [] ∧ b = .strs l ∧ r = b) ∨ (∃ l, a = .strs [] ∧ l ≠ [] ∧ b = .structs l ∧ r = b) := by
  cases a with
  | str a => cases b <;> simp [combine, kind, eq_comm]
  | bool a => cases b <;> simp [combine, kind, eq_comm]
  | int a => cases b <;> simp [combine, kind, arith, eq_comm]
  | strs a =>
    cases b with
    | structs b =>
      cases a <;> cases b <;> simp [combine, kind, eq_comm]
      · intro x h1 h2; exact absurd h2 h1
      · exact ⟨fun e => ⟨_, by simp, rfl, e⟩, fun ⟨_, _, _, e⟩ => e⟩
    | strs b => cases a <;> cases b <;> simp [combine, kind, eq_comm]
    | struct b => cases a <;> simp [combine, kind, eq_comm]
    | _ => simp [combine, kind, eq_comm]
  | struct a => cases b <;> simp [combine, kind, eq_comm]
  | structs a =>
    cases b with
    | structs b => cases a <;> cases b <;> simp [combine, kind, eq_comm]
    | strs b =>
      cases a <;> cases b <;> simp [combine, kind, eq_comm]
      · intro x h1 h2; exact absurd h2 h1
      · exact ⟨fun e => ⟨_, by simp, rfl, e⟩, fun ⟨_, _, _, e⟩ => e⟩
    | struct b => cases a <;> simp [combine, kind, eq_comm]
    | str b => cases a <;> simp [combine, kind]
    | _ => simp [combine, kind]

theorem Subst.unique {frm to : List Char} (hf : frm ≠ []) {l : Option Nat} {s t : List Char} {k : Nat} (h : Verif.Str.Subst frm to l s t k) :
    ∀ {t' : List Char} {k' : Nat}, Verif.Str.Subst frm to l s t' k' → t = t' := by
  induction h with
  | stop s =>
    intro t' k' h'
    cases h' with
    | stop => rfl
    | done => rfl
    | hit h _ => exact absurd rfl h
    | skip h _ _ => exact absurd rfl h
  | done =>
    intro t' k' h'
    generalize hs : ([] : List Char) = s at h' ⊢
    cases h' with
    | stop => rfl
    | done => rfl
    | hit _ _ => simp at hs; exact absurd hs.1 hf
    | skip _ _ _ => cases hs
  | @hit l s out k hl h ih =>
    intro t' k' h'
    generalize hs : frm ++ s = s' at h'
    cases h' with
    | stop => exact absurd rfl hl
    | done => simp at hs; exact absurd hs.1 hf
    | hit _ h2 => rw [List.append_cancel_left hs] at ih; rw [ih h2]
    | skip _ hp _ => exact absurd ⟨s, hs⟩ hp
  | @skip l c s out k hl hp h ih =>
    intro t' k' h'
    generalize hs : c :: s = s' at h'
    cases h' with
    | stop => exact absurd rfl hl
    | done => cases hs
    | hit _ _ => exact absurd ⟨_, hs.symm⟩ hp
    | skip _ _ h2 => cases hs; rw [ih h2]

/-- `-` takes all occurrences of a string out of a string, from the left, or all elements equal to it out of an array, or it subtracts
integers. Nothing else is accepted. -/
theorem C92_minus (a b r : Val) (hlen : ∀ s, a = .str s → s.length < 2 ^ 32 - 1) : combine .minus (some a) b = .ok r ↔
    (∃ s x, a = .str s ∧ b = .str x ∧ x ≠ [] ∧ ∃ t k, r = .str t ∧ Verif.Str.Subst x [] none s t k) ∨
    (a = r ∧ b = .str [] ∧ kind a = .str) ∨
    (∃ l x, a = .strs l ∧ b = .str x ∧ r = .strs (l.filter (fun y => decide (y ≠ x)))) ∨
    (∃ i j, a = .int i ∧ b = .int j ∧ -2147483648 ≤ i - j ∧ i - j ≤ 2147483647 ∧ r = .int (i - j)) := by
  cases a with
  | str s =>
    cases b with
    | str x =>
      have hs := hlen s rfl
      by_cases hx : x = []
      · subst hx
        have : remove [] s = s := by
          unfold remove
          rw [Verif.Str.C30_replace_empty]; rfl
        simp [combine, this, kind]
      · obtain ⟨t, k, h1, h2⟩ := Verif.Str.C30_replace x [] 0 s hx hs
        have hr : remove x s = t := by unfold remove; rw [h1]; rfl
        simp only [combine, hr, Out.ok.injEq]
        constructor
        · intro e; exact Or.inl ⟨s, x, rfl, rfl, hx, t, k, e.symm, h2⟩
        · rintro (⟨s', x', e1, e2, _, t', k', e3, h3⟩ | ⟨_, e, _⟩ | ⟨_, _, e, _⟩ | ⟨_, _, e, _⟩)
          · cases e1; cases e2; subst e3
            have := Subst.unique hx h2 (show Verif.Str.Subst x [] (Verif.Str.limitOf 0) s t' k' from h3)
            rw [this]
          · cases e; exact absurd rfl hx
          · cases e
          · cases e
    | _ => simp [combine]
  | bool a => cases b <;> simp [combine, kind]
  | int a =>
    cases b with
    | int b =>
      simp only [combine, arith, int32]
      split
      · rename_i h; simp [h, eq_comm]
      · rename_i h; simp; intro h1 h2; exact absurd ⟨h1, h2⟩ h
    | _ => simp [combine, kind]
  | strs a =>
    cases b with
    | structs b => cases a <;> cases b <;> simp [combine]
    | strs b => cases a <;> cases b <;> simp [combine]
    | struct b => cases a <;> simp [combine]
    | str b => simp [combine, kind, eq_comm]
    | _ => simp [combine, kind]
  | struct a => cases b <;> simp [combine, kind]
  | structs a =>
    cases b with
    | structs b => cases a <;> cases b <;> simp [combine]
    | strs b => cases a <;> cases b <;> simp [combine]
    | struct b => cases a <;> simp [combine]
    | str b => cases a <;> simp [combine, kind]
    | _ => simp [combine]

/-! ### literals and variables -/

/-- A string, an integer or a bool written out does what a variable with that value does, except for a string and an array of structs
without elements. -/
theorem C92_literal (op : Op) (old : Option Val) :
    (∀ x, old ≠ some (.structs []) → storeString op x old = combine op old (.str x)) ∧
    (∀ i, storeInt op i old = combine op old (.int i)) ∧ (∀ b, storeBool op b old = combine op old (.bool b)) := by
  refine ⟨fun x h => ?_, fun i => ?_, fun b => ?_⟩
  · cases old with
    | none => rfl
    | some v =>
      cases v with
      | structs l => cases l with
        | nil => exact absurd rfl h
        | cons _ _ => rfl
      | strs l => cases l <;> rfl
      | _ => rfl
  · cases old with
    | none => rfl
    | some v =>
      cases v with
      | structs l => cases l <;> rfl
      | strs l => cases l <;> rfl
      | _ => rfl
  · cases old with
    | none => rfl
    | some v =>
      cases v with
      | structs l => cases l <;> rfl
      | strs l => cases l <;> rfl
      | _ => rfl

/-- what a literal array adds to what is there -/
def extend (p a : Acc) : Acc := ⟨if a.ty = .any then p.ty else a.ty, p.vals ++ a.vals, p.svals ++ a.svals⟩

/-- what is there and what is added fit -/
def Fit (p a : Acc) : Prop := p.ty = .any ∨ a.ty = .any ∨ p.ty = a.ty

theorem item_extend (s : List Frame) (op : Op) (hop : op ≠ .minus) (p a b : Acc) (t : Tok) (hf : Fit p a) :
    item s op (extend p a) t = .ok b ↔ ∃ a', item s .assign a t = .ok a' ∧ Fit p a' ∧ b = extend p a' := by
  obtain ⟨pt, pv, ps⟩ := p
  obtain ⟨at_, av, as⟩ := a
  cases t with
  | str x =>
    simp only [item, hop, if_false, extend, Fit, show (Op.assign = Op.minus) = False by simp] at hf ⊢
    cases subst s none x <;> cases pt <;> cases at_ <;> simp_all [eq_comm]
  | var x =>
    simp only [item, hop, if_false, extend, Fit, show (Op.assign = Op.minus) = False by simp] at hf ⊢
    cases srcVar s x with
    | ok v =>
      simp only [Out.bind_ok]
      cases v with
      | strs l => cases l <;> cases pt <;> cases at_ <;> simp_all [eq_comm]
      | structs l => cases l <;> cases pt <;> cases at_ <;> simp_all [eq_comm]
      | _ => cases pt <;> cases at_ <;> simp_all [eq_comm]
    | err => simp
    | assert w => simp
    | fuel => simp
  | _ => simp [item]

/-- what has been read so far hangs together -/
def Sound (a : Acc) : Prop :=
  match a.ty with
  | .any => a.vals = [] ∧ a.svals = []
  | .strs => a.svals = [] ∧ a.vals ≠ []
  | .structs => a.vals = [] ∧ a.svals ≠ []

theorem item_step (s : List Frame) (a b : Acc) (t : Tok) (h : item s .assign a t = .ok b) :
    (a.ty = .any ∨ b.ty = a.ty) ∧ (Sound a → Sound b) := by
  obtain ⟨at_, av, as⟩ := a
  cases t with
  | str x =>
    simp only [item, if_false, show (Op.assign = Op.minus) = False by simp] at h
    cases hv : subst s none x with
    | ok v => cases at_ <;> simp [hv] at h <;> (try subst h) <;> simp_all [Sound]
    | err => cases at_ <;> simp [hv] at h
    | assert w => cases at_ <;> simp [hv] at h
    | fuel => cases at_ <;> simp [hv] at h
  | var x =>
    simp only [item, if_false, show (Op.assign = Op.minus) = False by simp] at h
    cases hv : srcVar s x with
    | ok v =>
      rw [hv] at h
      simp only [Out.bind_ok] at h
      cases v with
      | strs l => cases l <;> cases at_ <;> simp at h <;> (try subst h) <;> simp_all [Sound]
      | structs l => cases l <;> cases at_ <;> simp at h <;> (try subst h) <;> simp_all [Sound]
      | str l => cases at_ <;> simp at h <;> (try subst h) <;> simp_all [Sound]
      | struct l => cases at_ <;> simp at h <;> (try subst h) <;> simp_all [Sound]
      | bool l => simp at h
      | int l => simp at h
    | err => simp [hv] at h
    | assert w => simp [hv] at h
    | fuel => simp [hv] at h
  | _ => simp [item] at h

theorem items_step (s : List Frame) (a : Acc) (ts : List Tok) : ∀ b, items s .assign a ts = .ok b →
    (a.ty = .any ∨ b.ty = a.ty) ∧ (Sound a → Sound b) := by
  fun_induction items s .assign a ts with
  | case1 a => intro b h; cases h; exact ⟨Or.inr rfl, id⟩
  | case2 a t ts ih =>
    intro b h
    obtain ⟨c, h1, h2⟩ := Out.bind_eq_ok.1 h
    obtain ⟨i1, i2⟩ := item_step s a c t h1
    obtain ⟨j1, j2⟩ := ih c b h2
    refine ⟨?_, j2 ∘ i2⟩
    rcases i1 with i1 | i1
    · exact Or.inl i1
    · rcases j1 with j1 | j1
      · exact Or.inl (i1 ▸ j1)
      · exact Or.inr (j1.trans i1)
  | case3 a t ts _ ih =>
    intro b h
    obtain ⟨c, h1, h2⟩ := Out.bind_eq_ok.1 h
    obtain ⟨i1, i2⟩ := item_step s a c t h1
    obtain ⟨j1, j2⟩ := ih c b h2
    refine ⟨?_, j2 ∘ i2⟩
    rcases i1 with i1 | i1
    · exact Or.inl i1
    · rcases j1 with j1 | j1
      · exact Or.inl (i1 ▸ j1)
      · exact Or.inr (j1.trans i1)

theorem fit_back {p a b : Acc} (h : a.ty = .any ∨ b.ty = a.ty) (hf : Fit p b) : Fit p a := by
  unfold Fit at *
  rcases h with h | h
  · exact Or.inr (Or.inl h)
  · rw [← h]; exact hf

theorem items_extend (s : List Frame) (op : Op) (hop : op ≠ .minus) (p a : Acc) (ts : List Tok) : ∀ b, Fit p a →
    (items s op (extend p a) ts = .ok b ↔ ∃ a', items s .assign a ts = .ok a' ∧ Fit p a' ∧ b = extend p a') := by
  have go : ∀ (t : Tok) (ts : List Tok) (a b : Acc), Fit p a →
      (∀ (a b : Acc), Fit p a → (items s op (extend p a) ts = .ok b ↔ ∃ a', items s .assign a ts = .ok a' ∧ Fit p a' ∧ b = extend p a')) →
      ((∃ c, item s op (extend p a) t = .ok c ∧ items s op c ts = .ok b) ↔
        ∃ a', (∃ c, item s .assign a t = .ok c ∧ items s .assign c ts = .ok a') ∧ Fit p a' ∧ b = extend p a') := by
    intro t ts a b hf ih
    constructor
    · rintro ⟨c, h1, h2⟩
      obtain ⟨a1, i1, i2, rfl⟩ := (item_extend s op hop p a c t hf).1 h1
      obtain ⟨a2, j1, j2, j3⟩ := (ih a1 b i2).1 h2
      exact ⟨a2, ⟨a1, i1, j1⟩, j2, j3⟩
    · rintro ⟨a2, ⟨a1, i1, j1⟩, j2, j3⟩
      have hf1 : Fit p a1 := fit_back (items_step s a1 ts a2 j1).1 j2
      exact ⟨extend p a1, (item_extend s op hop p a _ t hf).2 ⟨a1, i1, hf1, rfl⟩, (ih a1 b hf1).2 ⟨a2, j1, j2, j3⟩⟩
  have all : ∀ (n : Nat) (ts : List Tok), ts.length ≤ n → ∀ (a b : Acc), Fit p a →
      (items s op (extend p a) ts = .ok b ↔ ∃ a', items s .assign a ts = .ok a' ∧ Fit p a' ∧ b = extend p a') := by
    intro n
    induction n with
    | zero =>
      intro ts hn a b hf
      cases ts with
      | nil => simp [items, hf, eq_comm]
      | cons _ _ => simp at hn
    | succ n ih =>
      intro ts hn a b hf
      cases ts with
      | nil => simp [items, hf, eq_comm]
      | cons t ts =>
        simp only [List.length_cons, Nat.add_le_add_iff_right] at hn
        cases ts with
        | nil =>
          simp only [items, Out.bind_eq_ok]
          have := go t [] a b hf (ih [] hn)
          simp only [items] at this
          exact this
        | cons t2 ts =>
          have h2 := go t (t2 :: ts) a b hf (ih _ hn)
          cases t2 with
          | comma =>
            simp only [List.length_cons] at hn
            have := go t ts a b hf (ih ts (by omega))
            simp only [items, Out.bind_eq_ok]
            exact this
          | _ =>
            simp only [items, Out.bind_eq_ok] at h2 ⊢
            exact h2
  intro b hf
  exact all ts.length ts (Nat.le_refl _) a b hf

theorem storeArray_none (s : List Frame) (ts : List Tok) (v : Val) : storeArray s .assign ts none = .ok v ↔
    ∃ a, items s .assign ⟨.any, [], []⟩ ts = .ok a ∧ Sound a ∧ v = (if a.ty = .structs then .structs a.svals else .strs a.vals) := by
  simp only [storeArray, acc0, if_true, Out.bind_ok, Out.bind_eq_ok]
  constructor
  · rintro ⟨a, h1, h2⟩
    have hs := (items_step s _ ts a h1).2 ⟨rfl, rfl⟩
    refine ⟨a, h1, hs, ?_⟩
    split at h2
    · simp at h2
    · cases hty : a.ty <;> simp [hty] at h2 <;> simp [h2.symm]
  · rintro ⟨a, h1, hs, rfl⟩
    refine ⟨a, h1, ?_⟩
    unfold Sound at hs
    cases hty : a.ty <;> simp [hty] at hs <;> simp [hs]

theorem array_strs (op : Op) (hop : op = .assign ∨ op = .plus) (l : List Str) (r : Val) (ty : Ty) (vs : List Str)
    (ss : List (List (Str × Val))) (hs : Sound ⟨ty, vs, ss⟩) :
    (Fit ⟨if l = [] then .any else .strs, if op = .assign then [] else l, []⟩ ⟨ty, vs, ss⟩ ∧
      (if (extend ⟨if l = [] then .any else .strs, if op = .assign then [] else l, []⟩ ⟨ty, vs, ss⟩).vals ≠ [] ∧ (extend ⟨if l = [] then .any else .strs, if op = .assign then [] else l, []⟩ ⟨ty, vs, ss⟩).svals.isEmpty = false then Out.assert .type
        else match (extend ⟨if l = [] then .any else .strs, if op = .assign then [] else l, []⟩ ⟨ty, vs, ss⟩).ty with
          | .strs => pure (.strs (extend ⟨if l = [] then .any else .strs, if op = .assign then [] else l, []⟩ ⟨ty, vs, ss⟩).vals)
          | .structs => pure (.structs (extend ⟨if l = [] then .any else .strs, if op = .assign then [] else l, []⟩ ⟨ty, vs, ss⟩).svals)
          | .any => match (some (.strs l) : Option Val) with
            | some (.structs _) => pure (.structs (extend ⟨if l = [] then .any else .strs, if op = .assign then [] else l, []⟩ ⟨ty, vs, ss⟩).svals)
            | _ => pure (.strs (extend ⟨if l = [] then .any else .strs, if op = .assign then [] else l, []⟩ ⟨ty, vs, ss⟩).vals)) = .ok r) ↔
        combine op (some (.strs l)) (if ty = .structs then .structs ss else .strs vs) = .ok r := by
  rcases hop with rfl | rfl
  · cases ty with
    | any => simp only [Sound] at hs; obtain ⟨rfl, rfl⟩ := hs; cases l <;> simp [extend, Fit, combine]
    | strs => simp only [Sound] at hs; obtain ⟨rfl, hv⟩ := hs; cases l <;> cases vs <;> simp at hv <;> simp [extend, Fit, combine]
    | structs => simp only [Sound] at hs; obtain ⟨rfl, hv⟩ := hs; cases l <;> cases ss <;> simp at hv <;> simp [extend, Fit, combine]
  · cases ty with
    | any => simp only [Sound] at hs; obtain ⟨rfl, rfl⟩ := hs; cases l <;> simp [extend, Fit, combine]
    | strs => simp only [Sound] at hs; obtain ⟨rfl, hv⟩ := hs; cases l <;> cases vs <;> simp at hv <;> simp [extend, Fit, combine]
    | structs => simp only [Sound] at hs; obtain ⟨rfl, hv⟩ := hs; cases l <;> cases ss <;> simp at hv <;> simp [extend, Fit, combine]

theorem array_structs (op : Op) (hop : op = .assign ∨ op = .plus) (l : List (List (Str × Val))) (r : Val) (ty : Ty) (vs : List Str)
    (ss : List (List (Str × Val))) (hs : Sound ⟨ty, vs, ss⟩) :
    (Fit ⟨if l.isEmpty then .any else .structs, [], if op = .assign then [] else l⟩ ⟨ty, vs, ss⟩ ∧
      (if (extend ⟨if l.isEmpty then .any else .structs, [], if op = .assign then [] else l⟩ ⟨ty, vs, ss⟩).vals ≠ [] ∧ (extend ⟨if l.isEmpty then .any else .structs, [], if op = .assign then [] else l⟩ ⟨ty, vs, ss⟩).svals.isEmpty = false then Out.assert .type
        else match (extend ⟨if l.isEmpty then .any else .structs, [], if op = .assign then [] else l⟩ ⟨ty, vs, ss⟩).ty with
          | .strs => pure (.strs (extend ⟨if l.isEmpty then .any else .structs, [], if op = .assign then [] else l⟩ ⟨ty, vs, ss⟩).vals)
          | .structs => pure (.structs (extend ⟨if l.isEmpty then .any else .structs, [], if op = .assign then [] else l⟩ ⟨ty, vs, ss⟩).svals)
          | .any => match (some (.structs l) : Option Val) with
            | some (.structs _) => pure (.structs (extend ⟨if l.isEmpty then .any else .structs, [], if op = .assign then [] else l⟩ ⟨ty, vs, ss⟩).svals)
            | _ => pure (.strs (extend ⟨if l.isEmpty then .any else .structs, [], if op = .assign then [] else l⟩ ⟨ty, vs, ss⟩).vals)) = .ok r) ↔
        combine op (some (.structs l)) (if ty = .structs then .structs ss else .strs vs) = .ok r := by
  rcases hop with rfl | rfl
  · cases ty with
    | any => simp only [Sound] at hs; obtain ⟨rfl, rfl⟩ := hs; cases l <;> simp [extend, Fit, combine]
    | strs => simp only [Sound] at hs; obtain ⟨rfl, hv⟩ := hs; cases l <;> cases vs <;> simp at hv <;> simp [extend, Fit, combine]
    | structs => simp only [Sound] at hs; obtain ⟨rfl, hv⟩ := hs; cases l <;> cases ss <;> simp at hv <;> simp [extend, Fit, combine]
  · cases ty with
    | any => simp only [Sound] at hs; obtain ⟨rfl, rfl⟩ := hs; cases l <;> simp [extend, Fit, combine]
    | strs => simp only [Sound] at hs; obtain ⟨rfl, hv⟩ := hs; cases l <;> cases vs <;> simp at hv <;> simp [extend, Fit, combine]
    | structs => simp only [Sound] at hs; obtain ⟨rfl, hv⟩ := hs; cases l <;> cases ss <;> simp at hv <;> simp [extend, Fit, combine]

/-- An array written out does with `=` and `+` what a variable with that value does. -/
theorem C92_array (s : List Frame) (op : Op) (ts : List Tok) (old : Option Val) (r : Val) (hop' : op = .assign ∨ op = .plus) :
    storeArray s op ts old = .ok r ↔ ∃ v, storeArray s .assign ts none = .ok v ∧ combine op old v = .ok r := by
  have hop : op ≠ .minus := by rcases hop' with h | h <;> simp [h]
  have main : ∀ p, acc0 op old = .ok p → (storeArray s op ts old = .ok r ↔ ∃ a, items s .assign ⟨.any, [], []⟩ ts = .ok a ∧ Sound a ∧ Fit p a ∧
      (if (extend p a).vals ≠ [] ∧ (extend p a).svals.isEmpty = false then Out.assert .type
        else match (extend p a).ty with
          | .strs => pure (.strs (extend p a).vals)
          | .structs => pure (.structs (extend p a).svals)
          | .any => match old with
            | some (.structs _) => pure (.structs (extend p a).svals)
            | _ => pure (.strs (extend p a).vals)) = .ok r) := by
    intro p hp
    have e : p = extend p ⟨.any, [], []⟩ := by simp [extend]
    simp only [storeArray, hp, Out.bind_ok, Out.bind_eq_ok]
    constructor
    · rintro ⟨b, h1, h2⟩
      rw [e] at h1
      obtain ⟨a, i1, i2, rfl⟩ := (items_extend s op hop p _ ts b (Or.inr (Or.inl rfl))).1 h1
      exact ⟨a, i1, (items_step s _ ts a i1).2 ⟨rfl, rfl⟩, i2, h2⟩
    · rintro ⟨a, i1, _, i2, h2⟩
      refine ⟨extend p a, ?_, h2⟩
      have := (items_extend s op hop p _ ts (extend p a) (Or.inr (Or.inl rfl))).2 ⟨a, i1, i2, rfl⟩
      rw [← e] at this
      exact this
  have fin : ∀ p, acc0 op old = .ok p → (∀ a, Sound a → ((Fit p a ∧
      (if (extend p a).vals ≠ [] ∧ (extend p a).svals.isEmpty = false then Out.assert .type
        else match (extend p a).ty with
          | .strs => pure (.strs (extend p a).vals)
          | .structs => pure (.structs (extend p a).svals)
          | .any => match old with
            | some (.structs _) => pure (.structs (extend p a).svals)
            | _ => pure (.strs (extend p a).vals)) = .ok r) ↔
        combine op old (if a.ty = .structs then .structs a.svals else .strs a.vals) = .ok r)) →
      (storeArray s op ts old = .ok r ↔ ∃ v, storeArray s .assign ts none = .ok v ∧ combine op old v = .ok r) := by
    intro p hp h
    rw [main p hp]
    constructor
    · rintro ⟨a, h1, h2, h3⟩
      exact ⟨_, (storeArray_none s ts _).2 ⟨a, h1, h2, rfl⟩, (h a h2).1 h3⟩
    · rintro ⟨v, h1, h2⟩
      obtain ⟨a, h3, h4, rfl⟩ := (storeArray_none s ts _).1 h1
      exact ⟨a, h3, h4, (h a h4).2 h2⟩
  have none_ok : acc0 op old = .err → (∀ v, Arr v → combine op old v ≠ .ok r) →
      (storeArray s op ts old = .ok r ↔ ∃ v, storeArray s .assign ts none = .ok v ∧ combine op old v = .ok r) := by
    intro h1 h2
    constructor
    · intro h; simp [storeArray, h1] at h
    · rintro ⟨v, h3, h4⟩
      obtain ⟨a, _, _, rfl⟩ := (storeArray_none s ts _).1 h3
      refine absurd h4 (h2 _ ?_)
      split
      · exact Or.inr rfl
      · exact Or.inl rfl
  cases old with
  | none =>
    rcases hop' with rfl | rfl
    · refine fin ⟨.any, [], []⟩ (by simp [acc0]) ?_
      rintro ⟨ty, vs, ss⟩ hs
      cases ty <;> simp [Sound] at hs <;> simp [hs, extend, Fit, combine]
    · refine none_ok (by simp [acc0]) ?_
      intro v _
      simp [combine]
  | some v =>
    cases v with
    | strs l =>
      refine fin ⟨if l = [] then .any else .strs, if op = .assign then [] else l, []⟩ (by simp [acc0]) ?_
      rintro ⟨ty, vs, ss⟩ hs
      exact array_strs op hop' l r ty vs ss hs
    | structs l =>
      refine fin ⟨if l.isEmpty then .any else .structs, [], if op = .assign then [] else l⟩ (by simp [acc0]) ?_
      rintro ⟨ty, vs, ss⟩ hs
      exact array_structs op hop' l r ty vs ss hs
    | _ =>
      refine none_ok (by simp [acc0]) ?_
      intro v hv
      cases v <;> simp [Arr, kind] at hv <;> simp [combine]

/-! ### types -/

theorem concat_keeps (a b r : Val) (h : concat a b = .ok r) : Keeps a r := by
  by_cases hs : kind a = .struct ∧ kind b = .struct
  · cases a <;> simp [kind] at hs
    cases b <;> simp at hs
    rw [concat] at h
    obtain ⟨l, _, h⟩ := Out.bind_eq_ok.1 h
    cases h
    exact Or.inl rfl
  · have := (C92_plain a b r hs).1 h
    cases this <;> first | exact Or.inl rfl | exact Or.inr ⟨Or.inl rfl, Or.inr rfl⟩ | exact Or.inr ⟨Or.inr rfl, Or.inl rfl⟩

/-- No assignment changes the type of a variable, except that an array without elements may become an array of the other type. -/
theorem C92_types (s : List Frame) (op : Op) (hop : op = .assign ∨ op = .plus ∨ op = .minus) (a r : Val)
    (h : (∃ v, combine op (some a) v = .ok r) ∨ (∃ x, storeString op x (some a) = .ok r) ∨ (∃ i, storeInt op i (some a) = .ok r) ∨
      (∃ b, storeBool op b (some a) = .ok r) ∨ ∃ ts, storeArray s op ts (some a) = .ok r) : Keeps a r := by
  have hc : ∀ v, combine op (some a) v = .ok r → Keeps a r := by
    intro v hv
    rcases hop with rfl | rfl | rfl
    · rcases (C92_assign a v r).1 hv with ⟨h1, rfl⟩ | ⟨x, h1, _, rfl⟩ | ⟨m, h1, _, rfl⟩ | ⟨h1, _, rfl⟩ | ⟨h1, _, rfl⟩ | ⟨l, h1, _, h2, rfl⟩ |
        ⟨l, h1, _, h2, rfl⟩
      · exact Or.inl h1.symm
      · exact Or.inl h1.symm
      · rcases h1 with h1 | rfl
        · exact Or.inl h1.symm
        · exact Or.inr ⟨Or.inl rfl, Or.inr rfl⟩
      · exact Or.inl h1.symm
      · exact Or.inl h1.symm
      · subst h1; subst h2; exact Or.inr ⟨Or.inr rfl, Or.inl rfl⟩
      · subst h1; subst h2; exact Or.inr ⟨Or.inl rfl, Or.inr rfl⟩
    · exact concat_keeps a v r ((C92_plus a v r).1 hv).1
    · left
      cases a with
      | strs l => cases v with
        | str x => simp only [combine, Out.ok.injEq] at hv; subst hv; rfl
        | strs m => cases l <;> cases m <;> simp [combine] at hv
        | structs m => cases l <;> cases m <;> simp [combine] at hv
        | struct m => cases l <;> simp [combine] at hv
        | _ => simp [combine] at hv
      | structs l => cases v with
        | str x => cases l <;> simp [combine] at hv
        | strs m => cases l <;> cases m <;> simp [combine] at hv
        | structs m => cases l <;> cases m <;> simp [combine] at hv
        | struct m => cases l <;> simp [combine] at hv
        | _ => simp [combine] at hv
      | int i => cases v with
        | int j =>
          simp only [combine, Out.bind_eq_ok] at hv
          obtain ⟨k, _, hk⟩ := hv
          cases hk; rfl
        | _ => simp [combine] at hv
      | str x => cases v with
        | str y => simp only [combine, Out.ok.injEq] at hv; subst hv; rfl
        | _ => simp [combine] at hv
      | bool x => cases v <;> simp [combine] at hv
      | struct x => cases v <;> simp [combine] at hv
  rcases h with ⟨v, hv⟩ | ⟨x, hx⟩ | ⟨i, hi⟩ | ⟨b, hb⟩ | ⟨ts, ht⟩
  · exact hc v hv
  · by_cases ho : (some a : Option Val) = some (.structs [])
    · cases ho
      simp only [storeString] at hx
      split at hx
      · cases hx; exact Or.inr ⟨Or.inr rfl, Or.inl rfl⟩
      · cases hx
    · rw [(C92_literal op (some a)).1 x ho] at hx; exact hc _ hx
  · rw [(C92_literal op (some a)).2.1 i] at hi; exact hc _ hi
  · rw [(C92_literal op (some a)).2.2 b] at hb; exact hc _ hb
  · by_cases hm : op = .minus
    · subst hm
      have its : ∀ (c d : Acc) (ts : List Tok), items s .minus c ts = .ok d → d = c := by
        intro c d ts
        cases ts with
        | nil => intro h; rw [items] at h; cases h; rfl
        | cons t ts =>
          intro h
          exfalso
          have : ∃ e, item s .minus c t = .ok e := by
            cases ts with
            | nil => rw [items] at h; obtain ⟨e, he, _⟩ := Out.bind_eq_ok.1 h; exact ⟨e, he⟩; simp
            | cons u ts =>
              cases u <;> (simp only [items, Out.bind_eq_ok] at h; obtain ⟨e, he, _⟩ := h; exact ⟨e, he⟩)
          obtain ⟨e, he⟩ := this
          cases t with
          | str x => simp only [item] at he; split at he <;> simp at he
          | var x =>
            simp only [item] at he
            cases hv : srcVar s x <;> simp [hv] at he
          | _ => simp [item] at he
      rw [storeArray] at ht
      obtain ⟨c, h1, ht1⟩ := Out.bind_eq_ok.1 ht
      obtain ⟨d, h2, ht2⟩ := Out.bind_eq_ok.1 ht1
      clear ht ht1
      have := its c d ts h2
      subst this
      cases a with
      | strs l =>
        simp only [acc0, Out.ok.injEq] at h1
        subst h1
        left
        cases l <;> simp at ht2 <;> subst ht2 <;> rfl
      | structs l =>
        simp only [acc0, Out.ok.injEq] at h1
        subst h1
        left
        cases l <;> simp at ht2 <;> subst ht2 <;> rfl
      | _ => simp [acc0] at h1
    · have hop' : op = .assign ∨ op = .plus := by
        rcases hop with h | h | h
        · exact Or.inl h
        · exact Or.inr h
        · exact absurd h hm
      obtain ⟨v, _, hv⟩ := (C92_array s op ts (some a) r hop').1 ht
      exact hc v hv

/-! ### cases -/

/-- An array of structs without elements and a string: what works with a string written out is an assertion with a variable. -/
theorem C92_open_structs : storeString .assign "x".toList (some (.structs [])) = .ok (.strs ["x".toList]) ∧
    combine .assign (some (.structs [])) (.str "x".toList) = .assert .type ∧
    storeString .plus "x".toList (some (.structs [])) = .assert .type := by
  refine ⟨rfl, rfl, rfl⟩

/-- a struct with a string, an array and a struct, and one put on top of it -/
example : concat
    (.struct [(".Opt".toList, .str "-a".toList), (".In".toList, .strs ["x".toList]), (".Sub".toList, .struct [(".B".toList, .bool false)])])
    (.struct [(".New".toList, .int 3), (".Sub".toList, .struct [(".C".toList, .int 1), (".B".toList, .bool true)]), (".Opt".toList, .str " -b".toList)]) =
    .ok (.struct [(".Opt".toList, .str "-a -b".toList), (".In".toList, .strs ["x".toList]),
      (".Sub".toList, .struct [(".B".toList, .bool true), (".C".toList, .int 1)]), (".New".toList, .int 3)]) := by
  rfl

example : combine .minus (some (.str "-O2 -g -O2".toList)) (.str "-O2".toList) = .ok (.str " -g ".toList) := by rfl

example : combine .minus (some (.strs ["a".toList, "b".toList, "a".toList])) (.str "a".toList) = .ok (.strs ["b".toList]) := by rfl

/-- an array written out and added to one that is there -/
example : storeArray [⟨[⟨".L".toList, .strs ["c".toList, "d".toList], 0⟩], none, true⟩] .plus [.str "b".toList, .comma, .var ".L".toList]
    (some (.strs ["a".toList])) = .ok (.strs ["a".toList, "b".toList, "c".toList, "d".toList]) := by
  rfl

/-- a string is not added to an integer, and an integer that gets too large is not defined -/
example : combine .plus (some (.int 1)) (.str "x".toList) = .err ∧ combine .plus (some (.int 2147483647)) (.int 1) = .assert .overflow :=
  ⟨rfl, rfl⟩

end Verif.Bff.Value
