import Verif.Profile.Proof
/-! The numbers of a profile. -/
namespace Verif.Profile
open Spec

def Last.get (l : Last) : Stat → Nat
  | .job => l.job
  | .process => l.process
  | .system => l.system
  | .connections => l.connections

def Metrics.get (l : Metrics) : Stat → Nat
  | .job => l.job
  | .process => l.process
  | .system => l.system
  | .connections => l.connections

/-- numbers that are written -/
def Used (distributed : Bool) (s : Stat) : Prop := s = .connections → distributed = true

theorem round_spec (d : Bool) (last : Last) (m : Metrics) (isLast : Bool) :
    (∀ x ∈ (round d last m isLast).1, x.2 = m.get x.1 ∧ Used d x.1) ∧
    (∀ s, Used d s → (s, m.get s) ∈ (round d last m isLast).1 ∨ last.get s = m.get s ∧ isLast = false) ∧
    (∀ s, Used d s → (round d last m isLast).2.get s = m.get s) := by
  obtain ⟨a, b, c, e⟩ := last
  obtain ⟨t, a', b', c', e'⟩ := m
  cases d <;> cases isLast <;> by_cases h1 : a = a' <;> by_cases h2 : b = b' <;> by_cases h3 : c = c' <;> by_cases h4 : e = e' <;>
    refine ⟨?_, ?_, ?_⟩ <;> first
    | (intro x hx; simp [round, h1, h2, h3, h4] at hx; first | (rcases hx with rfl | rfl | rfl | rfl <;> simp [Metrics.get, Used]) | (rcases hx with rfl | rfl | rfl <;> simp [Metrics.get, Used]) | (rcases hx with rfl | rfl <;> simp [Metrics.get, Used]) | (subst hx; simp [Metrics.get, Used]))
    | (intro s hs; cases s <;> simp [round, h1, h2, h3, h4, Metrics.get, Last.get, Used] at *)

/-- the entries, flat -/
def flat (l : List (Int × List (Stat × Nat))) : List (Int × Stat × Nat) := l.flatMap fun r => r.2.map fun x => (r.1, x)

theorem flat_cons (t : Int) (x : List (Stat × Nat)) (l : List (Int × List (Stat × Nat))) : flat ((t, x) :: l) = x.map (fun y => (t, y)) ++ flat l := by
  rw [flat, flat, List.flatMap_cons]

theorem last_split {α : Type} (P : α → Prop) : ∀ {l : List α}, (∃ x ∈ l, P x) → ∃ pre x post, l = pre ++ x :: post ∧ P x ∧ ∀ y ∈ post, ¬ P y
  | [], h => by obtain ⟨x, hx, _⟩ := h; cases hx
  | a :: l, h => by
    by_cases hl : ∃ x ∈ l, P x
    · obtain ⟨pre, x, post, e, h1, h2⟩ := last_split P hl
      exact ⟨a :: pre, x, post, by rw [e]; rfl, h1, h2⟩
    · obtain ⟨x, hx, hp⟩ := h
      rcases List.mem_cons.1 hx with rfl | hx
      · exact ⟨[], x, l, rfl, hp, fun y hy hy' => hl ⟨y, hy, hy'⟩⟩
      · exact absurd ⟨x, hx, hp⟩ hl

theorem rounds_length (d : Bool) : ∀ (ms : List Metrics) (last : Last), (rounds d last ms).length = ms.length
  | [], _ => rfl
  | m :: ms, last => by rw [rounds, List.length_cons, List.length_cons, rounds_length d ms]

theorem rounds_spec (d : Bool) : ∀ (ms : List Metrics) (last : Last) (i : Nat) (m : Metrics), ms[i]? = some m →
    ∃ l, (rounds d last ms)[i]? = some (m.time, l) ∧ (∀ x ∈ l, x.2 = m.get x.1 ∧ Used d x.1) ∧
      (i + 1 = ms.length → ∀ s, Used d s → (s, m.get s) ∈ l) ∧
      ∀ s, Used d s → (∃ pre t post, flat ((rounds d last ms).take (i + 1)) = pre ++ (t, s, m.get s) :: post ∧ ∀ y ∈ post, y.2.1 ≠ s) ∨
        (last.get s = m.get s ∧ ∀ y ∈ flat ((rounds d last ms).take (i + 1)), y.2.1 ≠ s)
  | [], _, _, _, h => by simp at h
  | m0 :: ms, last, i, m, h => by
    obtain ⟨h1, h2, h3⟩ := round_spec d last m0 ms.isEmpty
    rw [rounds]
    generalize hr : round d last m0 ms.isEmpty = r at h1 h2 h3
    cases i with
    | zero =>
      rw [List.getElem?_cons_zero] at h
      cases Option.some.inj h
      refine ⟨r.1, rfl, h1, ?_, ?_⟩
      · intro he s hs
        have : ms = [] := List.eq_nil_of_length_eq_zero (by simpa using he.symm)
        subst this
        rcases h2 s hs with h | ⟨_, h⟩
        · exact h
        · exact absurd h (by simp)
      · intro s hs
        have ef : flat ((⟨m0.time, r.1⟩ :: rounds d r.2 ms).take (0 + 1)) = r.1.map fun y => (m0.time, y) := by
          rw [Nat.zero_add, List.take_succ_cons, List.take_zero, flat_cons]
          exact List.append_nil _
        rw [ef]
        by_cases hx : ∃ x ∈ r.1, x.1 = s
        · obtain ⟨pre, x, post, e, h5, h6⟩ := last_split (fun x : Stat × Nat => x.1 = s) hx
          refine .inl ⟨pre.map fun y => (m0.time, y), m0.time, post.map fun y => (m0.time, y), ?_, ?_⟩
          · have hxm := (h1 x (by rw [e]; exact List.mem_append_right _ (List.mem_cons_self ..))).1
            rw [e, List.map_append, List.map_cons]
            obtain ⟨xs, xv⟩ := x
            subst h5
            rw [← hxm]
          · intro y hy
            obtain ⟨z, hz, rfl⟩ := List.mem_map.1 hy
            exact h6 z hz
        · refine .inr ⟨?_, ?_⟩
          · rcases h2 s hs with h | h
            · exact absurd ⟨_, h, rfl⟩ hx
            · exact h.1
          · intro y hy
            obtain ⟨z, hz, rfl⟩ := List.mem_map.1 hy
            exact fun e => hx ⟨z, hz, e⟩
    | succ i =>
      rw [List.getElem?_cons_succ] at h
      obtain ⟨l, e1, e2, e3, e4⟩ := rounds_spec d ms r.2 i m h
      refine ⟨l, by rw [List.getElem?_cons_succ]; exact e1, e2, ?_, ?_⟩
      · intro he
        exact e3 (by simpa using he)
      · intro s hs
        rw [List.take_succ_cons, flat_cons]
        rcases e4 s hs with ⟨pre, t, post, e, h5⟩ | ⟨e5, e6⟩
        · exact .inl ⟨r.1.map (fun y => (m0.time, y)) ++ pre, t, post, by rw [e, List.append_assoc], h5⟩
        · rw [h3 s hs] at e5
          by_cases hx : ∃ x ∈ r.1, x.1 = s
          · obtain ⟨pre, x, post, e, h5, h6⟩ := last_split (fun x : Stat × Nat => x.1 = s) hx
            refine .inl ⟨pre.map fun y => (m0.time, y), m0.time, post.map (fun y => (m0.time, y)) ++ flat ((rounds d r.2 ms).take (i + 1)), ?_, ?_⟩
            · have hxm := (h1 x (by rw [e]; exact List.mem_append_right _ (List.mem_cons_self ..))).1
              rw [e, List.map_append, List.map_cons, List.append_assoc, List.cons_append]
              obtain ⟨xs, xv⟩ := x
              subst h5
              rw [← e5, ← hxm]
            · intro y hy
              rcases List.mem_append.1 hy with hy | hy
              · obtain ⟨z, hz, rfl⟩ := List.mem_map.1 hy
                exact h6 z hz
              · exact e6 y hy
          · refine .inr ⟨?_, ?_⟩
            · rcases h2 s hs with h | h
              · exact absurd ⟨_, h, rfl⟩ hx
              · rw [h.1, e5]
            · intro y hy
              rcases List.mem_append.1 hy with hy | hy
              · obtain ⟨z, hz, rfl⟩ := List.mem_map.1 hy
                exact fun e => hx ⟨z, hz, e⟩
              · exact e6 y hy

/-! ### As JSON -/

/-- the first member -/
def label : J → Text
  | .obj ((_, .str n) :: _) => n
  | _ => []

def statName : Stat → Text
  | .job => "Process - Job (MiB)".toList
  | .process => "Process - Total (MiB)".toList
  | .system => "System - Total (GiB)".toList
  | .connections => "Connections".toList

theorem statName_inj : ∀ s s' : Stat, statName s = statName s' → s = s' := by
  intro s s'
  cases s <;> cases s' <;> first | exact fun _ => rfl | (intro h; exact absurd h (by decide +kernel))

def kind : Stat → Nat → Nat → J
  | .job => jobs
  | .process => process
  | .system => system
  | .connections => connections

theorem kind_label (s : Stat) (ts v : Nat) : label (kind s ts v) = statName s := by cases s <;> rfl

/-- what is shown of a value -/
def disp (gib : Nat → Nat) : Stat → Nat → Nat
  | .system, v => gib v
  | _, v => v

theorem shown_kind (us : Int → Nat) (gib : Nat → Nat) (t : Int) (s : Stat) (v : Nat) : shown us gib t (s, v) = kind s (us t) (disp gib s v) := by
  cases s <;> rfl

/-- the groups of entries -/
def groups (us : Int → Nat) (gib : Nat → Nat) (l : List (Int × List (Stat × Nat))) : List (List J) :=
  l.map fun r => r.2.map (shown us gib r.1)

theorem groups_flatten (us : Int → Nat) (gib : Nat → Nat) (l : List (Int × List (Stat × Nat))) :
    (groups us gib l).flatten = (flat l).map fun x => shown us gib x.1 x.2 := by
  induction l with
  | nil => rfl
  | cons r l ih =>
    obtain ⟨t, x⟩ := r
    rw [flat_cons, List.map_append, ← ih, groups, List.map_cons, List.flatten_cons, List.map_map]
    rfl

theorem latest {us : Int → Nat} {gib : Nat → Nat} {F : List (Int × Stat × Nat)} {s : Stat} {v : Nat}
    (h : (∃ pre t post, F = pre ++ (t, s, v) :: post ∧ ∀ y ∈ post, y.2.1 ≠ s) ∨ (0 = v ∧ ∀ y ∈ F, y.2.1 ≠ s)) :
    Latest (F.map fun x => shown us gib x.1 x.2) (kind s) (disp gib s v) (v = 0) := by
  have key : ∀ (l : List (Int × Stat × Nat)), (∀ y ∈ l, y.2.1 ≠ s) → ∀ ts' v', kind s ts' v' ∉ l.map fun x => shown us gib x.1 x.2 := by
    intro l hl ts' v' hm
    obtain ⟨y, hy, e⟩ := List.mem_map.1 hm
    obtain ⟨t, s', w⟩ := y
    have e' : shown us gib t (s', w) = kind s ts' v' := e
    rw [shown_kind] at e'
    have := congrArg label e'
    rw [kind_label, kind_label] at this
    exact hl _ hy (statName_inj _ _ this)
  rcases h with ⟨pre, t, post, e, h⟩ | ⟨h0, h⟩
  · refine .inl ⟨pre.map fun x => shown us gib x.1 x.2, us t, post.map fun x => shown us gib x.1 x.2, ?_, key post h⟩
    rw [e, List.map_append, List.map_cons]
    rw [show shown us gib t (s, v) = kind s (us t) (disp gib s v) from shown_kind ..]
  · exact .inr ⟨h0.symm, key F h⟩

theorem counters (us : Int → Nat) (gib : Nat → Nat) (d : Bool) (ms : List Metrics) :
    Counters us gib d ms (groups us gib (rounds d ⟨0, 0, 0, 0⟩ ms)).flatten := by
  refine ⟨_, by rw [groups, List.length_map, rounds_length], rfl, ?_⟩
  intro i m g hm hg
  obtain ⟨l, e1, e2, e3, e4⟩ := rounds_spec d ms ⟨0, 0, 0, 0⟩ i m hm
  have hg' : l.map (shown us gib m.time) = g := by
    rw [groups, List.getElem?_map, e1] at hg
    exact Option.some.inj hg
  have ht : ((groups us gib (rounds d ⟨0, 0, 0, 0⟩ ms)).take (i + 1)).flatten =
      (flat ((rounds d ⟨0, 0, 0, 0⟩ ms).take (i + 1))).map fun x => shown us gib x.1 x.2 := by
    rw [← groups_flatten, groups, groups, List.map_take]
  rw [ht]
  have u1 : Used d .job := fun h => nomatch h
  have u2 : Used d .process := fun h => nomatch h
  have u3 : Used d .system := fun h => nomatch h
  refine ⟨?_, ?_, ?_, ?_, ?_, ?_⟩
  · intro x hx
    rw [← hg'] at hx
    obtain ⟨⟨s, v⟩, hy, rfl⟩ := List.mem_map.1 hx
    obtain ⟨h1, h2⟩ := e2 _ hy
    have h1' : v = m.get s := h1
    subst h1'
    cases s
    · exact .inl rfl
    · exact .inr (.inl rfl)
    · exact .inr (.inr (.inl rfl))
    · exact .inr (.inr (.inr ⟨h2 rfl, rfl⟩))
  · exact latest (s := .job) (e4 _ u1)
  · exact latest (s := .process) (e4 _ u2)
  · exact latest (s := .system) (e4 _ u3)
  · intro hd
    exact latest (s := .connections) (e4 _ fun _ => hd)
  · intro he
    rw [← hg']
    exact ⟨List.mem_map.2 ⟨_, e3 he _ u1, rfl⟩, List.mem_map.2 ⟨_, e3 he _ u2, rfl⟩, List.mem_map.2 ⟨_, e3 he _ u3, rfl⟩,
      fun hd => List.mem_map.2 ⟨_, e3 he .connections (fun _ => hd), rfl⟩⟩

end Verif.Profile
