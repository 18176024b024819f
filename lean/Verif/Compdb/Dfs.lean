/-
Visiting nodes depth first, each once: the pattern of `CompilationDatabase::VisitNodes` and
`SourceFileTargetResolver::FindTargetsRecurse`.
-/
namespace Verif.Dfs

/-- nodes with the tag, and nodes that were left, in order -/
structure St where
  seen : List Nat
  out : List Nat

/-- a loop of calls -/
def all (f : Nat → St → Option St) : List Nat → St → Option St
  | [], s => some s
  | n :: l, s => match f n s with
    | some s => all f l s
    | none => none

/-- `none`: the stack is used up -/
def visit (succ : Nat → List Nat) : Nat → Nat → St → Option St
  | 0, _, _ => none
  | fuel + 1, n, s =>
    if n ∈ s.seen then some s
    else match all (visit succ fuel) (succ n) ⟨n :: s.seen, s.out⟩ with
      | some s => some ⟨s.seen, s.out ++ [n]⟩
      | none => none

/-- `m` is reached from `n` -/
inductive Reach (succ : Nat → List Nat) : Nat → Nat → Prop
  | refl (n : Nat) : Reach succ n n
  | step {n m k : Nat} : m ∈ succ n → Reach succ m k → Reach succ n k

/-- what a visit adds -/
structure Adds (succ : Nat → List Nat) (roots : List Nat) (s s' : St) (new : List Nat) : Prop where
  out : s'.out = s.out ++ new
  seen : ∀ m, m ∈ s'.seen ↔ m ∈ s.seen ∨ m ∈ new
  nodup : new.Nodup
  fresh : ∀ m ∈ new, m ∉ s.seen
  reach : ∀ m ∈ new, ∃ r ∈ roots, Reach succ r m
  roots : ∀ r ∈ roots, r ∈ s'.seen
  closed : ∀ m ∈ new, ∀ k ∈ succ m, k ∈ s'.seen

theorem all_adds {succ : Nat → List Nat} {f : Nat → St → Option St}
    (hf : ∀ n s s', f n s = some s' → ∃ new, Adds succ [n] s s' new) :
    ∀ (l : List Nat) (s s' : St), all f l s = some s' → ∃ new, Adds succ l s s' new := by
  intro l
  induction l with
  | nil =>
    intro s s' h
    simp only [all, Option.some.injEq] at h
    subst h
    exact ⟨[], by simp, by simp, by simp, by simp, by simp, by simp, by simp⟩
  | cons n l ih =>
    intro s s' h
    simp only [all] at h
    split at h
    · next t ht =>
      obtain ⟨n1, a1⟩ := hf n s t ht
      obtain ⟨n2, a2⟩ := ih t s' h
      refine ⟨n1 ++ n2, ?_, ?_, ?_, ?_, ?_, ?_, ?_⟩
      · rw [a2.out, a1.out, List.append_assoc]
      · intro m; rw [a2.seen, a1.seen, List.mem_append, or_assoc]
      · rw [List.nodup_append]
        refine ⟨a1.nodup, a2.nodup, ?_⟩
        intro a ha b hb e
        subst e
        exact a2.fresh _ hb ((a1.seen _).2 (.inr ha))
      · intro m hm
        rcases List.mem_append.1 hm with hm | hm
        · exact a1.fresh m hm
        · exact fun h => a2.fresh m hm ((a1.seen m).2 (.inl h))
      · intro m hm
        rcases List.mem_append.1 hm with hm | hm
        · obtain ⟨r, hr, h⟩ := a1.reach m hm
          exact ⟨r, by simp at hr; simp [hr], h⟩
        · obtain ⟨r, hr, h⟩ := a2.reach m hm
          exact ⟨r, by simp [hr], h⟩
      · intro r hr
        rcases List.mem_cons.1 hr with rfl | hr
        · exact (a2.seen _).2 (.inl (a1.roots _ (by simp)))
        · exact a2.roots r hr
      · intro m hm k hk
        rcases List.mem_append.1 hm with hm | hm
        · exact (a2.seen _).2 (.inl (a1.closed m hm k hk))
        · exact a2.closed m hm k hk
    · cases h

theorem visit_adds (succ : Nat → List Nat) : ∀ (fuel n : Nat) (s s' : St), visit succ fuel n s = some s' →
    ∃ new, Adds succ [n] s s' new := by
  intro fuel
  induction fuel with
  | zero => intro n s s' h; simp [visit] at h
  | succ fuel ih =>
    intro n s s' h
    simp only [visit] at h
    split at h
    · next hn =>
      simp only [Option.some.injEq] at h
      subst h
      exact ⟨[], by simp, by simp, by simp, by simp, by simp, by simpa using hn, by simp⟩
    · next hn =>
      split at h
      · next t ht =>
        simp only [Option.some.injEq] at h
        subst h
        obtain ⟨new, a⟩ := all_adds (fun n s s' h => ih n s s' h) _ _ _ ht
        have hfr : n ∉ new := fun hm => a.fresh n hm (by simp)
        refine ⟨new ++ [n], ?_, ?_, ?_, ?_, ?_, ?_, ?_⟩
        · simp [a.out]
        · intro m
          simp only [a.seen, List.mem_cons, List.mem_append, List.not_mem_nil, or_false]
          constructor
          · rintro ((h | h) | h)
            · exact .inr (.inr h)
            · exact .inl h
            · exact .inr (.inl h)
          · rintro (h | h | h)
            · exact .inl (.inr h)
            · exact .inr h
            · exact .inl (.inl h)
        · rw [List.nodup_append]
          refine ⟨a.nodup, by simp, ?_⟩
          intro x hx b hb e
          simp at hb
          subst hb
          subst e
          exact hfr hx
        · intro m hm
          rcases List.mem_append.1 hm with hm | hm
          · exact fun h => a.fresh m hm (by simp [h])
          · simp at hm; subst hm; exact hn
        · intro m hm
          refine ⟨n, by simp, ?_⟩
          rcases List.mem_append.1 hm with hm | hm
          · obtain ⟨r, hr, h⟩ := a.reach m hm
            exact .step hr h
          · simp at hm; subst hm; exact .refl _
        · intro r hr
          simp at hr
          subst hr
          exact (a.seen _).2 (.inl (by simp))
        · intro m hm k hk
          rcases List.mem_append.1 hm with hm | hm
          · exact a.closed m hm k hk
          · simp at hm; subst hm; exact a.roots k hk
      · cases h

/-- nodes below `N` without the tag -/
def left (N : Nat) (s : List Nat) : List Nat := (List.range N).filter fun n => decide (n ∉ s)

theorem left_le {N : Nat} {s t : List Nat} (h : ∀ m ∈ s, m ∈ t) : (left N t).length ≤ (left N s).length := by
  have e : left N t = (left N s).filter fun n => decide (n ∉ t) := by
    unfold left
    rw [List.filter_filter]
    congr 1
    funext m
    by_cases hm : m ∈ t
    · simp [hm]
    · have : m ∉ s := fun hs => hm (h m hs)
      simp [hm, this]
  rw [e]
  exact List.length_filter_le _ _

theorem left_lt {N n : Nat} {s : List Nat} (hn : n < N) (h : n ∉ s) : (left N (n :: s)).length < (left N s).length := by
  unfold left
  have : ((List.range N).filter fun m => decide (m ∉ n :: s)) = ((List.range N).filter fun m => decide (m ∉ s)).filter fun m => decide (m ≠ n) := by
    rw [List.filter_filter]
    congr 1
    funext m
    simp
  rw [this]
  apply List.length_filter_lt_length_iff_exists.2
  exact ⟨n, by simp [hn, h], by simp⟩

theorem visit_some {succ : Nat → List Nat} {N : Nat} (hs : ∀ n < N, ∀ m ∈ succ n, m < N) :
    ∀ (fuel n : Nat) (s : St), n < N → (left N s.seen).length < fuel → ∃ s', visit succ fuel n s = some s' := by
  intro fuel
  induction fuel with
  | zero => intro n s _ h; omega
  | succ fuel ih =>
    intro n s hn hf
    simp only [visit]
    split
    · exact ⟨_, rfl⟩
    · next hm =>
      have hall : ∀ (l : List Nat) (t : St), (∀ m ∈ l, m < N) → (left N t.seen).length < fuel →
          ∃ t', all (visit succ fuel) l t = some t' := by
        intro l
        induction l with
        | nil => intro t _ _; exact ⟨t, rfl⟩
        | cons m l ihl =>
          intro t hl ht
          obtain ⟨t1, h1⟩ := ih m t (hl m (by simp)) ht
          obtain ⟨new, a⟩ := visit_adds succ _ _ _ _ h1
          have hle := left_le (N := N) (s := t.seen) (t := t1.seen) (fun k hk => (a.seen k).2 (.inl hk))
          obtain ⟨t2, h2⟩ := ihl t1 (fun k hk => hl k (by simp [hk])) (by omega)
          exact ⟨t2, by simp [all, h1, h2]⟩
      have hlt := left_lt hn hm
      obtain ⟨t, ht⟩ := hall (succ n) ⟨n :: s.seen, s.out⟩ (hs n hn) (by simp only; omega)
      rw [ht]
      exact ⟨_, rfl⟩

theorem all_some {succ : Nat → List Nat} {N : Nat} (hs : ∀ n < N, ∀ m ∈ succ n, m < N) {fuel : Nat} :
    ∀ (l : List Nat) (s : St), (∀ m ∈ l, m < N) → (left N s.seen).length < fuel → ∃ s', all (visit succ fuel) l s = some s' := by
  intro l
  induction l with
  | nil => intro s _ _; exact ⟨s, rfl⟩
  | cons m l ih =>
    intro s hl hf
    obtain ⟨t1, h1⟩ := visit_some hs fuel m s (hl m (by simp)) hf
    obtain ⟨new, a⟩ := visit_adds succ _ _ _ _ h1
    have hle := left_le (N := N) (s := s.seen) (t := t1.seen) (fun k hk => (a.seen k).2 (.inl hk))
    obtain ⟨t2, h2⟩ := ih t1 (fun k hk => hl k (by simp [hk])) (by omega)
    exact ⟨t2, by simp [all, h1, h2]⟩

/-- Every node that is reached is left once. -/
theorem all_spec {succ : Nat → List Nat} {N : Nat} (hs : ∀ n < N, ∀ m ∈ succ n, m < N) {roots : List Nat} (hr : ∀ r ∈ roots, r < N) :
    ∃ s', all (visit succ (N + 1)) roots ⟨[], []⟩ = some s' ∧ s'.out.Nodup ∧ (∀ m, m ∈ s'.out ↔ ∃ r ∈ roots, Reach succ r m) ∧
      (∀ m, m ∈ s'.seen ↔ m ∈ s'.out) := by
  obtain ⟨s', h⟩ := all_some hs (fuel := N + 1) roots ⟨[], []⟩ hr (by
    have := List.length_filter_le (fun n => decide (n ∉ ([] : List Nat))) (List.range N)
    simp only [List.length_range] at this
    exact Nat.lt_succ_of_le (by unfold left; exact this))
  obtain ⟨new, a⟩ := all_adds (fun n s s' h => visit_adds succ _ n s s' h) _ _ _ h
  have ho : s'.out = new := by simpa using a.out
  have hseen : ∀ m, m ∈ s'.seen ↔ m ∈ new := by intro m; simpa using a.seen m
  refine ⟨s', h, ho ▸ a.nodup, ?_, fun m => by rw [ho, hseen]⟩
  intro m
  rw [ho]
  constructor
  · exact a.reach m
  · rintro ⟨r, hr, hrm⟩
    have : r ∈ new := (hseen r).1 (a.roots r hr)
    clear hr
    induction hrm with
    | refl => exact this
    | step hk _ ih => exact ih ((hseen _).1 (a.closed _ this _ hk))

end Verif.Dfs
