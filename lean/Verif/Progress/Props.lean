import Verif.Progress.Spec
/-! C129: the progress of a build. -/
namespace Verif.Progress

/-- the accumulators against those at the begin of the pass -/
structure Inv (acc : Nat → Nat) (s : St) : Prop where
  changed : ∀ n, s.acc n ≠ acc n → n ∈ s.tagged
  fresh : ∀ n ∈ s.tagged, acc n = 0

/-- a step of the walk: nodes `V` were counted -/
structure Step (g : Nat → Node) (acc : Nat → Nat) (s s' : St) (p t : Nat) (V : List Nat) : Prop where
  inv : Inv acc s'
  sums : t = p + left g V
  grow : ∀ n ∈ s.tagged, n ∈ s'.tagged
  new : ∀ n ∈ s'.tagged, n ∉ s.tagged → n ∈ V ∧ ∀ m ∈ (g n).deps, m ∈ V
  seen : ∀ n ∈ V, acc n = 0 → n ∈ s'.tagged
  set : ∀ n, s'.acc n ≠ s.acc n → (g n).state ≠ .waiting

theorem left_append (g : Nat → Node) (a b : List Nat) : left g (a ++ b) = left g a + left g b := by simp [left]

theorem own_left (g : Nat → Node) (n : Nat) : (g n).time = own g n + left g [n] := by
  unfold own left
  by_cases h : (g n).state = .upToDate <;> simp [h]

theorem each_step {g : Nat → Node} {acc : Nat → Nat} {R : Nat → Prop} {f : Nat → St → Option (St × Nat × Nat)}
    (hf : ∀ n s s' p t, R n → f n s = some (s', p, t) → Inv acc s → ∃ V, Step g acc s s' p t V ∧ n ∈ V ∧ ∀ x ∈ V, R x) :
    ∀ (l : List Nat) (s s' : St) (p t : Nat), (∀ n ∈ l, R n) → each f l s = some (s', p, t) → Inv acc s →
      ∃ V, Step g acc s s' p t V ∧ (∀ n ∈ l, n ∈ V) ∧ ∀ x ∈ V, R x
  | [], s, s', p, t, _, h, hi => by
    simp only [each, Option.some.injEq, Prod.mk.injEq] at h
    obtain ⟨rfl, rfl, rfl⟩ := h
    exact ⟨[], ⟨hi, rfl, fun _ h => h, fun n h h' => absurd h h', by simp, fun n h => absurd rfl h⟩, by simp, by simp⟩
  | n :: l, s, s', p, t, hR, h, hi => by
    rw [each] at h
    split at h
    · cases h
    · next s1 p1 t1 h1 =>
      split at h
      · cases h
      · next s2 p2 t2 h2 =>
        simp only [Option.some.injEq, Prod.mk.injEq] at h
        obtain ⟨rfl, rfl, rfl⟩ := h
        obtain ⟨V, a, hn, hV⟩ := hf n s s1 p1 t1 (hR n (by simp)) h1 hi
        obtain ⟨W, b, hl, hW⟩ := each_step hf l s1 s2 p2 t2 (fun x hx => hR x (List.mem_cons_of_mem _ hx)) h2 a.inv
        refine ⟨V ++ W, ⟨b.inv, ?_, fun x hx => b.grow x (a.grow x hx), ?_, ?_, ?_⟩, ?_, ?_⟩
        · rw [left_append, a.sums, b.sums]; omega
        · intro x hx hx'
          by_cases h1 : x ∈ s1.tagged
          · obtain ⟨u, v⟩ := a.new x h1 hx'
            exact ⟨List.mem_append_left _ u, fun m hm => List.mem_append_left _ (v m hm)⟩
          · obtain ⟨u, v⟩ := b.new x hx h1
            exact ⟨List.mem_append_right _ u, fun m hm => List.mem_append_right _ (v m hm)⟩
        · intro x hx h0
          rcases List.mem_append.1 hx with h | h
          · exact b.grow x (a.seen x h h0)
          · exact b.seen x h h0
        · intro x hx
          by_cases e : s1.acc x = s.acc x
          · exact b.set x (by rw [e]; exact hx)
          · exact a.set x e
        · intro x hx
          rcases List.mem_cons.1 hx with rfl | hx
          · exact List.mem_append_left _ hn
          · exact List.mem_append_right _ (hl x hx)
        · intro x hx
          rcases List.mem_append.1 hx with h | h
          · exact hV x h
          · exact hW x h

theorem visit_step {g : Nat → Node} {acc : Nat → Nat} {root : Nat} : ∀ (fuel n : Nat) (s s' : St) (p t : Nat), Reached g acc root n →
    visit g fuel n s = some (s', p, t) → Inv acc s → ∃ V, Step g acc s s' p t V ∧ n ∈ V ∧ ∀ x ∈ V, Reached g acc root x
  | 0, _, _, _, _, _, _, h, _ => by simp [visit] at h
  | fuel + 1, n, s, s', p, t, hR, h, hi => by
    rw [visit] at h
    split at h
    · next ha =>
      simp only [Option.some.injEq, Prod.mk.injEq] at h
      obtain ⟨rfl, rfl, rfl⟩ := h
      refine ⟨[n], ⟨hi, ?_, fun _ h => h, fun n h h' => absurd h h', ?_, fun n h => absurd rfl h⟩, by simp, by simpa using hR⟩
      · have := own_left g n; omega
      · intro x hx h0
        rw [List.mem_singleton] at hx
        subst hx
        exact hi.changed x (by omega)
    · next ha =>
      split at h
      · next ht =>
        simp only [Option.some.injEq, Prod.mk.injEq] at h
        obtain ⟨rfl, rfl, rfl⟩ := h
        refine ⟨[n], ⟨hi, own_left g n, fun _ h => h, fun n h h' => absurd h h', ?_, fun n h => absurd rfl h⟩, by simp, by simpa using hR⟩
        intro x hx _
        rw [List.mem_singleton] at hx
        exact hx ▸ ht
      · next ht =>
        have h0 : acc n = 0 := by
          rcases Decidable.em (s.acc n = acc n) with e | e
          · omega
          · exact hi.fresh n (hi.changed n e)
        have hi1 : Inv acc { s with tagged := n :: s.tagged } :=
          ⟨fun x hx => List.mem_cons_of_mem _ (hi.changed x hx), fun x hx => by
            rcases List.mem_cons.1 hx with rfl | hx
            · exact h0
            · exact hi.fresh x hx⟩
        split at h
        · cases h
        · next s1 p1 t1 h1 =>
          simp only [Option.some.injEq, Prod.mk.injEq] at h
          obtain ⟨rfl, rfl, rfl⟩ := h
          obtain ⟨V, a, hl, hV⟩ := each_step (fun n s s' p t => visit_step fuel n s s' p t) _ _ s1 p1 t1 (fun m hm => .dep hR h0 hm) h1 hi1
          have hn : n ∈ s1.tagged := a.grow n (by simp)
          have hsums : (g n).time + t1 = own g n + p1 + left g ([n] ++ V) := by
            rw [left_append]
            have := own_left g n
            have := a.sums
            omega
          have hnew : ∀ x ∈ s1.tagged, x ∉ s.tagged → x ∈ [n] ++ V ∧ ∀ m ∈ (g x).deps, m ∈ [n] ++ V := by
            intro x hx hx'
            by_cases e : x = n
            · subst e
              exact ⟨by simp, fun m hm => List.mem_append_right _ (hl m hm)⟩
            · obtain ⟨u, v⟩ := a.new x hx (by simp [e, hx'])
              exact ⟨List.mem_append_right _ u, fun m hm => List.mem_append_right _ (v m hm)⟩
          have hseen : ∀ x ∈ [n] ++ V, acc x = 0 → x ∈ s1.tagged := by
            intro x hx hx0
            rcases List.mem_append.1 hx with h | h
            · rw [List.mem_singleton] at h; exact h ▸ hn
            · exact a.seen x h hx0
          refine ⟨[n] ++ V, ?_, by simp, ?_⟩
          · by_cases hw : (g n).state ≠ .waiting
            · rw [if_pos hw]
              refine ⟨⟨fun x hx => ?_, a.inv.fresh⟩, hsums, fun x hx => a.grow x (List.mem_cons_of_mem _ hx), hnew, hseen, fun x hx => ?_⟩
              · by_cases e : x = n
                · exact e ▸ hn
                · simp only [if_neg e] at hx; exact a.inv.changed x hx
              · by_cases e : x = n
                · exact e ▸ hw
                · simp only [if_neg e] at hx; exact a.set x hx
            · rw [if_neg hw]
              exact ⟨a.inv, hsums, fun x hx => a.grow x (List.mem_cons_of_mem _ hx), hnew, hseen, a.set⟩
          · intro x hx
            rcases List.mem_append.1 hx with h | h
            · rw [List.mem_singleton] at h; exact h ▸ hR
            · exact hV x h

/-- C129: the time of built nodes and that of all nodes differ by the time of the nodes that are left, of exactly those that can be reached. -/
theorem C129_sums (g : Nat → Node) (fuel root : Nat) (acc : Nat → Nat) (s : St) (p t : Nat) (h : update g fuel root acc = some (s, p, t)) :
    ∃ V, t = p + left g V ∧ ∀ n, n ∈ V ↔ Reached g acc root n := by
  obtain ⟨V, a, hr, hV⟩ := visit_step (root := root) fuel root ⟨acc, []⟩ s p t .root h ⟨fun n hn => absurd rfl hn, by simp⟩
  refine ⟨V, a.sums, fun n => ⟨hV n, fun hn => ?_⟩⟩
  induction hn with
  | root => exact hr
  | dep _ h0 hm ih => exact (a.new _ (a.seen _ ih h0) (by simp)).2 _ hm

theorem left_zero {g : Nat → Node} {L : List Nat} : left g L = 0 ↔ ∀ n ∈ L, (g n).state = .upToDate ∨ (g n).time = 0 := by
  induction L with
  | nil => simp [left]
  | cons n L ih =>
    rw [← List.singleton_append, left_append, Nat.add_eq_zero_iff, ih]
    have : left g [n] = 0 ↔ (g n).state = .upToDate ∨ (g n).time = 0 := by
      unfold left
      by_cases h : (g n).state = .upToDate <;> simp [h]
    rw [this]
    simp

theorem needed_reached {g : Nat → Node} {acc : Nat → Nat} {root n : Nat} (h : Needed g root n) :
    Reached g acc root n ∨ ∃ k, acc k ≠ 0 ∧ Reached g acc root k ∧ Needed g k n := by
  induction h with
  | root => exact .inl .root
  | @dep n m _ hm ih =>
    rcases ih with ih | ⟨k, hk, hr, ih⟩
    · rcases Decidable.em (acc n = 0) with h0 | h0
      · exact .inl (.dep ih h0 hm)
      · exact .inr ⟨n, h0, ih, .dep .root hm⟩
    · exact .inr ⟨k, hk, hr, .dep ih hm⟩

theorem reached_needed {g : Nat → Node} {acc : Nat → Nat} {root n : Nat} (h : Reached g acc root n) : Needed g root n := by
  induction h with
  | root => exact .root
  | dep _ _ hm ih => exact .dep ih hm

/-- C129: never more is built than there is, and all is built exactly when each needed node that takes time is up to date. What was stored for a node
in an earlier pass was stored when all that it needs was up to date. -/
theorem C129_done (g : Nat → Node) (fuel root : Nat) (acc : Nat → Nat) (s : St) (p t : Nat) (h : update g fuel root acc = some (s, p, t))
    (hacc : ∀ n, acc n ≠ 0 → ∀ m, Needed g n m → m ≠ n → (g m).state = .upToDate) :
    p ≤ t ∧ (p = t ↔ ∀ n, Needed g root n → (g n).state = .upToDate ∨ (g n).time = 0) := by
  obtain ⟨V, ht, hV⟩ := C129_sums g fuel root acc s p t h
  refine ⟨by omega, ?_⟩
  have : p = t ↔ left g V = 0 := by omega
  rw [this, left_zero]
  constructor
  · intro h n hn
    rcases needed_reached (acc := acc) hn with hr | ⟨k, hk, hr, hkn⟩
    · exact h n ((hV n).2 hr)
    · by_cases e : n = k
      · exact h n ((hV n).2 (e ▸ hr))
      · exact .inl (hacc k hk n hkn e)
  · exact fun h n hn => h n (reached_needed ((hV n).1 hn))

/-- C129: what is stored in a pass is stored only for nodes that are being built or were built. -/
theorem C129_stored (g : Nat → Node) (fuel root : Nat) (acc : Nat → Nat) (s : St) (p t : Nat) (h : update g fuel root acc = some (s, p, t))
    (hacc : ∀ n, acc n ≠ 0 → (g n).state ≠ .waiting) : ∀ n, s.acc n ≠ 0 → (g n).state ≠ .waiting := by
  obtain ⟨V, a, _, _⟩ := visit_step (root := root) fuel root ⟨acc, []⟩ s p t .root h ⟨fun n hn => absurd rfl hn, by simp⟩
  intro n hn
  by_cases e : s.acc n = acc n
  · exact hacc n (e ▸ hn)
  · exact a.set n e

/-- C129: without cycles there is an estimate. -/
theorem C129_ends (g : Nat → Node) (rank : Nat → Nat) (hrank : ∀ n, ∀ m ∈ (g n).deps, rank m < rank n) (root fuel : Nat) (hf : rank root < fuel)
    (acc : Nat → Nat) : (update g fuel root acc).isSome = true := by
  have heach : ∀ (f : Nat → St → Option (St × Nat × Nat)) (l : List Nat), (∀ n ∈ l, ∀ s, (f n s).isSome = true) → ∀ s, (each f l s).isSome = true := by
    intro f l
    induction l with
    | nil => intro _ _; rfl
    | cons n l ih =>
      intro hl s
      obtain ⟨⟨s1, p1, t1⟩, h1⟩ := Option.isSome_iff_exists.1 (hl n (by simp) s)
      obtain ⟨⟨s2, p2, t2⟩, h2⟩ := Option.isSome_iff_exists.1 (ih (fun x hx => hl x (List.mem_cons_of_mem _ hx)) s1)
      simp only [each, h1, h2]
      rfl
  have key : ∀ fuel n, rank n < fuel → ∀ s, (visit g fuel n s).isSome = true := by
    intro fuel
    induction fuel with
    | zero => intro n hn; omega
    | succ fuel ih =>
      intro n hn s
      rw [visit]
      split
      · rfl
      · split
        · rfl
        · obtain ⟨⟨s1, p1, t1⟩, h1⟩ := Option.isSome_iff_exists.1 (heach (visit g fuel) (g n).deps
            (fun m hm => ih m (by have := hrank n m hm; omega)) { s with tagged := n :: s.tagged })
          simp only [h1]
          rfl
  exact key fuel root hf _

/-! ### what is shown -/

/-- the values are floats, and what is shown is not above its target, which is not above the limit -/
structure Good (rnd : Rat → Rat) (limit : Rat) (s : Shown) : Prop where
  target : rnd s.target = s.target
  current : rnd s.current = s.current
  le : s.current ≤ s.target
  lim : s.target ≤ limit

/-- C129: a new estimate does not lower the target, and the target stays below the limit. -/
theorem C129_estimate (rnd : Rat → Rat) (limit : Rat) (p t : Nat) (s : Shown) (h : Good rnd limit s) (hl : rnd limit = limit) (hid : ∀ a, rnd (rnd a) = rnd a) :
    s.target ≤ (estimate rnd limit p t s).target ∧ Good rnd limit (estimate rnd limit p t s) := by
  obtain ⟨h1, h2, h3, h4⟩ := h
  have hx := hid (rnd (p / t : Rat) * 100)
  unfold estimate
  generalize rnd (rnd (p / t : Rat) * 100) = x at hx ⊢
  have hm : min x limit ≤ limit ∧ rnd (min x limit) = min x limit := by
    rcases Rat.le_total (a := x) (b := limit) with h | h
    · have : min x limit = x := by grind
      rw [this]; exact ⟨h, hx⟩
    · have : min x limit = limit := by grind
      rw [this]; exact ⟨Rat.le_refl, hl⟩
  generalize min x limit = y at hm ⊢
  rcases Rat.le_total (a := y) (b := s.target) with h | h
  · have : max y s.target = s.target := by grind
    simp only [this]
    exact ⟨Rat.le_refl, h1, h2, h3, h4⟩
  · have : max y s.target = y := by grind
    simp only [this]
    exact ⟨h, hm.2, h2, by grind, hm.1⟩

/-- C129: what is shown never goes back, and stays below the limit; halves of floats are floats. -/
theorem C129_shown (rnd : Rat → Rat) (hr : Rounds rnd) (limit : Rat) (s : Shown) (h : Good rnd limit s) (hid : ∀ a, rnd (rnd a) = rnd a)
    (hhalf : ∀ a, rnd a = a → rnd (1 / 2 * a) = 1 / 2 * a) :
    s.current ≤ (smooth rnd s).current ∧ (smooth rnd s).current ≤ limit ∧ Good rnd limit (smooth rnd s) := by
  obtain ⟨h1, h2, h3, h4⟩ := h
  have e1 := hhalf _ h2
  have e2 := hhalf _ h1
  have e3 : s.target * (1 / 2) = 1 / 2 * s.target := Rat.mul_comm _ _
  have ec : (smooth rnd s).current = rnd (1 / 2 * s.current + 1 / 2 * s.target) := by
    simp only [smooth]
    rw [e3, e1, e2]
  have lo := hr.mono s.current (1 / 2 * s.current + 1 / 2 * s.target) (by grind)
  have hi := hr.mono (1 / 2 * s.current + 1 / 2 * s.target) s.target (by grind)
  rw [h2] at lo
  rw [h1] at hi
  refine ⟨by rw [ec]; exact lo, by rw [ec]; exact Rat.le_trans hi h4, h1, ?_, ?_, h4⟩
  · rw [ec]; exact hid _
  · rw [ec]; exact hi

/-! ### examples -/

/-- 0 needs 1 and 2, which need 3; 1 is being built -/
def exG : Nat → Node
  | 0 => ⟨.waiting, 10, [1, 2]⟩
  | 1 => ⟨.building, 5, [3]⟩
  | 2 => ⟨.waiting, 5, [3]⟩
  | 3 => ⟨.upToDate, 7, []⟩
  | _ => ⟨.waiting, 1, []⟩

def sums (r : Option (St × Nat × Nat)) : Option (Nat × Nat) := r.map (·.2)

/-- the node 3 is counted twice; what is left is 20 -/
example : sums (update exG 4 0 fun _ => 0) = some (14, 34) := by decide

/-- in the next pass, with 7 stored for the node 1 -/
example : (update exG 4 0 fun _ => 0).map (fun r => r.1.acc 1) = some 7 ∧ sums (update exG 4 0 fun n => if n = 1 then 7 else 0) = some (14, 34) := by decide

/-- C129: a node that two others need is counted twice: the time of all nodes is 34, not 27. -/
theorem C129_twice_false : sums (update exG 4 0 fun _ => 0) = some (14, 34) ∧ ([0, 1, 2, 3].map fun n => (exG n).time).sum = 27 := by decide

/-- a build in which 1 failed -/
def exF : Nat → Node
  | 0 => ⟨.failed, 10, [1]⟩
  | 1 => ⟨.failed, 5, []⟩
  | _ => ⟨.waiting, 1, []⟩

/-- C129: when nodes failed, the second pass takes the time of a failed node as built: progress of 0 and then of 5, without anything built. -/
theorem C129_failed_false : sums (update exF 3 0 fun _ => 0) = some (0, 15) ∧ (update exF 3 0 fun _ => 0).map (fun r => r.1.acc 0) = some 5 ∧
    sums (update exF 3 0 fun n => if n = 0 then 5 else 0) = some (5, 15) := by decide

/-- ranks for `C129_ends` -/
example : ∀ n, ∀ m ∈ (exG n).deps, (fun n => if n = 0 then 2 else if n < 3 then 1 else 0) m < (fun n => if n = 0 then 2 else if n < 3 then 1 else 0) n := by
  intro n m hm
  match n with
  | 0 => simp [exG] at hm; rcases hm with rfl | rfl <;> decide
  | 1 => simp [exG] at hm; subst hm; decide
  | 2 => simp [exG] at hm; subst hm; decide
  | 3 => simp [exG] at hm
  | n + 4 => simp [exG] at hm

/-- numbers as they are: the hypotheses on rounding -/
example : Rounds (fun x => x) ∧ Good (fun x => x) (999 / 10) ⟨20, 10⟩ ∧ (smooth (fun x => x) ⟨20, 10⟩).current = 15 :=
  ⟨⟨fun _ _ h => h⟩, ⟨rfl, rfl, by decide +kernel, by decide +kernel⟩, by decide +kernel⟩

/-- the hypothesis of `C129_done` -/
example : ∀ n, (fun n => if n = 1 then 7 else 0) n ≠ 0 → ∀ m, Needed exG n m → m ≠ n → (exG m).state = .upToDate := by
  intro n hn m hm hne
  have : n = 1 := by
    rcases Decidable.em (n = 1) with h | h
    · exact h
    · exact absurd (if_neg h) hn
  subst this
  have : ∀ m, Needed exG 1 m → m = 1 ∨ m = 3 := by
    intro m h
    induction h with
    | root => exact .inl rfl
    | dep _ hm ih => rcases ih with rfl | rfl <;> simp [exG] at hm; exact .inr hm
  rcases this m hm with rfl | rfl
  · exact absurd rfl hne
  · rfl

end Verif.Progress
