import Verif.Client.Spec
namespace Verif.Client

theorem pigeon (n : Nat) : ∀ (l : List Nat), l.Nodup → (∀ x ∈ l, x < n) → n ≤ l.length → ∀ w, w < n → w ∈ l := by
  induction n with
  | zero => intro l _ _ _ w h; omega
  | succ n ih =>
      intro l hn hl hlen w hw
      have hle : ∀ (l : List Nat), l.Nodup → (∀ x ∈ l, x < n) → l.length ≤ n := by
        intro l h1 h2
        by_cases h : l.length ≤ n
        · exact h
        · exfalso
          match l, h1, h2, h with
          | [], _, _, h => simp at h
          | a :: l, h1, h2, h =>
              have h1' := List.nodup_cons.1 h1
              exact h1'.1 (ih l h1'.2 (fun x hx => h2 x (List.mem_cons_of_mem _ hx)) (by simp at h; omega) a
                (h2 a (List.mem_cons_self ..)))
      by_cases hmem : n ∈ l
      · by_cases e : w = n
        · rw [e]; exact hmem
        · have : w ∈ l.erase n := by
            apply ih _ (hn.erase n) _ _ w (by omega)
            · intro x hx
              have h1 := hl x (List.mem_of_mem_erase hx)
              have h2 : x ≠ n := fun e => by
                subst e
                exact (List.Nodup.not_mem_erase hn) hx
              omega
            · rw [List.length_erase_of_mem hmem]; omega
          exact List.mem_of_mem_erase this
      · have := hle l hn (fun x hx => by
          have h1 := hl x hx
          have h2 : x ≠ n := fun e => hmem (e ▸ hx)
          omega)
        omega

/-! ### Removal -/

theorem setUse_length (p w b) : (setUse p w b).length = p.length := by
  unfold setUse; split <;> simp

theorem setUse_get (p w b i) :
    (setUse p w b)[i]? = if i = w then p[i]?.map (fun k => { k with inUse := b }) else p[i]? := by
  unfold setUse
  split
  · rename_i h
    split
    · rename_i e; subst e; simp [h]
    · rfl
  · rename_i k h
    rw [List.getElem?_set]
    split
    · rename_i e; subst e
      have : w < p.length := (List.getElem?_eq_some_iff.1 h).1
      rw [if_pos rfl, if_pos this, h]
      rfl
    · rename_i e
      rw [if_neg (fun e' => e e'.symm)]

theorem clean_fst : ∀ cs p, (clean cs p).1 = cs.filter fun c => !c.2
  | [], p => rfl
  | c :: cs, p => by
      simp only [clean, List.filter_cons]
      cases h : c.2 <;> simp [clean_fst cs p]

theorem clean_length : ∀ cs p, (clean cs p).2.length = p.length
  | [], p => rfl
  | c :: cs, p => by
      simp only [clean]
      cases h : c.2 <;> simp [clean_length cs p, setUse_length]

theorem clean_get : ∀ cs p i, (clean cs p).2[i]? =
    if (i, true) ∈ cs then p[i]?.map (fun k => { k with inUse := false }) else p[i]?
  | [], p, i => by simp [clean]
  | c :: cs, p, i => by
      obtain ⟨w, b⟩ := c
      simp only [clean]
      cases b
      · simp [clean_get cs p i]
      · simp only [if_true, setUse_get, clean_get cs p i]
        by_cases e : i = w
        · subst e
          simp only [if_true, List.mem_cons, true_or]
          split
          · cases p[i]? <;> simp
          · rfl
        · simp [e]

/-! ### The loop -/

/-- What the loop keeps and what it adds. -/
structure LoopInv (limit : Nat) (m : Man) : Prop where
  ord : Orderly limit m
  next : m.pool.length = 0 ∨ m.next < m.pool.length

structure Grown (now : Int) (m m' : Man) : Prop where
  length : m'.pool.length = m.pool.length
  keep : ∀ (i : Nat) (k : Wk), m.pool[i]? = some k → ∃ k' : Wk, m'.pool[i]? = some k' ∧ k'.deny = k.deny ∧ k'.since = k.since ∧
    (k.inUse = true → k'.inUse = true)
  conns : ∃ new, m'.conns = m.conns ++ new ∧ ∀ c ∈ new, c.2 = false ∧
    ∃ k, m.pool[c.1]? = some k ∧ k.inUse = false ∧ k.deny = false ∧ Pause ≤ now - k.since

theorem Grown.refl (now m) : Grown now m m :=
  ⟨rfl, fun _ k h => ⟨k, h, rfl, rfl, id⟩, [], by simp, by simp⟩

theorem Grown.trans {now m m' m''} (a : Grown now m m') (b : Grown now m' m'') : Grown now m m'' := by
  refine ⟨b.length.trans a.length, ?_, ?_⟩
  · intro i k h
    obtain ⟨k', h1, h2, h3, h4⟩ := a.keep i k h
    obtain ⟨k'', g1, g2, g3, g4⟩ := b.keep i k' h1
    exact ⟨k'', g1, g2.trans h2, g3.trans h3, fun x => g4 (h4 x)⟩
  · obtain ⟨n1, e1, f1⟩ := a.conns
    obtain ⟨n2, e2, f2⟩ := b.conns
    refine ⟨n1 ++ n2, by rw [e2, e1, List.append_assoc], ?_⟩
    intro c hc
    rcases List.mem_append.1 hc with hc | hc
    · exact f1 c hc
    · obtain ⟨h0, k', h1, h2, h3, h4⟩ := f2 c hc
      refine ⟨h0, ?_⟩
      have hlt : c.1 < m.pool.length := by rw [← a.length]; exact (List.getElem?_eq_some_iff.1 h1).1
      obtain ⟨k'', g1, g2, g3, g4⟩ := a.keep c.1 _ (List.getElem?_eq_getElem hlt)
      rw [h1] at g1
      cases g1
      refine ⟨_, List.getElem?_eq_getElem hlt, ?_, g2 ▸ h3, g3 ▸ h4⟩
      cases e : (m.pool[c.1]).inUse
      · rfl
      · rw [g4 e] at h2; exact nomatch h2

theorem Grown.settled {now m m'} (a : Grown now m m') {i : Nat} {k : Wk} (h : m.pool[i]? = some k) (s : Settled now k) :
    ∀ k' : Wk, m'.pool[i]? = some k' → Settled now k' := by
  intro k' h'
  obtain ⟨k'', g1, g2, g3, g4⟩ := a.keep i k h
  rw [h'] at g1
  cases g1
  rcases s with s | s | s
  · exact .inl (g4 s)
  · exact .inr (.inl (g2.trans s))
  · exact .inr (.inr (by rw [g3]; exact s))

theorem LoopInv.add {limit m} (h : LoopInv limit m) {w : Wk} (hw : m.pool[m.next]? = some w)
    (hu : w.inUse = false) (hl : m.conns.length < limit) (nx : Nat) (hnx : nx < m.pool.length) :
    LoopInv limit { pool := m.pool.set m.next { w with inUse := true }, conns := m.conns ++ [(m.next, false)], next := nx } := by
  have hlt : m.next < m.pool.length := (List.getElem?_eq_some_iff.1 hw).1
  have hni : m.next ∉ m.conns.map Prod.fst := by
    intro hin
    rw [(h.ord.used _ _ hw).2 hin] at hu
    exact nomatch hu
  refine ⟨⟨?_, ?_, ?_, ?_⟩, .inr (by simpa using hnx)⟩
  · simp only [List.map_append, List.map_cons, List.map_nil]
    rw [List.nodup_append]
    refine ⟨h.ord.once, by simp, ?_⟩
    intro a ha b hb e
    simp only [List.mem_singleton] at hb
    subst hb; subst e
    exact hni ha
  · intro i k hk
    simp only at hk
    rw [List.getElem?_set] at hk
    simp only [List.map_append, List.map_cons, List.map_nil, List.mem_append, List.mem_singleton]
    by_cases e : m.next = i
    · subst e
      simp only [if_true, hlt] at hk
      cases hk
      simp
    · rw [if_neg e] at hk
      rw [h.ord.used i k hk]
      constructor
      · exact .inl
      · rintro (x | x)
        · exact x
        · exact absurd x.symm e
  · intro i hi
    simp only [List.map_append, List.map_cons, List.map_nil, List.mem_append, List.mem_singleton] at hi
    simp only [List.length_set]
    rcases hi with hi | hi
    · exact h.ord.known i hi
    · rw [hi]; exact hlt
  · simp only [List.length_append, List.length_cons, List.length_nil]; omega

theorem grown_add {now : Int} {m : Man} {w : Wk} (hw : m.pool[m.next]? = some w)
    (hu : w.inUse = false) (hd : w.deny = false) (ht : Pause ≤ now - w.since) (nx : Nat) :
    Grown now m { pool := m.pool.set m.next { w with inUse := true }, conns := m.conns ++ [(m.next, false)], next := nx } := by
  have hlt : m.next < m.pool.length := (List.getElem?_eq_some_iff.1 hw).1
  refine ⟨by simp, ?_, [(m.next, false)], rfl, ?_⟩
  · intro i k hk
    by_cases e : m.next = i
    · subst e
      rw [hw] at hk
      cases hk
      exact ⟨{ w with inUse := true }, by simp [hlt], rfl, rfl, fun _ => rfl⟩
    · exact ⟨k, by simp only [List.getElem?_set, if_neg e]; exact hk, rfl, rfl, id⟩
  · intro c hc
    simp only [List.mem_singleton] at hc
    subst hc
    exact ⟨rfl, w, hw, hu, hd, ht⟩

theorem loop_ok {limit : Nat} {now : Int} : ∀ (k : Nat) (m : Man), LoopInv limit m →
    (k = 0 ∨ m.pool.length ≠ 0) →
    ∃ m', connectLoop limit now k m = some m' ∧ LoopInv limit m' ∧ Grown now m m' ∧
      (m'.conns.length = limit ∨ m'.pool.length ≤ m'.conns.length ∨
        ∀ j, j < k → ∀ w, m'.pool[(m.next + j) % m.pool.length]? = some w → Settled now w)
  | 0, m, h, _ => ⟨m, rfl, h, Grown.refl now m, .inr (.inr (fun j hj => by omega))⟩
  | k + 1, m, h, hp => by
      have hp' : m.pool.length ≠ 0 := by rcases hp with hp | hp <;> omega
      have hlt : m.next < m.pool.length := by
        rcases h.next with x | x
        · exact absurd x hp'
        · exact x
      have hmod : ((m.next + 1) % m.pool.length) < m.pool.length := Nat.mod_lt _ (by omega)
      have hget := List.getElem?_eq_getElem hlt
      simp only [connectLoop]
      by_cases c1 : limit ≤ m.conns.length
      · rw [if_pos c1]
        exact ⟨m, rfl, h, Grown.refl now m, .inl (Nat.le_antisymm h.ord.few c1)⟩
      rw [if_neg c1]
      by_cases c2 : m.pool.length ≤ m.conns.length
      · rw [if_pos c2]
        exact ⟨m, rfl, h, Grown.refl now m, .inr (.inl c2)⟩
      rw [if_neg c2, hget]
      simp only
      generalize hw : m.pool[m.next] = w at *
      -- a state in which the worker at hand is settled
      have go : ∀ m1 : Man, LoopInv limit m1 → Grown now m m1 → m1.next = (m.next + 1) % m.pool.length →
          (∀ w, m1.pool[m.next]? = some w → Settled now w) →
          ∃ m', connectLoop limit now k m1 = some m' ∧ LoopInv limit m' ∧ Grown now m m' ∧
            (m'.conns.length = limit ∨ m'.pool.length ≤ m'.conns.length ∨
              ∀ j, j < k + 1 → ∀ w, m'.pool[(m.next + j) % m.pool.length]? = some w → Settled now w) := by
        intro m1 i1 g1 n1 s1
        obtain ⟨m', e, i', g', r⟩ := loop_ok (limit := limit) (now := now) k m1 i1 (.inr (by rw [g1.length]; exact hp'))
        refine ⟨m', e, i', g1.trans g', ?_⟩
        rcases r with r | r | r
        · exact .inl r
        · exact .inr (.inl r)
        · refine .inr (.inr ?_)
          intro j hj w' hw'
          match j with
          | 0 =>
              rw [Nat.add_zero, Nat.mod_eq_of_lt hlt] at hw'
              have hl1 : m.next < m1.pool.length := by rw [g1.length]; exact hlt
              exact g'.settled (List.getElem?_eq_getElem hl1) (s1 _ (List.getElem?_eq_getElem hl1)) _ hw'
          | j + 1 =>
              apply r j (by omega) w'
              rw [n1, g1.length, Nat.mod_add_mod, Nat.add_assoc, Nat.add_comm 1 j]
              exact hw'
      have skip : Settled now w → ∃ m', connectLoop limit now k { m with next := (m.next + 1) % m.pool.length } = some m' ∧
          LoopInv limit m' ∧ Grown now m m' ∧ (m'.conns.length = limit ∨ m'.pool.length ≤ m'.conns.length ∨
              ∀ j, j < k + 1 → ∀ w, m'.pool[(m.next + j) % m.pool.length]? = some w → Settled now w) := by
        intro hs
        apply go
        · exact ⟨⟨h.ord.once, h.ord.used, h.ord.known, h.ord.few⟩, .inr hmod⟩
        · exact ⟨rfl, fun _ k h => ⟨k, h, rfl, rfl, id⟩, [], by simp, by simp⟩
        · rfl
        · intro w' hw'
          simp only [hget] at hw'
          cases hw'
          exact hs
      by_cases c3 : w.inUse = true
      · rw [if_pos c3]; exact skip (.inl c3)
      rw [if_neg c3]
      by_cases c4 : w.deny = true
      · rw [if_pos c4]; exact skip (.inr (.inl c4))
      rw [if_neg c4]
      by_cases c5 : now - w.since < delay
      · rw [if_pos c5]; exact skip (.inr (.inr c5))
      rw [if_neg c5]
      have c3' : w.inUse = false := by simpa using c3
      have c4' : w.deny = false := by simpa using c4
      have c5' : Pause ≤ now - w.since := by simp only [delay] at c5; simp only [Pause]; omega
      apply go
      · exact h.add hget c3' (by omega) _ hmod
      · exact grown_add hget c3' c4' c5' _
      · rfl
      · intro w' hw'
        simp only [List.getElem?_set, if_true, hlt] at hw'
        cases hw'
        exact .inl rfl

/-! ### The pass -/

theorem inv_clean {limit m} (h : LoopInv limit m) :
    LoopInv limit { m with conns := (clean m.conns m.pool).1, pool := (clean m.conns m.pool).2 } := by
  have sub : ((clean m.conns m.pool).1.map Prod.fst).Sublist (m.conns.map Prod.fst) := by
    rw [clean_fst]; exact (List.filter_sublist).map _
  refine ⟨⟨sub.nodup h.ord.once, ?_, ?_, ?_⟩, ?_⟩
  · intro i k hk
    simp only at hk ⊢
    rw [clean_get] at hk
    rw [clean_fst]
    split at hk
    · rename_i hin
      cases hp : m.pool[i]? with
      | none => simp [hp] at hk
      | some k0 =>
          simp only [hp, Option.map_some, Option.some.injEq] at hk
          subst hk
          simp only [Bool.false_eq_true, false_iff]
          intro hm
          obtain ⟨c, hc, e⟩ := List.mem_map.1 hm
          obtain ⟨hc1, hc2⟩ := List.mem_filter.1 hc
          obtain ⟨w, b⟩ := c
          simp only at e hc2
          subst e
          have hb : b = false := by simpa using hc2
          subst hb
          -- two connections to one worker
          have hnd := h.ord.once
          obtain ⟨a, d, hab⟩ := List.append_of_mem hin
          rw [hab] at hnd hc1
          simp only [List.map_append, List.map_cons] at hnd
          rw [List.nodup_append] at hnd
          obtain ⟨_, n2, n3⟩ := hnd
          rcases List.mem_append.1 hc1 with x | x
          · exact n3 w (List.mem_map.2 ⟨_, x, rfl⟩) w (List.mem_cons_self ..) rfl
          · rcases List.mem_cons.1 x with x | x
            · exact nomatch x
            · exact (List.nodup_cons.1 n2).1 (List.mem_map.2 ⟨_, x, rfl⟩)
    · rename_i hin
      rw [h.ord.used i k hk]
      constructor
      · intro hm
        obtain ⟨c, hc, e⟩ := List.mem_map.1 hm
        obtain ⟨w, b⟩ := c
        simp only at e
        subst e
        cases b
        · exact List.mem_map.2 ⟨_, List.mem_filter.2 ⟨hc, rfl⟩, rfl⟩
        · exact absurd hc hin
      · intro hm
        obtain ⟨c, hc, e⟩ := List.mem_map.1 hm
        exact List.mem_map.2 ⟨c, (List.mem_filter.1 hc).1, e⟩
  · intro w hw
    simp only [clean_length]
    exact h.ord.known w (sub.subset hw)
  · have := sub.length_le
    simp only [List.length_map] at this
    exact Nat.le_trans this h.ord.few
  · simp only [clean_length]; exact h.next

theorem pass_ok {limit : Nat} {now : Int} {m : Man} (h : LoopInv limit m) :
    ∃ m', connectToWorkers limit now m = some m' ∧ LoopInv limit m' ∧
      Grown now { m with conns := (clean m.conns m.pool).1, pool := (clean m.conns m.pool).2 } m' ∧
      (m'.conns.length = limit ∨ ∀ w ∈ m'.pool, Settled now w) := by
  have hc := inv_clean h
  obtain ⟨m', e, i, g, r⟩ := loop_ok (limit := limit) (now := now) (clean m.conns m.pool).2.length
    { m with conns := (clean m.conns m.pool).1, pool := (clean m.conns m.pool).2 } hc
    (by by_cases z : (clean m.conns m.pool).2.length = 0
        · exact .inl z
        · exact .inr z)
  refine ⟨m', e, i, g, ?_⟩
  rcases r with r | r | r
  · exact .inl r
  · refine .inr ?_
    intro w hw
    obtain ⟨x, hx, e⟩ := List.mem_iff_getElem.1 hw
    refine .inl ?_
    rw [i.ord.used x w (List.getElem?_eq_some_iff.2 ⟨hx, e⟩)]
    exact pigeon m'.pool.length _ i.ord.once i.ord.known (by simpa using r) x hx
  · refine .inr ?_
    intro w hw
    obtain ⟨x, hx, ew⟩ := List.mem_iff_getElem.1 hw
    have hl := g.length
    simp only at hl r
    generalize hn : (clean m.conns m.pool).2.length = n at *
    have hnx : m.next < n := by
      rcases hc.next with z | z <;> simp only at z <;> omega
    rw [hl] at hx
    refine r ((x + n - m.next) % n) (Nat.mod_lt _ (by omega)) w ?_
    rw [Nat.add_mod_mod, show m.next + (x + n - m.next) = x + n by omega, Nat.add_mod_right, Nat.mod_eq_of_lt hx]
    exact List.getElem?_eq_some_iff.2 ⟨by omega, ew⟩

/-! ### The other events -/

theorem upd_inv {limit m} (h : LoopInv limit m) {w : Nat} {k k' : Wk} (hk : m.pool[w]? = some k) (hu : k'.inUse = k.inUse) :
    LoopInv limit { m with pool := m.pool.set w k' } := by
  have hlt : w < m.pool.length := (List.getElem?_eq_some_iff.1 hk).1
  refine ⟨⟨h.ord.once, ?_, ?_, h.ord.few⟩, by simpa using h.next⟩
  · intro i x hx
    simp only [List.getElem?_set] at hx
    by_cases e : w = i
    · subst e
      simp only [if_true, hlt] at hx
      cases hx
      rw [hu]; exact h.ord.used w k hk
    · rw [if_neg e] at hx
      exact h.ord.used i x hx
  · intro i hi
    simp only [List.length_set]
    exact h.ord.known i hi

theorem fst_set {cs : List (Nat × Bool)} {i : Nat} {c : Nat × Bool} (h : cs[i]? = some c) (b : Bool) :
    (cs.set i (c.1, b)).map Prod.fst = cs.map Prod.fst := by
  rw [List.map_set]
  apply List.ext_getElem?
  intro j
  rw [List.getElem?_set]
  split
  · rename_i e
    subst e
    have hlt : i < cs.length := (List.getElem?_eq_some_iff.1 h).1
    simp only [List.length_map, hlt, if_true, List.getElem?_map, h, Option.map_some]
  · rfl

theorem ended_ok {limit m} (h : LoopInv limit m) (now failed i) : LoopInv limit (ended now failed i m) := by
  unfold ended
  split
  · exact h
  · rename_i c hc
    have h1 : LoopInv limit { m with conns := m.conns.set i (c.1, true) } := by
      refine ⟨⟨?_, ?_, ?_, ?_⟩, h.next⟩
      · simp only [fst_set hc]; exact h.ord.once
      · simp only [fst_set hc]; exact h.ord.used
      · simp only [fst_set hc]; exact h.ord.known
      · simp only [List.length_set]; exact h.ord.few
    simp only
    split
    · split
      · exact h1
      · rename_i w hw
        exact upd_inv h1 hw rfl
    · exact h1

theorem deny_ok {limit m} (h : LoopInv limit m) (w) : LoopInv limit (denyWorker w m) := by
  unfold denyWorker
  split
  · exact h
  · rename_i k hk
    exact upd_inv h hk rfl

theorem register_ok (limit n now r) (h : n = 0 ∨ r < n) : LoopInv limit (register n now r) := by
  refine ⟨⟨by simp [register], ?_, by simp [register], by simp [register]⟩, by simpa [register] using h⟩
  intro w k hk
  simp only [register, List.getElem?_replicate] at hk
  split at hk
  · cases hk; simp [register]
  · exact nomatch hk

theorem mstep_ok {limit m} (h : LoopInv limit m) (o : MOp) : ∃ m', mstep limit m o = some m' ∧ LoopInv limit m' := by
  cases o with
  | pass now =>
      obtain ⟨m', e, i, _⟩ := pass_ok (now := now) h
      exact ⟨m', e, i⟩
  | ended now failed i => exact ⟨_, rfl, ended_ok h now failed i⟩
  | deny w => exact ⟨_, rfl, deny_ok h w⟩

theorem mrun_ok {limit : Nat} : ∀ (os : List MOp) (m : Man), LoopInv limit m →
    ∃ m', mrun limit m os = some m' ∧ LoopInv limit m'
  | [], m, h => ⟨m, rfl, h⟩
  | o :: os, m, h => by
      obtain ⟨m1, e1, h1⟩ := mstep_ok h o
      obtain ⟨m2, e2, h2⟩ := mrun_ok os m1 h1
      exact ⟨m2, by simp only [mrun, e1, Option.bind_some, e2], h2⟩

end Verif.Client
