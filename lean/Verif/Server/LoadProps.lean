import Verif.Server.LoadSpec
/-! C37: the work a worker asks for. -/
namespace Verif.Server
open Spec

theorem sum_set (l : List Counts) (i : Nat) (x y : Counts) (h : l[i]? = some x) :
    ((l.set i y).map Counts.inUse).sum + x.inUse = (l.map Counts.inUse).sum + y.inUse := by
  induction l generalizing i with
  | nil => simp at h
  | cons a l ih =>
    cases i with
    | zero =>
      simp only [List.getElem?_cons_zero, Option.some_inj] at h
      subst h
      simp only [List.set_cons_zero, List.map_cons, List.sum_cons]
      omega
    | succ i =>
      simp only [List.getElem?_cons_succ] at h
      have := ih i h
      simp only [List.set_cons_succ, List.map_cons, List.sum_cons]
      omega

theorem sum_erase (l : List Counts) (i : Nat) : ((l.eraseIdx i).map Counts.inUse).sum ≤ (l.map Counts.inUse).sum := by
  induction l generalizing i with
  | nil => simp
  | cons a l ih =>
    cases i with
    | zero => simp only [List.eraseIdx_cons_zero, List.map_cons, List.sum_cons]; omega
    | succ i =>
      have := ih i
      simp only [List.eraseIdx_cons_succ, List.map_cons, List.sum_cons]
      omega

/-- use of the first `i` clients -/
def upTo (l : List Counts) (i : Nat) : Nat := ((l.take i).map Counts.inUse).sum

theorem upTo_succ (l : List Counts) (i : Nat) (x : Counts) (h : l[i]? = some x) : upTo l (i + 1) = upTo l i + x.inUse := by
  unfold upTo
  rw [List.take_succ, h]
  simp

theorem upTo_all (l : List Counts) (i : Nat) (h : l.length ≤ i) : upTo l i = (l.map Counts.inUse).sum := by
  unfold upTo
  rw [List.take_of_length_le h]

theorem upTo_set (l : List Counts) (i k : Nat) (x y : Counts) (h : l[k]? = some x) (hle : y.inUse ≤ x.inUse) :
    upTo (l.set k y) i ≤ upTo l i := by
  unfold upTo
  rw [List.take_set]
  by_cases hk : k < i
  · have : (l.take i)[k]? = some x := by rw [List.getElem?_take_of_lt hk, h]
    have := sum_set (l.take i) k x y this
    omega
  · rw [List.set_eq_of_length_le (by simp; omega)]
    exact Nat.le_refl _

/-- what is known while the server thread looks for work -/
def PcInv (τ : Nat) (s : Load) : Pc → Prop
  | .idle => True
  | .scan cap i left => 0 < left ∧ (upTo s.clients i : Int) + left ≤ cap + i * τ ∧ i ≤ s.clients.length
  | .half cap i left r => 0 < left ∧ (upTo s.clients i : Int) + left ≤ cap + i * τ ∧ i ≤ s.clients.length ∧
      ∀ x, s.clients[i]? = some x → x.inUse ≤ r + x.active + τ
  | .ask cap left => 0 ≤ left ∧ (inUse s : Int) + left ≤ cap + s.clients.length * τ
  | .send cap left _ => 0 < left ∧ (inUse s : Int) + left ≤ cap + s.clients.length * τ

def pcCap : Pc → Nat
  | .idle => 0
  | .scan cap _ _ => cap
  | .half cap _ _ _ => cap
  | .ask cap _ => cap
  | .send cap _ _ => cap

structure Inv (C N τ : Nat) (s : Load) : Prop where
  total : inUse s ≤ C + 1 + N * τ
  cap : pcCap s.pc ≤ C + 1
  len : s.clients.length ≤ N
  pc : PcInv τ s s.pc
  moving : ∀ x ∈ s.clients, x.moving = true → τ = 1

/-- a step of a connection's thread that does not increase the use of its client -/
theorem Inv.set {C N τ : Nat} {s : Load} (h : Inv C N τ s) (k : Nat) (x y : Counts) (hx : s.clients[k]? = some x)
    (hle : y.inUse ≤ x.inUse) (hact : y.inUse + x.active ≤ x.inUse + y.active) (hm : y.moving = true → τ = 1) :
    Inv C N τ { s with clients := s.clients.set k y } := by
  have hsum := sum_set s.clients k x y hx
  have htot : inUse { s with clients := s.clients.set k y } ≤ inUse s := by
    show ((s.clients.set k y).map Counts.inUse).sum ≤ (s.clients.map Counts.inUse).sum
    omega
  refine ⟨Nat.le_trans htot h.total, h.cap, by simpa using h.len, ?_, ?_⟩
  · have hp := h.pc
    show PcInv τ { s with clients := s.clients.set k y } s.pc
    revert hp
    cases s.pc with
    | idle => intro _; trivial
    | scan cap i left =>
      rintro ⟨h1, h2, h3⟩
      have := upTo_set s.clients i k x y hx hle
      exact ⟨h1, by show ((upTo (s.clients.set k y) i : Nat) : Int) + _ ≤ _; omega, by simpa using h3⟩
    | half cap i left r =>
      rintro ⟨h1, h2, h3, h4⟩
      have := upTo_set s.clients i k x y hx hle
      refine ⟨h1, by show ((upTo (s.clients.set k y) i : Nat) : Int) + _ ≤ _; omega, by simpa using h3, ?_⟩
      intro z hz
      have hz : (s.clients.set k y)[i]? = some z := hz
      by_cases hki : k = i
      · subst hki
        rw [List.getElem?_set_self (List.getElem?_eq_some_iff.1 hx).1] at hz
        injection hz with hz
        subst hz
        have := h4 x hx
        omega
      · rw [List.getElem?_set_ne hki] at hz
        exact h4 z hz
    | ask cap left =>
      rintro ⟨h1, h2⟩
      refine ⟨h1, ?_⟩
      show (((s.clients.set k y).map Counts.inUse).sum : Int) + left ≤ (cap : Int) + ((s.clients.set k y).length : Nat) * τ
      rw [List.length_set]
      unfold inUse at h2
      omega
    | send cap left i =>
      rintro ⟨h1, h2⟩
      refine ⟨h1, ?_⟩
      show (((s.clients.set k y).map Counts.inUse).sum : Int) + left ≤ (cap : Int) + ((s.clients.set k y).length : Nat) * τ
      rw [List.length_set]
      unfold inUse at h2
      omega
  · intro z hz hzm
    rcases List.mem_or_eq_of_mem_set hz with hz | rfl
    · exact h.moving z hz hzm
    · exact hm hzm

theorem Inv.onClient {C N τ : Nat} {s s' : Load} (h : Inv C N τ s) (i : Nat) (f : Counts → Out Counts)
    (hf : ∀ x y, f x = .ok y → y.inUse ≤ x.inUse ∧ y.inUse + x.active ≤ x.inUse + y.active ∧ (y.moving = true → x.moving = true ∨ τ = 1))
    (hs : onClient s i f = .ok s') : Inv C N τ s' := by
  unfold Server.onClient at hs
  split at hs
  · cases hs
  rename_i x hx
  split at hs
  · rename_i y hy
    injection hs with hs
    subst hs
    obtain ⟨h1, h2, h3⟩ := hf x y hy
    exact h.set i x y hx h1 h2 (fun hm => (h3 hm).elim (h.moving x (List.mem_of_getElem? hx)) id)
  · cases hs
  · cases hs

theorem step_inv {C N τ : Nat} {s s' : Load} (h : Inv C N τ s) (o : Op) (hs : step s o = .ok s')
    (hfind : ∀ n, o = .find n → n ≤ C) (hjob : ∀ i, o = .job1 i → τ = 1) (hlen : s'.clients.length ≤ N) : Inv C N τ s' := by
  cases o with
  | connect =>
    simp only [step] at hs
    split at hs
    · rename_i hpc
      injection hs with hs
      subst hs
      have ht : inUse { s with clients := s.clients ++ [⟨0, 0, 0, false⟩] } = inUse s := by
        simp [inUse, Counts.inUse]
      refine ⟨by rw [ht]; exact h.total, h.cap, hlen, by rw [hpc]; trivial, ?_⟩
      intro x hx hm
      rcases List.mem_append.1 hx with hx | hx
      · exact h.moving x hx hm
      · simp only [List.mem_singleton] at hx
        subst hx
        cases hm
    · cases hs
  | disconnect i =>
    simp only [step] at hs
    split at hs
    · rename_i hpc
      split at hs
      · cases hs
      split at hs
      · cases hs
      injection hs with hs
      subst hs
      refine ⟨Nat.le_trans (sum_erase _ _) h.total, h.cap, hlen, by rw [hpc]; trivial, ?_⟩
      intro x hx hm
      exact h.moving x (List.mem_of_mem_eraseIdx hx) hm
    · cases hs
  | status i n =>
    have hs : onClient s i (fun x => .ok { x with available := n }) = .ok s' := hs
    exact h.onClient i _ (fun x y e => by injection e with e; subst e; exact ⟨Nat.le_refl _, Nat.le_refl _, fun hm => Or.inl hm⟩) hs
  | noJob i =>
    refine h.onClient i _ (fun x y e => ?_) hs
    split at e
    · cases e
    split at e
    · injection e with e
      subst e
      simp only [Counts.inUse]
      exact ⟨by omega, by omega, fun hm => Or.inl hm⟩
    · cases e
  | job1 i =>
    refine h.onClient i _ (fun x y e => ?_) hs
    split at e
    · cases e
    rename_i hnm
    split at e
    · injection e with e
      subst e
      simp only [Counts.inUse, hnm]
      exact ⟨by simp; omega, by simp; omega, fun _ => Or.inr (hjob i rfl)⟩
    · cases e
  | job2 i =>
    refine h.onClient i _ (fun x y e => ?_) hs
    split at e
    · rename_i hm
      injection e with e
      subst e
      simp only [Counts.inUse, hm]
      exact ⟨by simp; omega, by simp; omega, fun hc => by cases hc⟩
    · cases e
  | done i =>
    simp only [step] at hs
    split at hs
    · rename_i hpc
      unfold Server.onClient at hs
      split at hs
      · cases hs
      rename_i x hx
      split at hs
      · rename_i y hy
        dsimp only at hy
        split at hy
        · injection hy with hy
          injection hs with hs
          subst hs hy
          have hsum := sum_set s.clients i x { x with active := x.active - 1 } hx
          have hle : ({ x with active := x.active - 1 } : Counts).inUse ≤ x.inUse := by simp only [Counts.inUse]; omega
          refine ⟨?_, h.cap, hlen, by rw [hpc]; trivial, ?_⟩
          · have := h.total
            unfold inUse at this ⊢
            dsimp only at this ⊢
            omega
          · intro z hz hzm
            rcases List.mem_or_eq_of_mem_set hz with hz | rfl
            · exact h.moving z hz hzm
            · exact h.moving x (List.mem_of_getElem? hx) hzm
        · cases hy
      · cases hs
      · cases hs
    · cases hs
  | find n =>
    simp only [step] at hs
    split at hs
    · split at hs
      · injection hs with hs
        subst hs
        exact h
      · injection hs with hs
        subst hs
        have hn := hfind n rfl
        refine ⟨h.total, by show n + 1 ≤ C + 1; omega, hlen, ?_, h.moving⟩
        show 0 < ((n : Int) + 1) ∧ ((upTo s.clients 0 : Nat) : Int) + ((n : Int) + 1) ≤ ((n + 1 : Nat) : Int) + ((0 : Nat) : Int) * τ ∧ 0 ≤ s.clients.length
        simp [upTo]
        try omega
    · cases hs
  | loadRequested =>
    simp only [step] at hs
    split at hs
    · rename_i cap i left hpc
      have hp := h.pc
      have hc := h.cap
      rw [hpc] at hp hc
      obtain ⟨h1, h2, h3⟩ := hp
      split at hs
      · rename_i hx
        injection hs with hs
        subst hs
        rw [List.getElem?_eq_none_iff] at hx
        refine ⟨h.total, hc, hlen, ?_, h.moving⟩
        rw [upTo_all _ _ hx] at h2
        have hi : i = s.clients.length := by omega
        subst hi
        exact ⟨by omega, h2⟩
      · rename_i x hx
        injection hs with hs
        subst hs
        refine ⟨h.total, hc, hlen, ⟨h1, h2, h3, ?_⟩, h.moving⟩
        intro z hz
        have hz : s.clients[i]? = some z := hz
        rw [hx] at hz
        injection hz with hz
        subst hz
        have := h.moving x (List.mem_of_getElem? hx)
        cases hm : x.moving with
        | false => simp only [Counts.inUse, hm]; simp
        | true => simp only [Counts.inUse, hm, this hm]; simp
    · cases hs
  | loadActive =>
    simp only [step] at hs
    split at hs
    · rename_i cap i left r hpc
      have hp := h.pc
      have hc := h.cap
      rw [hpc] at hp hc
      obtain ⟨h1, h2, h3, h4⟩ := hp
      split at hs
      · cases hs
      rename_i x hx
      split at hs
      · injection hs with hs
        subst hs
        exact ⟨h.total, Nat.zero_le _, hlen, trivial, h.moving⟩
      · rename_i hleft
        injection hs with hs
        subst hs
        refine ⟨h.total, hc, hlen, ?_, h.moving⟩
        have h5 := h4 x hx
        have h6 := upTo_succ s.clients i x hx
        have h7 := (List.getElem?_eq_some_iff.1 hx).1
        refine ⟨by omega, ?_, h7⟩
        show ((upTo s.clients (i + 1) : Nat) : Int) + _ ≤ (cap : Int) + ((i + 1 : Nat) : Int) * τ
        rw [h6]
        have : ((i + 1 : Nat) : Int) * (τ : Int) = i * τ + τ := by rw [Int.natCast_add, Int.add_mul]; simp
        rw [this]
        omega
    · cases hs
  | test i =>
    simp only [step] at hs
    split at hs
    · rename_i cap left hpc
      have hp := h.pc
      have hc := h.cap
      rw [hpc] at hp hc
      split at hs
      · cases hs
      split at hs
      · cases hs
      rename_i hl
      split at hs
      · injection hs with hs
        subst hs
        exact h
      · injection hs with hs
        subst hs
        exact ⟨h.total, hc, hlen, ⟨by omega, hp.2⟩, h.moving⟩
    · cases hs
  | request =>
    simp only [step] at hs
    split at hs
    · rename_i cap left i hpc
      have hp := h.pc
      have hc := h.cap
      rw [hpc] at hp hc
      obtain ⟨h1, h2⟩ := hp
      split at hs
      · cases hs
      rename_i x hx
      injection hs with hs
      subst hs
      have hsum := sum_set s.clients i x { x with requested := x.requested + 1 } hx
      have hu : ({ x with requested := x.requested + 1 } : Counts).inUse = x.inUse + 1 := by simp only [Counts.inUse]; omega
      have hnew : ((s.clients.set i { x with requested := x.requested + 1 }).map Counts.inUse).sum = inUse s + 1 := by
        unfold inUse; omega
      have hnl : (s.clients.length : Int) * τ ≤ (N : Int) * τ := by
        have : s.clients.length * τ ≤ N * τ := Nat.mul_le_mul_right _ h.len
        exact_mod_cast this
      refine ⟨?_, hc, hlen, ?_, ?_⟩
      · show ((s.clients.set i _).map Counts.inUse).sum ≤ _
        rw [hnew]
        have hc : cap ≤ C + 1 := hc
        have : ((N * τ : Nat) : Int) = (N : Int) * τ := Int.natCast_mul _ _
        omega
      · show 0 ≤ left - 1 ∧ ((((s.clients.set i _).map Counts.inUse).sum : Nat) : Int) + (left - 1) ≤ (cap : Int) + ((s.clients.set i _).length : Nat) * τ
        rw [hnew, List.length_set]
        omega
      · intro z hz hzm
        rcases List.mem_or_eq_of_mem_set hz with hz | rfl
        · exact h.moving z hz hzm
        · exact h.moving x (List.mem_of_getElem? hx) hzm
    · cases hs
  | stop =>
    simp only [step] at hs
    split at hs
    · injection hs with hs
      subst hs
      exact ⟨h.total, Nat.zero_le _, hlen, trivial, h.moving⟩
    · injection hs with hs
      subst hs
      exact ⟨h.total, Nat.zero_le _, hlen, trivial, h.moving⟩
    · cases hs

theorem reach_inv {C N : Nat} {torn : Bool} {s : Load} (h : Reach C N torn s) : Inv C N (if torn then 1 else 0) s := by
  induction h with
  | init => exact ⟨by simp [inUse, initial], by simp [initial, pcCap], by simp [initial], trivial, by simp [initial]⟩
  | op o _ hs h1 h2 h3 ih =>
    refine step_inv ih o hs h1 (fun i e => ?_) h3
    cases torn with
    | true => rfl
    | false => exact absurd e (h2 rfl i).1
  | @job s s1 s' i _ hs1 hs2 ih =>
    simp only [step] at hs1 hs2
    unfold onClient at hs1 hs2
    split at hs1
    · cases hs1
    rename_i x hx
    dsimp only at hs1
    split at hs1
    · rename_i y hy
      injection hs1 with hs1
      subst hs1
      split at hy
      · cases hy
      rename_i hnm
      split at hy
      · rename_i hr
        injection hy with hy
        subst hy
        have hi := (List.getElem?_eq_some_iff.1 hx).1
        simp only [List.getElem?_set_self hi, if_true, List.set_set] at hs2
        injection hs2 with hs2
        subst hs2
        refine ih.set i x _ hx ?_ ?_ (fun e => by cases e)
        · simp only [Counts.inUse, hnm]; simp; omega
        · simp only [Counts.inUse, hnm]; simp; omega
      · cases hy
    · cases hs1
    · cases hs1

/-- C37, for every interleaving: never more than the CPUs, the prefetched job and one job for each connection -/
theorem C37_bound_partial (cpus clients : Nat) (s : Load) (h : Reach cpus clients true s) : inUse s ≤ cpus + 1 + clients := by
  have := (reach_inv h).total
  simpa using this

/-- C37: exactly the stated bound if the two counters of a client are never read while a job is moved between them -/
theorem C37_bound_untorn (cpus clients : Nat) (s : Load) (h : Reach cpus clients false s) : inUse s ≤ cpus + 1 := by
  have := (reach_inv h).total
  simpa using this

/-- C37: a job is only requested from a client that offered more jobs than were requested from it -/
theorem C37_offered (s s' : Load) (o : Op) (h : step s o = .ok s') :
    (∀ cap left i, s'.pc = .send cap left i → s.pc ≠ s'.pc → ∃ x, s.clients[i]? = some x ∧ x.requested < x.available) ∧
    (∀ (i : Nat) (x x' : Counts), s.clients[i]? = some x → s'.clients[i]? = some x' → s'.clients.length = s.clients.length → x.requested < x'.requested →
      o = .request ∧ ∃ cap left, s.pc = .send cap left i ∧ x'.requested = x.requested + 1) := by
  have hon : ∀ k f, onClient s k f = .ok s' → s'.pc = s.pc ∧ ∃ x y, s.clients[k]? = some x ∧ f x = .ok y ∧ s'.clients = s.clients.set k y := by
    intro k f e
    unfold onClient at e
    split at e
    · cases e
    rename_i x hx
    split at e
    · rename_i y hy
      injection e with e
      subst e
      exact ⟨rfl, x, y, hx, hy, rfl⟩
    · cases e
    · cases e
  have hset : ∀ (k : Nat) (y x : Counts), s.clients[k]? = some x → y.requested ≤ x.requested → s'.clients = s.clients.set k y →
      ∀ (i : Nat) (z z' : Counts), s.clients[i]? = some z → s'.clients[i]? = some z' → ¬ z.requested < z'.requested := by
    intro k y x hx hle e i z z' hz hz'
    rw [e] at hz'
    by_cases hk : k = i
    · subst hk
      rw [List.getElem?_set_self (List.getElem?_eq_some_iff.1 hx).1] at hz'
      rw [hx] at hz
      injection hz with hz
      injection hz' with hz'
      subst hz hz'
      omega
    · rw [List.getElem?_set_ne hk, hz] at hz'
      injection hz' with hz'
      subst hz'
      omega
  have hsame : s'.clients = s.clients → ∀ (i : Nat) (z z' : Counts), s.clients[i]? = some z → s'.clients[i]? = some z' → ¬ z.requested < z'.requested := by
    intro e i z z' hz hz'
    rw [e, hz] at hz'
    injection hz' with hz'
    subst hz'
    omega
  cases o with
  | connect =>
    simp only [step] at h
    split at h
    · injection h with h
      subst h
      refine ⟨fun _ _ _ _ hne => absurd rfl hne, fun i x x' hx hx' hl => ?_⟩
      simp at hl
    · cases h
  | disconnect k =>
    simp only [step] at h
    split at h
    · split at h
      · cases h
      rename_i y hy
      split at h
      · cases h
      injection h with h
      subst h
      refine ⟨fun _ _ _ _ hne => absurd rfl hne, fun i x x' hx hx' hl => ?_⟩
      have := (List.getElem?_eq_some_iff.1 hy).1
      have hl : (s.clients.eraseIdx k).length = s.clients.length := hl
      rw [List.length_eraseIdx, if_pos this] at hl
      omega
    · cases h
  | status k n =>
    have h : onClient s k (fun x => .ok { x with available := n }) = .ok s' := h
    obtain ⟨h1, x, y, hx, hy, e⟩ := hon _ _ h
    injection hy with hy
    exact ⟨fun _ _ _ _ hne => absurd h1.symm hne, fun i z z' hz hz' _ hlt => absurd hlt (hset k y x hx (by rw [← hy]; exact Nat.le_refl _) e i z z' hz hz')⟩
  | noJob k =>
    obtain ⟨h1, x, y, hx, hy, e⟩ := hon _ _ h
    split at hy
    · cases hy
    split at hy
    · injection hy with hy
      exact ⟨fun _ _ _ _ hne => absurd h1.symm hne, fun i z z' hz hz' _ hlt => absurd hlt (hset k y x hx (by rw [← hy]; exact Nat.sub_le _ _) e i z z' hz hz')⟩
    · cases hy
  | job1 k =>
    obtain ⟨h1, x, y, hx, hy, e⟩ := hon _ _ h
    split at hy
    · cases hy
    split at hy
    · injection hy with hy
      exact ⟨fun _ _ _ _ hne => absurd h1.symm hne, fun i z z' hz hz' _ hlt => absurd hlt (hset k y x hx (by rw [← hy]; exact Nat.sub_le _ _) e i z z' hz hz')⟩
    · cases hy
  | job2 k =>
    obtain ⟨h1, x, y, hx, hy, e⟩ := hon _ _ h
    split at hy
    · injection hy with hy
      exact ⟨fun _ _ _ _ hne => absurd h1.symm hne, fun i z z' hz hz' _ hlt => absurd hlt (hset k y x hx (by rw [← hy]; exact Nat.le_refl _) e i z z' hz hz')⟩
    · cases hy
  | done k =>
    simp only [step] at h
    split at h
    · obtain ⟨h1, x, y, hx, hy, e⟩ := hon _ _ h
      split at hy
      · injection hy with hy
        exact ⟨fun _ _ _ _ hne => absurd h1.symm hne, fun i z z' hz hz' _ hlt => absurd hlt (hset k y x hx (by rw [← hy]; exact Nat.le_refl _) e i z z' hz hz')⟩
      · cases hy
    · cases h
  | find n =>
    simp only [step] at h
    split at h
    · split at h
      · injection h with h
        subst h
        exact ⟨fun _ _ _ _ hne => absurd rfl hne, fun i z z' hz hz' _ hlt => absurd hlt (hsame rfl i z z' hz hz')⟩
      · injection h with h
        subst h
        exact ⟨fun _ _ _ hc => (by cases hc), fun i z z' hz hz' _ hlt => absurd hlt (hsame rfl i z z' hz hz')⟩
    · cases h
  | loadRequested =>
    simp only [step] at h
    split at h
    · split at h
      · injection h with h
        subst h
        exact ⟨fun _ _ _ hc => (by cases hc), fun i z z' hz hz' _ hlt => absurd hlt (hsame rfl i z z' hz hz')⟩
      · injection h with h
        subst h
        exact ⟨fun _ _ _ hc => (by cases hc), fun i z z' hz hz' _ hlt => absurd hlt (hsame rfl i z z' hz hz')⟩
    · cases h
  | loadActive =>
    simp only [step] at h
    split at h
    · split at h
      · cases h
      split at h
      · injection h with h
        subst h
        exact ⟨fun _ _ _ hc => (by cases hc), fun i z z' hz hz' _ hlt => absurd hlt (hsame rfl i z z' hz hz')⟩
      · injection h with h
        subst h
        exact ⟨fun _ _ _ hc => (by cases hc), fun i z z' hz hz' _ hlt => absurd hlt (hsame rfl i z z' hz hz')⟩
    · cases h
  | test k =>
    simp only [step] at h
    split at h
    · split at h
      · cases h
      rename_i x hx
      split at h
      · cases h
      split at h
      · injection h with h
        subst h
        exact ⟨fun _ _ _ _ hne => absurd rfl hne, fun i z z' hz hz' _ hlt => absurd hlt (hsame rfl i z z' hz hz')⟩
      · rename_i hlt
        injection h with h
        subst h
        refine ⟨fun cap left i hc _ => ?_, fun i z z' hz hz' _ hlt => absurd hlt (hsame rfl i z z' hz hz')⟩
        injection hc with _ _ hc
        subst hc
        exact ⟨x, hx, by omega⟩
    · cases h
  | request =>
    simp only [step] at h
    split at h
    · rename_i cap left k hpc
      split at h
      · cases h
      rename_i x hx
      injection h with h
      subst h
      refine ⟨fun _ _ _ hc => (by cases hc), fun i z z' hz hz' _ hlt => ?_⟩
      have hz' : (s.clients.set k { x with requested := x.requested + 1 })[i]? = some z' := hz'
      by_cases hk : k = i
      · subst hk
        rw [List.getElem?_set_self (List.getElem?_eq_some_iff.1 hx).1] at hz'
        rw [hx] at hz
        injection hz with hz
        injection hz' with hz'
        subst hz hz'
        exact ⟨rfl, cap, left, hpc, rfl⟩
      · rw [List.getElem?_set_ne hk, hz] at hz'
        injection hz' with hz'
        subst hz'
        omega
    · cases h
  | stop =>
    simp only [step] at h
    split at h
    · injection h with h
      subst h
      exact ⟨fun _ _ _ hc => (by cases hc), fun i z z' hz hz' _ hlt => absurd hlt (hsame rfl i z z' hz hz')⟩
    · injection h with h
      subst h
      exact ⟨fun _ _ _ hc => (by cases hc), fun i z z' hz hz' _ hlt => absurd hlt (hsame rfl i z z' hz hz')⟩
    · cases h

/-- every run is covered by `Reach` if the limits hold along it -/
theorem reach_run {C N : Nat} {torn : Bool} : ∀ (ops : List Op) (s s' : Load), Reach C N torn s → run s ops = some s' →
    (∀ n, .find n ∈ ops → n ≤ C) → s.clients.length + ops.countP (· = .connect) ≤ N →
    (torn = false → ∀ o ∈ ops, ∀ i, o ≠ .job1 i ∧ o ≠ .job2 i) → Reach C N torn s'
  | [], s, s', h, e, _, _, _ => by
    injection e with e
    exact e ▸ h
  | o :: ops, s, s', h, e, h1, h2, h3 => by
    unfold run at e
    split at e
    · rename_i s1 hs
      have hl : s1.clients.length ≤ s.clients.length + (if o = .connect then 1 else 0) := by
        have hon : ∀ k f, onClient s k f = .ok s1 → s1.clients.length = s.clients.length := by
          intro k f e
          unfold onClient at e
          split at e
          · cases e
          split at e
          · injection e with e; subst e; simp
          · cases e
          · cases e
        cases o with
        | connect =>
          simp only [step] at hs
          split at hs
          · injection hs with hs; subst hs; simp
          · cases hs
        | disconnect k =>
          simp only [step] at hs
          split at hs
          · split at hs
            · cases hs
            split at hs
            · cases hs
            injection hs with hs; subst hs
            show (s.clients.eraseIdx k).length ≤ _
            rw [List.length_eraseIdx]
            split <;> omega
          · cases hs
        | status k n =>
          have hs : onClient s k (fun x => .ok { x with available := n }) = .ok s1 := hs
          have := hon _ _ hs
          omega
        | noJob k => have := hon _ _ hs; omega
        | job1 k => have := hon _ _ hs; omega
        | job2 k => have := hon _ _ hs; omega
        | done k =>
          simp only [step] at hs
          split at hs
          · have := hon _ _ hs; omega
          · cases hs
        | find n =>
          simp only [step] at hs
          split at hs
          · split at hs <;> (injection hs with hs; subst hs; simp)
          · cases hs
        | loadRequested =>
          simp only [step] at hs
          split at hs
          · split at hs <;> (injection hs with hs; subst hs; simp)
          · cases hs
        | loadActive =>
          simp only [step] at hs
          split at hs
          · split at hs
            · cases hs
            · split at hs <;> (injection hs with hs; subst hs; simp)
          · cases hs
        | test k =>
          simp only [step] at hs
          split at hs
          · split at hs
            · cases hs
            · split at hs
              · cases hs
              · split at hs <;> (injection hs with hs; subst hs; simp)
          · cases hs
        | request =>
          simp only [step] at hs
          split at hs
          · split at hs
            · cases hs
            · injection hs with hs; subst hs; simp
          · cases hs
        | stop => simp only [step] at hs; split at hs <;> first | (injection hs with hs; subst hs; simp) | cases hs
      have hc : (o :: ops).countP (· = .connect) = ops.countP (· = .connect) + (if o = .connect then 1 else 0) := by
        rw [List.countP_cons]; simp
      refine reach_run ops s1 s' (.op o h hs (fun n e => h1 n (by simp [e])) (fun e => h3 e o (by simp)) (by omega)) e (fun n hn => h1 n (by simp [hn])) (by omega)
        (fun e o' ho' => h3 e o' (by simp [ho']))
    · cases e

/-- two clients, one CPU: work is requested from the client that has some and moved to its active jobs -/
def fairRun : List Op :=
  [.connect, .connect, .status 1 5, .find 1, .loadRequested, .loadActive, .loadRequested, .loadActive, .loadRequested,
   .test 0, .test 1, .request, .test 1, .request, .stop, .job1 1, .job2 1]
example : run initial fairRun = some ⟨[⟨0, 0, 0, false⟩, ⟨5, 1, 1, false⟩], .idle⟩ := by decide +kernel
/-- all requests are in use, so the next scan finds nothing to ask for -/
example : run initial (fairRun ++ [.find 1, .loadRequested, .loadActive, .loadRequested, .loadActive]) =
    some ⟨[⟨0, 0, 0, false⟩, ⟨5, 1, 1, false⟩], .idle⟩ := by decide +kernel

/-- the state above without torn reads -/
example : Reach 1 2 false ⟨[⟨0, 0, 0, false⟩, ⟨5, 1, 1, false⟩], .idle⟩ := by
  refine .job (s := ⟨[⟨0, 0, 0, false⟩, ⟨5, 2, 0, false⟩], .idle⟩) (s₁ := ⟨[⟨0, 0, 0, false⟩, ⟨5, 1, 0, true⟩], .idle⟩) 1
    (reach_run (fairRun.take 15) initial _ .init (by decide +kernel) ?_ (by decide +kernel) ?_) (by decide +kernel) (by decide +kernel)
  · intro n hn
    simp [fairRun] at hn
    omega
  · intro _ o ho i
    simp [fairRun] at ho
    rcases ho with rfl | rfl | rfl | rfl | rfl | rfl | rfl | rfl | rfl | rfl | rfl | rfl | rfl | rfl <;> simp

/-- Finding: a job moved from the requested to the active jobs while the counters are read is not counted, and more work than
CPUs plus one is requested -/
theorem C37_torn_read : ∃ s, Reach 1 1 true s ∧ inUse s = 1 + 1 + 1 := by
  refine ⟨⟨[⟨5, 2, 1, false⟩], .idle⟩, ?_, rfl⟩
  refine reach_run
    [.connect, .status 0 5, .find 1, .loadRequested, .loadActive, .loadRequested, .test 0, .request, .test 0, .request, .stop,
     .job1 0, .find 1, .loadRequested, .loadActive, .loadRequested, .test 0, .request, .stop, .job2 0] initial _ .init ?_ ?_ ?_ (fun e => by cases e)
  · decide +kernel
  · intro n hn
    simp at hn
    omega
  · decide +kernel

end Verif.Server
