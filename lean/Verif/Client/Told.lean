import Verif.Client.SysProof
namespace Verif.Client

theorem local_inv {s s' : Sys} {c : Nat} {f : Conn → Out Conn} (h : local_ s c f = .ok s') :
    ∃ k k', s.conns[c]? = some k ∧ f k = .ok k' ∧ s' = { s with conns := s.conns.set c k' } := by
  unfold local_ at h
  split at h
  · exact nomatch h
  · rename_i k hk
    split at h
    · rename_i k' hf
      injection h with h
      exact ⟨k, k', hk, hf, h.symm⟩
    · exact nomatch h
    · exact nomatch h

theorem last_cons (n : Nat) (l : List Nat) (a : Nat) : ((n :: l).getLast?).getD a = l.getLast?.getD n := by
  cases l with
  | nil => rfl
  | cons b l => simp [List.getLast?_cons]

structure TInv (k : Conn) : Prop where
  queue : k.sendQ.filterMap numOf = []
  fresh : k.phase = .starting → k.out = [] ∧ k.sending = [] ∧ k.status = none
  told : k.phase = .up → k.told = k.latest ∨ k.told = 0

theorem newConn_t (w) : TInv (newConn w) := ⟨rfl, fun _ => ⟨rfl, rfl, rfl⟩, nofun⟩

theorem enqueue_t {k : Conn} (h : TInv k) (m : CMsg) (hm : numOf m = none) : TInv (enqueue k m) := by
  refine ⟨?_, h.fresh, h.told⟩
  simp only [enqueue, List.filterMap_append, h.queue, List.filterMap_cons, hm, List.filterMap_nil, List.append_nil]

theorem take_t {k k'} (h : TInv k) (e : take k = .ok k') : TInv k' := by
  unfold take at e
  split at e
  · rename_i c
    obtain ⟨c1, c2, c3⟩ := c
    split at e
    · rename_i n hs
      injection e with e
      subst e
      refine ⟨h.queue, fun e => by simp only [c1] at e; exact (nomatch e), fun _ => ?_⟩
      have := h.told c1
      simpa [Conn.latest, c3, hs, numOf, List.filterMap_cons] using this
    · rename_i hs
      injection e with e
      subst e
      refine ⟨rfl, fun e => by simp only [c1] at e; exact (nomatch e), fun _ => ?_⟩
      have := h.told c1
      simpa [Conn.latest, c3, hs, h.queue] using this
  · exact nomatch e

theorem send_t {k k'} (h : TInv k) (e : send k = .ok k') : TInv k' := by
  unfold send at e
  split at e
  · rename_i c1
    split at e
    · exact nomatch e
    · rename_i m ms hs
      injection e with e
      subst e
      refine ⟨h.queue, fun e => by simp only [c1] at e; exact (nomatch e), fun _ => ?_⟩
      have := h.told c1
      simp only [Conn.latest, hs] at this ⊢
      rw [List.append_assoc k.out [m] ms, List.singleton_append]
      exact this
  · exact nomatch e

theorem wRecv_t {waits k k'} (h : TInv k) (e : wRecv waits k = .ok k') : TInv k' := by
  unfold wRecv at e
  split at e
  · rename_i c1
    split at e
    · exact nomatch e
    · rename_i m ms hm
      have ht := h.told c1
      have hns : ∀ {P : Prop}, k.phase = .starting → P := fun e => by rw [c1] at e; exact nomatch e
      simp only [Conn.latest, hm, List.cons_append, List.filterMap_cons] at ht
      cases m <;> simp only [numOf] at ht
      case connection n =>
        injection e with e
        subst e
        rw [List.cons_append, last_cons] at ht
        exact ⟨h.queue, fun e => hns e, fun _ => ht⟩
      case status n =>
        injection e with e
        subst e
        rw [List.cons_append, last_cons] at ht
        exact ⟨h.queue, fun e => hns e, fun _ => ht⟩
      case noJob =>
        simp only at e
        split at e
        · exact nomatch e
        · injection e with e
          subst e
          exact ⟨h.queue, fun e => hns e, fun _ => ht⟩
      case job j =>
        simp only at e
        split at e
        · exact nomatch e
        · injection e with e
          subst e
          exact ⟨h.queue, fun e => hns e, fun _ => ht⟩
      case manifest t =>
        simp only at e
        split at e
        · injection e with e
          subst e
          exact ⟨h.queue, fun e => hns e, fun _ => ht⟩
        · exact nomatch e
      case file t i =>
        simp only at e
        split at e
        · injection e with e
          subst e
          exact ⟨h.queue, fun e => hns e, fun _ => ht⟩
        · exact nomatch e
  · exact nomatch e

theorem result_t {s s' : Sys} {c k id ok sys raced} (h : ∀ k ∈ s.conns, TInv k) (hk : TInv k)
    (e : result s c k id ok sys raced = .ok s') : ∀ k ∈ s'.conns, TInv k := by
  have hk' : TInv { k with jobs := k.jobs.eraseP fun j => j.id = id } := ⟨hk.queue, hk.fresh, hk.told⟩
  have := mem_set (c := c) h hk'
  unfold result at e
  split at e
  · exact nomatch e
  · simp only at e
    generalize (if sys = true then s.errs id + 1 else s.errs id) = E at e
    generalize (if sys = true then k.w :: s.deny else s.deny) = D at e
    split at e
    · injection e with e; subst e; exact this
    · split at e
      · injection e with e; subst e; exact this
      · split at e
        · injection e with e; subst e; exact this
        · injection e with e; subst e; exact this

theorem recv_t {nf} {s s' : Sys} {c pick raced} (h : ∀ k ∈ s.conns, TInv k)
    (e : recv nf s c pick raced = .ok s') : ∀ k ∈ s'.conns, TInv k := by
  unfold recv at e
  split at e
  · exact nomatch e
  · rename_i k hk
    have hi := h k (List.mem_of_getElem? hk)
    split at e
    · exact nomatch e
    · split at e
      · exact nomatch e
      · rename_i m ms hm
        have hi' : TInv { k with inc := ms } := ⟨hi.queue, hi.fresh, hi.told⟩
        cases m with
        | requestJob =>
            simp only at e
            split at e
            · injection e with e; subst e; exact mem_set h (enqueue_t hi' _ rfl)
            · split at e
              · injection e with e; subst e; exact mem_set h (enqueue_t hi' _ rfl)
              · split at e
                · injection e with e; subst e
                  refine mem_set h (enqueue_t ?_ _ rfl)
                  exact ⟨hi.queue, hi.fresh, fun _ => .inr rfl⟩
                · exact nomatch e
        | result j ok sys => exact result_t h hi' e
        | requestManifest t =>
            simp only at e
            split at e
            · injection e with e; subst e; exact mem_set h (enqueue_t hi' _ rfl)
            · exact nomatch e
        | requestFile t i =>
            simp only at e
            split at e
            · injection e with e; subst e; exact mem_set h (enqueue_t hi' _ rfl)
            · exact nomatch e

theorem step_t {nf} {s s' : Sys} {o : Op} (h : ∀ k ∈ s.conns, TInv k)
    (hc : ∀ c num k, o = .offer c num → s.conns[c]? = some k → k.phase ≠ .starting)
    (e : step nf s o = .ok s') : ∀ k ∈ s'.conns, TInv k := by
  have lift : ∀ {c : Nat} {f : Conn → Out Conn}, local_ s c f = .ok s' →
      (∀ k k', s.conns[c]? = some k → TInv k → f k = .ok k' → TInv k') → ∀ k ∈ s'.conns, TInv k := by
    intro c f e hf
    obtain ⟨k, k', h1, h2, h3⟩ := local_inv e
    subst h3
    exact mem_set h (hf k k' h1 (h k (List.mem_of_getElem? h1)) h2)
  cases o with
  | connect w =>
      simp only [step] at e
      split at e
      · exact nomatch e
      · injection e with e
        subst e
        intro k hk
        rcases List.mem_append.1 hk with hk | hk
        · exact h k hk
        · rw [List.mem_singleton.1 hk]; exact newConn_t w
  | greet c num =>
      refine lift e fun k k' _ hk e => ?_
      split at e
      · rename_i hs
        injection e with e
        subst e
        obtain ⟨_, f2, f3⟩ := hk.fresh hs
        refine ⟨hk.queue, nofun, fun _ => .inl ?_⟩
        simp [Conn.latest, f2, f3, numOf]
      · exact nomatch e
  | offer c num =>
      refine lift e fun k k' hget hk e => ?_
      split at e
      · exact nomatch e
      · injection e with e
        subst e
        refine ⟨hk.queue, fun hs => absurd hs (hc c num k rfl hget), fun _ => .inl ?_⟩
        simp [offer, Conn.latest]
  | signal c =>
      refine lift e fun k k' _ hk e => ?_
      split at e
      · exact nomatch e
      · injection e with e
        subst e
        exact ⟨hk.queue, hk.fresh, hk.told⟩
  | take c => exact lift e fun k k' _ hk e => take_t hk e
  | send c => exact lift e fun k k' _ hk e => send_t hk e
  | recv c pick raced => exact recv_t h e
  | disconnect c =>
      simp only [step, disconnect] at e
      split at e
      · exact nomatch e
      · rename_i k hk
        have hi := h k (List.mem_of_getElem? hk)
        split at e
        · exact nomatch e
        · injection e with e
          subst e
          exact mem_set h ⟨hi.queue, nofun, nofun⟩
  | wRecv c waits => exact lift e fun k k' _ hk e => wRecv_t hk e
  | wRequest c =>
      refine lift e fun k k' _ hk e => ?_
      split at e
      · injection e with e
        subst e
        exact ⟨hk.queue, hk.fresh, hk.told⟩
      · exact nomatch e
  | wAsk c t =>
      refine lift e fun k k' _ hk e => ?_
      simp only [wAsk] at e
      split at e
      · injection e with e; subst e; exact ⟨hk.queue, hk.fresh, hk.told⟩
      · exact nomatch e
  | wAskFile c t i =>
      refine lift e fun k k' _ hk e => ?_
      simp only [wAskFile] at e
      split at e
      · injection e with e; subst e; exact ⟨hk.queue, hk.fresh, hk.told⟩
      · exact nomatch e
  | wStart c t =>
      refine lift e fun k k' _ hk e => ?_
      simp only [wStart] at e
      split at e
      · injection e with e; subst e; exact ⟨hk.queue, hk.fresh, hk.told⟩
      · exact nomatch e
  | wFinish c j ok sys =>
      refine lift e fun k k' _ hk e => ?_
      simp only [wFinish] at e
      split at e
      · injection e with e; subst e; exact ⟨hk.queue, hk.fresh, hk.told⟩
      · exact nomatch e

theorem calm_t {nf jobs s} (h : Calm nf jobs s) : ∀ k ∈ s.conns, TInv k := by
  induction h with
  | start => simp [start]
  | step _ hc he ih => exact step_t ih hc he

/-! ### Messages in order -/

/-- What a step does to the messages on their way to the worker of connection `c`. -/
def Order (c : Nat) (k k' : Conn) : Op → Prop
  | .wRecv d _ => if d = c then ∃ m ms, k.out = m :: ms ∧ k.pend = m :: k'.pend else k' = k
  | .recv d _ _ => if d = c then ∃ l, l.length ≤ 1 ∧ k'.pend = k.pend ++ l else k' = k
  | _ => k'.pend.filter plain = k.pend.filter plain

theorem set_same {s : List Conn} {c d : Nat} {k k' k1 : Conn} (hk : s[c]? = some k) (hk' : (s.set d k1)[c]? = some k') :
    (d = c ∧ k' = k1) ∨ (d ≠ c ∧ k' = k) := by
  by_cases e : d = c
  · subst e
    rw [List.getElem?_set, if_pos rfl, if_pos (List.getElem?_eq_some_iff.1 hk).1] at hk'
    exact .inl ⟨rfl, (Option.some.inj hk').symm⟩
  · rw [List.getElem?_set, if_neg e, hk] at hk'
    exact .inr ⟨e, (Option.some.inj hk').symm⟩

theorem wRecv_order {waits k k'} (e : wRecv waits k = .ok k') : ∃ m ms, k.out = m :: ms ∧ k.pend = m :: k'.pend := by
  unfold wRecv at e
  split at e
  · split at e
    · exact nomatch e
    · rename_i m ms hm
      refine ⟨m, ms, hm, ?_⟩
      have : ∀ k1 : Conn, k1.out = ms → k1.sending = k.sending → k1.sendQ = k.sendQ → k.pend = m :: k1.pend := by
        intro k1 e1 e2 e3
        simp [Conn.pend, hm, e1, e2, e3]
      cases m <;> simp only at e
      case connection n => injection e with e; subst e; exact this _ rfl rfl rfl
      case status n => injection e with e; subst e; exact this _ rfl rfl rfl
      all_goals
        split at e
        all_goals
          first
            | (injection e with e; subst e; exact this _ rfl rfl rfl)
            | exact nomatch e
  · exact nomatch e

theorem recv_order {nf} {s s' : Sys} {d pick raced} (e : recv nf s d pick raced = .ok s') :
    ∃ k k1, s.conns[d]? = some k ∧ s'.conns = s.conns.set d k1 ∧ ∃ l, l.length ≤ 1 ∧ k1.pend = k.pend ++ l := by
  unfold recv at e
  split at e
  · exact nomatch e
  · rename_i k hk
    split at e
    · exact nomatch e
    · split at e
      · exact nomatch e
      · rename_i m ms hm
        have enq : ∀ (k2 : Conn) (m : CMsg), k2.pend = k.pend → ∃ l, l.length ≤ 1 ∧ (enqueue k2 m).pend = k.pend ++ l :=
          fun k2 m h => ⟨[m], by simp, by rw [enqueue_pend, h]⟩
        cases m with
        | requestJob =>
            simp only at e
            split at e
            · injection e with e; subst e; exact ⟨k, _, hk, rfl, enq _ _ rfl⟩
            · split at e
              · injection e with e; subst e; exact ⟨k, _, hk, rfl, enq _ _ rfl⟩
              · split at e
                · injection e with e; subst e; exact ⟨k, _, hk, rfl, enq _ _ rfl⟩
                · exact nomatch e
        | result j ok sys =>
            simp only [result] at e
            split at e
            · exact nomatch e
            · generalize (if sys = true then s.errs j.id + 1 else s.errs j.id) = E at e
              generalize (if sys = true then k.w :: s.deny else s.deny) = D at e
              split at e
              · injection e with e; subst e; exact ⟨k, _, hk, rfl, [], by simp, by simp [Conn.pend]⟩
              · split at e
                · injection e with e; subst e; exact ⟨k, _, hk, rfl, [], by simp, by simp [Conn.pend]⟩
                · split at e
                  · injection e with e; subst e; exact ⟨k, _, hk, rfl, [], by simp, by simp [Conn.pend]⟩
                  · injection e with e; subst e; exact ⟨k, _, hk, rfl, [], by simp, by simp [Conn.pend]⟩
        | requestManifest t =>
            simp only at e
            split at e
            · injection e with e; subst e; exact ⟨k, _, hk, rfl, enq _ _ rfl⟩
            · exact nomatch e
        | requestFile t i =>
            simp only at e
            split at e
            · injection e with e; subst e; exact ⟨k, _, hk, rfl, enq _ _ rfl⟩
            · exact nomatch e

theorem step_order {nf} {s s' : Sys} {o : Op} {c : Nat} {k k' : Conn} (hi : ∀ k ∈ s.conns, KInv nf k)
    (e : step nf s o = .ok s') (hk : s.conns[c]? = some k) (hk' : s'.conns[c]? = some k') (hd : k'.phase ≠ .down) :
    Order c k k' o := by
  have lift : ∀ {d : Nat} {f : Conn → Out Conn}, local_ s d f = .ok s' →
      (∀ k k', KInv nf k → f k = .ok k' → k'.pend.filter plain = k.pend.filter plain) →
      k'.pend.filter plain = k.pend.filter plain := by
    intro d f e hf
    obtain ⟨k0, k1, h1, h2, h3⟩ := local_inv e
    subst h3
    rcases set_same hk hk' with ⟨e1, e2⟩ | ⟨e1, e2⟩
    · subst e1
      rw [h1] at hk
      cases hk
      subst e2
      exact hf _ _ (hi _ (List.mem_of_getElem? h1)) h2
    · rw [e2]
  cases o with
  | connect w =>
      simp only [step] at e
      split at e
      · exact nomatch e
      · injection e with e
        subst e
        simp only at hk'
        rw [List.getElem?_append_left (List.getElem?_eq_some_iff.1 hk).1, hk] at hk'
        cases hk'
        simp [Order]
  | greet d num =>
      refine lift e fun k k' h e => ?_
      split at e
      · rename_i hs
        injection e with e
        subst e
        simp [Conn.pend, h.fresh hs, plain]
      · exact nomatch e
  | offer d num =>
      refine lift e fun k k' h e => ?_
      split at e
      · exact nomatch e
      · injection e with e; subst e; rfl
  | signal d =>
      refine lift e fun k k' h e => ?_
      split at e
      · exact nomatch e
      · injection e with e; subst e; rfl
  | take d =>
      refine lift e fun k k' h e => ?_
      unfold take at e
      split at e
      · rename_i c
        split at e
        · injection e with e; subst e; simp [Conn.pend, c.2.2, plain]
        · injection e with e; subst e; simp [Conn.pend, c.2.2]
      · exact nomatch e
  | send d =>
      refine lift e fun k k' h e => ?_
      unfold send at e
      split at e
      · split at e
        · exact nomatch e
        · rename_i m ms hs
          injection e with e; subst e; simp [Conn.pend, hs]
      · exact nomatch e
  | recv d pick raced =>
      obtain ⟨k0, k1, h1, h2, h3⟩ := recv_order e
      rw [h2] at hk'
      simp only [Order]
      rcases set_same hk hk' with ⟨e1, e2⟩ | ⟨e1, e2⟩
      · subst e1
        rw [if_pos rfl]
        rw [h1] at hk
        cases hk
        subst e2
        exact h3
      · rw [if_neg e1]; exact e2
  | disconnect d =>
      simp only [step, disconnect] at e
      split at e
      · exact nomatch e
      · rename_i k0 hk0
        split at e
        · exact nomatch e
        · injection e with e
          subst e
          simp only at hk'
          rcases set_same hk hk' with ⟨e1, e2⟩ | ⟨e1, e2⟩
          · subst e2; exact absurd rfl hd
          · rw [e2]; simp [Order]
  | wRecv d waits =>
      obtain ⟨k0, k1, h1, h2, h3⟩ := local_inv e
      subst h3
      simp only [Order]
      rcases set_same hk hk' with ⟨e1, e2⟩ | ⟨e1, e2⟩
      · subst e1
        rw [if_pos rfl]
        rw [h1] at hk
        cases hk
        subst e2
        exact wRecv_order h2
      · rw [if_neg e1]; exact e2
  | wRequest d =>
      refine lift e fun k k' h e => ?_
      split at e
      · injection e with e; subst e; rfl
      · exact nomatch e
  | wAsk d t =>
      refine lift e fun k k' h e => ?_
      simp only [wAsk] at e
      split at e
      · injection e with e; subst e; rfl
      · exact nomatch e
  | wAskFile d t i =>
      refine lift e fun k k' h e => ?_
      simp only [wAskFile] at e
      split at e
      · injection e with e; subst e; rfl
      · exact nomatch e
  | wStart d t =>
      refine lift e fun k k' h e => ?_
      simp only [wStart] at e
      split at e
      · injection e with e; subst e; rfl
      · exact nomatch e
  | wFinish d j ok sys =>
      refine lift e fun k k' h e => ?_
      simp only [wFinish] at e
      split at e
      · injection e with e; subst e; rfl
      · exact nomatch e

end Verif.Client
