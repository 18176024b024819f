import Verif.Client.ConnProof
namespace Verif.Client

/-- All books are right, every job is in one place, and a job that failed too often is not built again. -/
structure Inv (nf : Nat → Nat) (jobs : List Job) (s : Sys) : Prop where
  conns : ∀ k ∈ s.conns, KInv nf k
  all : s.all.Perm jobs
  errs : ∀ j, j ∈ s.pool ∨ j ∈ s.conns.flatMap (·.jobs) → s.errs j.id < 3
  most : ∀ i, s.errs i ≤ 3

theorem flat_split {s : List Conn} {c : Nat} {k : Conn} (h : s[c]? = some k) (k' : Conn) :
    ∃ l r, s = l ++ k :: r ∧ s.set c k' = l ++ k' :: r := by
  have hlt := (List.getElem?_eq_some_iff.1 h).1
  refine ⟨s.take c, s.drop (c + 1), ?_, ?_⟩
  · rw [← (List.getElem?_eq_some_iff.1 h).2, List.getElem_cons_drop hlt, List.take_append_drop]
  · rw [List.set_eq_take_append_cons_drop, if_pos hlt]

theorem flat_count {s : List Conn} {c : Nat} {k : Conn} (h : s[c]? = some k) (k' : Conn) (a : Job) :
    ((s.set c k').flatMap (·.jobs)).count a + k.jobs.count a = (s.flatMap (·.jobs)).count a + k'.jobs.count a := by
  obtain ⟨l, r, e1, e2⟩ := flat_split h k'
  rw [e2, e1]
  simp only [List.flatMap_append, List.flatMap_cons, List.count_append]
  omega

theorem flat_same {s : List Conn} {c : Nat} {k : Conn} (h : s[c]? = some k) (k' : Conn) (e : k'.jobs = k.jobs) :
    (s.set c k').flatMap (·.jobs) = s.flatMap (·.jobs) := by
  obtain ⟨l, r, e1, e2⟩ := flat_split h k'
  rw [e2, e1]
  simp only [List.flatMap_append, List.flatMap_cons, e]

theorem mem_set {s : List Conn} {c : Nat} {k' : Conn} {P : Conn → Prop} (h : ∀ k ∈ s, P k) (h' : P k') :
    ∀ k ∈ s.set c k', P k := by
  intro k hk
  rcases List.mem_or_eq_of_mem_set hk with hk | e
  · exact h k hk
  · rw [e]; exact h'

/-- What a step may do. -/
def FineS (nf : Nat → Nat) (jobs : List Job) : Out Sys → Prop
  | .ok s => Inv nf jobs s
  | .off => True
  | .assert => False

theorem local_fine {nf jobs s} (h : Inv nf jobs s) (c : Nat) (f : Conn → Out Conn)
    (hf : ∀ k, KInv nf k → Fine nf k (f k)) : FineS nf jobs (local_ s c f) := by
  unfold local_
  split
  · trivial
  · rename_i k hk
    have h1 := hf k (h.conns k (List.mem_of_getElem? hk))
    cases hr : f k with
    | off => trivial
    | assert => rw [hr] at h1; exact h1
    | ok k' =>
        rw [hr] at h1
        obtain ⟨h1, h2, _⟩ := h1
        refine ⟨mem_set h.conns h1, ?_, ?_, h.most⟩
        · simp only [Sys.all, flat_same hk k' h2]
          exact h.all
        · simp only [flat_same hk k' h2]
          exact h.errs

/-- One connection and the pool change. -/
theorem Inv.upd {nf jobs s} (h : Inv nf jobs s) {c : Nat} {k k' : Conn} (hk : s.conns[c]? = some k) (hk' : KInv nf k')
    {pool done deny} (hp : ∀ a, pool.count a + k'.jobs.count a + done.count a =
      s.pool.count a + k.jobs.count a + s.done.count a)
    (hd : ∀ a, s.done.count a ≤ done.count a) :
    Inv nf jobs { s with pool := pool, conns := s.conns.set c k', done := done, deny := deny } := by
  have hc := fun a => flat_count hk k' a
  refine ⟨mem_set h.conns hk', ?_, ?_, h.most⟩
  · apply List.perm_iff_count.2
    intro a
    have e := h.all.count_eq a
    have := hc a
    have := hp a
    simp only [Sys.all, List.count_append] at *
    omega
  · intro j hj
    apply h.errs
    simp only at hj
    have e1 := hc j
    have e2 := hp j
    have e3 := hd j
    simp only [← List.count_pos_iff] at hj ⊢
    omega

theorem enqueue_pend (k : Conn) (m : CMsg) : (enqueue k m).pend = k.pend ++ [m] := by
  simp [enqueue, Conn.pend]

theorem enqueue_wake {k : Conn} (h : pending k ≤ k.sem + k.owed) (m) :
    pending (enqueue k m) ≤ (enqueue k m).sem + (enqueue k m).owed := by
  simp only [pending, enqueue, List.length_append, List.length_singleton] at *
  omega

theorem disconnect_fine {nf jobs s} (h : Inv nf jobs s) (c) : FineS nf jobs (disconnect s c) := by
  unfold disconnect
  split
  · trivial
  · rename_i k hk
    have hi := h.conns k (List.mem_of_getElem? hk)
    split
    · trivial
    · have hk' : KInv nf { k with phase := .down, jobs := [], out := [], inc := [], sending := [], held := [] } :=
        ⟨fun e => absurd rfl e, nofun, fun _ => rfl, hi.wake⟩
      refine h.upd hk hk' ?_ (fun _ => Nat.le_refl _)
      intro a
      simp only [List.count_append, List.count_nil]
      omega

theorem nodup_id {l : List Job} (h : (l.map Job.id).Nodup) {a b : Job} (ha : a ∈ l) (hb : b ∈ l) (e : a.id = b.id) : a = b := by
  induction l with
  | nil => exact nomatch ha
  | cons x l ih =>
      simp only [List.map_cons, List.nodup_cons] at h
      rcases List.mem_cons.1 ha with ha | ha <;> rcases List.mem_cons.1 hb with hb | hb
      · rw [ha, hb]
      · exact absurd (List.mem_map.2 ⟨b, hb, by rw [← e, ha]⟩) h.1
      · exact absurd (List.mem_map.2 ⟨a, ha, by rw [e, hb]⟩) h.1
      · exact ih h.2 ha hb

/-- The one with this id. -/
theorem find_id {l : List Job} (h : (l.map Job.id).Nodup) {j : Job} (hj : j ∈ l) :
    (l.find? fun x => x.id = j.id) = some j ∧ (l.eraseP fun x => x.id = j.id) = l.erase j := by
  induction l with
  | nil => exact nomatch hj
  | cons x l ih =>
      by_cases e : x = j
      · subst e; simp
      · have hne : x.id ≠ j.id := fun e' => e (nodup_id h (List.mem_cons_self ..) hj e')
        simp only [List.map_cons, List.nodup_cons] at h
        have hj' : j ∈ l := by
          rcases List.mem_cons.1 hj with x | x
          · exact absurd x.symm e
          · exact x
        obtain ⟨i1, i2⟩ := ih h.2 hj'
        refine ⟨?_, ?_⟩
        · rw [List.find?_cons_of_neg (by simpa using hne)]; exact i1
        · rw [List.eraseP_cons_of_neg (by simpa using hne), i2, List.erase_cons_tail (by simpa using e)]

theorem sub_all {s : Sys} {k : Conn} (h : k ∈ s.conns) : k.jobs.Sublist s.all := by
  unfold Sys.all
  refine List.Sublist.trans ?_ (List.sublist_append_left _ _)
  refine List.Sublist.trans ?_ (List.sublist_append_right _ _)
  obtain ⟨l, r, e⟩ := List.append_of_mem h
  rw [e]
  simp only [List.flatMap_append, List.flatMap_cons]
  exact List.Sublist.trans (List.sublist_append_left _ _) (List.sublist_append_right _ _)

theorem all_nodup {nf jobs s} (hn : (jobs.map Job.id).Nodup) (h : Inv nf jobs s) : (s.all.map Job.id).Nodup :=
  (h.all.map Job.id).nodup_iff.2 hn

theorem recv_fine {nf jobs s} (hn : (jobs.map Job.id).Nodup) (h : Inv nf jobs s) (c pick raced) :
    FineS nf jobs (recv nf s c pick raced) := by
  unfold recv
  split
  · trivial
  · rename_i k hk
    have hmem := List.mem_of_getElem? hk
    have hi := h.conns k hmem
    split
    · trivial
    · rename_i hup
      obtain ⟨hreq, hjobs, hasked, haskedF, hwait, hwaitF⟩ := hi.books hup
      split
      · trivial
      · rename_i m ms hm
        rw [hm] at hreq hjobs hasked haskedF
        cases m with
        | requestJob =>
            have hno : KInv nf (enqueue { k with inc := ms } .noJob) := by
              refine ⟨fun _ => ⟨?_, ?_, ?_, ?_, hwait, hwaitF⟩, hi.fresh, hi.gone, enqueue_wake (k := { k with inc := ms }) hi.wake _⟩
              · rw [enqueue_pend]
                simp only [enqueue, List.countP_append, List.countP_cons, List.countP_nil, isReq, isAns, if_true] at *
                simp only [Conn.pend] at *
                omega
              · rw [enqueue_pend]
                simpa [enqueue, jobOf, resultOf, List.filterMap_cons, Conn.pend] using hjobs
              · rw [enqueue_pend]
                simpa [enqueue, manOf, askOf, List.filterMap_cons, Conn.pend] using hasked
              · rw [enqueue_pend]
                simpa [enqueue, fileOf, askFOf, List.filterMap_cons, Conn.pend] using haskedF
            simp only
            split
            · exact h.upd hk hno (fun _ => rfl) (fun _ => Nat.le_refl _)
            · split
              · exact h.upd hk hno (fun _ => rfl) (fun _ => Nat.le_refl _)
              · rename_i j
                split
                · rename_i hj
                  refine h.upd hk ?_ ?_ (fun _ => Nat.le_refl _)
                  · refine ⟨fun _ => ⟨?_, ?_, ?_, ?_, hwait, hwaitF⟩, hi.fresh, fun e => absurd e hup,
                      enqueue_wake (k := { k with inc := ms, jobs := k.jobs ++ [j], told := 0 }) hi.wake _⟩
                    · rw [enqueue_pend]
                      simp only [enqueue, List.countP_append, List.countP_cons, List.countP_nil, isReq, isAns, if_true] at *
                      simp only [Conn.pend] at *
                      omega
                    · rw [enqueue_pend]
                      apply List.perm_iff_count.2
                      intro a
                      have := hjobs.count_eq a
                      simp only [enqueue, jobOf, resultOf, List.filterMap_cons, List.filterMap_append, List.filterMap_nil,
                        List.count_append, Conn.pend] at *
                      omega
                    · rw [enqueue_pend]
                      simpa [enqueue, manOf, askOf, List.filterMap_cons, Conn.pend] using hasked
                    · rw [enqueue_pend]
                      simpa [enqueue, fileOf, askFOf, List.filterMap_cons, Conn.pend] using haskedF
                  · intro a
                    have := (List.perm_cons_erase hj).count_eq a
                    simp only [enqueue, List.count_append, List.count_cons, List.count_nil] at *
                    omega
                · trivial
        | result j ok sys =>
            have hj : j ∈ k.jobs := hjobs.mem_iff.2 (by simp [resultOf, List.filterMap_cons])
            have hsub := (sub_all hmem).map Job.id
            have hnd := all_nodup hn h
            obtain ⟨f1, f2⟩ := find_id (hsub.nodup hnd) hj
            have hper := List.perm_cons_erase hj
            have hk' : KInv nf { k with inc := ms, jobs := k.jobs.erase j } := by
              refine ⟨fun _ => ⟨?_, ?_, ?_, ?_, hwait, hwaitF⟩, hi.fresh, fun e => absurd e hup, hi.wake⟩
              · simpa [isReq, Conn.pend] using hreq
              · apply List.perm_iff_count.2
                intro a
                have e1 := hjobs.count_eq a
                have e2 := hper.count_eq a
                simp only [resultOf, List.filterMap_cons, List.count_append, List.count_cons, Conn.pend] at *
                omega
              · simpa [askOf, List.filterMap_cons, Conn.pend] using hasked
              · simpa [askFOf, List.filterMap_cons, Conn.pend] using haskedF
            simp only [result, f1, f2]
            -- the job is not anywhere else
            have hother : ∀ x, x ∈ s.all → x.id = j.id → x = j := fun x hx e =>
              nodup_id hnd hx ((sub_all hmem).subset hj) e
            have hone : s.all.count j = 1 := by
              have : s.all.Nodup := List.Pairwise.of_map Job.id (fun a b h e => h (e ▸ rfl)) hnd
              rw [this.count, if_pos ((sub_all hmem).subset hj)]
            have hflat : ∀ a, ((s.conns.set c { k with inc := ms, jobs := k.jobs.erase j }).flatMap (·.jobs)).count a +
                k.jobs.count a = (s.conns.flatMap (·.jobs)).count a + (k.jobs.erase j).count a :=
              fun a => flat_count hk _ a
            have herr : s.errs j.id < 3 := h.errs j (.inr (List.mem_flatMap.2 ⟨k, hmem, hj⟩))
            -- jobs that are left
            have hrest : ∀ x, x ∈ s.pool ∨
                x ∈ (s.conns.set c { k with inc := ms, jobs := k.jobs.erase j }).flatMap (·.jobs) →
                x.id ≠ j.id ∧ (x ∈ s.pool ∨ x ∈ s.conns.flatMap (·.jobs)) := by
              intro x hx
              have hx' : x ∈ s.pool ∨ x ∈ s.conns.flatMap (·.jobs) := by
                have e1 := hflat x
                have e2 := hper.count_eq x
                simp only [← List.count_pos_iff, List.count_cons] at *
                omega
              refine ⟨fun e => ?_, hx'⟩
              have : x = j := hother x (by
                unfold Sys.all
                rcases hx' with y | y
                · exact List.mem_append.2 (.inl (List.mem_append.2 (.inl y)))
                · exact List.mem_append.2 (.inl (List.mem_append.2 (.inr y)))) e
              subst this
              have e1 := hflat x
              have e2 := hper.count_eq x
              simp only [← List.count_pos_iff, Sys.all, List.count_append, List.count_cons_self] at *
              omega
            have hE : (if sys = true then s.errs j.id + 1 else s.errs j.id) ≤ 3 := by split <;> omega
            generalize (if sys = true then s.errs j.id + 1 else s.errs j.id) = E at *
            generalize (if sys = true then k.w :: s.deny else s.deny) = D at *
            have hmost : ∀ i, (if i = j.id then E else s.errs i) ≤ 3 := by
              intro i
              split
              · exact hE
              · exact h.most i
            have done_ok : Inv nf jobs { s with
                conns := s.conns.set c { k with inc := ms, jobs := k.jobs.erase j }
                deny := D
                errs := fun i => if i = j.id then E else s.errs i
                done := j :: s.done } := by
              refine ⟨mem_set h.conns hk', ?_, ?_, hmost⟩
              · apply List.perm_iff_count.2
                intro a
                have e0 := h.all.count_eq a
                have e1 := hflat a
                have e2 := hper.count_eq a
                simp only [Sys.all, List.count_append, List.count_cons] at *
                omega
              · intro x hx
                obtain ⟨y1, y2⟩ := hrest x hx
                simp only
                rw [if_neg y1]
                exact h.errs x y2
            split
            · exact done_ok
            · split
              · exact done_ok
              · split
                · rename_i hs
                  refine ⟨mem_set h.conns hk', ?_, ?_, hmost⟩
                  · apply List.perm_iff_count.2
                    intro a
                    have e0 := h.all.count_eq a
                    have e1 := hflat a
                    have e2 := hper.count_eq a
                    simp only [Sys.all, List.count_append, List.count_cons] at *
                    omega
                  · intro x hx
                    by_cases e : x.id = j.id
                    · simp only; rw [if_pos e]; exact hs.2
                    · have hx' : x ∈ s.pool ∨ x ∈ (s.conns.set c { k with inc := ms, jobs := k.jobs.erase j }).flatMap (·.jobs) := by
                        rcases hx with y | y
                        · rcases List.mem_cons.1 y with z | z
                          · exact absurd (by rw [z]) e
                          · exact .inl z
                        · exact .inr y
                      simp only
                      rw [if_neg e]
                      exact h.errs x (hrest x hx').2
                · exact done_ok
        | requestManifest t =>
            have ht : t ∈ k.asked := hasked.mem_iff.2 (by simp [askOf, List.filterMap_cons])
            obtain ⟨x, hx, e1, e2⟩ := hwait t ht
            have hj : ∃ j ∈ k.jobs, j.tool = t := ⟨x.1, hjobs.mem_iff.2 (List.mem_append.2 (.inl (List.mem_append.2
              (.inr (List.mem_map.2 ⟨x, hx, rfl⟩))))), e1⟩
            simp only
            rw [if_pos hj]
            refine h.upd hk ?_ (fun _ => rfl) (fun _ => Nat.le_refl _)
            refine ⟨fun _ => ⟨?_, ?_, ?_, ?_, hwait, hwaitF⟩, hi.fresh, hi.gone, enqueue_wake (k := { k with inc := ms }) hi.wake _⟩
            · rw [enqueue_pend]
              simpa [enqueue, isReq, isAns, Conn.pend] using hreq
            · rw [enqueue_pend]
              simpa [enqueue, jobOf, resultOf, List.filterMap_cons, Conn.pend] using hjobs
            · rw [enqueue_pend]
              apply List.perm_iff_count.2
              intro a
              have := hasked.count_eq a
              simp only [enqueue, manOf, askOf, List.filterMap_cons, List.filterMap_append, List.filterMap_nil,
                List.count_append, List.count_cons, List.count_nil, Conn.pend] at *
              omega
            · rw [enqueue_pend]
              simpa [enqueue, fileOf, askFOf, List.filterMap_cons, Conn.pend] using haskedF
        | requestFile t i =>
            have ht : (t, i) ∈ k.askedF := haskedF.mem_iff.2 (by simp [askFOf, List.filterMap_cons])
            obtain ⟨hlt, x, hx, e1, e2⟩ := hwaitF _ ht
            have hj : ∃ j ∈ k.jobs, j.tool = t := ⟨x.1, hjobs.mem_iff.2 (List.mem_append.2 (.inl (List.mem_append.2
              (.inr (List.mem_map.2 ⟨x, hx, rfl⟩))))), e1⟩
            simp only
            rw [if_pos ⟨hj, hlt⟩]
            refine h.upd hk ?_ (fun _ => rfl) (fun _ => Nat.le_refl _)
            refine ⟨fun _ => ⟨?_, ?_, ?_, ?_, hwait, hwaitF⟩, hi.fresh, hi.gone, enqueue_wake (k := { k with inc := ms }) hi.wake _⟩
            · rw [enqueue_pend]
              simpa [enqueue, isReq, isAns, Conn.pend] using hreq
            · rw [enqueue_pend]
              simpa [enqueue, jobOf, resultOf, List.filterMap_cons, Conn.pend] using hjobs
            · rw [enqueue_pend]
              simpa [enqueue, manOf, askOf, List.filterMap_cons, Conn.pend] using hasked
            · rw [enqueue_pend]
              apply List.perm_iff_count.2
              intro a
              have := haskedF.count_eq a
              simp only [enqueue, fileOf, askFOf, List.filterMap_cons, List.filterMap_append, List.filterMap_nil,
                List.count_append, List.count_cons, List.count_nil, Conn.pend] at *
              omega

theorem step_fine {nf jobs s} (hn : (jobs.map Job.id).Nodup) (h : Inv nf jobs s) (o : Op) : FineS nf jobs (step nf s o) := by
  cases o with
  | connect w =>
      simp only [step]
      split
      · trivial
      · refine ⟨?_, ?_, ?_, h.most⟩
        · intro k hk
          rcases List.mem_append.1 hk with hk | hk
          · exact h.conns k hk
          · rw [List.mem_singleton.1 hk]; exact newConn_ok nf w
        · simpa [Sys.all, newConn] using h.all
        · intro j hj
          exact h.errs j (by simpa [newConn] using hj)
  | greet c num =>
      refine local_fine h c _ fun k hk => ?_
      split
      · rename_i e; exact greet_fine hk e num
      · trivial
  | offer c num =>
      refine local_fine h c _ fun k hk => ?_
      split
      · trivial
      · exact offer_fine hk num
  | signal c =>
      refine local_fine h c _ fun k hk => ?_
      split
      · trivial
      · rename_i e; exact signal_fine hk e
  | take c => exact local_fine h c _ fun k hk => take_fine hk
  | send c => exact local_fine h c _ fun k hk => send_fine hk
  | recv c pick raced => exact recv_fine hn h c pick raced
  | disconnect c => exact disconnect_fine h c
  | wRecv c waits => exact local_fine h c _ fun k hk => wRecv_fine hk waits
  | wRequest c =>
      refine local_fine h c _ fun k hk => ?_
      split
      · rename_i e; exact wRequest_fine hk e
      · trivial
  | wAsk c t => exact local_fine h c _ fun k hk => wAsk_fine hk t
  | wAskFile c t i => exact local_fine h c _ fun k hk => wAskFile_fine hk t i
  | wStart c t => exact local_fine h c _ fun k hk => wStart_fine hk t
  | wFinish c j ok sys => exact local_fine h c _ fun k hk => wFinish_fine hk j ok sys

theorem start_ok (nf jobs) : Inv nf jobs (start jobs) := by
  refine ⟨by simp [start], by simp [start, Sys.all], ?_, by simp [start]⟩
  intro j _
  simp [start]

theorem reach_ok {nf jobs s} (hn : (jobs.map Job.id).Nodup) (h : Reach nf jobs s) : Inv nf jobs s := by
  induction h with
  | start => exact start_ok nf jobs
  | @step s s' o _ he ih =>
      have := step_fine hn ih o
      rw [he] at this
      exact this

end Verif.Client
