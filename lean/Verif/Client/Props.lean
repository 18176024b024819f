import Verif.Client.ManProof
import Verif.Client.Told
/-
C109: the client connects to the workers it should, keeps the books of every connection, and loses no job and
no message.
-/
namespace Verif.Client

/-! ### Connections -/

/-- Whatever happens, there is at most one connection to a worker, never more connections than the limit, and the
workers in use are those with a connection. -/
theorem C109_connections (limit n : Nat) (now : Int) (r : Nat) (hr : n = 0 ∨ r < n) (os : List MOp) :
    ∃ m, mrun limit (register n now r) os = some m ∧ Orderly limit m := by
  obtain ⟨m, e, h⟩ := mrun_ok os _ (register_ok limit n now r hr)
  exact ⟨m, e, h.ord⟩

/-- A pass keeps the connections that have not ended, drops the others, and connects only to workers that have no
connection, are not deny listed and did not fail to answer in the last ten seconds. -/
theorem C109_new_connections (limit n : Nat) (now0 : Int) (r : Nat) (hr : n = 0 ∨ r < n) (os : List MOp) (m : Man)
    (hm : mrun limit (register n now0 r) os = some m) (now : Int) :
    ∃ m' new, mrun limit (register n now0 r) (os ++ [.pass now]) = some m' ∧
      m'.conns = (m.conns.filter fun c => !c.2) ++ new ∧
      ∀ c ∈ new, c.2 = false ∧ (c.1, false) ∉ m.conns ∧
        ∃ k, m.pool[c.1]? = some k ∧ k.deny = false ∧ Pause ≤ now - k.since := by
  obtain ⟨m1, e1, h1⟩ := mrun_ok os _ (register_ok limit n now0 r hr)
  rw [hm] at e1
  cases e1
  obtain ⟨m', e, i, g, _⟩ := pass_ok (now := now) h1
  have hrun : ∀ (os : List MOp) (a : Man), mrun limit a os = some m →
      mrun limit a (os ++ [.pass now]) = connectToWorkers limit now m := by
    intro os
    induction os with
    | nil => intro a ha; cases ha; simp [mrun, mstep]
    | cons o os ih =>
        intro a ha
        simp only [mrun, List.cons_append] at ha ⊢
        cases h : mstep limit a o with
        | none => rw [h] at ha; exact nomatch ha
        | some b => rw [h] at ha; exact ih b ha
  obtain ⟨new, c1, c2⟩ := g.conns
  refine ⟨m', new, (hrun os _ hm).trans e, by rw [c1]; simp only [clean_fst], ?_⟩
  intro c hc
  obtain ⟨h0, k, hk, hu, hd, ht⟩ := c2 c hc
  refine ⟨h0, ?_, ?_⟩
  · intro hin
    have hmem : (c.1, false) ∈ (clean m.conns m.pool).1 := by
      rw [clean_fst]; exact List.mem_filter.2 ⟨hin, rfl⟩
    have := ((inv_clean h1).ord.used c.1 k hk).2 (List.mem_map.2 ⟨_, hmem, rfl⟩)
    rw [hu] at this
    exact nomatch this
  · simp only [clean_get] at hk
    split at hk
    · cases hp : m.pool[c.1]? with
      | none => rw [hp] at hk; exact nomatch hk
      | some k0 =>
          rw [hp] at hk
          simp only [Option.map_some, Option.some.injEq] at hk
          subst hk
          exact ⟨k0, rfl, hd, ht⟩
    · exact ⟨k, hk, hd, ht⟩

/-- After a pass the limit is reached, or there is no worker left to connect to: each has a connection, is deny
listed, or failed to answer in the last ten seconds. -/
theorem C109_all_tried (limit n : Nat) (now0 : Int) (r : Nat) (hr : n = 0 ∨ r < n) (os : List MOp) (m m' : Man)
    (hm : mrun limit (register n now0 r) os = some m) (now : Int) (hp : connectToWorkers limit now m = some m') :
    m'.conns.length = limit ∨
      ∀ w k, m'.pool[w]? = some k → w ∈ m'.conns.map Prod.fst ∨ k.deny = true ∨ now - k.since < Pause := by
  obtain ⟨m1, e1, h1⟩ := mrun_ok os _ (register_ok limit n now0 r hr)
  rw [hm] at e1
  cases e1
  obtain ⟨m2, e, i, _, h⟩ := pass_ok (now := now) h1
  rw [hp] at e
  cases e
  rcases h with h | h
  · exact .inl h
  · refine .inr fun w k hk => ?_
    rcases h k (List.mem_of_getElem? hk) with x | x | x
    · exact .inl ((i.ord.used w k hk).1 x)
    · exact .inr (.inl x)
    · exact .inr (.inr x)

/-- The worker is told of jobs at once if it thinks there are none, of every change when the timer expired, and of
nothing it knows. -/
theorem C109_availability (timer : Bool) (num told : Nat) :
    (communicate timer num told = none ∨ communicate timer num told = some num) ∧
    (communicate timer num told ≠ none ↔ num ≠ told ∧ (timer = true ∨ told = 0)) := by
  unfold communicate
  cases timer
  · by_cases h0 : num = 0
    · subst h0
      simp
      omega
    · by_cases h1 : told = 0
      · subst h1; simp [h0]
      · simp [h0, h1]
  · by_cases h1 : told = num
    · subst h1; simp
    · simp [h1]; omega

/-! ### The conversation -/

/-- No check of the client or of the worker fails: results are for jobs of the connection, manifests and files are
asked for while there is a job that needs them, and jobs and refusals come only to who asked. -/
theorem C109_no_assert {nf : Nat → Nat} {jobs : List Job} (hn : (jobs.map Job.id).Nodup) {s : Sys} (h : Reach nf jobs s)
    (o : Op) : step nf s o ≠ .assert := by
  intro e
  have := step_fine hn (reach_ok hn h) o
  rw [e] at this
  exact this

/-- Every job is in exactly one place: waiting, at one connection, or finished. -/
theorem C109_each_job_once {nf : Nat → Nat} {jobs : List Job} (hn : (jobs.map Job.id).Nodup) {s : Sys} (h : Reach nf jobs s) :
    (s.pool ++ s.conns.flatMap (·.jobs) ++ s.done).Perm jobs := (reach_ok hn h).all

/-- The jobs of a connection are those on their way to the worker, at the worker, or in results on their way back; and
every request of the worker has its answer or is on its way to it. -/
theorem C109_ledger {nf : Nat → Nat} {jobs : List Job} (hn : (jobs.map Job.id).Nodup) {s : Sys} (h : Reach nf jobs s)
    {k : Conn} (hk : k ∈ s.conns) (hd : k.phase ≠ .down) :
    k.jobs.Perm (k.pend.filterMap jobOf ++ k.held.map Prod.fst ++ k.inc.filterMap resultOf) ∧
    k.requested = (k.inc.filter (· = .requestJob)).length + (k.pend.filter (· = .noJob)).length +
      (k.pend.filterMap jobOf).length := by
  have hb := ((reach_ok hn h).conns k hk).books hd
  refine ⟨hb.jobs, ?_⟩
  rw [hb.req]
  have e1 : ∀ l : List WMsg, l.countP isReq = (l.filter (· = .requestJob)).length := by
    intro l
    rw [List.countP_eq_length_filter]
    congr 1
    apply List.filter_congr
    intro x _
    cases x <;> simp [isReq]
  have e2 : ∀ l : List CMsg, l.countP isAns = (l.filter (· = .noJob)).length + (l.filterMap jobOf).length := by
    intro l
    induction l with
    | nil => rfl
    | cons x l ih =>
        rw [List.countP_cons, ih]
        cases x <;> simp [isAns, jobOf, List.filterMap_cons, List.filter_cons] <;> omega
  rw [e1, e2]
  omega

/-- When a connection is lost all its jobs wait again. -/
theorem C109_lost_connection {nf : Nat → Nat} {s s' : Sys} {c : Nat} {k : Conn} (hk : s.conns[c]? = some k)
    (h : step nf s (.disconnect c) = .ok s') : s'.pool = k.jobs ++ s.pool ∧
      ∃ k', s'.conns[c]? = some k' ∧ k'.jobs = [] ∧ k'.phase = .down := by
  simp only [step, disconnect, hk] at h
  split at h
  · exact nomatch h
  · injection h with h
    subst h
    refine ⟨rfl, { k with phase := .down, jobs := [], out := [], inc := [], sending := [], held := [] }, ?_, rfl, rfl⟩
    rw [List.getElem?_set, if_pos rfl, if_pos (List.getElem?_eq_some_iff.1 hk).1]

/-- A worker that is deny listed gets no more jobs. -/
theorem C109_denied {nf : Nat → Nat} {s s' : Sys} {c : Nat} {k : Conn} {pick raced} (hk : s.conns[c]? = some k)
    (hw : k.w ∈ s.deny) (h : step nf s (.recv c pick raced) = .ok s') :
    s.pool.Sublist s'.pool ∧ ∃ k', s'.conns[c]? = some k' ∧ k'.jobs.Sublist k.jobs := by
  have hlt := (List.getElem?_eq_some_iff.1 hk).1
  have hget : ∀ k1 : Conn, (s.conns.set c k1)[c]? = some k1 := fun k1 => by
    rw [List.getElem?_set, if_pos rfl, if_pos hlt]
  simp only [step, recv, hk] at h
  split at h
  · exact nomatch h
  · split at h
    · exact nomatch h
    · rename_i m ms hm
      cases m with
      | requestJob =>
          simp only [hw, if_true] at h
          injection h with h
          subst h
          exact ⟨List.Sublist.refl _, _, hget _, List.Sublist.refl _⟩
      | result j ok sys =>
          simp only [result] at h
          split at h
          · exact nomatch h
          · generalize (if sys = true then s.errs j.id + 1 else s.errs j.id) = E at h
            generalize (if sys = true then k.w :: s.deny else s.deny) = D at h
            split at h
            · injection h with h; subst h; exact ⟨List.Sublist.refl _, _, hget _, List.eraseP_sublist⟩
            · split at h
              · injection h with h; subst h; exact ⟨List.Sublist.refl _, _, hget _, List.eraseP_sublist⟩
              · split at h
                · injection h with h; subst h; exact ⟨List.sublist_cons_self .., _, hget _, List.eraseP_sublist⟩
                · injection h with h; subst h; exact ⟨List.Sublist.refl _, _, hget _, List.eraseP_sublist⟩
      | requestManifest t =>
          simp only at h
          split at h
          · injection h with h; subst h; exact ⟨List.Sublist.refl _, _, hget _, List.Sublist.refl _⟩
          · exact nomatch h
      | requestFile t i =>
          simp only at h
          split at h
          · injection h with h; subst h; exact ⟨List.Sublist.refl _, _, hget _, List.Sublist.refl _⟩
          · exact nomatch h

/-- What becomes of a result: after a system error the worker is deny listed; the job is built again if nobody else has
built it, it failed with a system error, and this was the first or second one; in all other cases it is finished. -/
theorem C109_result {nf : Nat → Nat} {jobs : List Job} (hn : (jobs.map Job.id).Nodup) {s s' : Sys} (hr : Reach nf jobs s)
    {c : Nat} {k : Conn} {pick raced j ok sys ms} (hk : s.conns[c]? = some k) (hm : k.inc = .result j ok sys :: ms)
    (h : step nf s (.recv c pick raced) = .ok s') :
    (sys = true → k.w ∈ s'.deny) ∧
    (if raced = false ∧ ok = false ∧ sys = true ∧ s.errs j.id < 2 then s'.pool = j :: s.pool ∧ s'.done = s.done
      else s'.pool = s.pool ∧ s'.done = j :: s.done) ∧
    s'.errs j.id = s.errs j.id + (if sys then 1 else 0) := by
  have hmem := List.mem_of_getElem? hk
  have hi := reach_ok hn hr
  simp only [step, recv, hk, hm] at h
  split at h
  · exact nomatch h
  · rename_i hup
    have hb := (hi.conns k hmem).books hup
    have hj : j ∈ k.jobs := hb.jobs.mem_iff.2 (by rw [hm]; simp [resultOf, List.filterMap_cons])
    obtain ⟨f1, f2⟩ := find_id (((sub_all hmem).map Job.id).nodup (all_nodup hn hi)) hj
    simp only [result, f1, f2] at h
    cases sys <;> cases ok <;> cases raced <;>
      simp only [Bool.false_eq_true, if_true, if_false, false_and, true_and, attempts] at h
    case true.false.false =>
      split at h
      · rename_i hlt
        injection h with h; subst h
        have : s.errs j.id < 2 := by omega
        simp [this]
      · rename_i hlt
        injection h with h; subst h
        have : ¬ s.errs j.id < 2 := by omega
        simp [this]
    all_goals
      injection h with h; subst h; simp

/-- A job that is still to be built has had less than three system errors, and none ever has more than three. -/
theorem C109_attempts {nf : Nat → Nat} {jobs : List Job} (hn : (jobs.map Job.id).Nodup) {s : Sys} (h : Reach nf jobs s) :
    (∀ j ∈ s.pool, s.errs j.id < 3) ∧ (∀ k ∈ s.conns, ∀ j ∈ k.jobs, s.errs j.id < 3) ∧ ∀ i, s.errs i ≤ 3 := by
  have hi := reach_ok hn h
  exact ⟨fun j hj => hi.errs j (.inl hj), fun k hk j hj => hi.errs j (.inr (List.mem_flatMap.2 ⟨k, hk, hj⟩)), hi.most⟩

/-- The messages for a worker arrive in the order they were queued, each once, until the connection is lost.  Only the
number of jobs may overtake them. -/
theorem C109_fifo {nf : Nat → Nat} {jobs : List Job} (hn : (jobs.map Job.id).Nodup) {s s' : Sys} (hr : Reach nf jobs s)
    {o : Op} {c : Nat} {k k' : Conn} (h : step nf s o = .ok s') (hk : s.conns[c]? = some k) (hk' : s'.conns[c]? = some k')
    (hd : k'.phase ≠ .down) :
    match o with
    | .wRecv d _ => if d = c then ∃ m ms, k.out = m :: ms ∧ k.pend = m :: k'.pend else k' = k
    | .recv d _ _ => if d = c then ∃ l, l.length ≤ 1 ∧ k'.pend = k.pend ++ l else k' = k
    | _ => k'.pend.filter plain = k.pend.filter plain := by
  have := step_order (reach_ok hn hr).conns h hk hk' hd
  cases o <;> exact this

/-- The sending thread does not sleep while there is something to send. -/
theorem C109_awake {nf : Nat → Nat} {jobs : List Job} (hn : (jobs.map Job.id).Nodup) {s : Sys} (h : Reach nf jobs s)
    {k : Conn} (hk : k ∈ s.conns) (h0 : k.sem = 0) (h1 : k.owed = 0) : k.status = none ∧ k.sendQ = [] := by
  have := ((reach_ok hn h).conns k hk).wake
  rw [h0, h1] at this
  simp only [pending] at this
  refine ⟨?_, ?_⟩
  · cases e : k.status with
    | none => rfl
    | some n => simp [e] at this
  · cases e : k.sendQ with
    | nil => rfl
    | cons m ms =>
        rw [e] at this
        simp only [List.length_cons] at this
        omega

/-- When a worker has been given a job it is told of the jobs there are with the next pass, whatever it was told before. -/
theorem C109_told_again {nf : Nat → Nat} {s s' : Sys} {c : Nat} {k k' : Conn} {pick raced} (hk : s.conns[c]? = some k)
    (hk' : s'.conns[c]? = some k') (h : step nf s (.recv c pick raced) = .ok s') (hj : k.jobs.length < k'.jobs.length)
    (timer : Bool) (num : Nat) (hnum : num ≠ 0) : communicate timer num k'.told = some num := by
  have ht : k'.told = 0 := by
    have hget : ∀ k1 : Conn, s'.conns = s.conns.set c k1 → k' = k1 := fun k1 e => by
      rw [e, List.getElem?_set, if_pos rfl, if_pos (List.getElem?_eq_some_iff.1 hk).1] at hk'
      exact (Option.some.inj hk').symm
    have short : ∀ k1 : Conn, s'.conns = s.conns.set c k1 → k1.jobs.length ≤ k.jobs.length → k'.told = 0 := by
      intro k1 e hle
      rw [hget k1 e] at hj
      omega
    simp only [step, recv, hk] at h
    split at h
    · exact nomatch h
    · split at h
      · exact nomatch h
      · rename_i m ms hm
        cases m with
        | requestJob =>
            simp only at h
            split at h
            · injection h with h; subst h; exact short _ rfl (Nat.le_refl _)
            · split at h
              · injection h with h; subst h; exact short _ rfl (Nat.le_refl _)
              · split at h
                · injection h with h; subst h; rw [hget _ rfl]; rfl
                · exact nomatch h
        | result j ok sys =>
            simp only [result] at h
            split at h
            · exact nomatch h
            · generalize (if sys = true then s.errs j.id + 1 else s.errs j.id) = E at h
              generalize (if sys = true then k.w :: s.deny else s.deny) = D at h
              have hle := (List.eraseP_sublist (p := fun x : Job => decide (x.id = j.id)) (l := k.jobs)).length_le
              split at h
              · injection h with h; subst h; exact short _ rfl hle
              · split at h
                · injection h with h; subst h; exact short _ rfl hle
                · split at h
                  · injection h with h; subst h; exact short _ rfl hle
                  · injection h with h; subst h; exact short _ rfl hle
        | requestManifest t =>
            simp only at h
            split at h
            · injection h with h; subst h; exact short _ rfl (Nat.le_refl _)
            · exact nomatch h
        | requestFile t i =>
            simp only at h
            split at h
            · injection h with h; subst h; exact short _ rfl (Nat.le_refl _)
            · exact nomatch h
  rw [ht]
  cases timer <;> simp [communicate, hnum]

/-- What the client thinks it has told a worker is what the worker has been told when all has arrived, or nothing.
Missing: `C109_told_false`, when jobs were offered before the connection was there. -/
theorem C109_told_partial {nf : Nat → Nat} {jobs : List Job} {s : Sys} (h : Calm nf jobs s) {k : Conn} (hk : k ∈ s.conns)
    (hp : k.phase = .up) : (k.told = k.latest ∨ k.told = 0) ∧
      (k.pend = [] → k.status = none → k.told = k.avail ∨ k.told = 0) := by
  have ht := (calm_t h k hk).told hp
  refine ⟨ht, fun hp hs => ?_⟩
  have hp' : k.out = [] ∧ k.sending = [] := by
    simp only [Conn.pend, List.append_eq_nil_iff] at hp
    exact hp.1
  simpa [Conn.latest, hp'.1, hp'.2, hs] using ht

end Verif.Client
