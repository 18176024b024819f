import Verif.Server.SyncProgress
/-
C38: the property itself.
-/
namespace Verif.Server

/-- C38: a job is given to the work queue only when every file of its toolchain is there — whatever the
order in which the connections are served -/
theorem C38_queued_complete {dbg : Bool} {s : Sync} (h : SReach dbg s) {c j t : Nat} (hq : (c, j, t) ∈ s.queued) :
    ∃ m, s.tools t = some m ∧ m.complete := by
  obtain ⟨m, ht, hs⟩ := h.inv.queued_ok c j t hq
  exact ⟨m, ht, h.inv.sync_ok t m ht hs⟩

/-- C38: as long as a client is connected, each of its jobs has been queued or waits, exactly once -/
theorem C38_once {dbg : Bool} {s : Sync} (h : SReach dbg s) {c : Nat} (hc : s.thread c ≠ .gone) (j t : Nat) :
    s.received.count (c, j, t) = s.queued.count (c, j, t) + s.waiting.count (c, j, t) :=
  h.rinv.count c j t hc

/-- C38: a job is never queued more often than it was received -/
theorem C38_at_most_once {dbg : Bool} {s : Sync} (h : SReach dbg s) (x : Nat × Nat × Nat) : s.queued.count x ≤ s.received.count x :=
  h.rinv.le x.1 x.2.1 x.2.2

theorem started_mem {l : List Client} {t d j : Nat} (h : ∃ x ∈ l, x.id = d ∧ (j, t) ∈ x.waiting) :
    (d, j, t) ∈ l.flatMap fun x => ((x.waiting.filter fun w => w.2 = t).reverse.map fun w => (x.id, w.1, w.2)) := by
  obtain ⟨x, hx, rfl, hj⟩ := h
  refine List.mem_flatMap.mpr ⟨x, hx, List.mem_map.mpr ⟨(j, t), List.mem_reverse.mpr (List.mem_filter.mpr ⟨hj, by simp⟩), rfl⟩⟩

theorem check_ok {dbg : Bool} {s : Sync} {d t : Nat} (hd : s.thread d = .check t) {c j : Nat} (hw : s.waits c j t) :
    ∃ s', sstep dbg s (.check d) = .ok s' ∧ ∀ c j, s.waits c j t → (c, j, t) ∈ s'.queued ∧ ¬ s'.waits c j t := by
  unfold sstep; dsimp only; rw [hd]; dsimp only
  rw [if_neg]
  · refine ⟨_, rfl, fun c j hw => ⟨List.mem_append_right _ (started_mem hw), fun hx => ?_⟩⟩
    exact (waits_check.mp hx).2 rfl
  · rintro ⟨_, he⟩
    have := started_mem hw
    rw [he] at this; cases this

/-- C38: no job is left waiting for a complete toolchain: some connection is about to look through the waiting jobs, and queues it -/
theorem C38_started {dbg : Bool} {s : Sync} (h : SReach dbg s) {c j t : Nat} {m : Man} (hw : s.waits c j t) (ht : s.tools t = some m) (hs : m.sync = true) :
    ∃ d s', (srun dbg s [.check d] = .ok s' ∨ srun dbg s [.afterManifest d, .check d] = .ok s') ∧
      ∀ c j, s.waits c j t → (c, j, t) ∈ s'.queued ∧ ¬ s'.waits c j t := by
  obtain ⟨d, hd⟩ := h.inv.waiting_sync c j t m hw ht hs
  rcases hd with hd | hd
  · obtain ⟨s', h1, h2⟩ := check_ok (dbg := dbg) hd hw
    exact ⟨d, s', Or.inl (by simp only [srun, h1]), h2⟩
  · have h0 : sstep dbg s (.afterManifest d) = .ok (s.setThread d (.check t)) := by
      unfold sstep; dsimp only; rw [hd]; dsimp only; rw [ht]; dsimp only; rw [hs]; rfl
    obtain ⟨s', h1, h2⟩ := check_ok (dbg := dbg) (s := s.setThread d (.check t)) (d := d) (t := t) (upd_same _ _ _) (c := c) (j := j) hw
    exact ⟨d, s', Or.inr (by simp only [srun, h0, h1]), h2⟩

/-- C38: what a waiting job waits for, when no disconnection is interrupted: a connected client was asked for the manifest or a
file, or its thread is about to go on or to close — or nobody is asked since the manifest never arrived (see `C38_stuck`) -/
theorem C38_served_partial {dbg : Bool} {s : Sync} (h : SReachA dbg s) {c j t : Nat} (hw : s.waits c j t) :
    ∃ m, s.tools t = some m ∧ (m.sync = false →
      (∃ o, m.owner = some o ∧ (∃ x ∈ s.clients, x.id = o) ∧
        (s.asked o t = true ∨ (∃ i, s.askedFile o t i = true) ∨ s.thread o = .closing ∨ s.thread o = .manifestRead t ∨ s.thread o = .request t)) ∨
      (m.owner = none ∧ m.files = [])) := by
  obtain ⟨m, ht⟩ := h.reach.inv.waiting_known c j t hw
  refine ⟨m, ht, fun hs => ?_⟩
  have hl := h.pinv t
  cases ho : m.owner with
  | none =>
    right
    refine ⟨rfl, ?_⟩
    rcases (hl.free m ht hs ho).2 with hf | hf
    · exact hf
    · have := (hf c j hw).1; cases this
  | some o =>
    left
    obtain ⟨k, x, hx, hid, _⟩ := hl.own m o ht hs ho
    refine ⟨o, rfl, ⟨x, hx, hid⟩, ?_⟩
    by_cases hf : m.files = []
    · rcases hl.empty m o ht hs ho hf with h1 | h1
      · exact Or.inl h1
      · exact Or.inr (Or.inr (Or.inl h1))
    · rcases hl.busy m o ht hs ho hf with h1 | ⟨_, h1, h2⟩
      · exact Or.inr (Or.inr (Or.inr h1))
      · obtain ⟨i, hi, hie⟩ := List.getElem_of_mem h1
        rcases h2 i (by rw [List.getElem?_eq_getElem hi, hie]) with h3 | h3
        · exact Or.inr (Or.inl ⟨i, h3⟩)
        · exact Or.inr (Or.inr (Or.inl h3))

/-- files arriving one after the other -/
theorem deliver {dbg : Bool} {o t : Nat} : ∀ (is : List Nat) {s : Sync} {m : Man}, s.thread o = .idle → s.tools t = some m → m.sync = false → m.owner = some o →
    ¬ .missing ∈ m.files → is.Nodup → is ≠ [] → (∀ i, i ∈ is ↔ m.files[i]? = some .syncing) → (∀ i ∈ is, s.askedFile o t i = true) →
    ∃ s' m', srun dbg s (is.map fun i => .file o t i true) = .ok s' ∧ s'.clients = s.clients ∧ s'.thread o = .check t ∧ s'.tools t = some m' ∧ m'.sync = true := by
  intro is
  induction is with
  | nil => intro s m _ _ _ _ _ _ h; exact absurd rfl h
  | cons i r ih =>
    intro s m hth ht hs ho hm hn _ hi ha
    have hfi := (hi i).mp List.mem_cons_self
    have hlt : i < m.files.length := by
      rcases Nat.lt_or_ge i m.files.length with x | x
      · exact x
      · rw [List.getElem?_eq_none x] at hfi; cases hfi
    have hset : ∀ k, k ∈ r ↔ (m.files.set i .present)[k]? = some .syncing := by
      intro k
      by_cases e : i = k
      · subst e
        rw [List.getElem?_set_self hlt]
        constructor
        · intro hx; exact absurd hx (List.nodup_cons.mp hn).1
        · intro hx; cases hx
      · rw [List.getElem?_set_ne e, ← hi k, List.mem_cons]
        constructor
        · exact Or.inr
        · rintro (rfl | hx)
          · exact absurd rfl e
          · exact hx
    have hstep : sstep dbg s (.file o t i true) =
        if (m.files.set i .present).all (· = .present) = false then
          .ok ({ s with askedFile := fun c' t' i' => if c' = o ∧ t' = t ∧ i' = i then false else s.askedFile c' t' i' }.setMan t { m with files := m.files.set i .present })
        else .ok (({ s with askedFile := fun c' t' i' => if c' = o ∧ t' = t ∧ i' = i then false else s.askedFile c' t' i' }.setMan t ⟨none, m.files.set i .present, true⟩).setThread o (.check t)) := by
      unfold sstep; dsimp only
      rw [if_pos ⟨hth, ha i List.mem_cons_self⟩, ht]; dsimp only
      rw [if_neg (by rw [ho]; simp), hfi]; dsimp only
      rw [if_neg (by simp), if_neg (by simp)]
      simp only [hs, Bool.false_or, ne_eq, reduceCtorEq, not_false_eq_true, decide_true, Bool.true_and, if_false]
    by_cases hr : r = []
    · subst hr
      have hall : (m.files.set i .present).all (· = .present) = true := by
        refine List.all_eq_true.mpr fun f hf => ?_
        cases f with
        | present => simp
        | missing =>
          rcases List.mem_or_eq_of_mem_set hf with x | x
          · exact absurd x hm
          · cases x
        | syncing =>
          obtain ⟨k, hk, hke⟩ := List.getElem_of_mem hf
          have := (hset k).mpr (by rw [List.getElem?_eq_getElem hk, hke])
          cases this
      rw [if_neg (by rw [hall]; simp)] at hstep
      have hrun : srun dbg s ([i].map fun i => .file o t i true) = sstep dbg s (.file o t i true) := by
        simp only [List.map_cons, List.map_nil, srun, hstep]
      exact ⟨_, ⟨none, m.files.set i .present, true⟩, hrun.trans hstep, rfl, upd_same _ _ _, upd_same _ _ _, rfl⟩
    · have hall : (m.files.set i .present).all (· = .present) = false := by
        obtain ⟨k, q, rfl⟩ := List.exists_cons_of_ne_nil hr
        have := (hset k).mp List.mem_cons_self
        exact List.all_eq_false.mpr ⟨.syncing, List.mem_of_getElem? this, by simp⟩
      rw [if_pos hall] at hstep
      obtain ⟨s', m', h1, h2, h3, h4, h5⟩ := ih (s := { s with askedFile := fun c' t' i' => if c' = o ∧ t' = t ∧ i' = i then false else s.askedFile c' t' i' }.setMan t { m with files := m.files.set i .present })
        (m := { m with files := m.files.set i .present }) hth (upd_same _ _ _) hs ho
        (fun x => by
          rcases List.mem_or_eq_of_mem_set x with x | x
          · exact hm x
          · cases x) (List.nodup_cons.mp hn).2 hr hset
        (fun k hk => by
          show (if o = o ∧ t = t ∧ k = i then false else s.askedFile o t k) = true
          have hne : ¬ (o = o ∧ t = t ∧ k = i) := fun x => (List.nodup_cons.mp hn).1 (x.2.2 ▸ hk)
          rw [if_neg hne]
          exact ha k (List.mem_cons_of_mem _ hk))
      exact ⟨s', m', by simp only [List.map_cons, srun, hstep]; exact h1, h2, h3, h4, h5⟩

theorem srun_append {dbg : Bool} : ∀ (l r : List SOp) (s : Sync), srun dbg s (l ++ r) =
    match srun dbg s l with | .ok s => srun dbg s r | .off => .off | .assert => .assert := by
  intro l
  induction l with
  | nil => intro r s; rfl
  | cons x l ih =>
    intro r s
    simp only [List.cons_append, srun]
    cases sstep dbg s x with
    | ok s => exact ih r s
    | off => rfl
    | assert => rfl

/-- C38: once the files have been asked for, their arrival, in whatever order, starts every job that waits for the toolchain -/
theorem C38_delivery {dbg : Bool} {s : Sync} (h : SReachA dbg s) {o t : Nat} {m : Man} (ht : s.tools t = some m) (hs : m.sync = false) (ho : m.owner = some o)
    (hth : s.thread o = .idle) (hf : m.files ≠ []) (is : List Nat) (hn : is.Nodup) (hi : ∀ i, i ∈ is ↔ m.files[i]? = some .syncing) :
    ∃ s', srun dbg s ((is.map fun i => .file o t i true) ++ [.check o]) = .ok s' ∧ ∀ c j, s.waits c j t → (c, j, t) ∈ s'.queued ∧ ¬ s'.waits c j t := by
  have hl := h.pinv t
  rcases hl.busy m o ht hs ho hf with hb | ⟨hb1, hb2, hb3⟩
  · rcases hb with hb | hb <;> rw [hth] at hb <;> cases hb
  · have hne : is ≠ [] := by
      obtain ⟨k, hk, hke⟩ := List.getElem_of_mem hb2
      have := (hi k).mpr (by rw [List.getElem?_eq_getElem hk, hke])
      intro e; rw [e] at this; cases this
    obtain ⟨s', m', h1, h2, h3, h4, h5⟩ := deliver (dbg := dbg) is hth ht hs ho hb1 hn hne hi
      (fun i hii => by
        rcases hb3 i ((hi i).mp hii) with x | x
        · exact x
        · rw [hth] at x; cases x)
    obtain ⟨j, hj⟩ := hl.own m o ht hs ho
    have hw : ∀ c j, s'.waits c j t ↔ s.waits c j t := by
      intro c j; unfold Sync.waits; rw [h2]
    obtain ⟨s'', h6, h7⟩ := check_ok (dbg := dbg) h3 ((hw o j).mpr hj)
    refine ⟨s'', ?_, fun c j hx => h7 c j ((hw c j).mpr hx)⟩
    rw [srun_append, h1]; dsimp only
    simp only [srun, h6]

/-- C38: when the manifest arrives and every file is on the worker already, every waiting job is started -/
theorem C38_manifest_present {dbg : Bool} {s : Sync} (h : SReachA dbg s) {o t : Nat} (ha : s.asked o t = true) (hth : s.thread o = .idle)
    (present : List Bool) (hp : present ≠ []) (hall : ∀ b ∈ present, b = true) :
    ∃ s', srun dbg s [.manifest o t (some present), .afterManifest o, .check o] = .ok s' ∧ ∀ c j, s.waits c j t → (c, j, t) ∈ s'.queued ∧ ¬ s'.waits c j t := by
  obtain ⟨m, ht, ho, hf, hs⟩ := h.reach.inv.manifest hth ha
  obtain ⟨j, hj⟩ := (h.pinv t).own m o ht hs ho
  have hall' : present.all id = true := List.all_eq_true.mpr fun b hb => hall b hb
  have h1 : sstep dbg s (.manifest o t (some present)) = .ok (((s.ask o t false).setMan t { m with files := present.map fun b => if b then .present else .missing, sync := m.sync || present.all id }).setThread o (.manifestRead t)) := by
    unfold sstep; dsimp only
    rw [if_pos ⟨hth, ha⟩]
    have : (s.ask o t false).tools t = some m := ht
    rw [this]; dsimp only
    rw [if_neg (by rw [hf]; simp), if_neg hp]
  obtain ⟨s'', h6, h7⟩ := check_ok (dbg := dbg) (s := (((s.ask o t false).setMan t { m with files := present.map fun b => if b then .present else .missing, sync := m.sync || present.all id }).setThread o (.manifestRead t)).setThread o (.check t))
    (d := o) (t := t) (upd_same _ _ _) (c := o) (j := j) hj
  refine ⟨s'', ?_, h7⟩
  have h2 : sstep dbg (((s.ask o t false).setMan t { m with files := present.map fun b => if b then .present else .missing, sync := m.sync || present.all id }).setThread o (.manifestRead t)) (.afterManifest o) =
      .ok ((((s.ask o t false).setMan t { m with files := present.map fun b => if b then .present else .missing, sync := m.sync || present.all id }).setThread o (.manifestRead t)).setThread o (.check t)) := by
    unfold sstep; dsimp only
    have : ((((s.ask o t false).setMan t { m with files := present.map fun b => if b then .present else .missing, sync := m.sync || present.all id }).setThread o (.manifestRead t))).thread o = .manifestRead t := upd_same _ _ _
    rw [this]; dsimp only
    have : ((((s.ask o t false).setMan t { m with files := present.map fun b => if b then .present else .missing, sync := m.sync || present.all id }).setThread o (.manifestRead t))).tools t = some { m with files := present.map fun b => if b then .present else .missing, sync := m.sync || present.all id } := upd_same _ _ _
    rw [this]; dsimp only
    rw [if_pos (by rw [hall']; simp)]
  simp only [srun, h1, h2, h6]

/-- C38: and when some are missing, they are asked for, so that `C38_delivery` applies -/
theorem C38_manifest_missing {dbg : Bool} {s : Sync} (h : SReachA dbg s) {o t : Nat} (ha : s.asked o t = true) (hth : s.thread o = .idle)
    (present : List Bool) (hmiss : false ∈ present) :
    ∃ s' m', srun dbg s [.manifest o t (some present), .afterManifest o, .request o] = .ok s' ∧ SReachA dbg s' ∧ s'.clients = s.clients ∧ s'.thread o = .idle ∧
      s'.tools t = some m' ∧ m'.sync = false ∧ m'.owner = some o ∧ m'.files = present.map fun b => if b then .present else .syncing := by
  obtain ⟨m, ht, ho, hf, hs⟩ := h.reach.inv.manifest hth ha
  have hp : present ≠ [] := by intro e; rw [e] at hmiss; cases hmiss
  have hall' : present.all id = false := List.all_eq_false.mpr ⟨false, hmiss, by simp⟩
  have h1 : sstep dbg s (.manifest o t (some present)) = .ok (((s.ask o t false).setMan t { m with files := present.map fun b => if b then .present else .missing, sync := m.sync || present.all id }).setThread o (.manifestRead t)) := by
    unfold sstep; dsimp only
    rw [if_pos ⟨hth, ha⟩]
    have : (s.ask o t false).tools t = some m := ht
    rw [this]; dsimp only
    rw [if_neg (by rw [hf]; simp), if_neg hp]
  have hr1 := SReachA.step _ h (by simp) (by simp) h1
  generalize hx : (((s.ask o t false).setMan t { m with files := present.map fun b => if b then .present else .missing, sync := m.sync || present.all id }).setThread o (.manifestRead t)) = s1 at h1 hr1
  have ht1 : s1.tools t = some { m with files := present.map fun b => if b then .present else .missing, sync := m.sync || present.all id } := by
    rw [← hx]; exact upd_same _ _ _
  have hth1 : s1.thread o = .manifestRead t := by rw [← hx]; exact upd_same _ _ _
  have hc1 : s1.clients = s.clients := by rw [← hx]; rfl
  have h2 : sstep dbg s1 (.afterManifest o) = .ok (s1.setThread o (.request t)) := by
    unfold sstep; dsimp only
    rw [hth1]; dsimp only
    rw [ht1]; dsimp only
    rw [if_neg (by rw [hs, hall']; simp)]
  have hr2 := SReachA.step _ hr1 (by simp) (by simp) h2
  have hm2 : FileState.missing ∈ (present.map fun b => if b then FileState.present else .missing) := List.mem_map.mpr ⟨false, hmiss, rfl⟩
  have h3 : sstep dbg (s1.setThread o (.request t)) (.request o) = .ok ((reqFiles (s1.setThread o (.request t)) o t { m with files := present.map fun b => if b then .present else .missing, sync := m.sync || present.all id }).setThread o .idle) := by
    unfold sstep; dsimp only
    have : (s1.setThread o (.request t)).thread o = .request t := upd_same _ _ _
    rw [this]; dsimp only
    have hq : requestMissing dbg (s1.setThread o (.request t)) o t = .ok (reqFiles (s1.setThread o (.request t)) o t { m with files := present.map fun b => if b then .present else .missing, sync := m.sync || present.all id }) := by
      unfold requestMissing
      have : (s1.setThread o (.request t)).tools t = s1.tools t := rfl
      rw [this, ht1]; dsimp only
      rw [if_pos hm2, if_neg (by rw [ho]; simp)]
      rfl
    rw [hq]
  refine ⟨_, ⟨some o, present.map fun b => if b then .present else .syncing, false⟩, by simp only [srun, h1, h2, h3], .step _ hr2 (by simp) (by simp) h3, hc1, upd_same _ _ _, ?_, rfl, rfl, rfl⟩
  show upd s1.tools t _ t = _
  rw [upd_same]
  simp only [hs, hall', Bool.false_or, List.map_map, Option.some.injEq, Man.mk.injEq, true_and, and_true]
  refine List.map_congr_left fun b _ => ?_
  cases b <;> rfl

/-- C38: with assertions enabled none fails, except for a manifest that cannot be read -/
theorem C38_no_assert {s : Sync} (h : SReachA true s) (op : SOp) (h1 : ∀ c t, op ≠ .manifest c t none) (h2 : ∀ c, op ≠ .left c) : sstep true s op ≠ .assert := by
  have hi := h.reach.inv
  have hp := h.pinv
  intro hx
  cases op with
  | connect c => unfold sstep at hx; dsimp only at hx; split at hx <;> cases hx
  | reorder l => unfold sstep at hx; dsimp only at hx; split at hx <;> cases hx
  | job c j t =>
    unfold sstep at hx; dsimp only at hx
    split at hx
    · split at hx
      · next m ht =>
        split at hx
        · cases hx
        · split at hx
          · cases hx
          · split at hx
            · split at hx
              · cases hx
              · cases hx
              · next hq =>
                unfold requestMissing at hq
                have : ((({ s with received := s.received ++ [(c, j, t)] } : Sync).setMan t { m with owner := some c })).tools t = some { m with owner := some c } := upd_same _ _ _
                rw [this] at hq; dsimp only at hq
                split at hq
                · split at hq
                  · next e => exact e.2.2 rfl
                  · cases hq
                · cases hq
            · cases hx
      · cases hx
    · cases hx
  | manifest c t d =>
    cases d with
    | none => exact h1 c t rfl
    | some present =>
      unfold sstep at hx; dsimp only at hx
      split at hx
      · next e =>
        obtain ⟨m, ht, ho, hf, hs⟩ := hi.manifest e.1 e.2
        have : (s.ask c t false).tools t = some m := ht
        rw [this] at hx; dsimp only at hx
        rw [if_neg (by rw [hf]; simp)] at hx
        split at hx <;> cases hx
      · cases hx
  | afterManifest c =>
    unfold sstep at hx; dsimp only at hx
    split at hx
    · split at hx <;> cases hx
    · cases hx
  | request c =>
    unfold sstep at hx; dsimp only at hx
    split at hx
    · next t e =>
      split at hx
      · cases hx
      · cases hx
      · next hq =>
        unfold requestMissing at hq
        split at hq
        · cases hq
        · next m ht =>
          have hs := (hp t).req m c ht e
          have ho := ((hp t).read m c ht hs (Or.inr e)).1
          split at hq
          · split at hq
            · next e => exact e.2.2 ho
            · cases hq
          · cases hq
    · cases hx
  | file c t i ok =>
    unfold sstep at hx; dsimp only at hx
    split at hx
    · next e =>
      obtain ⟨m, ht, ho, hf, hs⟩ := hi.file e.1 e.2
      rw [ht] at hx; dsimp only at hx
      rw [if_neg (by rw [ho]; simp), hf] at hx
      dsimp only at hx
      rw [if_neg (by simp)] at hx
      split at hx
      · cases hx
      · split at hx <;> split at hx <;> cases hx
    · cases hx
  | check c =>
    cases e : s.thread c with
    | check t =>
      obtain ⟨m, ht⟩ := hi.read_ok c t (Or.inl e)
      obtain ⟨⟨j, hj⟩, _⟩ := (hp t).chk m c ht (hi.check_ok c t m e ht) (Or.inr e)
      obtain ⟨s', hs', _⟩ := check_ok (dbg := true) e hj
      rw [hs'] at hx; cases hx
    | _ => unfold sstep at hx; dsimp only at hx; rw [e] at hx; cases hx
  | leave c =>
    by_cases hc : s.thread c = .idle ∨ s.thread c = .closing
    · obtain ⟨s₁, s₂, e1, _⟩ := PInv.disconnect (dbg := true) hi hp hc
      rw [e1] at hx; cases hx
    · unfold sstep at hx; dsimp only at hx; rw [if_neg hc] at hx; cases hx
  | left c => exact h2 c rfl

/-- C38: and none fails in an uninterrupted disconnection -/
theorem C38_disconnect_no_assert {s s₁ : Sync} (h : SReachA true s) {c : Nat} (hs : sstep true s (.leave c) = .ok s₁) : ∃ s₂, sstep true s₁ (.left c) = .ok s₂ := by
  have hc : s.thread c = .idle ∨ s.thread c = .closing := by
    unfold sstep at hs; dsimp only at hs
    split at hs
    · assumption
    · cases hs
  obtain ⟨t₁, t₂, e1, e2, _⟩ := PInv.disconnect (dbg := true) h.reach.inv h.pinv hc
  rw [hs] at e1; cases e1
  exact ⟨t₂, e2⟩

/-! ### Where it fails -/

/-- the tool is known, but nobody was asked for its manifest -/
def Stuck (t : Nat) (s : Sync) : Prop :=
  s.tools t = some ⟨none, [], false⟩ ∧ ∀ d, s.thread d ≠ .manifestRead t ∧ s.thread d ≠ .request t ∧ s.thread d ≠ .check t

/-- a connection that is gone is to send the files of the tool -/
def Abandoned (t : Nat) (s : Sync) : Prop :=
  ∃ m b, s.tools t = some m ∧ m.sync = false ∧ m.owner = some b ∧ s.thread b = .gone ∧ ¬ .missing ∈ m.files ∧
    ∀ d, s.thread d ≠ .manifestRead t ∧ s.thread d ≠ .request t ∧ s.thread d ≠ .check t

theorem requestMissing_keep {dbg : Bool} {s s' : Sync} {b u t : Nat} {m : Man} (hs : requestMissing dbg s b u = .ok s') (ht : s.tools t = some m) (hm : ¬ .missing ∈ m.files) :
    s'.tools t = some m := by
  obtain ⟨m', ht', ⟨_, rfl⟩ | ⟨hx, _, rfl⟩⟩ := requestMissing_cases hs
  · exact ht
  · by_cases e : t = u
    · subst e; rw [ht] at ht'; cases ht'; exact absurd hx hm
    · show upd s.tools u _ t = _
      rw [upd_ne _ e]; exact ht

theorem handOver_keep {dbg : Bool} {l : List Nat} {t : Nat} {m : Man} (hm : ¬ .missing ∈ m.files) : ∀ {r : List (Nat × Nat)} {s s' : Sync}, handOver dbg l r s = .ok s' → s.tools t = some m →
    s'.tools t = some m := by
  intro r
  induction r with
  | nil => intro s s' hs ht; unfold handOver at hs; cases hs; exact ht
  | cons x r ih =>
    obtain ⟨b, u⟩ := x
    intro s s' hs ht
    unfold handOver at hs
    split at hs
    · split at hs
      · next s₁ h₁ => exact ih hs (requestMissing_keep h₁ ht hm)
      · cases hs
      · cases hs
    · exact ih hs ht

theorem threads_keep {s : Sync} {c t : Nat} {p : Thread} (h : ∀ d, s.thread d ≠ .manifestRead t ∧ s.thread d ≠ .request t ∧ s.thread d ≠ .check t)
    (hp : p ≠ .manifestRead t ∧ p ≠ .request t ∧ p ≠ .check t) (d : Nat) :
    upd s.thread c p d ≠ .manifestRead t ∧ upd s.thread c p d ≠ .request t ∧ upd s.thread c p d ≠ .check t := by
  by_cases e : d = c
  · subst e; rw [upd_same]; exact hp
  · rw [upd_ne _ e]; exact h d

/-- nothing is done to a tool nobody works on, except by a new job -/
theorem keep_step {dbg : Bool} {s s' : Sync} {op : SOp} {t : Nat} {m : Man} (hi : SInv s) (ht : s.tools t = some m) (hs : m.sync = false) (hm : ¬ .missing ∈ m.files)
    (ho : ∀ c, m.owner = some c → s.thread c = .gone)
    (hth : ∀ d, s.thread d ≠ .manifestRead t ∧ s.thread d ≠ .request t ∧ s.thread d ≠ .check t)
    (hop : m.owner = none → ∀ c j, op ≠ .job c j t) (hst : sstep dbg s op = .ok s') :
    s'.tools t = some m ∧ (∀ d, s'.thread d ≠ .manifestRead t ∧ s'.thread d ≠ .request t ∧ s'.thread d ≠ .check t) ∧ ∀ d, s.thread d = .gone → s'.thread d = .gone := by
  have hgone : ∀ c p, s.thread c ≠ .gone → ∀ d, s.thread d = .gone → upd s.thread c p d = .gone := by
    intro c p hc d hd
    by_cases e : d = c
    · subst e; exact absurd hd hc
    · rw [upd_ne _ e]; exact hd
  cases op with
  | connect c =>
    unfold sstep at hst; dsimp only at hst
    split at hst
    · next e => cases hst; exact ⟨ht, threads_keep hth (by simp), hgone c _ (by rw [e]; simp)⟩
    · cases hst
  | reorder l =>
    unfold sstep at hst; dsimp only at hst
    split at hst
    · cases hst; exact ⟨ht, hth, fun _ x => x⟩
    · cases hst
  | job c j u =>
    unfold sstep at hst; dsimp only at hst
    split at hst
    · next e =>
      by_cases hu : t = u
      · subst hu
        rw [ht] at hst; dsimp only at hst
        rw [if_neg (by rw [hs]; simp)] at hst
        cases ho' : m.owner with
        | none => exact absurd rfl (hop ho' c j)
        | some b =>
          rw [ho'] at hst
          rw [if_pos (by simp)] at hst
          cases hst; exact ⟨ht, hth, fun _ x => x⟩
      · split at hst
        · next m' ht' =>
          split at hst
          · cases hst; exact ⟨ht, hth, fun _ x => x⟩
          · split at hst
            · cases hst; exact ⟨ht, hth, fun _ x => x⟩
            · split at hst
              · split at hst
                · next s₁ h₁ =>
                  cases hst
                  have h2 : (({ s with received := s.received ++ [(c, j, u)] } : Sync).setMan u { m' with owner := some c }).tools t = some m := by
                    show upd s.tools u _ t = _
                    rw [upd_ne _ hu]; exact ht
                  obtain ⟨_, a2, _⟩ := requestMissing_same h₁
                  have a2 : s₁.thread = s.thread := a2
                  have hk := requestMissing_keep h₁ h2 hm
                  refine ⟨hk, ?_, ?_⟩
                  · show ∀ d, s₁.thread d ≠ _ ∧ s₁.thread d ≠ _ ∧ s₁.thread d ≠ _
                    rw [a2]; exact hth
                  · show ∀ d, _ → s₁.thread d = _
                    rw [a2]; exact fun _ x => x
                · cases hst
                · cases hst
              · cases hst
                refine ⟨?_, hth, fun _ x => x⟩
                show upd s.tools u _ t = _
                rw [upd_ne _ hu]; exact ht
        · cases hst
          refine ⟨?_, hth, fun _ x => x⟩
          show upd s.tools u _ t = _
          rw [upd_ne _ hu]; exact ht
    · cases hst
  | manifest c u d =>
    unfold sstep at hst; dsimp only at hst
    split at hst
    · next e =>
      obtain ⟨m', ht', ho', _⟩ := hi.manifest e.1 e.2
      have hu : t ≠ u := by
        rintro rfl
        rw [ht] at ht'; cases ht'
        have := ho c ho'
        rw [e.1] at this; cases this
      have : (s.ask c u false).tools u = some m' := ht'
      rw [this] at hst; dsimp only at hst
      split at hst
      · cases hst
      · cases d with
        | none =>
          dsimp only at hst
          split at hst
          · cases hst
          · cases hst; exact ⟨ht, threads_keep hth (by simp), hgone c _ (by rw [e.1]; simp)⟩
        | some present =>
          dsimp only at hst
          split at hst
          · cases hst
          · cases hst
            refine ⟨?_, threads_keep hth (by simp [Ne.symm hu]), hgone c _ (by rw [e.1]; simp)⟩
            show upd s.tools u _ t = _
            rw [upd_ne _ hu]; exact ht
    · cases hst
  | afterManifest c =>
    unfold sstep at hst; dsimp only at hst
    split at hst
    · next u e =>
      have hu : u ≠ t := by rintro rfl; exact (hth c).1 e
      split at hst
      · cases hst
      · cases hst
        refine ⟨ht, threads_keep hth (by split <;> simp [hu]), hgone c _ (by rw [e]; simp)⟩
    · cases hst
  | request c =>
    unfold sstep at hst; dsimp only at hst
    split at hst
    · next u e =>
      split at hst
      · next s₁ h₁ =>
        cases hst
        obtain ⟨_, a2, _⟩ := requestMissing_same h₁
        have hk := requestMissing_keep h₁ ht hm
        refine ⟨hk, threads_keep (s := s₁) (by rw [a2]; exact hth) (by simp), ?_⟩
        show ∀ d, _ → upd s₁.thread c .idle d = .gone
        rw [a2]; exact hgone c _ (by rw [e]; simp)
      · cases hst
      · cases hst
    · cases hst
  | file c u i ok =>
    unfold sstep at hst; dsimp only at hst
    split at hst
    · next e =>
      obtain ⟨m', ht', ho', hf', hs'⟩ := hi.file e.1 e.2
      have hu : t ≠ u := by
        rintro rfl
        rw [ht] at ht'; cases ht'
        have := ho c ho'
        rw [e.1] at this; cases this
      rw [ht'] at hst; dsimp only at hst
      split at hst
      · cases hst
      · rw [hf'] at hst; dsimp only at hst
        split at hst
        · cases hst
        · split at hst
          · cases hst; exact ⟨ht, threads_keep hth (by simp), hgone c _ (by rw [e.1]; simp)⟩
          · split at hst <;> split at hst <;> cases hst
            · refine ⟨?_, hth, fun _ x => x⟩
              show upd s.tools u _ t = _
              rw [upd_ne _ hu]; exact ht
            · refine ⟨?_, threads_keep hth (by simp [Ne.symm hu]), hgone c _ (by rw [e.1]; simp)⟩
              show upd s.tools u _ t = _
              rw [upd_ne _ hu]; exact ht
            · refine ⟨?_, hth, fun _ x => x⟩
              show upd s.tools u _ t = _
              rw [upd_ne _ hu]; exact ht
            · refine ⟨?_, threads_keep hth (by simp [Ne.symm hu]), hgone c _ (by rw [e.1]; simp)⟩
              show upd s.tools u _ t = _
              rw [upd_ne _ hu]; exact ht
    · cases hst
  | check c =>
    unfold sstep at hst; dsimp only at hst
    split at hst
    · next u e =>
      split at hst
      · cases hst
      · cases hst; exact ⟨ht, threads_keep hth (by simp), hgone c _ (by rw [e]; simp)⟩
    · cases hst
  | leave c =>
    unfold sstep at hst; dsimp only at hst
    split at hst
    · next e =>
      split at hst
      · cases hst
      · cases hst
        refine ⟨?_, threads_keep hth (by simp), hgone c _ (by rcases e with e | e <;> rw [e] <;> simp)⟩
        show (if t ∈ s.mine c then (s.tools t).map Man.cancel else s.tools t) = _
        rw [if_neg, ht]
        intro hx
        obtain ⟨m', ht', _, ho'⟩ := mem_cancelled hx
        rw [ht] at ht'; cases ht'
        have := ho c ho'
        rcases e with e | e <;> rw [e] at this <;> cases this
    · cases hst
  | left c =>
    unfold sstep at hst; dsimp only at hst
    split at hst
    · next l e =>
      have h1 := hi.clients (s.clients.filter fun x => x.id ≠ c) (by
        rintro d j u ⟨x, hx, rfl, hj⟩
        exact ⟨x, (List.mem_filter.mp hx).1, rfl, hj⟩)
      split at hst
      · next s₁ h₁ =>
        cases hst
        have a2 : s₁.thread = s.thread := (h1.handOver h₁).2.2.1
        have hk := handOver_keep hm h₁ ht
        refine ⟨hk, threads_keep (s := s₁) (by rw [a2]; exact hth) (by simp), ?_⟩
        show ∀ d, _ → upd s₁.thread c .gone d = .gone
        rw [a2]
        exact hgone c _ (by rw [e]; simp)
      · cases hst
      · cases hst
    · cases hst

theorem Stuck.run {dbg : Bool} {t : Nat} : ∀ {ops : List SOp} {s s' : Sync}, SInv s → Stuck t s → (∀ c j, SOp.job c j t ∉ ops) → srun dbg s ops = .ok s' → SInv s' ∧ Stuck t s' := by
  intro ops
  induction ops with
  | nil => intro s s' hi h _ hs; cases hs; exact ⟨hi, h⟩
  | cons op r ih =>
    intro s s' hi h hn hs
    unfold srun at hs
    split at hs
    · next s₁ h₁ =>
      have := keep_step hi h.1 rfl (by simp) (by simp) h.2 (fun _ c j e => hn c j (e ▸ List.mem_cons_self)) h₁
      exact ih (hi.step h₁) ⟨this.1, this.2.1⟩ (fun c j hx => hn c j (List.mem_cons_of_mem _ hx)) hs
    · cases hs
    · cases hs

theorem Abandoned.run {dbg : Bool} {t : Nat} : ∀ {ops : List SOp} {s s' : Sync}, SInv s → Abandoned t s → srun dbg s ops = .ok s' → SInv s' ∧ Abandoned t s' := by
  intro ops
  induction ops with
  | nil => intro s s' hi h hs; cases hs; exact ⟨hi, h⟩
  | cons op r ih =>
    intro s s' hi h hs
    unfold srun at hs
    split at hs
    · next s₁ h₁ =>
      obtain ⟨m, b, h1, h2, h3, h4, h5, h6⟩ := h
      have := keep_step hi h1 h2 h5 (fun c hc => by rw [h3] at hc; cases hc; exact h4) h6 (fun e => by rw [h3] at e; cases e) h₁
      exact ih (hi.step h₁) ⟨m, b, this.1, h2, h3, this.2.2 b h4, h5, this.2.1⟩ hs
    · cases hs
    · cases hs

theorem SReach.run {dbg : Bool} : ∀ {ops : List SOp} {s s' : Sync}, SReach dbg s → srun dbg s ops = .ok s' → SReach dbg s' := by
  intro ops
  induction ops with
  | nil => intro s s' h hs; cases hs; exact h
  | cons op r ih =>
    intro s s' h hs
    unfold srun at hs
    split at hs
    · next s₁ h₁ => exact ih (.step op h h₁) hs
    · cases hs
    · cases hs

/-- C38 fails: if the client that was asked for the manifest disconnects before sending it, nobody else is asked. Whatever happens then
— unless a new job for that tool comes — no job of the tool is started -/
theorem C38_stuck {dbg : Bool} {t : Nat} {s s' : Sync} (h : SReach dbg s) (hk : Stuck t s) (ops : List SOp) (hn : ∀ c j, SOp.job c j t ∉ ops)
    (hs : srun dbg s ops = .ok s') (c j : Nat) : (c, j, t) ∉ s'.queued := by
  obtain ⟨hi, h1, _⟩ := Stuck.run h.inv hk hn hs
  intro hq
  obtain ⟨m, hm, hsy⟩ := hi.queued_ok c j t hq
  rw [h1] at hm; cases hm; cases hsy

/-- two clients with a job for the same tool; the first one, asked for the manifest, disconnects -/
def stuckOps : List SOp := [.connect 1, .connect 2, .job 1 10 7, .job 2 20 7, .leave 1, .left 1]

theorem C38_stuck_reached (dbg : Bool) : ∃ s, srun dbg .initial stuckOps = .ok s ∧ Stuck 7 s ∧ s.waits 2 20 7 := by
  have key : (match srun dbg .initial stuckOps with
    | .ok s => decide (s.tools 7 = some ⟨none, [], false⟩ ∧ s.clients = [⟨2, [(20, 7)]⟩] ∧ s.thread 1 = .gone ∧ s.thread 2 = .idle)
    | _ => false) = true := by cases dbg <;> decide +kernel
  cases e : srun dbg .initial stuckOps with
  | ok s =>
    rw [e] at key
    obtain ⟨k1, k2, k3, k4⟩ := of_decide_eq_true key
    refine ⟨s, rfl, ⟨k1, fun d => ?_⟩, ⟨⟨2, [(20, 7)]⟩, by rw [k2]; simp, rfl, by simp⟩⟩
    by_cases h1 : d = 1
    · subst h1; rw [k3]; simp
    · by_cases h2 : d = 2
      · subst h2; rw [k4]; simp
      · have hr := (SReach.init (dbg := dbg)).run e
        have hd := mt (hr.rinv.ids d).mpr (by rw [k2]; simp [h2])
        have : s.thread d = .fresh ∨ s.thread d = .gone := by
          by_cases x : s.thread d = .fresh
          · exact Or.inl x
          · by_cases y : s.thread d = .gone
            · exact Or.inr y
            · exact absurd ⟨x, y⟩ hd
        rcases this with x | x <;> rw [x] <;> simp
  | off => rw [e] at key; cases key
  | assert => rw [e] at key; cases key

/-- C38 fails: once a tool is to be sent by a connection that is gone, no job of that tool is ever started, even if new clients send jobs for it -/
theorem C38_abandoned {dbg : Bool} {t : Nat} {s s' : Sync} (h : SReach dbg s) (hk : Abandoned t s) (ops : List SOp)
    (hs : srun dbg s ops = .ok s') (c j : Nat) : (c, j, t) ∉ s'.queued := by
  obtain ⟨hi, m', b, h1, h2, _⟩ := Abandoned.run h.inv hk hs
  intro hq
  obtain ⟨m, hm, hsy⟩ := hi.queued_ok c j t hq
  rw [h1] at hm; cases hm; rw [h2] at hsy; cases hsy

/-- client 1 sends the tool, client 2 waits; both disconnect, 2 starting first and ending last -/
def abandonOps : List SOp := [.connect 1, .connect 2, .job 1 10 7, .job 2 20 7, .manifest 1 7 (some [false]), .afterManifest 1, .request 1,
  .leave 2, .leave 1, .left 1, .left 2]

theorem C38_abandoned_reached (dbg : Bool) : ∃ s, srun dbg .initial abandonOps = .ok s ∧ Abandoned 7 s := by
  have key : (match srun dbg .initial abandonOps with
    | .ok s => decide (s.tools 7 = some ⟨some 2, [.syncing], false⟩ ∧ s.clients = [] ∧ s.thread 2 = .gone)
    | _ => false) = true := by cases dbg <;> decide +kernel
  cases e : srun dbg .initial abandonOps with
  | ok s =>
    rw [e] at key
    obtain ⟨k1, k2, k3⟩ := of_decide_eq_true key
    refine ⟨s, rfl, _, 2, k1, rfl, rfl, k3, by simp, fun d => ?_⟩
    have hr := (SReach.init (dbg := dbg)).run e
    have hd := mt (hr.rinv.ids d).mpr (by rw [k2]; simp)
    have : s.thread d = .fresh ∨ s.thread d = .gone := by
      by_cases x : s.thread d = .fresh
      · exact Or.inl x
      · by_cases y : s.thread d = .gone
        · exact Or.inr y
        · exact absurd ⟨x, y⟩ hd
    rcases this with x | x <;> rw [x] <;> simp
  | off => rw [e] at key; cases key
  | assert => rw [e] at key; cases key

/-- C38 fails: client 1 is asked for the manifest and disconnects; before it is taken from the list, client 3 sends a job and the manifest.
Handing the files over to client 2 then violates an assertion -/
theorem C38_handover_assert : srun true .initial [.connect 1, .connect 2, .connect 3, .job 1 10 7, .job 2 20 7, .leave 1, .job 3 30 7, .manifest 3 7 (some [false]), .left 1] = .assert := by
  have key : (match srun true .initial [.connect 1, .connect 2, .connect 3, .job 1 10 7, .job 2 20 7, .leave 1, .job 3 30 7, .manifest 3 7 (some [false]), .left 1] with
    | .assert => true
    | _ => false) = true := by decide +kernel
  split at key
  · assumption
  · cases key

/-- the theorems above are not empty: two clients, two files of which one is missing; everything is started -/
def goodOps : List SOp := [.connect 1, .connect 2, .job 1 10 7, .job 2 20 7, .job 2 21 7, .manifest 1 7 (some [true, false]), .afterManifest 1, .request 1, .file 1 7 1 true, .check 1]

example : (match srun true .initial goodOps with
    | .ok s => decide (s.queued = [(1, 10, 7), (2, 21, 7), (2, 20, 7)] ∧ s.waiting = [])
    | _ => false) = true := by decide +kernel

/-- and with a disconnection in between -/
example : (match srun true .initial [.connect 1, .connect 2, .job 1 10 7, .job 2 20 7, .manifest 1 7 (some [true, false]), .afterManifest 1, .request 1, .leave 1, .left 1,
      .file 2 7 1 true, .check 2] with
    | .ok s => decide (s.queued = [(2, 20, 7)] ∧ s.waiting = [])
    | _ => false) = true := by decide +kernel

end Verif.Server
