import Verif.Cache.StoreLemmas
/-! C64: what the cache returns was stored. C65: trimming. -/
namespace Verif.Cache

/-- C64 (partial: publishers of the same identifier must not overlap in time, see `C64_overlap_violates`). Whatever is
retrieved under an identifier is, whole and unchanged, data that somebody asked to store under this identifier: for
all processes, all interleavings, all failures of calls, crashes at any point, and deletions by others. -/
theorem C64_retrieve_partial {l : List Act} {s : Sys} (h : ExclExec init l s) {k : Key} {d : Data}
    (hg : Ev.got k d ∈ s.log) : Stored l k d :=
  (inv_exec h).log k d hg

/-- C64 (same restriction). At every moment the entry itself is absent or complete. -/
theorem C64_entry_partial {l : List Act} {s : Sys} (h : ExclExec init l s) {k : Key} {d : Data}
    (hc : s.fs.content k = some d) : Stored l k d := by
  simp only [FS.content, Option.map_eq_some_iff] at hc
  obtain ⟨i, hi, rfl⟩ := hc
  exact (inv_exec h).entry k i hi

/-- A successful publication is a rename. -/
theorem call_published {s s' : Sys} {p : Nat} {r : Res} {k : Key} {d : Data}
    (h : call s p (s.proc p) r = some s') (hl : s'.log = .published k d true :: s.log) :
    (s.proc p = .pubMove k d ∨ s.proc p = .pubMove2 k d) ∧ move s.fs k = some s'.fs := by
  cases hp : s.proc p <;> rw [hp] at h <;> cases r <;>
    simp only [call, Option.some.injEq, Option.map_eq_some_iff, reduceCtorEq] at h
  all_goals first
    | (subst h; simp [Sys.done, Sys.set] at hl; done)
    | (obtain ⟨fs', hm, rfl⟩ := h
       first
         | (simp [Sys.set] at hl; done)
         | (simp only [Sys.done, List.cons.injEq, and_true, Ev.published.injEq] at hl
            obtain ⟨rfl, rfl⟩ := hl
            exact ⟨by simp, hm⟩))
    | (split at h <;> (try cases h) <;> first
         | (simp [Sys.done, Sys.set] at hl; done)
         | (subst h; simp [Sys.done, Sys.set] at hl; done))

/-- C64 (same restriction). When publishing reports success, the entry holds exactly the data. -/
theorem C64_publish_partial {l : List Act} {s s' : Sys} (h : ExclExec init l s) {a : Act} (hs : step s a = some s')
    {k : Key} {d : Data} (hl : s'.log = .published k d true :: s.log) : s'.fs.content k = some d := by
  have I := inv_exec h
  have ne : ∀ (e : Ev) (l : List Ev), l ≠ e :: l := by
    intro e l h
    have := congrArg List.length h
    simp at this
  cases a with
  | step p r =>
    obtain ⟨hp, hm⟩ := call_published hs hl
    have f : ∀ i, s.fs.dir (.tmp k) = some i → s.fs.ino i = d := by
      have := I.pok p
      rcases hp with hp | hp <;> (rw [hp] at this; exact this.2)
    obtain ⟨i, b1, -, b3, -, b5, -⟩ := move_spec hm
    simp only [FS.content, b3, Option.map_some, b5, f i b1]
  | publish p k' d' =>
    simp only [step] at hs
    split at hs
    · cases hs; exact absurd hl (ne _ _)
    · cases hs
  | retrieve p k' =>
    simp only [step] at hs
    split at hs
    · cases hs; exact absurd hl (ne _ _)
    · cases hs
  | kill p => simp only [step, Option.some.injEq] at hs; subst hs; exact absurd hl (ne _ _)
  | remove x => simp only [step, Option.some.injEq] at hs; subst hs; exact absurd hl (ne _ _)

theorem content_congr {fs fs' : FS} {k : Key} (hd : fs'.dir (.entry k) = fs.dir (.entry k))
    (hi : ∀ i, fs.dir (.entry k) = some i → fs'.ino i = fs.ino i) : fs'.content k = fs.content k := by
  unfold FS.content
  rw [hd]
  cases h : fs.dir (.entry k) with
  | none => rfl
  | some i => simp [hi i h]

/-- C64 (same restriction). A complete entry stays as it is until somebody deletes it or publishes the same
identifier again; readers, publishers of other identifiers, crashes and removed temporary files do not touch it. -/
theorem C64_stable_partial {l : List Act} {s s' : Sys} (h : ExclExec init l s) {a : Act} (hs : step s a = some s')
    {k : Key} (hc : s'.fs.content k ≠ s.fs.content k) :
    a = .remove (.entry k) ∨ ∃ p r, a = .step p r ∧ Publishing (s.proc p) k := by
  have I := inv_exec h
  cases a with
  | publish p k' d' =>
    simp only [step] at hs
    split at hs
    · cases hs; exact absurd rfl hc
    · cases hs
  | retrieve p k' =>
    simp only [step] at hs
    split at hs
    · cases hs; exact absurd rfl hc
    · cases hs
  | kill p => simp only [step, Option.some.injEq] at hs; subst hs; exact absurd rfl hc
  | remove x =>
    simp only [step, Option.some.injEq] at hs
    subst hs
    left
    by_cases e : x = .entry k
    · rw [e]
    · refine absurd (content_congr (fs := s.fs) (fs' := setDir s.fs x none) ?_ (fun _ _ => rfl)) hc
      simp only [setDir]
      rw [if_neg (fun h => e h.symm)]
  | step p r =>
    right
    refine ⟨p, r, rfl, Classical.byContradiction fun hnp => hc ?_⟩
    simp only [step] at hs
    have f := I.pok p
    cases hp : s.proc p <;> rw [hp] at hs hnp f <;> cases r <;>
      simp only [call, Option.some.injEq, Option.map_eq_some_iff, reduceCtorEq] at hs
    all_goals try (subst hs; rfl)
    · subst hs
      rename_i k' d'
      obtain ⟨i, fs', e, h1, h2, h3, h4, h5, h6, h7⟩ := openTrunc_spec s.fs (.tmp k') I.lt
      simp only [Sys.set, e]
      refine content_congr (h2 _ (by simp)) ?_
      intro j hj
      refine h4 j ?_
      rintro rfl
      rcases h7 with h7 | ⟨-, rfl⟩
      · exact absurd (I.inj _ _ _ hj h7) (by simp)
      · exact absurd (I.lt _ _ hj) (Nat.lt_irrefl _)
    · split at hs
      · cases hs; rfl
      · cases hs
    · split at hs
      · cases hs
        refine content_congr rfl ?_
        intro j hj
        simp only [Sys.set, setIno]
        rw [if_neg]
        rintro rfl
        exact absurd (f.2.2.2.2.1 _ hj) (by simp)
      · cases hs
    · obtain ⟨fs', hm, rfl⟩ := hs
      rename_i k' d'
      obtain ⟨i, b1, b2, b3, b4, b5, b6⟩ := move_spec hm
      exact content_congr (b4 _ (by simp) (by simpa [Publishing, eq_comm] using hnp)) (fun _ _ => by rw [Sys.done, b5])
    · subst hs
      rename_i k' d'
      refine content_congr ?_ (fun _ _ => rfl)
      have : k ≠ k' := by simpa [Publishing, eq_comm] using hnp
      simp [Sys.set, setDir, this]
    · obtain ⟨fs', hm, rfl⟩ := hs
      rename_i k' d'
      obtain ⟨i, b1, b2, b3, b4, b5, b6⟩ := move_spec hm
      exact content_congr (b4 _ (by simp) (by simpa [Publishing, eq_comm] using hnp)) (fun _ _ => by rw [Sys.done, b5])
    · obtain ⟨i, hi, rfl⟩ := hs
      rfl
    · split at hs
      · cases hs; rfl
      · cases hs
    · split at hs <;> (cases hs; rfl)

/-! ### Executions -/

theorem run_exec_from : ∀ {l : List Act} {s t u : Sys} {l0 : List Act}, Exec s l0 t → run t l = some u →
    Exec s (l0 ++ l) u
  | [], s, t, u, l0, e, h => by cases h; simpa using e
  | a :: l, s, t, u, l0, e, h => by
    simp only [run, Option.bind_eq_some_iff] at h
    obtain ⟨t', h1, h2⟩ := h
    have := run_exec_from (e.snoc h1) h2
    simpa using this

theorem run_exec {l : List Act} {s t : Sys} (h : run s l = some t) : Exec s l t := by
  simpa using run_exec_from (Exec.nil s) h

/-- The process that starts a publication carries it on. -/
theorem publishing_step {s s' : Sys} {a : Act} (h : step s a = some s') (p : Nat) (k : Key)
    (hp : Publishing (s'.proc p) k) : Publishing (s.proc p) k ∨ ∃ d, a = .publish p k d := by
  have key : ∀ (x : Nat) (pr : Proc) (f : Nat → Proc), (∀ q, f q = if q = x then pr else s.proc q) →
      Publishing (f p) k → (Publishing pr k → p = x → Publishing (s.proc p) k ∨ ∃ d, a = .publish p k d) →
      Publishing (s.proc p) k ∨ ∃ d, a = .publish p k d := by
    intro x pr f hf h1 h2
    rw [hf] at h1
    by_cases e : p = x
    · rw [if_pos e] at h1; exact h2 h1 e
    · rw [if_neg e] at h1; exact Or.inl h1
  cases a with
  | publish x k' d' =>
    simp only [step] at h
    split at h
    · cases h
      refine key x _ _ (fun _ => rfl) hp ?_
      intro h1 h2
      cases h1; subst h2
      exact Or.inr ⟨d', rfl⟩
    · cases h
  | retrieve x k' =>
    simp only [step] at h
    split at h
    · cases h
      exact key x _ _ (fun _ => rfl) hp (fun h1 _ => h1.elim)
    · cases h
  | kill x =>
    simp only [step, Option.some.injEq] at h; subst h
    exact key x .idle _ (fun _ => rfl) hp (fun h1 _ => h1.elim)
  | remove x =>
    simp only [step, Option.some.injEq] at h; subst h
    exact Or.inl hp
  | step x r =>
    simp only [step] at h
    cases hx : s.proc x <;> rw [hx] at h <;> cases r <;>
      simp only [call, Option.some.injEq, Option.map_eq_some_iff, reduceCtorEq] at h
    all_goals first
      | (subst h; exact key x _ _ (fun _ => rfl) hp (fun h1 h2 => Or.inl (by rw [h2, hx]; exact h1)))
      | (subst h; exact key x _ _ (fun _ => rfl) hp (fun h1 _ => h1.elim))
      | (obtain ⟨y, hy, rfl⟩ := h; exact key x _ _ (fun _ => rfl) hp (fun h1 _ => h1.elim))
      | (split at h <;> first
          | (cases h; done)
          | (cases h; exact key x _ _ (fun _ => rfl) hp (fun h1 h2 => Or.inl (by rw [h2, hx]; exact h1)))
          | (cases h; exact key x _ _ (fun _ => rfl) hp (fun h1 _ => h1.elim)))

/-- If every identifier is only ever stored by one process, publishers of the same identifier do not overlap. -/
theorem exec_excl {l : List Act} {s : Sys} (owner : Key → Nat) (h : Exec init l s) :
    (∀ p k d, Act.publish p k d ∈ l → p = owner k) →
    ExclExec init l s ∧ ∀ p k, Publishing (s.proc p) k → p = owner k := by
  induction h with
  | nil => exact fun _ => ⟨.nil _, fun p k h => by simp [init, Publishing] at h⟩
  | snoc h hs ih =>
    intro ho
    obtain ⟨e, hp⟩ := ih fun p k d hm => ho p k d (List.mem_append_left _ hm)
    have hp' : ∀ p k, Publishing _ k → p = owner k := fun p k hpk =>
      (publishing_step hs p k hpk).elim (hp p k) fun ⟨d, hd⟩ => ho p k d (by simp [hd])
    exact ⟨e.snoc hs fun p q k h1 h2 => (hp' p k h1).trans (hp' q k h2).symm, hp'⟩

/-- C64. Without any restriction on timing, if every identifier is only ever stored by one process: what is
retrieved was stored. -/
theorem C64_one_publisher {l : List Act} {s : Sys} (owner : Key → Nat)
    (ho : ∀ p k d, Act.publish p k d ∈ l → p = owner k) (h : run init l = some s) {k : Key} {d : Data}
    (hg : Ev.got k d ∈ s.log) : Stored l k d :=
  C64_retrieve_partial (exec_excl owner (run_exec h) ho).1 hg

/-- Process 0 stores in two pieces and is killed before the rename; later it stores again, while process 1 reads
the old data in pieces across the replacement and process 2 reads the new data. -/
def exRun : List Act :=
  [.publish 0 ['7'] [1, 2, 3], .step 0 .ok, .step 0 (.some 2), .step 0 (.some 1), .step 0 .ok, .step 0 .ok,
   .retrieve 1 ['7'], .step 1 .ok, .step 1 .ok, .step 1 (.some 1),
   .publish 0 ['7'] [9], .step 0 .ok, .kill 0,
   .publish 0 ['7'] [4, 5], .step 0 .ok, .step 0 (.some 2), .step 0 .ok, .step 0 .fail, .step 0 .ok, .step 0 .ok,
   .step 1 (.some 5), .step 1 .ok,
   .retrieve 2 ['7'], .step 2 .ok, .step 2 .ok, .step 2 (.some 2), .step 2 .ok]

example : (run init exRun).map (·.log) =
    some [.got ['7'] [4, 5], .got ['7'] [1, 2, 3], .published ['7'] [4, 5] true, .published ['7'] [1, 2, 3] true] := by decide +kernel

example : ∃ s, ExclExec init exRun s ∧ Ev.got ['7'] [1, 2, 3] ∈ s.log ∧ s.fs.content ['7'] = some [4, 5] := by
  have e : (run init exRun).map (fun s => (s.log, s.fs.content ['7'])) =
    some ([.got ['7'] [4, 5], .got ['7'] [1, 2, 3], .published ['7'] [4, 5] true, .published ['7'] [1, 2, 3] true], some [4, 5]) := by
    decide +kernel
  simp only [Option.map_eq_some_iff] at e
  obtain ⟨s, hs, he⟩ := e
  refine ⟨s, (exec_excl (fun _ => 0) (run_exec hs) ?_).1, ?_, (Prod.mk.inj he).2⟩
  · intro p k d h
    simp only [exRun, List.mem_cons, List.not_mem_nil, or_false, Act.publish.injEq, reduceCtorEq, false_or] at h
    rcases h with h | h | h <;> exact h.1
  · rw [(Prod.mk.inj he).1]; simp

/-- Two processes store the same data under the same identifier: process 1 opens (and empties) the temporary file
that process 0 is still writing. -/
def exOverlap : List Act :=
  [.publish 0 ['7'] [1, 2, 3, 4, 5, 6], .step 0 .ok, .step 0 (.some 4),
   .publish 1 ['7'] [1, 2, 3, 4, 5, 6], .step 1 .ok,
   .step 0 (.some 2), .step 0 .ok, .step 0 .ok,
   .step 1 (.some 2), .kill 1,
   .retrieve 2 ['7'], .step 2 .ok, .step 2 .ok, .step 2 (.some 6), .step 2 .ok]

/-- C64 does not hold for overlapping publishers of one identifier, not even when both store the same data: publishing
reports success, and the entry, of the right length and with the right start, has zeros in the middle. It is
retrieved by everybody from then on. -/
theorem C64_overlap_violates : ∃ l s k d, run init l = some s ∧ (∀ p k' d', Act.publish p k' d' ∈ l → k' = k ∧ d' = d) ∧
    Ev.published k d true ∈ s.log ∧ ∃ d', Ev.got k d' ∈ s.log ∧ ¬ Stored l k d' ∧ d'.length = d.length ∧
      s.fs.content k = some d' := by
  have e : (run init exOverlap).map (fun s => (s.log, s.fs.content ['7'])) =
    some ([.got ['7'] [1, 2, 0, 0, 5, 6], .published ['7'] [1, 2, 3, 4, 5, 6] true], some [1, 2, 0, 0, 5, 6]) := by
    decide +kernel
  simp only [Option.map_eq_some_iff] at e
  obtain ⟨s, hs, he⟩ := e
  have pub : ∀ p k' d', Act.publish p k' d' ∈ exOverlap → k' = ['7'] ∧ d' = [1, 2, 3, 4, 5, 6] := by
    intro p k' d' h
    simp only [exOverlap, List.mem_cons, List.not_mem_nil, or_false, Act.publish.injEq, reduceCtorEq, false_or] at h
    rcases h with h | h <;> exact h.2
  refine ⟨exOverlap, s, ['7'], [1, 2, 3, 4, 5, 6], hs, pub, by rw [(Prod.mk.inj he).1]; simp, [1, 2, 0, 0, 5, 6],
    by rw [(Prod.mk.inj he).1]; simp, ?_, rfl, (Prod.mk.inj he).2⟩
  intro ⟨p, hp⟩
  exact absurd (pub p _ _ hp).2 (by decide)

/-! ### Trimming -/

theorem trimLoop_spec (del : Info → Bool) (limit : Nat) : ∀ (l : List Info) (t : Nat), total l ≤ t → limit < t →
    (trimLoop del limit l t).1.Sublist l ∧ (∀ f ∈ (trimLoop del limit l t).1, del f = true) ∧
    (trimLoop del limit l t).2 + total (trimLoop del limit l t).1 = t ∧
    ((trimLoop del limit l t).2 ≤ limit ∨ ∀ f ∈ l, del f = true → f ∈ (trimLoop del limit l t).1) ∧
    (∀ a x, (trimLoop del limit l t).1 = a ++ [x] → limit + total a < t) ∧
    (∃ n, (trimLoop del limit l t).1 = (l.take n).filter del)
  | [], t, _, ht => ⟨.slnil, by simp [trimLoop], by simp [trimLoop, total], Or.inr (by simp), by simp [trimLoop],
      0, by simp [trimLoop]⟩
  | f :: l, t, hl, ht => by
    have hl' : f.size + total l ≤ t := by simpa [total] using hl
    unfold trimLoop
    by_cases hf : del f = true
    · rw [if_pos hf]
      by_cases hle : t - f.size ≤ limit
      · rw [if_pos hle]
        refine ⟨by simp, by simpa using hf, by simp [total]; omega, Or.inl hle, ?_, 1, by simp [hf]⟩
        intro a x h
        cases a with
        | nil => simpa [total] using ht
        | cons b c => simp at h
      · rw [if_neg hle]
        obtain ⟨h1, h2, h3, h4, h5, n, h6⟩ := trimLoop_spec del limit l (t - f.size) (by omega) (by omega)
        refine ⟨h1.cons_cons f, ?_, ?_, ?_, ?_, n + 1, ?_⟩
        · simpa [hf] using h2
        · simp only [total, List.map_cons, List.sum_cons] at h3 ⊢; omega
        · rcases h4 with h4 | h4
          · exact Or.inl h4
          · right
            intro g hg hd
            rcases List.mem_cons.mp hg with rfl | hg
            · exact List.mem_cons_self
            · exact List.mem_cons_of_mem _ (h4 g hg hd)
        · intro a x h
          cases a with
          | nil => simpa [total] using ht
          | cons b c =>
            simp only [List.cons_append, List.cons.injEq] at h
            have := h5 c x h.2
            have hb : b.size = f.size := by rw [h.1]
            simp only [total, List.map_cons, List.sum_cons] at this ⊢
            omega
        · simp [hf, h6]
    · rw [if_neg hf]
      obtain ⟨h1, h2, h3, h4, h5, n, h6⟩ := trimLoop_spec del limit l t (by omega) ht
      refine ⟨h1.cons f, h2, h3, ?_, h5, n + 1, ?_⟩
      · rcases h4 with h4 | h4
        · exact Or.inl h4
        · right
          intro g hg hd
          rcases List.mem_cons.mp hg with rfl | hg
          · exact absurd hd hf
          · exact h4 g hg hd
      · simp [hf, h6]

/-- C65. Nothing is deleted from a cache that is within the limit. -/
theorem C65_within (del : Info → Bool) (limit : Nat) (l : List Info) (h : total l ≤ limit) :
    trim del limit l = ([], total l) := by
  unfold trim
  rw [if_neg (by omega)]

/-- C65. Afterwards the cache is within the limit, unless everything that can be deleted is gone. What is reported
is the size of what is left. -/
theorem C65_limit (del : Info → Bool) (limit : Nat) (l : List Info) :
    (trim del limit l).2 + total (trim del limit l).1 = total l ∧ (trim del limit l).1.Sublist l ∧
    ((trim del limit l).2 ≤ limit ∨ ∀ f ∈ l, del f = true → f ∈ (trim del limit l).1) := by
  unfold trim
  by_cases h : limit < total l
  · rw [if_pos h]
    obtain ⟨h1, h2, h3, h4, h5, h6⟩ := trimLoop_spec del limit l (total l) (Nat.le_refl _) h
    exact ⟨h3, h1, h4⟩
  · rw [if_neg h]
    exact ⟨by simp [total], by simp, Or.inl (by omega)⟩

/-- C65. Not more is deleted than needed: without the last deletion the cache would still be over the limit. -/
theorem C65_no_more_than_needed (del : Info → Bool) (limit : Nat) (l a : List Info) (x : Info)
    (h : (trim del limit l).1 = a ++ [x]) : limit + total a < total l := by
  unfold trim at h
  by_cases hl : limit < total l
  · rw [if_pos hl] at h
    obtain ⟨h1, h2, h3, h4, h5, h6⟩ := trimLoop_spec del limit l (total l) (Nat.le_refl _) hl
    exact h5 a x h
  · rw [if_neg hl] at h
    simp at h

/-- C65. Oldest first: a file is deleted only if everything older is deleted or cannot be. -/
theorem C65_oldest_first (del : Info → Bool) (limit : Nat) (l : List Info)
    (hs : l.Pairwise (fun a b => a.time ≤ b.time)) {f g : Info} (hf : f ∈ (trim del limit l).1) (hg : g ∈ l)
    (ht : g.time < f.time) : g ∈ (trim del limit l).1 ∨ del g = false := by
  unfold trim at hf ⊢
  by_cases hl : limit < total l
  · rw [if_pos hl] at hf ⊢
    obtain ⟨-, -, -, -, -, n, h6⟩ := trimLoop_spec del limit l (total l) (Nat.le_refl _) hl
    rw [h6] at hf ⊢
    have hf' : f ∈ l.take n := (List.mem_filter.mp hf).1
    have hgt : g ∈ l.take n := by
      rw [← List.take_append_drop n l, List.mem_append] at hg
      rcases hg with hg | hg
      · exact hg
      · rw [← List.take_append_drop n l, List.pairwise_append] at hs
        have := hs.2.2 f hf' g hg
        omega
    by_cases hd : del g = true
    · exact Or.inl (List.mem_filter.mpr ⟨hgt, hd⟩)
    · exact Or.inr (by simpa using hd)
  · rw [if_neg hl] at hf
    simp at hf

/-- five entries, one of them in use; 100 allowed -/
def exFiles : List Info := [⟨1, 50, 10⟩, ⟨2, 60, 20⟩, ⟨3, 30, 30⟩, ⟨4, 40, 40⟩, ⟨5, 20, 50⟩]
example : trim (fun f => f.name != 2) 100 exFiles = ([⟨1, 50, 10⟩, ⟨3, 30, 30⟩, ⟨4, 40, 40⟩], 80) := by decide
example : exFiles.Pairwise (fun a b => a.time ≤ b.time) := by decide
example : trim (fun f => f.name != 2) 200 exFiles = ([], 200) := by decide

end Verif.Cache
