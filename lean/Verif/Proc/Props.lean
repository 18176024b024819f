import Verif.Proc.ArgProof
import Verif.Proc.ReadProof
/-
C111: programs are given their arguments, and their output and end are those of the program.
-/
namespace Verif.Proc

/-- The program gets the arguments of the command line without their quotes, one by one, from memory that is still there. -/
theorem C111_arguments (s : List Char) (hs : '\x00' ∉ s) :
    (argVector s).2.map (deref (argVector s).1) = (Str.tokenize ' ' s).map (fun t => some (Str.removeQuotes t)) := by
  rw [argVector_ok s hs]
  simp [Str.tokenize, List.map_map, Function.comp_def]

/-- And the variables of the environment, one by one. -/
theorem C111_environment (ts : List (List Char)) (rest : List Char) (h : ∀ t ∈ ts, t ≠ [] ∧ '\x00' ∉ t) :
    ∃ os, envLoop (block ts ++ '\x00' :: rest) (ts.length + 1) 0 = some os ∧
      os.map (fun o => ((block ts ++ '\x00' :: rest).drop o).takeWhile (· ≠ '\x00')) = ts := by
  simpa using envLoop_ok rest ts [] (ts.length + 1) (by omega) h

/-- The program writes to the pipes, and has nothing else of them; this process reads them, and after the end of the program,
or if it was not started, all is closed again. -/
theorem C111_descriptors (t : Fds) (o0 o1 e0 e1 : Nat) (hd : [o0, o1, e0, e1].Nodup) (h2 : ∀ i ∈ [o0, o1, e0, e1], 2 < i)
    (hf : ∀ i ∈ [o0, o1, e0, e1], t i = none) :
    let all := pipes t o0 o1 e0 e1
    (∀ i, childFds all o0 o1 e0 e1 i = if i = 1 then some .outW else if i = 2 then some .errW else t i) ∧
    (∀ i, parentFds all o1 e1 i = if i = o0 then some .outR else if i = e0 then some .errR else t i) ∧
    (∀ i, exitFds (parentFds all o1 e1) o0 e0 i = t i) ∧
    (∀ i, failedFds all o0 o1 e0 e1 i = t i) := by
  simp only [List.nodup_cons, List.mem_cons, List.not_mem_nil, or_false, not_or, List.nodup_nil, and_true, not_false_eq_true] at hd
  obtain ⟨⟨h01, h02, h03⟩, ⟨h12, h13⟩, h23⟩ := hd
  have a0 := h2 o0 (by simp)
  have a1 := h2 o1 (by simp)
  have a2 := h2 e0 (by simp)
  have a3 := h2 e1 (by simp)
  have f0 := hf o0 (by simp)
  have f1 := hf o1 (by simp)
  have f2 := hf e0 (by simp)
  have f3 := hf e1 (by simp)
  refine ⟨fun i => ?_, fun i => ?_, fun i => ?_, fun i => ?_⟩
  all_goals
    by_cases i0 : i = o0
    · subst i0
      simp [childFds, parentFds, exitFds, failedFds, close, dup2, pipes, f0, *]
      try grind
    · by_cases i1 : i = o1
      · subst i1
        simp [childFds, parentFds, exitFds, failedFds, close, dup2, pipes, f1, *]
        try grind
      · by_cases i2 : i = e0
        · subst i2
          simp [childFds, parentFds, exitFds, failedFds, close, dup2, pipes, f2, *]
          try grind
        · by_cases i3 : i = e1
          · subst i3
            simp [childFds, parentFds, exitFds, failedFds, close, dup2, pipes, f3, *]
            try grind
          · simp [childFds, parentFds, exitFds, failedFds, close, dup2, pipes, i0, i1, i2, i3]
            try grind

/-- `ReadAllData` for a program, with anything happening between its steps. -/
def Reads (out err : Mem) (limit : Nat) (ms : List Move) (s : S) : Prop :=
  out.bytes.length ≤ out.reserved ∧ err.bytes.length ≤ err.reserved ∧ Move.intr ∉ ms ∧ run ms (start out err limit) = some s

theorem Reads.inv {out err limit ms s} (h : Reads out err limit ms s) : Inv out.bytes err.bytes limit s :=
  run_ok (start_ok out err limit h.1 h.2.1) h.2.2.1 h.2.2.2

/-- At any time the strings have, after what they had, the beginning of what was sent, of their own stream, in order, and
memory for all of it. -/
theorem C111_output {out err limit ms s} (h : Reads out err limit ms s) :
    (∃ n, s.outMem.bytes = out.bytes ++ s.out.sent.take n) ∧ (∃ n, s.errMem.bytes = err.bytes ++ s.err.sent.take n) ∧
    s.outMem.bytes.length ≤ s.outMem.reserved ∧ s.errMem.bytes.length ≤ s.errMem.reserved :=
  ⟨⟨_, h.inv.out.mem⟩, ⟨_, h.inv.err.mem⟩, h.inv.out.room, h.inv.err.room⟩

/-- What was in the pipes at the end of the program is read, if the build was not stopped.
Missing: a signal, `C111_interrupted_false`. -/
theorem C111_all_output_partial {out err limit ms s} (h : Reads out err limit ms s) (hd : s.pc = .done true) (ha : s.kill ≠ .all) :
    ∃ st a b, s.atEnd = some (st, a, b) ∧
      (∃ n, a ≤ n ∧ s.outMem.bytes = out.bytes ++ s.out.sent.take n) ∧ (∃ n, b ≤ n ∧ s.errMem.bytes = err.bytes ++ s.err.sent.take n) := by
  have hi := h.inv
  have hpc := hi.pc
  unfold PcInv at hpc
  rw [hd] at hpc
  rcases hpc with ⟨h1, _⟩ | ⟨_, hw, ho, he⟩
  · exact absurd h1 ha
  · rcases hi.child with ⟨_, _, st, a, b, hab, _⟩ | ⟨hw', _⟩ | ⟨hw', _⟩
    · exact ⟨st, a, b, hab, ⟨_, ho st a b hab, hi.out.mem⟩, ⟨_, he st a b hab, hi.err.mem⟩⟩
    · rw [hw] at hw'; exact nomatch hw'
    · rw [hw] at hw'; exact nomatch hw'

/-- The ghost is right: it is there from the end of the program on, with what was sent by then. -/
theorem C111_at_end (s : S) (st : Status) (h : s.child = .running ∨ s.child = .stopped) :
    (env (.exit st) s).atEnd = some (st, s.out.sent.length, s.err.sent.length) ∧ (env (.exit st) s).child = .ended st := by
  simp [env, h]

/-- Reading never waits for ever and no check fails: there is always a next step. -/
theorem C111_never_stuck {out err limit ms s} (h : Reads out err limit ms s) (hd : ∀ b, s.pc ≠ .done b) (k : Nat) :
    ∃ s', step (.go k) s = some s' := by
  obtain ⟨s', e, _⟩ := act_ok h.inv k hd
  exact ⟨s', e⟩

/-- Once the program has ended, reading ends after a number of steps bounded by what there is to read, whatever is still
running. -/
theorem C111_ends {out err limit ms s ms' s'} (h : Reads out err limit ms s) (hc : s.child ≠ .running ∧ s.child ≠ .stopped)
    (hi : Move.intr ∉ ms') (hr : run ms' s = some s') :
    gos ms' ≤ 8 * (s.out.pending.length + s.err.pending.length + written ms') + 15 := by
  have := run_left h.inv hc hi hr
  have := left_le s
  omega

/-- When a build is stopped reading ends after at most six steps, and the program and all it has started are killed, or the
program has ended already. -/
theorem C111_abort {out err limit ms s} (h : Reads out err limit ms s) :
    (∀ ms' s', s.abort = true → run ms' s = some s' → gos ms' ≤ 6) ∧
    (s.pc = .top → s.abort = true → ∀ k, ∃ s', step (.go k) s = some s' ∧ s'.pc = .done true ∧ s'.kill = .all) ∧
    (s.kill = .all → s.abort = true) := by
  refine ⟨fun ms' s' ha hr => ?_, fun hp ha k => ?_, fun hk => ?_⟩
  · have := run_quick ha hr
    have : quick s ≤ 6 := by unfold quick; split <;> omega
    omega
  · exact ⟨{ s with kill := .all, pc := .done true }, by simp [step, act, hp, ha], rfl, rfl⟩
  · have hpc := h.inv.pc
    unfold PcInv at hpc
    split at hpc
    · rw [hk] at hpc; exact nomatch hpc
    · rw [hk] at hpc; exact nomatch hpc.1
    · rw [hk] at hpc; exact nomatch hpc.1
    · rw [hk] at hpc; exact nomatch hpc.1
    · rw [hk] at hpc; exact nomatch hpc.1
    · rw [hk] at hpc; exact nomatch hpc.1
    · rcases hpc with h1 | h1
      · exact h1.2
      · rw [hk] at h1; exact nomatch h1.1
    · rw [hk] at hpc; exact nomatch hpc.1

/-- A program is only said to have run too long if there is a limit, it was reached, and the program was killed; and a program
that has run too long is killed as soon as there was nothing to read.
Missing: `C111_timeout_false`. -/
theorem C111_timeout_partial {out err limit ms s} (h : Reads out err limit ms s) :
    (s.pc = .done false → 0 < limit ∧ limit ≤ s.now ∧ s.kill = .program) ∧
    (s.pc = .wait → (s.child = .running ∨ s.child = .stopped) → 0 < limit → limit ≤ s.now →
      ∀ k, ∃ s', step (.go k) s = some s' ∧ s'.pc = .done false ∧ s'.kill = .program) ∧
    (s.pc = .wait → (s.child = .running ∨ s.child = .stopped) → limit = 0 ∨ s.now < limit →
      ∀ k, ∃ s', step (.go k) s = some s' ∧ s'.pc = .top) := by
  have hi := h.inv
  have hw : (s.child = .running ∨ s.child = .stopped) → s.handle.waited = false := by
    intro hc
    rcases hi.child with ⟨_, hc', _⟩ | ⟨hw, _⟩ | ⟨hw, _⟩
    · rw [hc'] at hc; rcases hc with hc | hc <;> exact nomatch hc
    · exact hw
    · exact hw
  refine ⟨fun hp => ?_, fun hp hc h1 h2 k => ?_, fun hp hc h1 k => ?_⟩
  · have hpc := hi.pc
    unfold PcInv at hpc
    rw [hp] at hpc
    rw [← hi.lim]
    exact ⟨hpc.2.1, hpc.2.2.1, hpc.1⟩
  · have hw := hw hc
    rw [← hi.lim] at h1 h2
    rcases hc with hc | hc <;>
    · refine ⟨{ s with kill := .program, pc := .done false }, ?_, rfl, rfl⟩
      simp [step, act, hp, isRunning, hw, hc, h1, h2]
  · have hw := hw hc
    rw [← hi.lim] at h1
    have hn : ¬ (s.limit > 0 ∧ s.now ≥ s.limit) := by omega
    rcases hc with hc | hc <;>
    · refine ⟨{ s with pc := .top }, ?_, rfl⟩
      simp only [step, act, hp, isRunning, hw, hc, Bool.false_eq_true, ↓reduceIte]
      rw [if_neg hn, ← hc]

/-- The result is that of the program: its code, or its signal as a negative number, however often it was interrupted or
stopped meanwhile, and the system is only asked once. -/
theorem C111_status {out err limit ms s} (h : Reads out err limit ms s) (st : Status) (ws rest : List Wake)
    (hw : ∀ w ∈ ws, w = .intr ∨ w = .stopped) :
    (s.handle.waited = true → ∃ st' a b, s.atEnd = some (st', a, b) ∧ ∀ l, waitForExit s.child s.handle l =
      some (match st' with | .exited c => c | .signaled n => -n | .other n => n)) ∧
    (s.handle.waited = false → waitForExit s.child s.handle (ws ++ .ended st :: rest) =
      some (match st with | .exited c => c | .signaled n => -n | .other n => n)) := by
  constructor
  · intro hh
    rcases h.inv.child with ⟨_, _, st', a, b, he, hr⟩ | ⟨hw', _⟩ | ⟨hw', _⟩
    · refine ⟨st', a, b, he, fun l => ?_⟩
      unfold waitForExit
      rw [hh, hr]
      cases st' <;> rfl
    · rw [hh] at hw'; exact nomatch hw'
    · rw [hh] at hw'; exact nomatch hw'
  · intro hh
    have hc : s.child ≠ .reaped := by
      rcases h.inv.child with ⟨hw', _⟩ | ⟨_, _, hc⟩ | ⟨_, _, _, _, hc, _⟩
      · rw [hh] at hw'; exact nomatch hw'
      · rcases hc with hc | hc <;> rw [hc] <;> exact nofun
      · rw [hc]; exact nofun
    have hl : ∀ ws : List Wake, (∀ w ∈ ws, w = .intr ∨ w = .stopped) → waitLoop (ws ++ .ended st :: rest) = some st.code := by
      intro ws
      induction ws with
      | nil => intro _; rfl
      | cons w ws ih =>
          intro hw
          rcases hw w (by simp) with e | e <;> (subst e; exact ih fun w h => hw w (by simp [h]))
    unfold waitForExit
    rw [hh, if_pos rfl, if_neg hc, hl ws hw]
    cases st <;> rfl

/-- A program is running until its end, and not any more afterwards. -/
theorem C111_running {out err limit ms s} (h : Reads out err limit ms s) :
    ∃ r c h', isRunning s.child s.handle = some (r, c, h') ∧ (r = true ↔ s.atEnd = none) ∧ (r = false → h'.waited = true) := by
  unfold isRunning
  rcases h.inv.child with ⟨hw, hc, st, a, b, he, _⟩ | ⟨hw, he, hc⟩ | ⟨hw, st, a, b, hc, he⟩
  · rw [hw]
    exact ⟨false, _, _, rfl, by simp [he], fun _ => hw⟩
  · rw [hw]
    rcases hc with hc | hc <;> (rw [hc]; exact ⟨true, _, _, rfl, by simp [he], nofun⟩)
  · rw [hw, hc]
    exact ⟨false, _, _, rfl, by simp [he], fun _ => rfl⟩

end Verif.Proc
