import Verif.Proc.Model
/-
Reading the output of a program.
-/
namespace Verif.Proc

structure PInv (base : Bytes) (p : Pipe) (m : Mem) : Prop where
  le : p.got ≤ p.sent.length
  mem : m.bytes = base ++ p.sent.take p.got
  room : m.bytes.length ≤ m.reserved

theorem PInv.len {base p m} (h : PInv base p m) : m.bytes.length = base.length + p.got := by
  rw [h.mem]
  have := h.le
  simp
  omega

theorem readCommon_ok {base p m} (k : Nat) (h : PInv base p m) (hr : p.readable = true) :
    ∃ p' m', readCommon k p m = some (p', m') ∧ PInv base p' m' ∧ p'.sent = p.sent ∧ p'.isOpen = p.isOpen ∧
      ((p.got < p'.got) ∨ (p'.got = p.got ∧ p.sent.length = p.got)) := by
  unfold readCommon
  generalize hm' : (if m.reserved - m.bytes.length = 0 then { m with reserved := m.reserved + 16 * 1024 * 1024 } else m) = m1
  have h1 : m1.bytes = m.bytes ∧ m.bytes.length < m1.reserved := by
    have := h.room
    subst hm'
    split
    · exact ⟨rfl, by show _ < m.reserved + 16 * 1024 * 1024; omega⟩
    · exact ⟨rfl, by omega⟩
  simp only
  have hle := h.le
  split
  · rename_i hp
    have ho : p.isOpen = false := by
      unfold Pipe.readable at hr
      rw [hp] at hr
      simpa using hr
    rw [ho]
    refine ⟨p, m1, rfl, ⟨hle, by rw [h1.1]; exact h.mem, by rw [h1.1]; omega⟩, rfl, ho, .inr ⟨rfl, ?_⟩⟩
    have := congrArg List.length hp
    simp [Pipe.pending] at this
    omega
  · rename_i hp
    have hpl : 0 < p.pending.length := List.length_pos_iff.2 hp
    have hpe : p.pending.length = p.sent.length - p.got := by simp [Pipe.pending]
    generalize hn : min (k + 1) (min (m1.reserved - m1.bytes.length) p.pending.length) = n
    rw [h1.1] at hn
    have hn1 : 1 ≤ n := by omega
    have hn2 : n ≤ p.pending.length := by omega
    refine ⟨_, _, rfl, ⟨by simp only; omega, ?_, ?_⟩, rfl, rfl, .inl (by simp only; omega)⟩
    · simp only
      rw [h1.1, h.mem, List.append_assoc]
      congr 1
      unfold Pipe.pending
      rw [List.take_add]
    · simp only
      rw [List.length_append, List.length_take, h1.1]
      omega

/-- Everything sent until the end of the program was read. -/
def outDone (s : S) : Prop := ∀ st a b, s.atEnd = some (st, a, b) → a ≤ s.out.got
def errDone (s : S) : Prop := ∀ st a b, s.atEnd = some (st, a, b) → b ≤ s.err.got

def PcInv (s : S) : Prop :=
  match s.pc with
  | .top => s.kill = .nobody
  | .sel => s.kill = .nobody ∧ s.prevOut = s.outMem.bytes.length ∧ s.prevErr = s.errMem.bytes.length
  | .rdOut e => s.kill = .nobody ∧ s.prevOut = s.outMem.bytes.length ∧ s.prevErr = s.errMem.bytes.length ∧ s.out.readable = true ∧
      (if e then s.err.readable = true else (s.exited = true → errDone s))
  | .rdErr => s.kill = .nobody ∧ s.prevErr = s.errMem.bytes.length ∧ s.err.readable = true ∧
      (s.prevOut = s.outMem.bytes.length → s.exited = true → outDone s)
  | .chk => s.kill = .nobody ∧ (s.prevOut = s.outMem.bytes.length → s.exited = true → outDone s) ∧
      (s.prevErr = s.errMem.bytes.length → s.exited = true → errDone s)
  | .wait => s.kill = .nobody ∧ (s.exited = true → outDone s ∧ errDone s)
  | .done true => (s.kill = .all ∧ s.abort = true) ∨ (s.kill = .nobody ∧ s.handle.waited = true ∧ outDone s ∧ errDone s)
  | .done false => s.kill = .program ∧ 0 < s.limit ∧ s.limit ≤ s.now ∧ s.handle.waited = false

def CInv (s : S) : Prop :=
  (s.handle.waited = true ∧ s.child = .reaped ∧ ∃ st a b, s.atEnd = some (st, a, b) ∧ s.handle.ret = st.code) ∨
  (s.handle.waited = false ∧ s.atEnd = none ∧ (s.child = .running ∨ s.child = .stopped)) ∨
  (s.handle.waited = false ∧ ∃ st a b, s.child = .ended st ∧ s.atEnd = some (st, a, b))

structure Inv (o e : Bytes) (limit : Nat) (s : S) : Prop where
  out : PInv o s.out s.outMem
  err : PInv e s.err s.errMem
  child : CInv s
  ex : s.exited = true → s.handle.waited = true
  sent : ∀ st a b, s.atEnd = some (st, a, b) → a ≤ s.out.sent.length ∧ b ≤ s.err.sent.length
  lim : s.limit = limit
  pc : PcInv s

theorem not_readable {p : Pipe} (h : ¬ p.readable = true) : p.sent.length ≤ p.got := by
  unfold Pipe.readable Pipe.pending at h
  simp at h
  exact h.1

theorem act_ok {o e limit s} (h : Inv o e limit s) (k : Nat) (hd : ∀ b, s.pc ≠ .done b) :
    ∃ s', act k s = some s' ∧ Inv o e limit s' := by
  have hpc := h.pc
  unfold PcInv at hpc
  unfold act
  cases hp : s.pc with
  | top =>
      rw [hp] at hpc
      simp only at hpc ⊢
      split
      · rename_i ha
        exact ⟨_, rfl, ⟨h.out, h.err, h.child, h.ex, h.sent, h.lim, .inl ⟨rfl, ha⟩⟩⟩
      · exact ⟨_, rfl, ⟨h.out, h.err, h.child, h.ex, h.sent, h.lim, ⟨hpc, rfl, rfl⟩⟩⟩
  | sel =>
      rw [hp] at hpc
      simp only at hpc ⊢
      obtain ⟨h1, h2, h3⟩ := hpc
      split
      · rename_i ha
        refine ⟨_, rfl, ⟨h.out, h.err, h.child, h.ex, h.sent, h.lim, h1, h2, h3, ha, ?_⟩⟩
        split
        · assumption
        · rename_i hb
          intro _ st a b hab
          have := (h.sent st a b hab).2
          have := not_readable hb
          show b ≤ s.err.got
          omega
      · rename_i ha
        have hoD : outDone s := fun st a b hab => by
          have := (h.sent st a b hab).1
          have := not_readable ha
          omega
        split
        · rename_i hb
          exact ⟨_, rfl, ⟨h.out, h.err, h.child, h.ex, h.sent, h.lim, h1, h3, hb, fun _ _ => hoD⟩⟩
        · rename_i hb
          have heD : errDone s := fun st a b hab => by
            have := (h.sent st a b hab).2
            have := not_readable hb
            omega
          exact ⟨_, rfl, ⟨h.out, h.err, h.child, h.ex, h.sent, h.lim, h1, fun _ _ => hoD, fun _ _ => heD⟩⟩
  | rdOut e' =>
      rw [hp] at hpc
      simp only at hpc ⊢
      obtain ⟨h1, h2, h3, h4, h5⟩ := hpc
      obtain ⟨p', m', e1, hP, e2, e3, e4⟩ := readCommon_ok k h.out h4
      rw [e1]
      simp only
      have hoD : s.prevOut = m'.bytes.length → ∀ st a b, s.atEnd = some (st, a, b) → a ≤ p'.got := fun he st a b hab => by
        have := (h.sent st a b hab).1
        have hl := h.out.len
        have hl' := hP.len
        rcases e4 with e4 | e4
        · omega
        · omega
      have hs' : ∀ st a b, s.atEnd = some (st, a, b) → a ≤ p'.sent.length ∧ b ≤ s.err.sent.length := by rw [e2]; exact h.sent
      refine ⟨_, rfl, ⟨hP, h.err, h.child, h.ex, hs', h.lim, ?_⟩⟩
      cases e' with
      | true => exact ⟨h1, h3, h5, fun he _ => hoD he⟩
      | false => exact ⟨h1, fun he _ => hoD he, fun _ => h5⟩
  | rdErr =>
      rw [hp] at hpc
      simp only at hpc ⊢
      obtain ⟨h1, h3, h4, h5⟩ := hpc
      obtain ⟨p', m', e1, hP, e2, e3, e4⟩ := readCommon_ok k h.err h4
      rw [e1]
      simp only
      have heD : s.prevErr = m'.bytes.length → ∀ st a b, s.atEnd = some (st, a, b) → b ≤ p'.got := fun he st a b hab => by
        have := (h.sent st a b hab).2
        have hl := h.err.len
        have hl' := hP.len
        rcases e4 with e4 | e4
        · omega
        · omega
      have hs' : ∀ st a b, s.atEnd = some (st, a, b) → a ≤ s.out.sent.length ∧ b ≤ p'.sent.length := by rw [e2]; exact h.sent
      exact ⟨_, rfl, ⟨h.out, hP, h.child, h.ex, hs', h.lim, h1, h5, fun he _ => heD he⟩⟩
  | chk =>
      rw [hp] at hpc
      simp only at hpc ⊢
      obtain ⟨h1, h2, h3⟩ := hpc
      split
      · exact ⟨_, rfl, ⟨h.out, h.err, h.child, h.ex, h.sent, h.lim, h1⟩⟩
      · rename_i hc
        have hc1 : s.prevOut = s.outMem.bytes.length := Decidable.byContradiction fun e => hc (.inl e)
        have hc2 : s.prevErr = s.errMem.bytes.length := Decidable.byContradiction fun e => hc (.inr e)
        exact ⟨_, rfl, ⟨h.out, h.err, h.child, h.ex, h.sent, h.lim, h1, fun hx => ⟨h2 hc1 hx, h3 hc2 hx⟩⟩⟩
  | wait =>
      rw [hp] at hpc
      simp only at hpc ⊢
      obtain ⟨h1, h2⟩ := hpc
      unfold isRunning
      rcases h.child with ⟨hw, hc, st, a, b, he, hr⟩ | ⟨hw, he, hc⟩ | ⟨hw, st, a, b, hc, he⟩
      · rw [hw]
        simp only [↓reduceIte]
        split
        · exact ⟨_, rfl, ⟨h.out, h.err, h.child, fun _ => hw, h.sent, h.lim, h1⟩⟩
        · rename_i hx
          have hx : s.exited = true := by simpa using hx
          exact ⟨_, rfl, ⟨h.out, h.err, h.child, h.ex, h.sent, h.lim, .inr ⟨h1, hw, h2 hx⟩⟩⟩
      · rw [hw]
        rcases hc with hc | hc
        all_goals
          rw [hc]
          simp only [Bool.false_eq_true, ↓reduceIte]
          split
          · rename_i hl
            refine ⟨_, rfl, ⟨h.out, h.err, ?_, h.ex, h.sent, h.lim, rfl, hl.1, hl.2, hw⟩⟩
            exact .inr (.inl ⟨hw, he, by simp⟩)
          · refine ⟨_, rfl, ⟨h.out, h.err, ?_, h.ex, h.sent, h.lim, h1⟩⟩
            exact .inr (.inl ⟨hw, he, by simp⟩)
      · rw [hw, hc]
        simp only [Bool.false_eq_true, ↓reduceIte]
        have hx : s.exited = false := by
          cases hx : s.exited with
          | false => rfl
          | true => exact absurd (h.ex hx) (by rw [hw]; decide)
        rw [if_pos hx]
        refine ⟨_, rfl, ⟨h.out, h.err, ?_, fun _ => rfl, h.sent, h.lim, h1⟩⟩
        exact .inl ⟨rfl, rfl, st, a, b, he, rfl⟩
  | done b => exact absurd hp (hd b)

theorem readable_write {p : Pipe} (bs : Bytes) (h : p.readable = true) : (Pipe.readable { p with sent := p.sent ++ bs }) = true := by
  unfold Pipe.readable Pipe.pending at *
  simp only at *
  cases ho : p.isOpen with
  | false => simp
  | true =>
      rw [ho] at h
      simp at h ⊢
      omega

theorem readable_close {p : Pipe} : (Pipe.readable { p with isOpen := false }) = true := by
  simp [Pipe.readable]

theorem PInv.write {base p m} (bs : Bytes) (h : PInv base p m) : PInv base { p with sent := p.sent ++ bs } m :=
  ⟨by have := h.le; simp; omega, by rw [h.mem, List.take_append_of_le_length h.le], h.room⟩

theorem PInv.close {base p m} (h : PInv base p m) : PInv base { p with isOpen := false } m := ⟨h.le, h.mem, h.room⟩

theorem env_ok {o e limit s} (h : Inv o e limit s) (ev : Ev) : Inv o e limit (env ev s) := by
  have hpc := h.pc
  unfold PcInv at hpc
  cases ev with
  | write te bs =>
      cases te with
      | false =>
          simp only [env]
          split
          · refine ⟨h.out.write bs, h.err, h.child, h.ex, ?_, h.lim, ?_⟩
            · intro st a b hab
              have := h.sent st a b hab
              simp only [List.length_append]
              omega
            · unfold PcInv
              cases hp : s.pc with
              | rdOut e' =>
                  rw [hp] at hpc
                  exact ⟨hpc.1, hpc.2.1, hpc.2.2.1, readable_write bs hpc.2.2.2.1, hpc.2.2.2.2⟩
              | done b => rw [hp] at hpc; cases b <;> exact hpc
              | _ => rw [hp] at hpc; exact hpc
          · exact h
      | true =>
          simp only [env]
          split
          · refine ⟨h.out, h.err.write bs, h.child, h.ex, ?_, h.lim, ?_⟩
            · intro st a b hab
              have := h.sent st a b hab
              simp only [List.length_append]
              omega
            · unfold PcInv
              cases hp : s.pc with
              | rdOut e' =>
                  rw [hp] at hpc
                  refine ⟨hpc.1, hpc.2.1, hpc.2.2.1, hpc.2.2.2.1, ?_⟩
                  have := hpc.2.2.2.2
                  cases e' with
                  | true => exact readable_write bs this
                  | false => exact this
              | rdErr =>
                  rw [hp] at hpc
                  exact ⟨hpc.1, hpc.2.1, readable_write bs hpc.2.2.1, hpc.2.2.2⟩
              | done b => rw [hp] at hpc; cases b <;> exact hpc
              | _ => rw [hp] at hpc; exact hpc
          · exact h
  | close te =>
      cases te with
      | false =>
          refine ⟨h.out.close, h.err, h.child, h.ex, h.sent, h.lim, ?_⟩
          unfold PcInv
          cases hp : s.pc with
          | rdOut e' =>
              rw [hp] at hpc
              simp only [env, hp]
              exact ⟨hpc.1, hpc.2.1, hpc.2.2.1, readable_close, hpc.2.2.2.2⟩
          | done b => rw [hp] at hpc; cases b <;> (simp only [env, hp]; exact hpc)
          | _ => rw [hp] at hpc; simp only [env, hp]; exact hpc
      | true =>
          refine ⟨h.out, h.err.close, h.child, h.ex, h.sent, h.lim, ?_⟩
          unfold PcInv
          cases hp : s.pc with
          | rdOut e' =>
              rw [hp] at hpc
              simp only [env, hp]
              refine ⟨hpc.1, hpc.2.1, hpc.2.2.1, hpc.2.2.2.1, ?_⟩
              have := hpc.2.2.2.2
              cases e' with
              | true => exact readable_close
              | false => exact this
          | rdErr =>
              rw [hp] at hpc
              simp only [env, hp]
              exact ⟨hpc.1, hpc.2.1, readable_close, hpc.2.2.2⟩
          | done b => rw [hp] at hpc; cases b <;> (simp only [env, hp]; exact hpc)
          | _ => rw [hp] at hpc; simp only [env, hp]; exact hpc
  | stop =>
      simp only [env]
      split
      · rename_i hc
        refine ⟨h.out, h.err, ?_, h.ex, h.sent, h.lim, ?_⟩
        · rcases h.child with ⟨_, hc', _⟩ | ⟨hw, he, _⟩ | ⟨_, st, _, _, hc', _⟩
          · rw [hc] at hc'; exact nomatch hc'
          · exact .inr (.inl ⟨hw, he, .inr rfl⟩)
          · rw [hc] at hc'; exact nomatch hc'
        · unfold PcInv
          cases hp : s.pc with
          | done b => rw [hp] at hpc; cases b <;> exact hpc
          | _ => rw [hp] at hpc; exact hpc
      · exact h
  | cont =>
      simp only [env]
      split
      · rename_i hc
        refine ⟨h.out, h.err, ?_, h.ex, h.sent, h.lim, ?_⟩
        · rcases h.child with ⟨_, hc', _⟩ | ⟨hw, he, _⟩ | ⟨_, st, _, _, hc', _⟩
          · rw [hc] at hc'; exact nomatch hc'
          · exact .inr (.inl ⟨hw, he, .inl rfl⟩)
          · rw [hc] at hc'; exact nomatch hc'
        · unfold PcInv
          cases hp : s.pc with
          | done b => rw [hp] at hpc; cases b <;> exact hpc
          | _ => rw [hp] at hpc; exact hpc
      · exact h
  | exit st =>
      simp only [env]
      split
      · rename_i hc
        have hw : s.handle.waited = false ∧ s.atEnd = none := by
          rcases h.child with ⟨_, hc', _⟩ | ⟨hw, he, _⟩ | ⟨_, st, _, _, hc', _⟩
          · rw [hc'] at hc; rcases hc with hc | hc <;> exact nomatch hc
          · exact ⟨hw, he⟩
          · rw [hc'] at hc; rcases hc with hc | hc <;> exact nomatch hc
        have hx : ¬ s.exited = true := fun hx => by
          have := h.ex hx
          rw [hw.1] at this
          exact nomatch this
        refine ⟨h.out, h.err, .inr (.inr ⟨hw.1, st, _, _, rfl, rfl⟩), h.ex, ?_, h.lim, ?_⟩
        · intro st a b hab
          simp only [Option.some.injEq, Prod.mk.injEq] at hab
          simp only
          omega
        · unfold PcInv
          cases hp : s.pc with
          | rdOut e' =>
              rw [hp] at hpc
              refine ⟨hpc.1, hpc.2.1, hpc.2.2.1, hpc.2.2.2.1, ?_⟩
              have := hpc.2.2.2.2
              cases e' with
              | true => exact this
              | false => exact fun h => absurd h hx
          | rdErr => rw [hp] at hpc; exact ⟨hpc.1, hpc.2.1, hpc.2.2.1, fun _ h => absurd h hx⟩
          | chk => rw [hp] at hpc; exact ⟨hpc.1, fun _ h => absurd h hx, fun _ h => absurd h hx⟩
          | wait => rw [hp] at hpc; exact ⟨hpc.1, fun h => absurd h hx⟩
          | done b =>
              rw [hp] at hpc
              cases b with
              | true =>
                  rcases hpc with h' | ⟨_, h', _⟩
                  · exact .inl h'
                  · rw [hw.1] at h'; exact nomatch h'
              | false => exact hpc
          | top => rw [hp] at hpc; exact hpc
          | sel => rw [hp] at hpc; exact hpc
      · exact h
  | tick n =>
      refine ⟨h.out, h.err, h.child, h.ex, h.sent, h.lim, ?_⟩
      unfold PcInv
      cases hp : s.pc with
      | done b =>
          rw [hp] at hpc
          cases b
          · simp only [env, hp]
            exact ⟨hpc.1, hpc.2.1, by have := hpc.2.2.1; omega, hpc.2.2.2⟩
          · simp only [env, hp]; exact hpc
      | _ => rw [hp] at hpc; simp only [env, hp]; exact hpc
  | abort =>
      refine ⟨h.out, h.err, h.child, h.ex, h.sent, h.lim, ?_⟩
      unfold PcInv
      cases hp : s.pc with
      | done b =>
          rw [hp] at hpc
          cases b
          · simp only [env, hp]; exact hpc
          · simp only [env, hp]
            rcases hpc with h' | h'
            · exact .inl ⟨h'.1, trivial⟩
            · exact .inr h'
      | _ => rw [hp] at hpc; simp only [env, hp]; exact hpc

theorem start_ok (out err : Mem) (limit : Nat) (ho : out.bytes.length ≤ out.reserved) (he : err.bytes.length ≤ err.reserved) :
    Inv out.bytes err.bytes limit (start out err limit) :=
  ⟨⟨Nat.le_refl _, by simp [start], ho⟩, ⟨Nat.le_refl _, by simp [start], he⟩, .inr (.inl ⟨rfl, rfl, .inl rfl⟩), nofun, nofun, rfl, rfl⟩

theorem run_ok {o e limit} : ∀ {ms : List Move} {s s' : S}, Inv o e limit s → Move.intr ∉ ms → run ms s = some s' → Inv o e limit s'
  | [], s, s', h, _, hr => by cases hr; exact h
  | m :: ms, s, s', h, hi, hr => by
      have hi' : Move.intr ∉ ms := fun h => hi (by simp [h])
      simp only [run] at hr
      cases m with
      | ev ev => exact run_ok (env_ok h ev) hi' hr
      | go k =>
          simp only [step] at hr
          by_cases hd : ∀ b, s.pc ≠ .done b
          · obtain ⟨s1, e1, h1⟩ := act_ok h k hd
            rw [e1] at hr
            exact run_ok h1 hi' hr
          · have : ∃ b, s.pc = .done b := Classical.byContradiction fun hn => hd fun b hb => hn ⟨b, hb⟩
            obtain ⟨b, hb⟩ := this
            simp [act, hb] at hr
      | intr => exact absurd (by simp) hi

/- How long it takes. -/

def gos : List Move → Nat
  | [] => 0
  | .go _ :: ms => gos ms + 1
  | _ :: ms => gos ms

def written : List Move → Nat
  | [] => 0
  | .ev (.write _ bs) :: ms => bs.length + written ms
  | _ :: ms => written ms

def quick (s : S) : Nat :=
  match s.pc with
  | .sel => 6 | .rdOut _ => 5 | .rdErr => 4 | .chk => 3 | .wait => 2 | .top => 1 | .done _ => 0

theorem act_quick {k s s'} (ha : s.abort = true) (h : act k s = some s') : s'.abort = true ∧ quick s' + 1 ≤ quick s := by
  unfold act at h
  split at h
  · rename_i hp
    rw [if_pos ha] at h
    cases h
    exact ⟨ha, by simp [quick, hp]⟩
  · rename_i hp
    split at h
    · cases h; exact ⟨ha, by simp [quick, hp]⟩
    · split at h
      · cases h; exact ⟨ha, by simp [quick, hp]⟩
      · cases h; exact ⟨ha, by simp [quick, hp]⟩
  · rename_i e' hp
    split at h
    · exact nomatch h
    · cases h
      refine ⟨ha, ?_⟩
      cases e' <;> simp [quick, hp]
  · rename_i hp
    split at h
    · exact nomatch h
    · cases h; exact ⟨ha, by simp [quick, hp]⟩
  · rename_i hp
    split at h
    · cases h; exact ⟨ha, by simp [quick, hp]⟩
    · cases h; exact ⟨ha, by simp [quick, hp]⟩
  · rename_i hp
    split at h
    · exact nomatch h
    · split at h
      · cases h; exact ⟨ha, by simp [quick, hp]⟩
      · cases h; exact ⟨ha, by simp [quick, hp]⟩
    · split at h
      · cases h; exact ⟨ha, by simp [quick, hp]⟩
      · cases h; exact ⟨ha, by simp [quick, hp]⟩
  · exact nomatch h

theorem env_quick {s} (ev : Ev) (ha : s.abort = true) : (env ev s).abort = true ∧ quick (env ev s) = quick s := by
  cases ev with
  | write te bs => cases te <;> (simp only [env]; split <;> exact ⟨ha, rfl⟩)
  | close te => cases te <;> exact ⟨ha, rfl⟩
  | stop => simp only [env]; split <;> exact ⟨ha, rfl⟩
  | cont => simp only [env]; split <;> exact ⟨ha, rfl⟩
  | exit st => simp only [env]; split <;> exact ⟨ha, rfl⟩
  | tick n => exact ⟨ha, rfl⟩
  | abort => exact ⟨rfl, rfl⟩

theorem run_quick : ∀ {ms : List Move} {s s' : S}, s.abort = true → run ms s = some s' → gos ms + quick s' ≤ quick s
  | [], s, s', _, h => by cases h; simp [gos]
  | m :: ms, s, s', ha, h => by
      simp only [run] at h
      cases m with
      | ev ev =>
          have := env_quick ev ha
          have h2 := run_quick this.1 h
          simp only [gos]
          omega
      | go k =>
          simp only [step] at h
          cases hk : act k s with
          | none => rw [hk] at h; exact nomatch h
          | some s1 =>
              rw [hk] at h
              have := act_quick ha hk
              have h2 := run_quick this.1 h
              simp only [gos]
              omega
      | intr =>
          simp only [step] at h
          split at h
          · rename_i hp
            have h2 := run_quick (s := { s with pc := .chk }) ha h
            simp only [quick] at h2
            simp only [gos, quick, hp]
            omega
          · have h2 := run_quick ha h
            simp only [gos]
            omega

/-- Left to do once the program has ended. -/
def left (s : S) : Nat :=
  8 * ((s.out.sent.length - s.out.got) + (s.err.sent.length - s.err.got)) + (if s.exited then 0 else 7) +
  (match s.pc with
   | .top => 6 | .sel => 5 | .rdOut _ => 4
   | .rdErr => if s.prevOut = s.outMem.bytes.length then 3 else 8
   | .chk => if s.prevOut = s.outMem.bytes.length ∧ s.prevErr = s.errMem.bytes.length then 2 else 7
   | .wait => 1 | .done _ => 0)

def Gone (s : S) : Prop := s.child ≠ .running ∧ s.child ≠ .stopped

theorem act_left {o e limit s s' k} (h : Inv o e limit s) (hg : Gone s) (ha : act k s = some s') :
    Gone s' ∧ left s' + 1 ≤ left s := by
  have hpc := h.pc
  unfold PcInv at hpc
  unfold act at ha
  cases hp : s.pc with
  | top =>
      rw [hp] at ha
      simp only at ha
      split at ha
      · cases ha; exact ⟨hg, by simp [left, hp]⟩
      · cases ha; exact ⟨hg, by simp [left, hp]⟩
  | sel =>
      rw [hp] at ha hpc
      simp only at ha hpc
      obtain ⟨_, h2, h3⟩ := hpc
      split at ha
      · cases ha; exact ⟨hg, by simp [left, hp]⟩
      · split at ha
        · cases ha; exact ⟨hg, by simp [left, hp, h2]⟩
        · cases ha; exact ⟨hg, by simp [left, hp, h2, h3]⟩
  | rdOut e' =>
      rw [hp] at ha hpc
      simp only at ha hpc
      obtain ⟨_, h2, h3, h4, _⟩ := hpc
      obtain ⟨p', m', e1, hP, e2, e3, e4⟩ := readCommon_ok k h.out h4
      rw [e1] at ha
      cases ha
      refine ⟨hg, ?_⟩
      have hl := h.out.len
      have hl' := hP.len
      have hle := hP.le
      rw [e2] at hle
      cases e'
      all_goals
        simp only [left, hp, e2, Bool.false_eq_true, ↓reduceIte]
        generalize (if s.exited = true then 0 else 7) = E
        split <;> omega
  | rdErr =>
      rw [hp] at ha hpc
      simp only at ha hpc
      obtain ⟨_, h3, h4, _⟩ := hpc
      obtain ⟨p', m', e1, hP, e2, e3, e4⟩ := readCommon_ok k h.err h4
      rw [e1] at ha
      cases ha
      refine ⟨hg, ?_⟩
      have hl := h.err.len
      have hl' := hP.len
      have hle := hP.le
      rw [e2] at hle
      simp only [left, hp, e2]
      generalize (if s.exited = true then 0 else 7) = E
      split <;> split <;> omega
  | chk =>
      rw [hp] at ha hpc
      simp only at ha hpc
      split at ha
      · rename_i hc
        cases ha
        refine ⟨hg, ?_⟩
        simp only [left, hp]
        generalize (if s.exited = true then 0 else 7) = E
        rw [if_neg (fun hn => by rcases hc with hc | hc; exact hc hn.1; exact hc hn.2)]
        omega
      · rename_i hc
        cases ha
        refine ⟨hg, ?_⟩
        have hc1 : s.prevOut = s.outMem.bytes.length := Decidable.byContradiction fun e => hc (.inl e)
        have hc2 : s.prevErr = s.errMem.bytes.length := Decidable.byContradiction fun e => hc (.inr e)
        simp only [left, hp]
        generalize (if s.exited = true then 0 else 7) = E
        rw [if_pos ⟨hc1, hc2⟩]
        omega
  | wait =>
      rw [hp] at ha
      simp only at ha
      unfold isRunning at ha
      rcases h.child with ⟨hw, hc, _⟩ | ⟨_, _, hc⟩ | ⟨hw, st, _, _, hc, _⟩
      · rw [hw] at ha
        simp only [↓reduceIte] at ha
        split at ha
        · rename_i hx
          cases ha
          exact ⟨hg, by simp [left, hp, hx]⟩
        · rename_i hx
          have hx : s.exited = true := by simpa using hx
          cases ha
          exact ⟨hg, by simp [left, hp, hx]⟩
      · rcases hc with hc | hc
        · exact absurd hc hg.1
        · exact absurd hc hg.2
      · rw [hw, hc] at ha
        simp only [Bool.false_eq_true, ↓reduceIte] at ha
        split at ha
        · rename_i hx
          cases ha
          exact ⟨⟨nofun, nofun⟩, by simp [left, hp, hx]⟩
        · rename_i hx
          have hx : s.exited = true := by simpa using hx
          cases ha
          exact ⟨⟨nofun, nofun⟩, by simp [left, hp, hx]⟩
  | done b =>
      rw [hp] at ha
      exact nomatch ha

theorem env_left {o e limit s} (h : Inv o e limit s) (hg : Gone s) (ev : Ev) :
    Gone (env ev s) ∧ left (env ev s) ≤ left s + 8 * written [.ev ev] := by
  have h1 := h.out.le
  have h2 := h.err.le
  cases ev with
  | write te bs =>
      cases te
      all_goals
        simp only [env]
        split
        · refine ⟨hg, ?_⟩
          simp only [left, written, List.length_append]
          omega
        · exact ⟨hg, by omega⟩
  | close te =>
      cases te <;> exact ⟨hg, Nat.le_add_right _ _⟩
  | stop => simp only [env]; rw [if_neg hg.1]; exact ⟨hg, by omega⟩
  | cont => simp only [env]; rw [if_neg hg.2]; exact ⟨hg, by omega⟩
  | exit st => simp only [env]; rw [if_neg (by rintro (h | h); exact hg.1 h; exact hg.2 h)]; exact ⟨hg, by omega⟩
  | tick n => exact ⟨hg, Nat.le_add_right _ _⟩
  | abort => exact ⟨hg, Nat.le_add_right _ _⟩

theorem written_cons (m : Move) (ms : List Move) : written (m :: ms) = written [m] + written ms := by
  cases m with
  | ev e => cases e <;> simp [written]
  | _ => simp [written]

theorem run_left {o e limit} : ∀ {ms : List Move} {s s' : S}, Inv o e limit s → Gone s → Move.intr ∉ ms → run ms s = some s' →
    gos ms + left s' ≤ left s + 8 * written ms
  | [], s, s', _, _, _, h => by cases h; simp [gos]
  | m :: ms, s, s', h, hg, hi, hr => by
      have hi' : Move.intr ∉ ms := fun h => hi (by simp [h])
      simp only [run] at hr
      rw [written_cons]
      cases m with
      | ev ev =>
          have := env_left h hg ev
          have h2 := run_left (env_ok h ev) this.1 hi' hr
          simp only [gos]
          omega
      | go k =>
          simp only [step] at hr
          cases hk : act k s with
          | none => rw [hk] at hr; exact nomatch hr
          | some s1 =>
              rw [hk] at hr
              have := act_left h hg hk
              have hd : ∀ b, s.pc ≠ .done b := fun b hb => by simp [act, hb] at hk
              obtain ⟨s2, e2, h2⟩ := act_ok h k hd
              rw [hk] at e2
              cases e2
              have h3 := run_left h2 this.1 hi' hr
              simp only [gos]
              omega
      | intr => exact absurd (by simp) hi

theorem left_le (s : S) : left s ≤ 8 * (s.out.pending.length + s.err.pending.length) + 15 := by
  have h1 : s.out.pending.length = s.out.sent.length - s.out.got := by simp [Pipe.pending]
  have h2 : s.err.pending.length = s.err.sent.length - s.err.got := by simp [Pipe.pending]
  rw [h1, h2]
  unfold left
  have : (if s.exited = true then 0 else 7) ≤ 7 := by split <;> omega
  generalize (if s.exited = true then 0 else 7) = E at *
  split
  all_goals first | omega | (split <;> omega)

end Verif.Proc
