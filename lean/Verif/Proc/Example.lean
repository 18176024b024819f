import Verif.Proc.Props
/-
Programs that meet the hypotheses of C111, and what does not hold.
-/
namespace Verif.Proc

/-- `cl /c "a b.cpp" -DX=\"1\"` -/
example : Str.tokenize ' ' "/c \"a b.cpp\"  -DX=\\\"1\\\"".toList = ["/c".toList, "\"a b.cpp\"".toList, "-DX=\\\"1\\\"".toList] ∧
    (Str.tokenize ' ' "/c \"a b.cpp\"  -DX=\\\"1\\\"".toList).map Str.removeQuotes = ["/c".toList, "a b.cpp".toList, "-DX=\"1\"".toList] := by
  simp [Str.tokenize, Str.tokenRanges, Str.tokenGo, Str.removeQuotes]

example : '\x00' ∉ "/c \"a b.cpp\"  -DX=\\\"1\\\"".toList := by decide

example : envLoop (block ["A=1".toList, "B=2".toList] ++ ['\x00']) 3 0 = some [0, 4] := by decide

example : [3, 4, 5, 6].Nodup ∧ ∀ i ∈ [3, 4, 5, 6], 2 < i := by decide

def none0 : Mem := ⟨[], 0⟩

/-- A program that writes to both, in parts, and ends with code 3. -/
def moves : List Move :=
  [.go 0, .ev (.write false [1, 2, 3]), .go 0, .go 1, .go 0, .go 0, .ev (.write true [9]), .go 0, .go 0, .go 0, .go 0, .ev (.exit (.exited 3)),
    .go 0, .go 0, .go 0, .go 0, .ev (.close true), .go 0, .go 0, .go 0, .go 0, .go 0]

example : Move.intr ∉ moves := by simp [moves]

example : (run moves (start none0 none0 0)).map (fun s => (s.pc, s.outMem.bytes, s.errMem.bytes)) =
    some (.done true, [1, 2, 3], [9]) := by decide +kernel

example : (run moves (start none0 none0 0)).map (fun s => (s.handle.ret, s.atEnd)) = some (3, some (.exited 3, 3, 1)) := by decide +kernel

/-- One that runs too long. -/
example : (run [.go 0, .go 0, .go 0, .ev (.tick 5), .go 0] (start none0 none0 5)).map (fun s => (s.pc, s.kill)) =
    some (.done false, .program) := by decide +kernel

/-- One that is stopped. -/
example : (run [.go 0, .ev .abort, .go 0, .go 0, .go 0, .go 0] (start none0 none0 5)).map (fun s => (s.pc, s.kill)) =
    some (.done true, .all) := by decide +kernel

example : waitForExit .running ⟨false, 0⟩ [.intr, .stopped, .ended (.signaled 9)] = some (-9) := by decide

/-- If a signal arrives while `select` is waiting for the last output, that output is lost. -/
theorem C111_interrupted_false :
    (run [.go 0, .go 0, .go 0, .ev (.write false [1]), .ev (.exit (.exited 1)), .go 0, .go 0, .intr, .go 0, .go 0] (start none0 none0 0)).map
      (fun s => (s.pc, s.kill, s.outMem.bytes, s.out.sent)) = some (.done true, .nobody, [], [1]) := by decide +kernel

/-- The program in the middle of the next pass. -/
structure Busy (s : S) : Prop where
  pc : s.pc = .top
  child : s.child = .running
  out : s.out.isOpen = true ∧ s.out.sent.length = s.out.got
  err : s.err.isOpen = true ∧ s.err.sent.length = s.err.got
  abort : s.abort = false
  room : s.outMem.bytes.length ≤ s.outMem.reserved

def pass : List Move := [.go 0, .ev (.write false [0]), .go 0, .go 0, .go 0, .ev (.tick 1)]

theorem Busy.pass {s} (h : Busy s) : ∃ s', run Proc.pass s = some s' ∧ Busy s' ∧ s'.now = s.now + 1 := by
  obtain ⟨h1, h2, ⟨h3, h3'⟩, ⟨h4, h4'⟩, h5, h6⟩ := h
  have hp : (s.out.sent ++ [0]).drop s.out.got = [0] := by rw [← h3']; simp
  have he : s.err.sent.drop s.err.got = [] := by rw [← h4']; simp
  simp only [Proc.pass, run, step, act, h1, h5, Option.bind_some, env, h3, ↓reduceIte, Bool.false_eq_true, Pipe.readable, Pipe.pending, hp, he, h4,
    List.isEmpty_nil, List.isEmpty_cons, Bool.not_true, Bool.not_false, Bool.or_false, Bool.true_or, readCommon, reduceCtorEq]
  generalize hm : (if s.outMem.reserved - s.outMem.bytes.length = 0 then { s.outMem with reserved := s.outMem.reserved + 16 * 1024 * 1024 }
    else s.outMem) = m
  have hm' : m.bytes = s.outMem.bytes ∧ s.outMem.bytes.length < m.reserved := by
    subst hm
    split
    · exact ⟨rfl, by show _ < s.outMem.reserved + 16 * 1024 * 1024; omega⟩
    · exact ⟨rfl, by omega⟩
  have hn : min (0 + 1) (min (m.reserved - m.bytes.length) ([0] : Bytes).length) = 1 := by
    rw [hm'.1]
    simp
    omega
  rw [hn]
  simp only [hm'.1, List.take_succ_cons, List.take_zero, List.length_append, List.length_cons, List.length_nil]
  rw [if_pos (.inl (by omega))]
  refine ⟨_, rfl, ⟨rfl, h2, ⟨rfl, by simp; omega⟩, ⟨h4, h4'⟩, rfl, by simp; omega⟩, rfl⟩

/-- A program that always writes something is never said to have run too long, whatever the limit. -/
theorem C111_timeout_false (limit : Nat) : ∀ n : Nat, ∃ ms s, Reads none0 none0 limit ms s ∧ s.now = n ∧ s.child = .running ∧ s.pc = .top ∧
    s.kill = .nobody := by
  have run_append : ∀ (a b : List Move) (s : S), run (a ++ b) s = (run a s).bind (run b) := by
    intro a
    induction a with
    | nil => intro b s; rfl
    | cons m a ih =>
        intro b s
        simp only [List.cons_append, run]
        cases step m s with
        | none => rfl
        | some s1 => exact ih b s1
  have key : ∀ n : Nat, ∃ ms s, Reads none0 none0 limit ms s ∧ s.now = n ∧ Busy s := by
    intro n
    induction n with
    | zero => exact ⟨[], start none0 none0 limit, ⟨Nat.le_refl _, Nat.le_refl _, by simp, rfl⟩, rfl, ⟨rfl, rfl, ⟨rfl, rfl⟩, ⟨rfl, rfl⟩, rfl, Nat.le_refl _⟩⟩
    | succ n ih =>
        obtain ⟨ms, s, ⟨r1, r2, r3, r4⟩, hn, hb⟩ := ih
        obtain ⟨s', e, hb', hn'⟩ := hb.pass
        refine ⟨ms ++ Proc.pass, s', ⟨r1, r2, ?_, ?_⟩, by omega, hb'⟩
        · simp [Proc.pass, r3]
        · rw [run_append, r4]
          exact e
  intro n
  obtain ⟨ms, s, hr, hn, hb⟩ := key n
  refine ⟨ms, s, hr, hn, hb.child, hb.pc, ?_⟩
  have := hr.inv.pc
  unfold PcInv at this
  rw [hb.pc] at this
  exact this

end Verif.Proc
