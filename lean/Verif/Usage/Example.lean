/-
C105: cases that meet the hypotheses, and what does not hold.
-/
import Verif.Usage.Props

namespace Verif.Usage

/-- The machine has been idle and busy for so long; the worker alone is of interest, with this time. -/
def sight (idle busy mine : Nat) : Sight :=
  { idleTime := BitVec.ofNat 64 idle, busyTime := BitVec.ofNat 64 busy, alive := [7],
    time := fun _ => BitVec.ofNat 64 mine }

/-- Nothing much happens, so often. -/
def quiet (k : Nat) : List Sight := (List.range k).map fun i => sight (1000 * i) (1 + 10 * i) 1

/-- Somebody uses it fully after `k` quiet times. -/
def used (k m : Nat) : List Sight :=
  quiet k ++ (List.range m).map fun i => sight (1000 * (k - 1)) (1 + 10 * (k - 1) + 1000 * (i + 1)) 1

/-- What is found at the end. -/
def look (xs : List Sight) : Option (Bool × Rat × List (Bool × Rat)) :=
  (updates 20 xs (fresh 7, [])).map fun r => (r.1.isIdle, r.1.value, r.2)

/-- Idle for twelve calls, then in use for two, or five. -/
example : (look (quiet 9)).map (·.1) = some false := by decide +kernel
example : (look (quiet 10)).map (·.1) = some true := by decide +kernel
example : (look (used 12 4)).map (·.1) = some true := by decide +kernel
example : (look (used 12 5)).map (·.1) = some false := by decide +kernel
example : (look (used 12 4)).map (·.2.1) = some 1 := by decide +kernel
example : (look (used 12 5)).map (·.2.1) = some 0 := by decide +kernel
example : ((look (used 12 5)).map fun r => (r.2.2.take 5).all (!·.1)) = some true := by decide +kernel

/-- A measurement where the worker uses 60 % of the machine and somebody else 10 %. -/
def d60 : Idle := { procs := [⟨7, 100⟩], lastIdle := 1000, lastBusy := 1000 }

example : (measure 20 (sight 1300 1700 700) d60).map (·.2) = some true := by decide +kernel
example : (measure 5 (sight 1300 1700 700) d60).map (·.2) = some false := by decide +kernel
example : d60.lastBusy ≠ 0 ∧ spent (sight 1300 1700 700) (processes (sight 1300 1700 700) d60.procs) = 600 := by
  decide +kernel

/-- Eight processors, three quarters left by others. -/
example : numCPUs ⟨3, 20, 8, 0, 1024⟩ { procs := [], value := 3/4 } false true true = 6 := by decide +kernel
example : enabled 8 6 = [0, 1, 2, 3, 4, 5] := by decide +kernel
example : settings 16 (some (save ⟨3, 35, 12, 1, 77⟩)) = some ⟨3, 35, 12, 1, 1024⟩ := by decide +kernel
example : settings 8 (some (save ⟨3, 35, 12, 1, 77⟩)) = some ⟨3, 35, 8, 1, 1024⟩ := by decide +kernel
/-- A file of version 3 has no threshold. -/
example : settings 8 (some ([0x46, 0x57, 0x53, 3] ++ bytes4 2 ++ bytes4 5 ++ [1])) = some ⟨2, 20, 5, 1, 1024⟩ := by
  decide +kernel

def scan1 : Text → Option Int := fun t => if t = "50%".toList then some 50 else if t = "-2".toList then some (-2) else none

example : options false scan1 (fun _ => none) 12
    ["-cpus=50%".toList, "-mode=idle".toList, "-mode=dedicated".toList] {} =
    some (some { cpus := some 6, mode := some .dedicated }) := by decide +kernel
example : options false scan1 (fun _ => none) 12 ["-cpus=-2".toList] {} = some (some { cpus := some 10 }) := by
  decide +kernel
/-- Options of Windows are refused elsewhere. -/
example : options false scan1 (fun _ => none) 12 ["-console".toList] {} = some none := by decide +kernel

/-- The machine is little used, by the worker alone: 100 of 1000, so often. -/
def mild (k : Nat) : List Sight :=
  [sight 1000 1000 1000, sight 1500 1500 1500] ++
    (List.range k).map fun i => sight (1500 + 900 * (i + 1)) (1500 + 100 * (i + 1)) (1500 + 100 * (i + 1))

/-- The share of others is not always what is measured: while the machine is little used, the
worker's processes are not asked, and when they are asked next all their time since then counts as
if it was spent now.  Here others use the machine fully since the last call and the worker does
nothing; the machine is found idle. -/
theorem C105_stale_false :
    ∃ (xs : List Sight) (y x : Sight), xs.getLast? = some y ∧
      x.idleTime = y.idleTime ∧ y.busyTime.toNat < x.busyTime.toNat ∧
      (∀ pid, x.time pid = y.time pid) ∧ x.alive = y.alive ∧
      ((look (xs ++ [x])).bind fun r => r.2.2.head?.map (·.1)) = some true :=
  ⟨mild 9, sight 9600 2400 2400, sight 9600 3400 2400, by rfl, rfl, by decide, fun _ => rfl, rfl,
    by decide +kernel⟩

/-- For the same reason the share left by others may be found to be above 1, and then a worker in
proportional mode uses no processor at all; although nobody but the worker uses the machine (its
time and the time in use are the same, ever since it was first asked). -/
theorem C105_share_false :
    ∃ (xs : List Sight) (d : Idle) (s : Settings),
      (updates 20 xs (fresh 7, [])).map (·.1) = some d ∧
      (∀ x ∈ xs, x.busyTime = x.time 7) ∧ s.mode = 3 ∧ s.cpus.toNat = 8 ∧
      1 < d.value ∧ numCPUs s d false true true = 0 := by
  have h : ((updates 20 (mild 10 ++ [sight 10500 3500 3500]) (fresh 7, [])).map (·.1)).map (·.value) =
      some 2 := by decide +kernel
  obtain ⟨d, hd, hv⟩ := Option.map_eq_some_iff.1 h
  refine ⟨_, d, ⟨3, 20, 8, 0, 1024⟩, hd, by decide +kernel, rfl, rfl, ?_, ?_⟩
  · rw [hv]; decide +kernel
  · unfold numCPUs
    dsimp only
    rw [hv, if_neg (by decide), if_neg (by decide), if_pos (by decide), if_neg (by decide +kernel)]

/-- A process that ends after it was listed has no time any more; the difference to its last time
is then a huge number, and the machine, which others use fully, is found idle. -/
theorem C105_ended_false :
    ∃ (d : Idle) (x : Sight), x.idleTime = d.lastIdle ∧ d.lastBusy.toNat < x.busyTime.toNat ∧
      (∀ pid, x.time pid = 0) ∧ (measure 20 x d).map (·.2) = some true :=
  ⟨d60, sight 1000 2000 0, rfl, by decide, fun _ => rfl, by decide +kernel⟩

/-- Two idle measurements for one that is not, again and again. -/
def mixed (k : Nat) : List (Bool × Rat) :=
  (List.replicate k [(false, (0 : Rat)), (true, 1), (true, 1)]).flatten

/-- Measurements however long ago decide: after any number of times the same is measured (the
machine is in use one time out of three), a worker may count it as idle or not. -/
theorem C105_memory_false (k : Nat) :
    ∃ a b : List (Bool × Rat),
      (after ⟨0, false, 0, 0⟩ (mixed k ++ a)).idle = true ∧
      (after ⟨0, false, 0, 0⟩ (mixed k ++ b)).idle = false := by
  have key : ∀ (k : Nat) (s : Smooth), s.n = 4 →
      (after s (mixed k)).n = 4 ∧ (after s (mixed k)).idle = s.idle := by
    intro k
    induction k with
    | zero => intro s h; exact ⟨h, rfl⟩
    | succ k ih =>
      intro s h
      have e : mixed (k + 1) = [(false, (0 : Rat)), (true, 1), (true, 1)] ++ mixed k := by
        simp [mixed, List.replicate_succ]
      rw [e, after_append]
      obtain ⟨h4, hi⟩ := ih s h
      generalize after s (mixed k) = t at h4 hi
      have up : ∀ (u : Smooth) (n : Int), u.n = n → 0 ≤ n → n < 9 →
          (u.next (true, 1)).n = n + 1 ∧ (u.next (true, 1)).idle = u.idle := by
        intro u n hu h0 h9
        have f : (u.next (true, 1)).n = n + 1 := by
          show step true u.n = n + 1
          rw [hu, step_true h0]; omega
        refine ⟨f, ?_⟩
        show (if (u.next (true, 1)).n = 10 then true else if (u.next (true, 1)).n = 0 then false
          else u.idle) = _
        rw [f, if_neg (by omega), if_neg (by omega)]
      obtain ⟨n1, i1⟩ := up t 4 h4 (by decide) (by decide)
      obtain ⟨n2, i2⟩ := up (t.next (true, 1)) 5 n1 (by decide) (by decide)
      have n3 : (((t.next (true, 1)).next (true, 1)).next (false, 0)).n = 4 := by
        show step false ((t.next (true, 1)).next (true, 1)).n = 4
        rw [n2]; decide
      refine ⟨n3, ?_⟩
      show (if (((t.next (true, 1)).next (true, 1)).next (false, 0)).n = 10 then true
        else if (((t.next (true, 1)).next (true, 1)).next (false, 0)).n = 0 then false
        else ((t.next (true, 1)).next (true, 1)).idle) = _
      rw [n3, if_neg (by decide), if_neg (by decide), i2, i1, hi]
  refine ⟨List.replicate 3 (false, 0) ++ List.replicate 10 (true, 1), List.replicate 4 (true, 1), ?_, ?_⟩
  · rw [after_append]
    rw [(key k _ (by decide +kernel)).2]
    decide +kernel
  · rw [after_append]
    rw [(key k _ (by decide +kernel)).2]
    decide +kernel

/-- A file that ends after the version gives a mode that was never set. -/
theorem C105_short_false : ∃ file : List (BitVec 8), settings 8 (some file) = none :=
  ⟨[0x46, 0x57, 0x53, 4], by decide +kernel⟩

/-- The mode in a file is not checked: any other number is taken as dedicated. -/
theorem C105_mode_false :
    ∃ (file : List (BitVec 8)) (s : Settings), settings 8 (some file) = some s ∧
      (∀ m : Mode, s.mode ≠ m.code) ∧
      ∀ d : Idle, numCPUs s d false true true = 8 :=
  ⟨save ⟨9, 20, 8, 0, 0⟩, ⟨9, 20, 8, 0, 1024⟩, by decide +kernel, by intro m; cases m <;> decide,
    fun d => by unfold numCPUs; rfl⟩

end Verif.Usage
