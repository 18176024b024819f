/-
C105: a worker takes no more of its machine than its settings allow, and leaves it to others when
they use it.
-/
import Verif.Usage.Proof

namespace Verif.Usage

/-! ### Specification -/

/-- A worker that has just started. -/
def fresh (pid : Nat) : Idle := { procs := [⟨pid, 0⟩] }

/-- `seen` are the measurements of some calls since the start, the last first. -/
def Watched (threshold pid : Nat) (d : Idle) (seen : List (Bool × Rat)) : Prop :=
  ∃ xs, updates threshold xs (fresh pid, []) = some (d, seen)

/-- How often the machine was found idle. -/
def idles (l : List (Bool × Rat)) : Nat := (l.filter (·.1 = true)).length

/-- How often it was found in use. -/
def busies (l : List (Bool × Rat)) : Nat := (l.filter (·.1 = false)).length

/-- The mode that a token asks for. -/
def modeToken (t : Text) : Option Mode :=
  if t = "-mode=disabled".toList then some .disabled
  else if t = "-mode=idle".toList then some .whenIdle
  else if t = "-mode=dedicated".toList then some .dedicated
  else if t = "-mode=proportional".toList then some .proportional
  else none

/-- The tokens a worker knows. -/
def Known (win : Bool) (t : Text) : Prop :=
  "-cpus=".toList <+: t ∨ (modeToken t).isSome ∨ t = "-periodicrestart".toList ∨
    (win = true ∧ ("-minfreememory=".toList <+: t ∨ t = "-console".toList ∨
      t = "-nosubprocess".toList ∨ t = "-subprocess".toList ∨ t = "-debug".toList))

/-! ### The machine is judged -/

theorem watched_part {threshold pid : Nat} {d : Idle} {seen : List (Bool × Rat)}
    (h : Watched threshold pid d seen) : d.part = after ⟨0, false, 0, 0⟩ seen := by
  obtain ⟨xs, h⟩ := h
  exact updates_part (s := ⟨0, false, 0, 0⟩) rfl h

theorem start_ok : Smooth.Ok ⟨0, false, 0, 0⟩ := ⟨by decide, by decide⟩

/-- After ten measurements in a row find the machine idle, it counts as idle. -/
theorem C105_idle {threshold pid : Nat} {d : Idle} {last before : List (Bool × Rat)}
    (h : Watched threshold pid d (last ++ before)) (hl : 10 ≤ last.length)
    (hi : ∀ o ∈ last, o.1 = true) : d.isIdle = true := by
  have := congrArg Smooth.idle (watched_part h)
  rw [after_append] at this
  exact this.trans (idle_ten (after_ok start_ok _) hl hi)

/-- After five in a row find it in use, it counts as in use. -/
theorem C105_busy {threshold pid : Nat} {d : Idle} {last before : List (Bool × Rat)}
    (h : Watched threshold pid d (last ++ before)) (hl : 5 ≤ last.length)
    (hi : ∀ o ∈ last, o.1 = false) : d.isIdle = false := by
  have := congrArg Smooth.idle (watched_part h)
  rw [after_append] at this
  exact this.trans (busy_five (after_ok start_ok _) hl hi)

/-- It counts as idle only after some stretch of time in which it was found idle ten times more
than twice the times it was found in use. -/
theorem C105_idle_only {threshold pid : Nat} {d : Idle} {seen : List (Bool × Rat)}
    (h : Watched threshold pid d seen) (hi : d.isIdle = true) :
    ∃ later stretch earlier, seen = later ++ stretch ++ earlier ∧
      10 + 2 * busies stretch ≤ idles stretch := by
  have := congrArg Smooth.idle (watched_part h)
  obtain ⟨a, b, c, e, hb⟩ := idle_score rfl rfl seen (this.symm.trans hi)
  refine ⟨a, b, c, e, ?_⟩
  unfold score at hb
  unfold busies idles
  omega

/-- A worker that has just started waits: nine measurements are never enough. -/
theorem C105_start {threshold pid : Nat} {d : Idle} {seen : List (Bool × Rat)}
    (h : Watched threshold pid d seen) (hl : seen.length < 10) : d.isIdle = false := by
  cases hi : d.isIdle with
  | false => rfl
  | true =>
    obtain ⟨a, b, c, e, hb⟩ := C105_idle_only h hi
    have : idles b ≤ b.length := List.length_filter_le _ _
    have : seen.length = a.length + b.length + c.length := by
      rw [e, List.length_append, List.length_append]
    omega

/-- The share in use in proportional mode is one that was measured (before, it is 0). -/
theorem C105_share {threshold pid : Nat} {d : Idle} {seen : List (Bool × Rat)}
    (h : Watched threshold pid d seen) : d.value = 0 ∨ ∃ o ∈ seen, d.value = o.2 := by
  have := congrArg Smooth.value (watched_part h)
  have e : d.value = (after ⟨0, false, 0, 0⟩ seen).value := this
  rw [e]
  exact value_seen _ seen

/-- Five measurements in a row below the share in use change it to one of them. -/
theorem C105_share_down {threshold pid : Nat} {d : Idle} {last before : List (Bool × Rat)} {d0 : Idle}
    (h : Watched threshold pid d (last ++ before)) (h0 : Watched threshold pid d0 before)
    (hl : 5 ≤ last.length) (hi : ∀ o ∈ last, o.2 < d0.value) : ∃ o ∈ last, d.value = o.2 := by
  have e : d.value = (after ⟨0, false, 0, 0⟩ (last ++ before)).value :=
    congrArg Smooth.value (watched_part h)
  have e0 : d0.value = (after ⟨0, false, 0, 0⟩ before).value :=
    congrArg Smooth.value (watched_part h0)
  rw [e, after_append]
  exact value_five (after_ok start_ok _) hl fun o ho => e0 ▸ hi o ho

/-- Ten in a row that are not below it change it to one of them. -/
theorem C105_share_up {threshold pid : Nat} {d : Idle} {last before : List (Bool × Rat)} {d0 : Idle}
    (h : Watched threshold pid d (last ++ before)) (h0 : Watched threshold pid d0 before)
    (hl : 10 ≤ last.length) (hi : ∀ o ∈ last, d0.value ≤ o.2) : ∃ o ∈ last, d.value = o.2 := by
  have e : d.value = (after ⟨0, false, 0, 0⟩ (last ++ before)).value :=
    congrArg Smooth.value (watched_part h)
  have e0 : d0.value = (after ⟨0, false, 0, 0⟩ before).value :=
    congrArg Smooth.value (watched_part h0)
  rw [e, after_append]
  exact value_ten (after_ok start_ok _) hl fun o ho => e0 ▸ hi o ho

/-- What one measurement says: the machine is idle if the time in use, or the time in use without
that of the worker's processes that are alive, is below the threshold (a percentage of all the time that passed).

Missing for the full claim: the time of the worker's processes is what they spent since they were
last asked, which may be longer ago than the time that passed (`C105_stale_false`). -/
theorem C105_measure_partial {threshold : Nat} {x : Sight} {d d' : Idle} {idle : Bool}
    (hb : d.lastBusy ≠ 0) (ht : x.timer = true) (h : measure threshold x d = some (d', idle)) :
    idle = true ↔
      ((x.busyTime - d.lastBusy).toNat * 100 < threshold * (passed x d).toNat ∨
        (((x.busyTime - d.lastBusy).toNat : Int) - spent x (d.procs.filter fun p => p.pid ∈ x.alive)) * 100 <
          threshold * (passed x d).toNat) := by
  unfold measure at h
  split at h
  · exact nomatch h
  · rename_i hne
    have hp : passed x d ≠ 0 := fun e => hne ⟨hb, e⟩
    have hpos : 0 < (passed x d).toNat := by
      rcases Nat.eq_zero_or_pos (passed x d).toNat with e | e
      · exact absurd (BitVec.eq_of_toNat_eq e) hp
      · exact e
    have et : (total x d).usageTotal =
        ((x.busyTime - d.lastBusy).toNat : Rat) / ((passed x d).toNat : Rat) * 100 := by
      unfold total; dsimp only; rw [if_pos hb]
    split at h
    · rename_i hlt
      obtain ⟨_, rfl⟩ := Prod.mk.inj (Option.some.inj h)
      rw [et, share_lt hpos] at hlt
      exact ⟨fun _ => Or.inl hlt, fun _ => rfl⟩
    · rename_i hlt
      obtain ⟨_, rfl⟩ := Prod.mk.inj (Option.some.inj h)
      have eo : (ask x (passed x d) (total x d)).usageOurs =
          (spent x (d.procs.filter fun p => p.pid ∈ x.alive) : Rat) / ((passed x d).toNat : Rat) * 100 := by
        unfold ask
        rw [if_pos ht, if_pos hp, ← spent_processes]
        exact ours_eq x (passed x d) (processes x d.procs)
      rw [et, share_lt hpos] at hlt
      rw [et, eo, decide_eq_true_iff, share_diff_lt hpos]
      exact ⟨Or.inr, fun h => h.resolve_left hlt⟩

/-- When processes are asked, those that are alive are known afterwards, each with its time, and no others. -/
theorem C105_asked {threshold : Nat} {x : Sight} {d d' : Idle} {idle : Bool}
    (hb : d.lastBusy ≠ 0) (ht : x.timer = true) (h : measure threshold x d = some (d', idle))
    (hu : threshold * (passed x d).toNat ≤ (x.busyTime - d.lastBusy).toNat * 100) (pid : Nat) (t : BitVec 64) :
    ⟨pid, t⟩ ∈ d'.procs ↔ pid ∈ x.alive ∧ t = x.time pid := by
  unfold measure at h
  split at h
  · exact nomatch h
  · rename_i hne
    have hp : passed x d ≠ 0 := fun e => hne ⟨hb, e⟩
    have hpos : 0 < (passed x d).toNat := by
      rcases Nat.eq_zero_or_pos (passed x d).toNat with e | e
      · exact absurd (BitVec.eq_of_toNat_eq e) hp
      · exact e
    have et : (total x d).usageTotal =
        ((x.busyTime - d.lastBusy).toNat : Rat) / ((passed x d).toNat : Rat) * 100 := by
      unfold total; dsimp only; rw [if_pos hb]
    split at h
    · rename_i hlt
      rw [et, share_lt hpos] at hlt
      omega
    · obtain ⟨hd, _⟩ := Prod.mk.inj (Option.some.inj h)
      have hd' : d'.procs = (processes x d.procs).map fun p => { p with last := x.time p.pid } := by
        rw [← hd]
        unfold judge ask
        rw [if_pos ht, if_pos hp]
        rfl
      rw [hd', List.mem_map]
      unfold processes
      constructor
      · rintro ⟨p, hp, e⟩
        injection e with e1 e2
        subst e1
        rcases List.mem_append.1 hp with hp | hp
        · exact ⟨by simpa using (List.mem_filter.1 hp).2, e2.symm⟩
        · obtain ⟨q, hq, rfl⟩ := List.mem_map.1 hp
          exact ⟨(List.mem_filter.1 hq).1, e2.symm⟩
      · rintro ⟨ha, rfl⟩
        by_cases hq : ∃ q ∈ d.procs, q.pid = pid
        · obtain ⟨q, hq, rfl⟩ := hq
          exact ⟨q, List.mem_append_left _ (List.mem_filter.2 ⟨hq, by simpa using ha⟩), rfl⟩
        · refine ⟨⟨pid, 0⟩, List.mem_append_right _ (List.mem_map.2 ⟨pid, List.mem_filter.2 ⟨ha, ?_⟩, rfl⟩), rfl⟩
          simp only [Bool.not_eq_true', List.any_eq_false, beq_iff_eq]
          exact fun q hq' e => hq ⟨q, hq', e⟩

/-! ### Processors -/

/-- Never more than the setting, whatever the mode and the state of the machine. -/
theorem C105_limit (s : Settings) (d : Idle) (restart disk memory : Bool) :
    numCPUs s d restart disk memory ≤ s.cpus.toNat := by
  unfold numCPUs
  dsimp only
  split
  · exact Nat.zero_le _
  · split
    · split
      · exact Nat.le_refl _
      · exact Nat.zero_le _
    · split
      · split
        · rename_i h; exact floor_le_self h.1 h.2
        · exact Nat.zero_le _
      · split
        · exact Nat.zero_le _
        · exact Nat.le_refl _

/-- None at all before a restart, without space on the disk or without free memory. -/
theorem C105_none (s : Settings) (d : Idle) {restart disk memory : Bool}
    (h : restart = true ∨ disk = false ∨ memory = false) : numCPUs s d restart disk memory = 0 := by
  unfold numCPUs
  dsimp only
  rw [if_pos]
  rcases h with rfl | rfl | rfl <;> simp

/-- None if disabled. -/
theorem C105_disabled (s : Settings) (d : Idle) (restart disk memory : Bool) (h : s.mode = 0) :
    numCPUs s d restart disk memory = 0 := by
  unfold numCPUs
  rw [h]
  dsimp only
  split
  · rfl
  · rw [if_neg (by decide), if_neg (by decide), if_pos (by decide)]

/-- All of the setting, or none if others use the machine. -/
theorem C105_when_idle (s : Settings) (d : Idle) (h : s.mode = 1) :
    numCPUs s d false true true = if d.isIdle = true then s.cpus.toNat else 0 := by
  unfold numCPUs
  rw [h]
  dsimp only
  rw [if_neg (by decide), if_pos (by decide)]

/-- All of the setting. -/
theorem C105_dedicated (s : Settings) (d : Idle) (h : s.mode = 2) :
    numCPUs s d false true true = s.cpus.toNat := by
  unfold numCPUs
  rw [h]
  dsimp only
  rw [if_neg (by decide), if_neg (by decide), if_neg (by decide)]
  rfl

/-- The largest number whose share of the setting is not above the share that others leave.

Missing: the share in use may be above 1, and then no processor is used (`C105_share_false`). -/
theorem C105_proportional_partial (s : Settings) (d : Idle) (h : s.mode = 3) (h0 : 0 ≤ d.value)
    (h1 : d.value ≤ 1) (k : Nat) :
    k ≤ numCPUs s d false true true ↔ (k : Rat) ≤ (s.cpus.toNat : Rat) * d.value := by
  have e : numCPUs s d false true true = ((s.cpus.toNat : Rat) * d.value).floor.toNat := by
    unfold numCPUs
    rw [h]
    dsimp only
    rw [if_neg (by decide), if_neg (by decide), if_pos (by decide), if_pos ⟨h0, h1⟩]
  rw [e]
  exact floor_toNat h0 k

/-- The worker is offered to others exactly if it uses processors. -/
theorem C105_available (n : Nat) : isAvailable n = true ↔ n ≠ 0 := by
  unfold isAvailable
  rw [decide_eq_true_iff]
  omega

/-- Of its threads, the first so many take jobs. -/
theorem C105_threads {threads n : Nat} (h : threads ≤ 64535) :
    enabled threads n = List.range (min threads n) := enabled_eq h

/-- Together: no more threads take jobs than the setting says. -/
theorem C105_taken {threads : Nat} (h : threads ≤ 64535) (s : Settings) (d : Idle)
    (restart disk memory : Bool) :
    (enabled threads (numCPUs s d restart disk memory)).length ≤ s.cpus.toNat := by
  rw [C105_threads h, List.length_range]
  exact Nat.le_trans (Nat.min_le_right _ _) (C105_limit s d restart disk memory)

/-! ### Settings -/

/-- What is saved is found again, with no more processors than the machine has now.  The free
memory is not saved. -/
theorem C105_saved (cores : Nat) (s : Settings) :
    settings cores (some (save s)) =
      some { s with cpus := BitVec.ofNat 32 (min cores s.cpus.toNat), freeMemory := 1024 } := by
  have hl : (save s).drop 4 = bytes4 s.mode ++ (bytes4 s.idleThreshold ++ (bytes4 s.cpus ++ [s.minimized])) := by
    simp only [save, List.append_assoc]; rfl
  have hv : (save s)[3]?.getD 0 = 4 := rfl
  unfold settings
  show (load (defaults cores) (save s)).bind _ = _
  have e : load (defaults cores) (save s) = some { s with freeMemory := 1024 } := by
    unfold load
    dsimp only
    rw [hv, hl, if_neg (by decide), read4_bytes4]
    show some _ = _
    dsimp only
    rw [if_pos (by decide), read4_bytes4]
    dsimp only
    rw [read4_bytes4]
    rfl
  rw [e]
  rfl

/-- A file of another version is not used. -/
theorem C105_version (cores : Nat) {file : List (BitVec 8)}
    (h : file[3]?.getD 0 = 0 ∨ 4 < (file[3]?.getD 0).toNat) :
    settings cores (some file) = settings cores none := by
  unfold settings
  have e : load (defaults cores) file = some (defaults cores) := by
    unfold load
    dsimp only
    rw [if_pos]
    rcases h with h | h
    · left; rw [h]; decide
    · right; exact h
  show (load (defaults cores) file).bind _ = (some (defaults cores)).bind _
  rw [e]

/-- A machine without settings: half of its processors, while it is idle. -/
theorem C105_defaults {cores : Nat} (hc : 0 < cores) (hb : cores < 2 ^ 32) :
    ∃ s, settings cores none = some s ∧ s.mode = 1 ∧ s.idleThreshold = 20 ∧
      s.cpus.toNat = max 1 (cores / 2) := by
  refine ⟨_, rfl, rfl, rfl, ?_⟩
  show (BitVec.ofNat 32 (min cores (BitVec.ofNat 32 (max 1 (cores / 2))).toNat)).toNat = _
  rw [BitVec.toNat_ofNat, BitVec.toNat_ofNat]
  omega

/-- Whatever the file, no more processors than the machine has. -/
theorem C105_bound {cores : Nat} {file : Option (List (BitVec 8))} {s : Settings}
    (hb : cores < 2 ^ 32) (h : settings cores file = some s) : s.cpus.toNat ≤ cores := by
  unfold settings at h
  obtain ⟨s0, _, h⟩ := Option.bind_eq_some_iff.1 h
  rw [← Option.some.inj h]
  show (BitVec.ofNat 32 (min cores s0.cpus.toNat)).toNat ≤ cores
  rw [BitVec.toNat_ofNat]
  omega

/-! ### Options -/

theorem cpusToken_bound {scan : Text → Option Int} {cores : Nat} (hc : 0 < cores) {t : Text} {n : Nat}
    (h : cpusToken scan cores t = some (some n)) : 1 ≤ n ∧ n ≤ cores := by
  have hcl : ∀ x : Int, 1 ≤ (clamp x 1 cores).toNat ∧ (clamp x 1 cores).toNat ≤ cores := by
    intro x; unfold clamp; omega
  unfold cpusToken at h
  split at h
  · simp at h
  · split at h
    · obtain ⟨x, _, e⟩ := Option.map_eq_some_iff.1 h
      cases e; exact hcl _
    · split at h
      · cases h; exact hcl _
      · split at h
        · cases h; exact hcl _
        · simp at h

theorem plain_cpus {win : Bool} {t : Text} {o o' : Options} (h : plain win t o = some o') :
    o'.cpus = o.cpus := by
  unfold plain at h
  repeat' split at h
  all_goals first | (rw [← Option.some.inj h]) | exact nomatch h

theorem token1_cpus {win : Bool} {scan : Text → Option Int} {scanU : Text → Option Nat} {cores : Nat}
    (hc : 0 < cores) {t : Text} {o o' : Options}
    (h : token1 win scan scanU cores t o = some (some o')) :
    o'.cpus = o.cpus ∨ ∃ n, o'.cpus = some n ∧ 1 ≤ n ∧ n ≤ cores := by
  unfold token1 at h
  split at h
  · obtain ⟨r, hr, e⟩ := Option.map_eq_some_iff.1 h
    obtain ⟨n, rfl, rfl⟩ := Option.map_eq_some_iff.1 e
    exact Or.inr ⟨n, rfl, cpusToken_bound hc hr⟩
  · split at h
    · have e := Option.some.inj (Option.some.inj h)
      left; rw [← e]; split <;> rfl
    · exact Or.inl (plain_cpus (Option.some.inj h))

theorem options_cpus {win : Bool} {scan : Text → Option Int} {scanU : Text → Option Nat} {cores : Nat}
    (hc : 0 < cores) : ∀ {ts : List Text} {o o' : Options},
    options win scan scanU cores ts o = some (some o') →
    o'.cpus = o.cpus ∨ ∃ n, o'.cpus = some n ∧ 1 ≤ n ∧ n ≤ cores
  | [], o, o', h => Or.inl (by rw [Option.some.inj (Option.some.inj h)])
  | t :: ts, o, o', h => by
      unfold options at h
      split at h
      · exact nomatch h
      · exact nomatch h
      · rename_i o1 h1
        rcases options_cpus hc h with e | e
        · rw [e]; exact token1_cpus hc h1
        · exact Or.inr e

/-- Options that are accepted never ask for no processor or for more than there are. -/
theorem C105_option_bound {win : Bool} {scan : Text → Option Int} {scanU : Text → Option Nat}
    {cores : Nat} (hc : 0 < cores) {ts : List Text} {o : Options}
    (h : options win scan scanU cores ts {} = some (some o)) {n : Nat} (hn : o.cpus = some n) :
    1 ≤ n ∧ n ≤ cores := by
  rcases options_cpus hc h with e | ⟨m, e, hm⟩
  · rw [e] at hn; exact nomatch hn
  · rw [e] at hn; cases hn; exact hm

theorem token1_cpusOption {win : Bool} {scan : Text → Option Int} {scanU : Text → Option Nat}
    {cores : Nat} (t : Text) (o : Options) :
    token1 win scan scanU cores ("-cpus=".toList ++ t) o =
      (cpusToken scan cores ("-cpus=".toList ++ t)).map
        fun r => r.map fun n => { o with cpus := some n } := by
  have : cpusOption.isPrefixOf ("-cpus=".toList ++ t) = true :=
    List.isPrefixOf_iff_prefix.2 ⟨t, rfl⟩
  unfold token1
  rw [if_pos this]

/-- `-cpus=n` asks for `n` processors, or all. -/
theorem C105_cpus_number {win : Bool} {scan : Text → Option Int} {scanU : Text → Option Nat}
    {cores n : Nat} {t : Text} (o : Options) (hs : scan t = some (n : Int))
    (hl : ("-cpus=".toList ++ t).getLast? ≠ some '%') (hn : 0 < n) :
    token1 win scan scanU cores ("-cpus=".toList ++ t) o =
      some (some { o with cpus := some (min n cores) }) := by
  rw [token1_cpusOption]
  unfold cpusToken
  have : ("-cpus=".toList ++ t).drop 6 = t := rfl
  rw [this, hs]
  dsimp only
  rw [if_neg hl, if_pos (by omega)]
  have : (clamp (n : Int) 1 cores).toNat = min n cores := by unfold clamp; omega
  rw [this]; rfl

/-- `-cpus=-n` asks for all but `n`, and for one at least. -/
theorem C105_cpus_all_but {win : Bool} {scan : Text → Option Int} {scanU : Text → Option Nat}
    {cores n : Nat} {t : Text} (o : Options) (hc : 0 < cores) (hs : scan t = some (-(n : Int)))
    (hl : ("-cpus=".toList ++ t).getLast? ≠ some '%') (hn : 0 < n) :
    token1 win scan scanU cores ("-cpus=".toList ++ t) o =
      some (some { o with cpus := some (max 1 (cores - n)) }) := by
  rw [token1_cpusOption]
  unfold cpusToken
  have : ("-cpus=".toList ++ t).drop 6 = t := rfl
  rw [this, hs]
  dsimp only
  rw [if_neg hl, if_neg (by omega), if_pos (by omega)]
  have : (clamp ((cores : Int) + -(n : Int)) 1 cores).toNat = max 1 (cores - n) := by
    unfold clamp; omega
  rw [this]; rfl

/-- `-cpus=n%` asks for this part of them, rounded down, for one at least and not more than all;
where the number is small enough. -/
theorem C105_cpus_percent {win : Bool} {scan : Text → Option Int} {scanU : Text → Option Nat}
    {cores n : Nat} {t : Text} (o : Options) (hc : 0 < cores) (hs : scan t = some (n : Int))
    (hl : ("-cpus=".toList ++ t).getLast? = some '%') (hn : cores * n < 2 ^ 31) :
    token1 win scan scanU cores ("-cpus=".toList ++ t) o =
      some (some { o with cpus := some (min cores (max 1 (cores * n / 100))) }) := by
  rw [token1_cpusOption]
  unfold cpusToken
  have : ("-cpus=".toList ++ t).drop 6 = t := rfl
  rw [this, hs]
  dsimp only
  rw [if_pos hl]
  have e : Int.tdiv ((cores : Int) * (n : Int)) 100 = ((cores * n / 100 : Nat) : Int) := by
    rw [← Int.natCast_mul]; rfl
  have hp : percent cores n = some ((cores * n / 100 : Nat) : Int) := by
    unfold percent
    dsimp only
    rw [e, if_pos (by omega)]
  rw [hp]
  have : (clamp ((cores * n / 100 : Nat) : Int) 1 cores).toNat = min cores (max 1 (cores * n / 100)) := by
    unfold clamp; omega
  show some (some { o with cpus := some _ }) = _
  rw [this]

/-- `-cpus=0` and `-cpus=` without a number are refused. -/
theorem C105_cpus_refused {win : Bool} {scan : Text → Option Int} {scanU : Text → Option Nat}
    {cores : Nat} {t : Text} (o : Options)
    (hs : scan t = none ∨ (scan t = some 0 ∧ ("-cpus=".toList ++ t).getLast? ≠ some '%')) :
    token1 win scan scanU cores ("-cpus=".toList ++ t) o = some none := by
  rw [token1_cpusOption]
  unfold cpusToken
  have : ("-cpus=".toList ++ t).drop 6 = t := rfl
  rw [this]
  rcases hs with hs | ⟨hs, hl⟩
  · rw [hs]; rfl
  · rw [hs]; dsimp only; rw [if_neg hl]; rfl

theorem plain_known {win : Bool} {t : Text} {o o' : Options} (h : plain win t o = some o') :
    Known win t ∧ o'.mode = (modeToken t).or o.mode := by
  unfold plain at h
  unfold Known modeToken
  split at h
  · rename_i hc; obtain ⟨rfl, hw⟩ := hc
    rw [← Option.some.inj h]
    exact ⟨Or.inr (Or.inr (Or.inr ⟨hw, Or.inr (Or.inl rfl)⟩)), rfl⟩
  split at h
  · rename_i hc; subst hc; rw [← Option.some.inj h]; exact ⟨Or.inr (Or.inl (by decide)), rfl⟩
  split at h
  · rename_i hc; subst hc; rw [← Option.some.inj h]; exact ⟨Or.inr (Or.inl (by decide)), rfl⟩
  split at h
  · rename_i hc; subst hc; rw [← Option.some.inj h]; exact ⟨Or.inr (Or.inl (by decide)), rfl⟩
  split at h
  · rename_i hc; subst hc; rw [← Option.some.inj h]; exact ⟨Or.inr (Or.inl (by decide)), rfl⟩
  rename_i h1 h2 h3 h4
  rw [if_neg h1, if_neg h2, if_neg h3, if_neg h4]
  split at h
  · rename_i hc; rw [← Option.some.inj h]; exact ⟨Or.inr (Or.inr (Or.inl hc)), rfl⟩
  split at h
  · rename_i hc; rw [← Option.some.inj h]
    refine ⟨Or.inr (Or.inr (Or.inr ⟨hc.2, ?_⟩)), rfl⟩
    rcases hc.1 with e | e | e
    · exact Or.inr (Or.inr (Or.inl e))
    · exact Or.inr (Or.inr (Or.inr (Or.inl e)))
    · exact Or.inr (Or.inr (Or.inr (Or.inr e)))
  · exact nomatch h

theorem modeToken_other {t : Text} (p : Text) (hp : p <+: t)
    (h : ∀ m ∈ ["-mode=disabled".toList, "-mode=idle".toList, "-mode=dedicated".toList,
      "-mode=proportional".toList], ¬ p <+: m) : modeToken t = none := by
  have hn : ∀ m ∈ ["-mode=disabled".toList, "-mode=idle".toList, "-mode=dedicated".toList,
      "-mode=proportional".toList], t ≠ m := fun m hm e => h m hm (e ▸ hp)
  unfold modeToken
  rw [if_neg (hn _ (by simp)), if_neg (hn _ (by simp)), if_neg (hn _ (by simp)),
    if_neg (hn _ (by simp))]

theorem token1_known {win : Bool} {scan : Text → Option Int} {scanU : Text → Option Nat} {cores : Nat}
    {t : Text} {o o' : Options} (h : token1 win scan scanU cores t o = some (some o')) :
    Known win t ∧ o'.mode = (modeToken t).or o.mode := by
  unfold token1 at h
  split at h
  · rename_i hp
    have hp := List.isPrefixOf_iff_prefix.1 hp
    obtain ⟨r, hr, e⟩ := Option.map_eq_some_iff.1 h
    obtain ⟨n, rfl, rfl⟩ := Option.map_eq_some_iff.1 e
    refine ⟨Or.inl hp, ?_⟩
    rw [modeToken_other _ hp (by decide +kernel)]
    rfl
  · split at h
    · rename_i hw
      rw [Bool.and_eq_true] at hw
      have hp := List.isPrefixOf_iff_prefix.1 hw.2
      refine ⟨Or.inr (Or.inr (Or.inr ⟨hw.1, Or.inl hp⟩)), ?_⟩
      rw [modeToken_other _ hp (by decide +kernel)]
      rw [← Option.some.inj (Option.some.inj h)]
      split <;> rfl
    · exact plain_known (Option.some.inj h)

/-- Only known options are accepted, and the last mode given is the one. -/
theorem C105_options {win : Bool} {scan : Text → Option Int} {scanU : Text → Option Nat} {cores : Nat} :
    ∀ {ts : List Text} {o o' : Options}, options win scan scanU cores ts o = some (some o') →
    (∀ t ∈ ts, Known win t) ∧ o'.mode = ((ts.filterMap modeToken).getLast?).or o.mode
  | [], o, o', h => ⟨fun t ht => (List.not_mem_nil ht).elim,
      by rw [Option.some.inj (Option.some.inj h)]; rfl⟩
  | t :: ts, o, o', h => by
      unfold options at h
      split at h
      · exact nomatch h
      · exact nomatch h
      · rename_i o1 h1
        obtain ⟨hk, hm⟩ := C105_options h
        obtain ⟨hk1, hm1⟩ := token1_known h1
        refine ⟨fun u hu => ?_, ?_⟩
        · rcases List.mem_cons.1 hu with rfl | hu
          · exact hk1
          · exact hk u hu
        · rw [hm, hm1]
          cases hmt : modeToken t with
          | none => rw [List.filterMap_cons_none hmt]; rfl
          | some m =>
            rw [List.filterMap_cons_some hmt, List.getLast?_cons]
            cases (ts.filterMap modeToken).getLast? <;> rfl

/-- Options win over settings; what is not given stays. -/
theorem C105_override (o : Options) (s : Settings) :
    (override o s).mode = (o.mode.map Mode.code).getD s.mode ∧
    (override o s).cpus = (o.cpus.map (BitVec.ofNat 32)).getD s.cpus ∧
    (override o s).idleThreshold = s.idleThreshold := by
  unfold override
  cases o.mode <;> cases o.cpus <;> dsimp only <;> split <;> exact ⟨rfl, rfl, rfl⟩

end Verif.Usage
