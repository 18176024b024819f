/-
C104 on a case, and what the code does not do.
-/
import Verif.Broker.Props

namespace Verif.Broker.Example

open Verif.Broker

def told : Told :=
  ⟨"v1.20".toList, "ann".toList, "4".toList, "8".toList, "x64".toList, "1024".toList,
    "dedicated".toList⟩

def dir : Text := "/share/main/22.linux/".toList
def addr : Text := "10.0.0.7".toList
def addr2 : Text := "10.0.0.8".toList
def pc : Text := "pc7".toList

/-- A call after some seconds. -/
def at_ (secs : Int) (ip : Option Text) : Env :=
  ⟨secs * 1000, secs * 1000, pc, [], ip, 0, told, fun _ => true, true, true⟩

def Own (w : Text) : Prop := w = pc ∨ w = addr ∨ w = addr2

theorem fits (secs : Int) {ip : Option Text} (h : ∀ i, ip = some i → Own i) :
    Fits Own (fun _ => told) dir (at_ secs ip) :=
  ⟨⟨Or.inl rfl, by simp [at_, pc]⟩, h, fun _ _ => rfl, rfl⟩

theorem ownAddr : ∀ i, some addr = some i → Own i := by
  intro i h; cases h; exact Or.inr (Or.inl rfl)

/-- The environment: the second path is the one of the worker. -/
def paths : Text := "/other ; /share".toList

theorem dir_init : initBrokerage linux (some "/share".toList) = [dir] := by decide +kernel

theorem paths_pieces : Pieces paths ["/other ".toList, " /share".toList] := by
  refine ⟨by simp, by decide +kernel, by decide +kernel⟩

theorem paths_root : IsRoot linux " /share".toList dir := isRoot_iff.2 (by decide +kernel)

def s0 : Server := Server.start [dir] 0

/-- A worker after twelve seconds. -/
def one : Server × Fs := setAvailability linux (at_ 12 (some addr)) true s0 []

theorem runs_s0 : Runs linux Own (fun _ => told) dir [] 0 s0 [] :=
  .start 0 [] fun _ _ h => by obtain ⟨_, h⟩ := h; cases h

theorem runs_one : Runs linux Own (fun _ => told) dir [] 0 one.1 one.2 :=
  .call (at_ 12 (some addr)) true runs_s0 (fits 12 ownAddr) (Nat.le_refl _)

/-- The hypotheses of `C104_announced_partial` and `C104_offered_partial` are met, and the worker
is found. -/
example : addr ∈ findWorkers linux none (some paths) [] one.2 :=
  C104_offered_partial (by decide +kernel) runs_s0 (fits 12 ownAddr) (Nat.le_refl _)
    (by decide +kernel) rfl (rfl : _ = (one.1, one.2))
    (by rintro w (rfl | rfl | rfl) <;> decide +kernel) paths_pieces (by simp) paths_root addr
    (goes_iff.2 (by decide +kernel)) (by simp)

example : findWorkers linux none (some paths) [] one.2 = [addr] := by decide +kernel

example : one.2 = [(dir ++ addr, ⟨"Version: v1.20\nUser: ann\nHost Name: pc7\nIPv4 Address: 10.0.0.7\nCPUs: 4/8\nCPUDetails: x64\nMemory: 1024\nMode: dedicated\n".toList, 12000⟩)] := by
  decide +kernel

/-- The worker gets another address, and is not available after that. -/
def two : Server × Fs := setAvailability linux (at_ 400 (some addr2)) true one.1 one.2
def three : Server × Fs := setAvailability linux (at_ 401 (some addr2)) false two.1 two.2

theorem ownAddr2 : ∀ i, some addr2 = some i → Own i := by
  intro i h; cases h; exact Or.inr (Or.inr rfl)

theorem runs_three : Runs linux Own (fun _ => told) dir [] 0 three.1 three.2 :=
  .call (at_ 401 (some addr2)) false
    (.call (at_ 400 (some addr2)) true runs_one (fits 400 ownAddr2) (Nat.le_refl _))
    (fits 401 ownAddr2) (Nat.le_refl _)

example : findWorkers linux none (some paths) [] two.2 = [addr2] := by decide +kernel

/-- The hypotheses of `C104_withdrawn_partial` are met. -/
example : ¬ Exists three.2 (dir ++ addr2) :=
  C104_withdrawn_partial runs_three (by decide +kernel) addr2 (Or.inr (Or.inr rfl))

/-- The hypotheses of `C104_given` are met. -/
example : findWorkers linux (some "a;;b".toList) none [] [] = ["a".toList, "b".toList] :=
  C104_given (ps := ["a".toList, [], "b".toList]) (by decide +kernel) (by decide +kernel)
    ⟨by simp, by decide +kernel, by decide +kernel⟩ ⟨"a".toList, by simp, by decide +kernel⟩

/-- Cleaning a directory with an old and a new file. -/
example : cleanFiles linux (at_ 100000 none) dir
    [(dir ++ addr, ⟨[], 13000000⟩), (dir ++ pc, ⟨[], 14000000⟩)] = [(dir ++ pc, ⟨[], 14000000⟩)] := by
  decide +kernel

/-! ### What does not hold -/

/-- C104. A directory need not be in any place the user named: a semicolon at the end of the
variable (or, other than on Windows, a variable that is set but empty) names the directory `/main`
of the machine itself. -/
theorem C104_roots_false :
    ¬ ∀ s r : Text, r ∈ initBrokerage linux (some s) →
      ∃ p, p ≠ [] ∧ (∃ a b, s = a ++ p ++ b) ∧ r = p ++ linux.tail := by
  intro h
  obtain ⟨p, hp, _, e⟩ := h "/share;".toList linux.tail (by decide +kernel)
  have := congrArg List.length e
  rw [List.length_append] at this
  exact hp (List.length_eq_zero_iff.1 (by omega))

/-- C104. Being listed once: a directory that is named twice lists its workers twice. -/
theorem C104_twice_false :
    ¬ ∀ (paths : Text) (fs : Fs), Single fs → (findWorkers linux none (some paths) [] fs).Nodup := by
  intro h
  have := h "/share;/share".toList [(dir ++ addr, ⟨[], 0⟩)] (by
    intro p f g h1 h2
    simp only [List.mem_singleton, Prod.mk.injEq] at h1 h2
    rw [h1.2, h2.2])
  revert this
  decide +kernel

/-- C104. A machine does not find itself: the addresses of the machine are left out, but a worker
whose address could not be resolved goes by the name of its host. -/
theorem C104_local_false :
    ∃ (e : Env) (locals : List Text) (s' : Server) (fs' : Fs),
      setAvailability linux e true s0 [] = (s', fs') ∧ e.host = pc ∧ locals = [addr] ∧
      pc ∈ findWorkers linux none (some paths) locals fs' := by
  refine ⟨at_ 12 none, [addr], _, _, rfl, rfl, rfl, ?_⟩
  decide +kernel

/-- C104. A file that could not be deleted once stays, however often the worker is told that it is
not available: nothing is tried again. -/
theorem C104_withdrawn_false (n : Nat) :
    let stuck : Env := { at_ 20 (some addr) with deletes := fun _ => false }
    let later := fun k : Nat => at_ (21 + (k : Int)) (some addr)
    let first := setAvailability linux stuck false one.1 one.2
    let run := (List.range n).foldl (fun x k => setAvailability linux (later k) false x.1 x.2) first
    n < 40000 → run.1.available = false ∧ addr ∈ findWorkers linux none (some paths) [] run.2 := by
  intro stuck later first run hn
  have key : ∀ m, m ≤ n →
      (List.range m).foldl (fun x k => setAvailability linux (later k) false x.1 x.2) first = first := by
    intro m
    induction m with
    | zero => intro _; rfl
    | succ m ih =>
      intro hm
      rw [List.range_succ, List.foldl_append, ih (by omega)]
      simp only [List.foldl_cons, List.foldl_nil]
      have hr : first.1.roots = dir :: [] := by decide +kernel
      have ha : first.1.available = false := by decide +kernel
      rw [set_false hr, ha]
      have hl : first.1.lastClean = 12000 := by decide +kernel
      have hu : ({ first.1.updatePath with available := false } : Server) = first.1 := by
        decide +kernel
      simp only [Bool.false_eq_true, if_false]
      rw [hu]
      refine (C104_clean_due linux (later m) first.1 first.2 dir [] hr).2.1 ?_
      rw [hl]
      show (21 + (m : Int)) * 1000 < _
      omega
  have : run = first := key n (Nat.le_refl _)
  rw [this]
  decide +kernel

/-- A worker that is available for nine seconds, then not for one, again and again. -/
def flicker : Nat → Server × Fs
  | 0 => (s0, [])
  | n + 1 =>
      let x := flicker n
      let x := setAvailability linux (at_ (10 * (n : Int) + 9) (some addr)) true x.1 x.2
      setAvailability linux (at_ (10 * (n : Int) + 10) (some addr)) false x.1 x.2

theorem clean_nil (e : Env) (s : Server) : (clean linux e s []).2 = [] := by
  unfold clean
  split
  · rfl
  · split <;> rfl

theorem up (n : Nat) (s : Server) (hr : s.roots = [dir]) (hl : s.lastUpdate = 10000 * (n : Int)) :
    (setAvailability linux (at_ (10 * (n : Int) + 9) (some addr)) true s []).2 = [] ∧
    (setAvailability linux (at_ (10 * (n : Int) + 9) (some addr)) true s []).1.roots = [dir] ∧
    (setAvailability linux (at_ (10 * (n : Int) + 9) (some addr)) true s []).1.available = true := by
  rw [set_true hr]
  have : announce (at_ (10 * (n : Int) + 9) (some addr)) s.updatePath [] = (s.updatePath, []) := by
    unfold announce
    rw [if_neg]
    rw [updatePath_eq hr]
    show ¬ updateEvery ≤ (10 * (n : Int) + 9) * 1000 - s.lastUpdate
    rw [hl]; unfold updateEvery; omega
  rw [this]
  obtain ⟨x, hx⟩ := clean_server (pl := linux) (at_ (10 * (n : Int) + 9) (some addr))
    { s.updatePath with available := true } []
  refine ⟨clean_nil _ _, ?_, ?_⟩
  · rw [hx, updatePath_eq hr]; exact hr
  · rw [hx]

theorem down (e : Env) (s : Server) (hr : s.roots = [dir]) (ha : s.available = true) :
    (setAvailability linux e false s []).2 = [] ∧
    (setAvailability linux e false s []).1.roots = [dir] ∧
    (setAvailability linux e false s []).1.lastUpdate = e.now := by
  rw [set_false hr, ha]
  simp only [if_true]
  have hd : deleteFile e [] s.updatePath.path = [] := by unfold deleteFile; split <;> rfl
  rw [hd]
  obtain ⟨x, hx⟩ := clean_server (pl := linux) e
    { s.updatePath with lastUpdate := e.now, available := false } []
  refine ⟨clean_nil _ _, ?_, ?_⟩
  · rw [hx, updatePath_eq hr]; exact hr
  · rw [hx]

theorem flicker_state : ∀ n : Nat, (flicker n).2 = [] ∧ (flicker n).1.roots = [dir] ∧
    (flicker n).1.lastUpdate = 10000 * (n : Int)
  | 0 => by decide +kernel
  | n + 1 => by
      obtain ⟨h1, h2, h3⟩ := flicker_state n
      obtain ⟨u1, u2, u3⟩ := up n (flicker n).1 h2 h3
      obtain ⟨d1, d2, d3⟩ := down (at_ (10 * (n : Int) + 10) (some addr)) _ u2 u3
      have e : flicker (n + 1) = setAvailability linux (at_ (10 * (n : Int) + 10) (some addr)) false
          (setAvailability linux (at_ (10 * (n : Int) + 9) (some addr)) true (flicker n).1 []).1 [] := by
        conv => lhs; unfold flicker
        dsimp only
        rw [h1, u1]
      rw [e]
      refine ⟨d1, d2, d3.trans ?_⟩
      show (10 * (n : Int) + 10) * 1000 = _
      omega

/-- C104. A worker may be available nine seconds out of ten and never be found: becoming
unavailable restarts the ten seconds. -/
theorem C104_announced_false (n : Nat) :
    let x := setAvailability linux (at_ (10 * (n : Int) + 9) (some addr)) true
      (flicker n).1 (flicker n).2
    x.1.available = true ∧ findWorkers linux none (some paths) [] x.2 = [] := by
  obtain ⟨h1, h2, h3⟩ := flicker_state n
  obtain ⟨u1, _, u3⟩ := up n (flicker n).1 h2 h3
  dsimp only
  rw [h1]
  refine ⟨u3, ?_⟩
  rw [u1]
  decide +kernel

end Verif.Broker.Example
