import Verif.JobMem.Spec
/-
C121: the memory of jobs is counted exactly, freed once, and bounded.
-/
namespace Verif.JobMem

/-! ### lists -/

theorem split {α : Type} : ∀ {l : List α} {i : Nat} {j : α}, l[i]? = some j → ∃ a b, l = a ++ j :: b ∧ ∀ k, l.set i k = a ++ k :: b
  | [], _, _, h => by simp at h
  | x :: l, 0, j, h => by
    simp only [List.getElem?_cons_zero, Option.some.injEq] at h
    subst h
    exact ⟨[], l, rfl, fun _ => rfl⟩
  | x :: l, i + 1, j, h => by
    obtain ⟨a, b, h1, h2⟩ := split (l := l) (i := i) (by simpa using h)
    exact ⟨x :: a, b, by simp [h1], fun k => by simp [h2 k]⟩

/-- the sum over a list -/
def sum {α : Type} (f : α → Nat) (l : List α) : Nat := (l.map f).sum

@[simp] theorem sum_nil {α : Type} (f : α → Nat) : sum f [] = 0 := rfl
@[simp] theorem sum_cons {α : Type} (f : α → Nat) (x : α) (l : List α) : sum f (x :: l) = f x + sum f l := by simp [sum]
@[simp] theorem sum_append {α : Type} (f : α → Nat) (a b : List α) : sum f (a ++ b) = sum f a + sum f b := by simp [sum]

theorem sum_le {α : Type} {f g : α → Nat} : ∀ {l : List α}, (∀ x ∈ l, f x ≤ g x) → sum f l ≤ sum g l
  | [], _ => by simp
  | x :: l, h => by
    have h1 := h x (by simp)
    have h2 := sum_le (f := f) (g := g) (l := l) (fun y hy => h y (by simp [hy]))
    simp only [sum_cons]; omega

theorem bytes_sum (p : Job → Bool) (l : List Job) : bytes p l = sum (fun j => if p j then j.size else 0) l := by
  induction l with
  | nil => rfl
  | cons j l ih => simp [bytes, ih]

theorem busy_sum (l : List Job) : busy l = sum (fun j => if j.stage = .checked then 1 else 0) l := by
  unfold busy
  induction l with
  | nil => rfl
  | cons j l ih => by_cases h : j.stage = .checked <;> simp [h, ih]; omega

/-! ### the invariant -/

/-- the bytes of a job that are in the total -/
def counted (j : Job) : Nat :=
  if j.isLocal then
    match j.pc with
    | .idle => j.size
    | .sub _ => j.size
    | _ => 0
  else 0

/-- the buffer that belongs to a job -/
def held (j : Job) : List Nat :=
  match j.pc with
  | .idle => j.data.toList
  | .sub n => n.data.toList
  | .set n => n.data.toList
  | .add => j.data.toList
  | .gone => []

/-- the bytes of a job that is or will be queued -/
def weight (h : Nat) (j : Job) : Nat :=
  match j.stage with
  | .sent => j.size
  | .checked =>
    match j.pc with
    | .sub n => n.size
    | .set n => n.size
    | .add => j.size
    | _ => j.size + h
  | _ => 0

/-- one job -/
structure Ok (B h : Nat) (j : Job) : Prop where
  /-- no data, no bytes -/
  idle : j.pc = .idle → j.data = none → j.size = 0
  gone : j.pc = .gone → j.data = none ∧ j.size = 0 ∧ j.stage = .dying
  sub : ∀ n, j.pc = .sub n → n.data = none → n.size = 0
  set : ∀ n, j.pc = .set n → n.data = none → n.size = 0
  add : j.pc = .add → j.data = none → j.size = 0
  /-- the last step of the destructor leaves nothing -/
  dying : j.stage = .dying → j.pc ≠ .idle ∧ (∀ n, j.pc = .sub n → n.data = none) ∧ (∀ n, j.pc = .set n → n.data = none) ∧
    (j.pc = .add → j.data = none)
  /-- sizes -/
  raw : j.stage = .raw → (j.pc = .idle ∨ j.pc = .add → j.size ≤ B) ∧ (∀ n, j.pc = .sub n → n.size ≤ B) ∧ (∀ n, j.pc = .set n → n.size ≤ B)
  checked : j.stage = .checked → j.isLocal = true ∧ (j.pc = .idle → j.size ≤ B) ∧ (j.pc = .add → j.size ≤ B + h) ∧ (∀ n, j.pc = .sub n → n.size ≤ B + h) ∧
    (∀ n, j.pc = .set n → n.size ≤ B + h)
  sent : j.stage = .sent → j.isLocal = true ∧ j.pc = .idle
  denied : j.stage = .denied → j.pc = .idle

structure Inv (c : Cfg) (B h : Nat) (w : World) : Prop where
  ok : ∀ j ∈ w.jobs, Ok B h j
  total : w.total = (sum counted w.jobs : Int)
  heap : w.heap.Perm (w.jobs.flatMap held)
  nodup : w.heap.Nodup
  busy : busy w.jobs ≤ c.threads
  weight : sum (weight h) w.jobs ≤ c.limit * megabyte + c.threads * (B + h)

theorem inv_init (c : Cfg) (B h : Nat) : Inv c B h World.init :=
  ⟨by simp [World.init], rfl, List.Perm.refl _, List.nodup_nil, by simp [JobMem.busy, World.init], by simp [World.init]⟩

/-- what is needed of the new state of one job -/
theorem inv_set {c : Cfg} {B h : Nat} {w : World} {i : Nat} {j k : Job} {t : Int} {hp : List Nat} (hi : Inv c B h w)
    (hj : w.jobs[i]? = some j) (hk : Ok B h k) (ht : t - counted k = w.total - counted j)
    (hh : (hp ++ held j).Perm (w.heap ++ held k)) (hn : hp.Nodup)
    (hb : k.stage = .checked → j.stage = .checked ∨ JobMem.busy w.jobs < c.threads)
    (hw : sum (JobMem.weight h) w.jobs + JobMem.weight h k ≤ c.limit * megabyte + c.threads * (B + h) + JobMem.weight h j) :
    Inv c B h ⟨w.jobs.set i k, t, hp⟩ := by
  obtain ⟨a, b, h1, h2⟩ := split hj
  have hset := h2 k
  refine ⟨?_, ?_, ?_, hn, ?_, ?_⟩
  · intro x hx
    simp only at hx
    rw [hset] at hx
    rcases List.mem_append.1 hx with hx | hx
    · exact hi.ok x (by rw [h1]; simp [hx])
    · rcases List.mem_cons.1 hx with rfl | hx
      · exact hk
      · exact hi.ok x (by rw [h1]; simp [hx])
  · have := hi.total
    simp only [hset]
    rw [h1] at this
    simp only [sum_append, sum_cons] at this ⊢
    push_cast at this ⊢
    omega
  · have := hi.heap
    simp only [hset]
    rw [h1] at this
    simp only [List.flatMap_append, List.flatMap_cons] at this ⊢
    have key : (hp ++ held j).Perm ((a.flatMap held ++ (held k ++ b.flatMap held)) ++ held j) := by
      refine hh.trans ((this.append_right _).trans ?_)
      rw [List.perm_iff_count]
      intro x
      simp only [List.count_append]
      omega
    exact (List.perm_append_right_iff _).1 key
  · have := hi.busy
    simp only [hset, busy_sum]
    rw [busy_sum, h1] at this
    rw [busy_sum, h1] at hb
    simp only [sum_append, sum_cons] at this hb ⊢
    by_cases hc : k.stage = .checked
    · rcases hb hc with e | e
      · simp only [hc, e, if_true] at this ⊢; exact this
      · simp only [hc, if_true]; split at e <;> omega
    · simp only [hc, if_false]; omega
  · simp only [hset]
    rw [h1] at hw
    simp only [sum_append, sum_cons] at hw ⊢
    omega

theorem held_sub {c : Cfg} {B h : Nat} {w : World} {i : Nat} {j : Job} {a : Nat} (hi : Inv c B h w) (hj : w.jobs[i]? = some j)
    (ha : a ∈ held j) : a ∈ w.heap :=
  hi.heap.mem_iff.2 (List.mem_flatMap.2 ⟨j, List.mem_of_getElem? hj, ha⟩)

theorem counted_le {c : Cfg} {B h : Nat} {w : World} {i : Nat} {j : Job} (hi : Inv c B h w) (hj : w.jobs[i]? = some j) :
    (counted j : Int) ≤ w.total := by
  obtain ⟨a, b, h1, -⟩ := split hj
  rw [hi.total, h1]
  simp only [sum_append, sum_cons]
  omega

theorem weight_le {c : Cfg} {B h : Nat} {w : World} (hi : Inv c B h w) {j k : Job} (hk : JobMem.weight h k ≤ JobMem.weight h j) :
    sum (JobMem.weight h) w.jobs + JobMem.weight h k ≤ c.limit * megabyte + c.threads * (B + h) + JobMem.weight h j := by
  have := hi.weight
  omega

/-- the beginning of `OwnData` -/
theorem begin_inv {c : Cfg} {B h : Nat} {w w' : World} {i : Nat} {j : Job} {n : New} {st : Stage} (hi : Inv c B h w)
    (hj : w.jobs[i]? = some j) (hpc : j.pc = .idle) (hf : ∀ b, n.data = some b → b ∉ w.heap)
    (hs : Ok B h { j with pc := .set n, stage := st }) (hu : Ok B h { j with pc := .sub n, stage := st })
    (hc : st = .checked → j.stage = .checked)
    (ws : JobMem.weight h { j with pc := .set n, stage := st } ≤ JobMem.weight h j)
    (wu : JobMem.weight h { j with pc := .sub n, stage := st } ≤ JobMem.weight h j)
    (e : begin { w with heap := n.data.toList ++ w.heap } i j n st = .ok w') : Inv c B h w' := by
  have hnd : (n.data.toList ++ w.heap).Nodup := by
    cases hb : n.data with
    | none => simpa using hi.nodup
    | some b => simpa using ⟨hf b hb, hi.nodup⟩
  have hjo := hi.ok j (List.mem_of_getElem? hj)
  unfold begin at e
  split at e
  · cases e
  split at e
  · cases e
  cases hd : j.data with
  | none =>
    simp only [hd] at e
    cases e
    refine inv_set hi hj (by rw [← hd]; exact hs) ?_ ?_ hnd (fun x => Or.inl (hc x)) (weight_le hi ?_)
    · have h0 := hjo.idle hpc hd
      simp [counted, hpc, h0]
    · simp only [held, hpc, hd, Option.toList_none, List.append_nil]
      exact List.perm_append_comm
    · exact ws
  | some a =>
    simp only [hd] at e
    split at e
    · rename_i ha
      cases e
      refine inv_set hi hj (by rw [← hd]; exact hu) ?_ ?_ (hnd.erase a) (fun x => Or.inl (hc x)) (weight_le hi ?_)
      · simp [counted, hpc]
      · simp only [held, hpc, hd, Option.toList_some]
        refine List.perm_append_comm.trans ((List.perm_cons_erase ha).symm.trans List.perm_append_comm)
      · exact wu
    · cases e

/-- it fails for a buffer that is too big or is the one the job has -/
theorem begin_fault {c : Cfg} {B h : Nat} {w : World} {i : Nat} {j : Job} {n : New} {st : Stage} {f : Fault} (hi : Inv c B h w)
    (hj : w.jobs[i]? = some j) (hpc : j.pc = .idle) (hf : ∀ b, n.data = some b → b ∉ w.heap)
    (e : begin { w with heap := n.data.toList ++ w.heap } i j n st = .error f) :
    f = .tooBig ∧ 0xFFFFFFFF < n.size ∨ f = .same ∧ n.data = none ∧ j.data = none := by
  have hsub : ∀ a, j.data = some a → a ∈ w.heap := fun a ha => held_sub hi hj (by simp [held, hpc, ha])
  unfold begin at e
  split at e
  · cases e; rename_i h; exact Or.inl ⟨rfl, h⟩
  split at e
  · rename_i h
    cases e
    cases hd : j.data with
    | none => exact Or.inr ⟨rfl, by rw [h, hd], rfl⟩
    | some a => exact absurd (hsub a hd) (hf a (by rw [h, hd]))
  cases hd : j.data with
  | none => simp only [hd] at e; cases e
  | some a =>
    simp only [hd] at e
    rw [if_pos (by simp [hsub a hd])] at e
    cases e

/-- the other steps of `OwnData` -/
theorem advance_inv {c : Cfg} {B h : Nat} {w w' : World} {i : Nat} {j : Job} (hi : Inv c B h w) (hj : w.jobs[i]? = some j)
    (e : advance w i j = some (.ok w')) : Inv c B h w' := by
  have hjo := hi.ok j (List.mem_of_getElem? hj)
  unfold advance at e
  cases hpc : j.pc with
  | idle => simp [hpc] at e
  | gone => simp [hpc] at e
  | sub n =>
    have hk : Ok B h { j with pc := .set n } := by
      obtain ⟨o1, o2, o3, o4, o5, o6, o7, o8, o9, o10⟩ := hjo
      refine ⟨?_, ?_, ?_, ?_, ?_, ?_, ?_, ?_, ?_, ?_⟩ <;> simp_all
    have hw : JobMem.weight h { j with pc := .set n } ≤ JobMem.weight h j := by
      unfold JobMem.weight; cases j.stage <;> simp [hpc]
    simp only [hpc] at e
    split at e
    · rename_i hl
      split at e
      · cases e
      · cases e
        refine inv_set hi hj hk ?_ ?_ hi.nodup (fun x => Or.inl x) (weight_le hi hw)
        · simp [counted, hpc, hl]
        · simp only [held, hpc]; exact List.Perm.refl _
    · rename_i hl
      cases e
      refine inv_set hi hj hk ?_ ?_ hi.nodup (fun x => Or.inl x) (weight_le hi hw)
      · simp [counted, hl]
      · simp only [held, hpc]; exact List.Perm.refl _
  | set n =>
    have hk : Ok B h { j with data := n.data, size := n.size, packed := n.packed, pc := .add } := by
      obtain ⟨o1, o2, o3, o4, o5, o6, o7, o8, o9, o10⟩ := hjo
      refine ⟨?_, ?_, ?_, ?_, ?_, ?_, ?_, ?_, ?_, ?_⟩ <;> simp_all
    have hw : JobMem.weight h { j with data := n.data, size := n.size, packed := n.packed, pc := .add } ≤ JobMem.weight h j := by
      have := hjo.sent
      unfold JobMem.weight; cases hs : j.stage <;> simp [hpc]
      simp [hs, hpc] at this
    simp only [hpc] at e
    cases e
    refine inv_set hi hj hk ?_ ?_ hi.nodup (fun x => Or.inl x) (weight_le hi hw)
    · simp [counted, hpc]
    · simp only [held, hpc]; exact List.Perm.refl _
  | add =>
    simp only [hpc] at e
    obtain ⟨o1, o2, o3, o4, o5, o6, o7, o8, o9, o10⟩ := hjo
    cases hs : j.stage with
    | dying =>
      simp only [hs] at e
      have hd := (o6 hs).2.2.2 hpc
      have h0 := o5 hpc hd
      have hk : Ok B h { j with pc := .gone, stage := .dying } := by
        refine ⟨?_, ?_, ?_, ?_, ?_, ?_, ?_, ?_, ?_, ?_⟩ <;> simp_all
      cases e
      refine inv_set hi hj hk ?_ ?_ hi.nodup (fun x => nomatch x) (weight_le hi ?_)
      · simp [counted, hpc, h0]
      · simp only [held, hpc, hd]; exact List.Perm.refl _
      · unfold JobMem.weight; simp [hs]
    | checked =>
      simp only [hs] at e
      have hl := (o8 hs).1
      have hk : Ok B h { j with pc := .idle, stage := .sent } := by
        refine ⟨?_, ?_, ?_, ?_, ?_, ?_, ?_, ?_, ?_, ?_⟩ <;> simp_all
      cases e
      refine inv_set hi hj (k := { j with pc := .idle, stage := .sent }) hk ?_ ?_ hi.nodup (fun x => Or.inl hs) (weight_le hi ?_)
      · simp only [counted, hpc, hl, if_true]; omega
      · simp only [held, hpc]; exact List.Perm.refl _
      · unfold JobMem.weight; simp [hs, hpc]
    | raw =>
      simp only [hs] at e
      have hk : Ok B h { j with pc := .idle, stage := .raw } := by
        refine ⟨?_, ?_, ?_, ?_, ?_, ?_, ?_, ?_, ?_, ?_⟩ <;> simp_all
      cases e
      refine inv_set hi hj hk ?_ ?_ hi.nodup (fun x => nomatch x) (weight_le hi ?_)
      · simp only [counted, hpc]
        by_cases hl : j.isLocal <;> simp [hl]
      · simp only [held, hpc]; exact List.Perm.refl _
      · unfold JobMem.weight; simp [hs]
    | sent => simp [hs, hpc] at o9
    | denied => simp [hs, hpc] at o10

theorem advance_fault {c : Cfg} {B h : Nat} {w : World} {i : Nat} {j : Job} {f : Fault} (hi : Inv c B h w) (hj : w.jobs[i]? = some j) :
    advance w i j ≠ some (.error f) := by
  intro e
  unfold advance at e
  cases hpc : j.pc with
  | sub n =>
    simp only [hpc] at e
    split at e
    · rename_i hl
      have := counted_le hi hj
      simp only [counted, hl, if_true, hpc] at this
      rw [if_neg (by omega)] at e
      cases e
    · cases e
  | _ => simp [hpc] at e

/-- the test of the limit -/
theorem check_weight {c : Cfg} {B h : Nat} {w : World} {i : Nat} {j : Job} (hi : Inv c B h w) (hj : w.jobs[i]? = some j)
    (hpc : j.pc = .idle) (hst : j.stage = .raw) (hl : j.isLocal = true) (hb : JobMem.busy w.jobs < c.threads)
    (hlim : w.total / megabyte < c.limit) :
    sum (JobMem.weight h) w.jobs + JobMem.weight h { j with stage := .checked } ≤
      c.limit * megabyte + c.threads * (B + h) + JobMem.weight h j := by
  have ht := hi.total
  have hlt : w.total < (c.limit * megabyte : Nat) := by
    have h1 : w.total < (megabyte : Int) * (w.total / megabyte) + megabyte := by
      have := Int.mul_ediv_add_emod w.total (megabyte : Int)
      have := Int.emod_lt_of_pos w.total (show (0 : Int) < megabyte by decide)
      omega
    have h2 : w.total / megabyte + 1 ≤ (c.limit : Int) := hlim
    have h3 := Int.mul_le_mul_of_nonneg_left h2 (show (0 : Int) ≤ megabyte by decide)
    push_cast
    rw [Int.mul_comm (c.limit : Int)]
    rw [Int.mul_add, Int.mul_one] at h3
    omega
  have key : ∀ x ∈ w.jobs, JobMem.weight h x ≤ counted x + (if x.stage = .checked then 1 else 0) * (B + h) := by
    intro x hx
    obtain ⟨o1, o2, o3, o4, o5, o6, o7, o8, o9, o10⟩ := hi.ok x hx
    unfold JobMem.weight
    cases hs : x.stage with
    | sent => obtain ⟨p, q⟩ := o9 hs; simp [counted, p, q]
    | checked =>
      obtain ⟨p, q, q1, q2, q3⟩ := o8 hs
      cases hp : x.pc with
      | idle => simp [counted, p, hp]
      | sub n => simp; have := q2 n hp; omega
      | set n => simp; have := q3 n hp; omega
      | add => simp; have := q1 hp; omega
      | gone => have := o2 hp; simp [hs] at this
    | _ => simp
  have hadd : ∀ l : List Job, (∀ x ∈ l, x ∈ w.jobs) → sum (JobMem.weight h) l ≤ sum counted l + JobMem.busy l * (B + h) := by
    intro l
    induction l with
    | nil => simp
    | cons x l ih =>
      intro hx
      have h1 := ih (fun y hy => hx y (by simp [hy]))
      have h2 := key x (hx x (by simp))
      rw [busy_sum] at h1 ⊢
      simp only [sum_cons, Nat.add_mul]
      omega
  obtain ⟨a, b, h1, -⟩ := split hj
  have ha := hadd a (fun x hx => by rw [h1]; simp [hx])
  have hb' := hadd b (fun x hx => by rw [h1]; simp [hx])
  have hwj : JobMem.weight h j = 0 := by simp [JobMem.weight, hst]
  have hwk : JobMem.weight h { j with stage := .checked } = j.size + h := by simp [JobMem.weight, hpc]
  have hcj : counted j = j.size := by simp [counted, hl, hpc]
  have hbusy : JobMem.busy w.jobs = JobMem.busy a + JobMem.busy b := by
    rw [h1]; simp only [busy_sum, sum_append, sum_cons, hst]; simp
  rw [hbusy] at hb
  have hm := Nat.mul_le_mul_right (B + h) (show JobMem.busy a + JobMem.busy b + 1 ≤ c.threads from hb)
  simp only [Nat.add_mul, Nat.one_mul] at hm
  rw [h1] at ht ⊢
  simp only [sum_append, sum_cons, hwj, hwk, hcj] at ht ⊢
  omega

/-! ### every event -/

theorem exec_inv {c : Cfg} {B h : Nat} {w w' : World} {e : Ev} (hi : Inv c B h w) (he : exec c w e = some (.ok w'))
    (ho : ∀ i b s p, e = .own i b s p → s ≤ B)
    (hc : ∀ i b s, e = .compress i b s → ∀ j : Job, w.jobs[i]? = some j → s ≤ j.size + h) : Inv c B h w' := by
  cases e with
  | new l =>
    simp only [exec, Option.some.injEq, Except.ok.injEq] at he
    subst he
    have hf : Ok B h (fresh l) := by
      refine ⟨?_, ?_, ?_, ?_, ?_, ?_, ?_, ?_, ?_, ?_⟩ <;> simp [fresh]
    refine ⟨?_, ?_, ?_, hi.nodup, ?_, ?_⟩
    · intro j hj
      rcases List.mem_append.1 hj with h | h
      · exact hi.ok j h
      · rw [List.mem_singleton.1 h]; exact hf
    · have := hi.total
      simp only [sum_append, sum_cons, sum_nil]
      rw [this]
      cases l <;> simp [counted, fresh]
    · simpa [held, fresh] using hi.heap
    · have := hi.busy
      rw [busy_sum] at this ⊢
      simpa [fresh] using this
    · have := hi.weight
      simpa [JobMem.weight, fresh] using this
  | own i b s p =>
    simp only [exec] at he
    cases hj : w.jobs[i]? with
    | none => simp [hj] at he
    | some j =>
      simp only [hj] at he
      split at he
      · rename_i hg
        have hB := ho i b s p rfl
        have hjo := hi.ok j (List.mem_of_getElem? hj)
        obtain ⟨g1, g2, g3⟩ := hg
        refine begin_inv (n := ⟨some b, s, p⟩) (st := .raw) hi hj g1 (by simpa using g3) ?_ ?_ (by simp) (by simp [JobMem.weight])
          (by simp [JobMem.weight]) (Option.some.inj he)
        · refine ⟨?_, ?_, ?_, ?_, ?_, ?_, ?_, ?_, ?_, ?_⟩ <;> simp [hB]
        · refine ⟨?_, ?_, ?_, ?_, ?_, ?_, ?_, ?_, ?_, ?_⟩ <;> simp [hB]
      · cases he
  | release i =>
    simp only [exec] at he
    cases hj : w.jobs[i]? with
    | none => simp [hj] at he
    | some j =>
      simp only [hj] at he
      split at he
      · rename_i hg
        obtain ⟨g1, g2, g3⟩ := hg
        refine begin_inv (n := ⟨none, 0, false⟩) (st := .raw) hi hj g1 (by simp) ?_ ?_ (by simp) (by simp [JobMem.weight])
          (by simp [JobMem.weight]) (Option.some.inj he)
        · refine ⟨?_, ?_, ?_, ?_, ?_, ?_, ?_, ?_, ?_, ?_⟩ <;> simp
        · refine ⟨?_, ?_, ?_, ?_, ?_, ?_, ?_, ?_, ?_, ?_⟩ <;> simp
      · cases he
  | check i =>
    simp only [exec] at he
    cases hj : w.jobs[i]? with
    | none => simp [hj] at he
    | some j =>
      simp only [hj] at he
      split at he
      · rename_i hg
        obtain ⟨g1, g2, g3, g4, g5⟩ := hg
        have hjo := hi.ok j (List.mem_of_getElem? hj)
        simp only [Option.some.injEq, Except.ok.injEq] at he
        subst he
        obtain ⟨o1, o2, o3, o4, o5, o6, o7, o8, o9, o10⟩ := hjo
        have hsz := (o7 g2).1 (Or.inl g1)
        by_cases hlim : w.total / megabyte < c.limit
        · simp only [hlim, if_true]
          refine inv_set hi hj (k := { j with stage := .checked }) ?_ ?_ ?_ hi.nodup (fun _ => Or.inr g5) (check_weight hi hj g1 g2 g3 g5 hlim)
          · refine ⟨?_, ?_, ?_, ?_, ?_, ?_, ?_, ?_, ?_, ?_⟩ <;> simp_all
          · rfl
          · exact List.Perm.refl _
        · simp only [hlim, if_false]
          refine inv_set hi hj (k := { j with stage := .denied }) ?_ ?_ ?_ hi.nodup (fun x => nomatch x) (weight_le hi ?_)
          · refine ⟨?_, ?_, ?_, ?_, ?_, ?_, ?_, ?_, ?_, ?_⟩ <;> simp_all
          · rfl
          · exact List.Perm.refl _
          · simp [JobMem.weight]
      · cases he
  | compress i b s =>
    simp only [exec] at he
    cases hj : w.jobs[i]? with
    | none => simp [hj] at he
    | some j =>
      simp only [hj] at he
      split at he
      · rename_i hg
        have hB := hc i b s rfl j hj
        obtain ⟨o1, o2, o3, o4, o5, o6, o7, o8, o9, o10⟩ := hi.ok j (List.mem_of_getElem? hj)
        obtain ⟨g1, g2, g3⟩ := hg
        obtain ⟨q1, q2, -⟩ := o8 g2
        have q3 := q2 g1
        have hs : s ≤ B + h := by omega
        refine begin_inv (n := ⟨some b, s, true⟩) (st := .checked) hi hj g1 (by simpa using g3) ?_ ?_ (fun _ => g2)
          (by simp [JobMem.weight, g2, g1, hB]) (by simp [JobMem.weight, g1, g2, hB]) (Option.some.inj he)
        · refine ⟨?_, ?_, ?_, ?_, ?_, ?_, ?_, ?_, ?_, ?_⟩ <;> simp [q1, hs]
        · refine ⟨?_, ?_, ?_, ?_, ?_, ?_, ?_, ?_, ?_, ?_⟩ <;> simp [q1, hs]
      · cases he
  | destroy i =>
    simp only [exec] at he
    cases hj : w.jobs[i]? with
    | none => simp [hj] at he
    | some j =>
      simp only [hj] at he
      split at he
      · rename_i hg
        obtain ⟨g1, g2, g3⟩ := hg
        cases hd : j.data with
        | none =>
          simp only [hd, Option.some.injEq, Except.ok.injEq] at he
          subst he
          have h0 := (hi.ok j (List.mem_of_getElem? hj)).idle g1 hd
          refine inv_set hi hj ?_ ?_ ?_ hi.nodup (fun x => nomatch x) (weight_le hi ?_)
          · refine ⟨?_, ?_, ?_, ?_, ?_, ?_, ?_, ?_, ?_, ?_⟩ <;> simp [h0]
          · simp [counted, g1, h0]
          · simp only [held, g1, hd]; exact List.Perm.refl _
          · simp [JobMem.weight]
        | some a =>
          simp only [hd] at he
          refine begin_inv (n := ⟨none, 0, false⟩) (st := .dying) hi hj g1 (by simp) ?_ ?_ (by simp) (by simp [JobMem.weight])
            (by simp [JobMem.weight]) (Option.some.inj he)
          · refine ⟨?_, ?_, ?_, ?_, ?_, ?_, ?_, ?_, ?_, ?_⟩ <;> simp
          · refine ⟨?_, ?_, ?_, ?_, ?_, ?_, ?_, ?_, ?_, ?_⟩ <;> simp
      · cases he
  | step i =>
    simp only [exec] at he
    cases hj : w.jobs[i]? with
    | none => simp [hj] at he
    | some j => simp only [hj] at he; exact advance_inv hi hj he

theorem reach_inv {c : Cfg} {B h : Nat} {w : World} (hr : Reach c B h w) : Inv c B h w := by
  induction hr with
  | init => exact inv_init c B h
  | step _ he h1 h2 ih => exact exec_inv ih he h1 h2

/-! ### C121 -/

/-- While no thread is inside `OwnData` the total is the sum of the data that local jobs have. -/
theorem C121_total {c : Cfg} {B h : Nat} {w : World} (hr : Reach c B h w) (hq : Quiet w) :
    w.total = bytes (fun j => j.isLocal) w.jobs := by
  have hi := reach_inv hr
  rw [hi.total, bytes_sum]
  congr 1
  unfold sum
  congr 1
  apply List.map_congr_left
  intro j hj
  unfold counted
  rcases hq j hj with e | e
  · simp [e]
  · have := ((hi.ok j hj).gone e).2.1
    simp [e, this]

/-- At all times it is at least zero and at most what local jobs have and had. -/
theorem C121_bounds {c : Cfg} {B h : Nat} {w : World} (hr : Reach c B h w) :
    0 ≤ w.total ∧ w.total ≤ bytes (fun j => j.isLocal) w.jobs := by
  have hi := reach_inv hr
  rw [hi.total, bytes_sum]
  refine ⟨by omega, ?_⟩
  have : sum counted w.jobs ≤ sum (fun j => if j.isLocal = true then j.size else 0) w.jobs := by
    apply sum_le
    intro j _
    unfold counted
    split
    · split <;> omega
    · omega
  exact_mod_cast this

/-- The only assertions that can fail are the one for data of 4 GiB and more, and the one for freeing what is not there: no buffer is freed
twice and the total is never below zero. -/
theorem C121_faults {c : Cfg} {B h : Nat} {w : World} (hr : Reach c B h w) {e : Ev} {f : Fault} (he : exec c w e = some (.error f)) :
    (f = .tooBig ∧ ∃ i b s, ((∃ p, e = .own i b s p) ∨ e = .compress i b s) ∧ 0xFFFFFFFF < s) ∨
    (f = .same ∧ ∃ i j, e = .release i ∧ w.jobs[i]? = some j ∧ j.data = none) := by
  have hi := reach_inv hr
  cases e with
  | new l => simp [exec] at he
  | own i b s p =>
    simp only [exec] at he
    cases hj : w.jobs[i]? with
    | none => simp [hj] at he
    | some j =>
      simp only [hj] at he
      split at he
      · rename_i hg
        rcases begin_fault (n := ⟨some b, s, p⟩) hi hj hg.1 (by simpa using hg.2.2) (Option.some.inj he) with ⟨h1, h2⟩ | ⟨-, h2, -⟩
        · exact Or.inl ⟨h1, i, b, s, Or.inl ⟨p, rfl⟩, h2⟩
        · cases h2
      · cases he
  | release i =>
    simp only [exec] at he
    cases hj : w.jobs[i]? with
    | none => simp [hj] at he
    | some j =>
      simp only [hj] at he
      split at he
      · rename_i hg
        rcases begin_fault (n := ⟨none, 0, false⟩) hi hj hg.1 (by simp) (Option.some.inj he) with ⟨h1, h2⟩ | ⟨h1, -, h2⟩
        · simp at h2
        · exact Or.inr ⟨h1, i, j, rfl, hj, h2⟩
      · cases he
  | check i =>
    simp only [exec] at he
    cases hj : w.jobs[i]? with
    | none => simp [hj] at he
    | some j => simp only [hj] at he; split at he <;> cases he
  | compress i b s =>
    simp only [exec] at he
    cases hj : w.jobs[i]? with
    | none => simp [hj] at he
    | some j =>
      simp only [hj] at he
      split at he
      · rename_i hg
        rcases begin_fault (n := ⟨some b, s, true⟩) hi hj hg.1 (by simpa using hg.2.2) (Option.some.inj he) with ⟨h1, h2⟩ | ⟨-, h2, -⟩
        · exact Or.inl ⟨h1, i, b, s, Or.inr rfl, h2⟩
        · cases h2
      · cases he
  | destroy i =>
    simp only [exec] at he
    cases hj : w.jobs[i]? with
    | none => simp [hj] at he
    | some j =>
      simp only [hj] at he
      split at he
      · rename_i hg
        cases hd : j.data with
        | none => simp [hd] at he
        | some a =>
          simp only [hd] at he
          rcases begin_fault (n := ⟨none, 0, false⟩) hi hj hg.1 (by simp) (Option.some.inj he) with ⟨-, h2⟩ | ⟨-, -, h2⟩
          · simp at h2
          · rw [hd] at h2; cases h2
      · cases he
  | step i =>
    simp only [exec] at he
    cases hj : w.jobs[i]? with
    | none => simp [hj] at he
    | some j => simp only [hj] at he; exact absurd he (advance_fault hi hj)

theorem buffers_flatMap (l : List Job) : buffers l = l.flatMap (fun j => j.data.toList) := by
  induction l with
  | nil => rfl
  | cons j l ih => simp [buffers, ih]

/-- While no thread is inside `OwnData` the buffers allocated are those of the jobs, each of one job. -/
theorem C121_buffers {c : Cfg} {B h : Nat} {w : World} (hr : Reach c B h w) (hq : Quiet w) :
    w.heap.Perm (buffers w.jobs) ∧ (buffers w.jobs).Nodup := by
  have hi := reach_inv hr
  have : w.jobs.flatMap held = buffers w.jobs := by
    rw [buffers_flatMap]
    rw [List.flatMap_def, List.flatMap_def]
    congr 1
    apply List.map_congr_left
    intro j hj
    unfold held
    rcases hq j hj with e | e
    · simp [e]
    · simp [e, ((hi.ok j hj).gone e).1]
  rw [← this]
  exact ⟨hi.heap, hi.heap.nodup_iff.1 hi.nodup⟩

/-- When all jobs were deleted the total is zero and all buffers were freed. -/
theorem C121_end {c : Cfg} {B h : Nat} {w : World} (hr : Reach c B h w) (hg : ∀ j ∈ w.jobs, j.pc = .gone) :
    w.total = 0 ∧ w.heap = [] := by
  have hi := reach_inv hr
  constructor
  · rw [hi.total]
    have : sum counted w.jobs = 0 := by
      have : sum counted w.jobs ≤ sum (fun _ => 0) w.jobs := sum_le (fun j hj => by simp [counted, hg j hj])
      have h0 : ∀ l : List Job, sum (fun _ => 0) l = 0 := fun l => by induction l <;> simp_all
      rw [h0] at this; omega
    rw [this]; rfl
  · have h0 : w.jobs.flatMap held = [] := by
      rw [List.flatMap_eq_nil_iff]
      intro j hj
      simp [held, hg j hj]
    have := hi.heap
    rw [h0] at this
    exact this.eq_nil

/-- The data of jobs that wait for other computers is at most the limit, and one file for each thread. -/
theorem C121_limit {c : Cfg} {B h : Nat} {w : World} (hr : Reach c B h w) :
    bytes Job.waits w.jobs ≤ c.limit * (1024 * 1024) + c.threads * (B + h) := by
  have hi := reach_inv hr
  refine Nat.le_trans ?_ hi.weight
  rw [bytes_sum]
  apply sum_le
  intro j _
  unfold Job.waits JobMem.weight
  by_cases e : j.stage = .sent <;> simp [e]

/-! ### runs -/

/-- whether an event keeps to the sizes -/
def fits (B h : Nat) (w : World) : Ev → Bool
  | .own _ _ s _ => s ≤ B
  | .compress i _ s => match w.jobs[i]? with
    | some j => s ≤ j.size + h
    | none => false
  | _ => true

/-- events one after the other -/
def play (c : Cfg) (B h : Nat) : List Ev → World → Option World
  | [], w => some w
  | e :: es, w =>
    if fits B h w e then
      match exec c w e with
      | some (.ok w') => play c B h es w'
      | _ => none
    else none

theorem play_reach {c : Cfg} {B h : Nat} : ∀ {es : List Ev} {w w' : World}, Reach c B h w → play c B h es w = some w' → Reach c B h w'
  | [], w, w', hr, hp => by cases hp; exact hr
  | e :: es, w, w', hr, hp => by
    unfold play at hp
    split at hp
    · rename_i hf
      split at hp
      · rename_i w1 he
        refine play_reach (Reach.step hr he ?_ ?_) hp
        · rintro i b s p rfl
          simpa [fits] using hf
        · rintro i b s rfl j hj
          simpa [fits, hj] using hf
      · cases hp
    · cases hp

/-- two jobs with data of 1000000 bytes; the second is tested while the data of the first is taken off the total -/
def twoJobs : List Ev := [.new true, .new true, .own 0 7 1000000 false, .step 0, .step 0, .check 0, .compress 0 8 1000000, .step 0,
  .own 1 9 1000000 false, .step 1, .step 1, .check 1, .step 0, .step 0, .compress 1 10 1000000, .step 1, .step 1, .step 1]

/-- both are deleted -/
def bothGone : List Ev := [.destroy 0, .destroy 1, .step 1, .step 0, .step 0, .step 1, .step 1, .step 0]

/-- The limit alone is no bound: with 1 MiB and two threads both jobs wait, with two million bytes. -/
theorem C121_limit_exact_false : ∃ (c : Cfg) (B h : Nat) (w : World), Reach c B h w ∧ c.limit * (1024 * 1024) < bytes Job.waits w.jobs := by
  have hs : (play ⟨1, 2⟩ 1000000 0 twoJobs World.init).any (fun w => 1 * (1024 * 1024) < bytes Job.waits w.jobs) = true := by decide +kernel
  cases hw : play ⟨1, 2⟩ 1000000 0 twoJobs World.init with
  | none => rw [hw] at hs; cases hs
  | some w =>
    rw [hw] at hs
    exact ⟨⟨1, 2⟩, 1000000, 0, w, play_reach .init hw, by simpa using hs⟩

/-- the total on the way, and at the end -/
example : (play ⟨1, 2⟩ 1000000 0 twoJobs World.init).map (fun w => (w.total, w.heap)) = some (2000000, [10, 8]) ∧
    (play ⟨1, 2⟩ 1000000 0 (twoJobs ++ bothGone) World.init).map (fun w => (w.total, w.heap, w.jobs.map (·.pc))) =
      some (0, [], [.gone, .gone]) := by decide +kernel

/-- a test that comes when the data is counted is not passed -/
example : (play ⟨1, 2⟩ 1100000 0 [.new true, .own 0 7 1100000 false, .step 0, .step 0, .check 0] World.init).map
    (fun w => w.jobs.map (·.stage)) = some [.denied] := by decide +kernel

/-- a job of a worker is not in the total, and freeing what is not there is an assertion that fails -/
example : (play ⟨1, 2⟩ 10 0 [.new false, .own 0 7 10 true, .step 0, .step 0] World.init).map (fun w => (w.total, w.heap)) = some (0, [7]) ∧
    (play ⟨1, 2⟩ 10 0 [.new false] World.init).bind (fun w => (exec ⟨1, 2⟩ w (.release 0)).map
      (fun r => match r with | .ok _ => none | .error f => some f)) = some (some .same) := by decide +kernel

end Verif.JobMem
