import Verif.Incr.Lemmas
/-! Why nodes are rebuilt: invariants behind C10 and C11. -/
namespace Verif.Incr
open Verif.Sched

/-- the node still is what the database says -/
def Same (db g : G) (n : Nat) : Prop :=
  (g.node n).stamp = (db.node n).stamp ∧ (g.node n).static = (db.node n).static ∧
    (g.node n).dyn = (db.node n).dyn

/-- a reason that is known for good: the changed dependency is up to date -/
def Reason' (K : Kinds) (X : Nat → Prop) (db : G) (fs0 : Disk) (g : G) (n : Nat) : Prop :=
  X n ∨ K.always n = true ∨ (db.node n).stamp = 0 ∨
  (K.isFile n = true ∧ (fs0 n = 0 ∨ fs0 n ≠ (db.node n).stamp)) ∨
  ∃ d ∈ (db.node n).static ++ (db.node n).dyn, d.weak = false ∧
    (g.node d.node).st = .upToDate ∧ Changed g d

/-- no static reason -/
structure Clean (K : Kinds) (db : G) (fs0 : Disk) (g : G) (n : Nat) (l : List Dep) : Prop where
  same : Same db g n
  always : K.always n = false
  stamp : (db.node n).stamp ≠ 0
  file : K.isFile n = true → fs0 n ≠ 0 ∧ fs0 n = (db.node n).stamp
  deps : ∀ d ∈ l, d.weak = false → (g.node d.node).st = .upToDate ∧ ¬ Changed g d

structure RBn (K : Kinds) (X : Nat → Prop) (db : G) (fs0 fs : Disk) (g : G) (n : Nat) : Prop where
  early : (g.node n).st = .notProcessed ∨ (g.node n).st = .staticDeps → Same db g n
  dyn : (g.node n).st = .dynamicDeps → Clean K db fs0 g n (db.node n).static ∨
    ((g.node n).stamp = 0 ∧ Reason' K X db fs0 g n)
  log : n ∈ g.log → Reason' K X db fs0 g n
  up : (g.node n).st = .upToDate → n ∉ g.log →
    Clean K db fs0 g n ((db.node n).static ++ (db.node n).dyn)
  disk : n ∉ g.log → fs n = fs0 n

structure RB (K : Kinds) (X : Nat → Prop) (db : G) (fs0 fs : Disk) (g : G) : Prop where
  node : ∀ n, K.source n = false → RBn K X db fs0 fs g n
  building : ∀ n, (g.node n).st = .building → n ∈ g.log
  srcUp : ∀ n, K.isFile n = true → (g.node n).st = .upToDate → fs n = (g.node n).stamp
  srcDyn : ∀ n, K.isFile n = true → (g.node n).st = .dynamicDeps → (g.node n).stamp ≠ 0 →
    fs n = (g.node n).stamp

/-- up to date nodes are left alone -/
def KeepUp (g g' : G) : Prop := ∀ x, (g.node x).st = .upToDate →
  (g'.node x).st = .upToDate ∧ (g'.node x).stamp = (g.node x).stamp

theorem KeepUp.changed {g g' : G} (k : KeepUp g g') {d : Dep} (h : (g.node d.node).st = .upToDate) :
    Changed g' d ↔ Changed g d := by unfold Changed; rw [(k _ h).2]

theorem KeepUp.reason {K : Kinds} {X : Nat → Prop} {db g g' : G} {fs0 : Disk} {n : Nat}
    (k : KeepUp g g') (h : Reason' K X db fs0 g n) : Reason' K X db fs0 g' n := by
  rcases h with h | h | h | h | ⟨d, h1, h2, h3, h4⟩
  · exact Or.inl h
  · exact Or.inr (Or.inl h)
  · exact Or.inr (Or.inr (Or.inl h))
  · exact Or.inr (Or.inr (Or.inr (Or.inl h)))
  · exact Or.inr (Or.inr (Or.inr (Or.inr ⟨d, h1, h2, (k _ h3).1, (k.changed h3).2 h4⟩)))

theorem KeepUp.clean {K : Kinds} {db g g' : G} {fs0 : Disk} {n : Nat} {l : List Dep}
    (k : KeepUp g g') (hs : Same db g' n) (h : Clean K db fs0 g n l) : Clean K db fs0 g' n l :=
  ⟨hs, h.always, h.stamp, h.file, fun d hd hw =>
    ⟨(k _ (h.deps d hd hw).1).1, fun hc => (h.deps d hd hw).2 ((k.changed (h.deps d hd hw).1).1 hc)⟩⟩

/-- a node whose own fields did not change -/
theorem RBn.mono {K : Kinds} {X : Nat → Prop} {db g g' : G} {fs0 fs fs' : Disk} {n : Nat}
    (k : KeepUp g g') (e : (g'.node n).st = (g.node n).st ∧ (g'.node n).stamp = (g.node n).stamp ∧
      (g'.node n).static = (g.node n).static ∧ (g'.node n).dyn = (g.node n).dyn)
    (hl : n ∈ g'.log ↔ n ∈ g.log) (hf : n ∉ g.log → fs' n = fs n) (r : RBn K X db fs0 fs g n) :
    RBn K X db fs0 fs' g' n := by
  obtain ⟨e1, e2, e3, e4⟩ := e
  have sm : Same db g n → Same db g' n := by unfold Same; rw [e2, e3, e4]; exact id
  refine ⟨fun h => ?_, fun h => ?_, fun h => ?_, fun h h' => ?_, fun h => ?_⟩
  · rw [e1] at h; exact sm (r.early h)
  · rw [e1] at h; rw [e2]
    exact (r.dyn h).imp (fun c => k.clean (sm c.same) c) (fun c => ⟨c.1, k.reason c.2⟩)
  · exact k.reason (r.log (hl.1 h))
  · rw [e1] at h
    have c := r.up h (fun x => h' (hl.2 x)); exact k.clean (sm c.same) c
  · have h' := fun x => h (hl.2 x)
    rw [hf h']; exact r.disk h'

theorem rb_local {K : Kinds} {X : Nat → Prop} {db g g' : G} {fs0 fs : Disk} (n : Nat)
    (hx : ∀ x, x ≠ n → g'.node x = g.node x) (hn : (g.node n).st ≠ .upToDate)
    (hl : ∀ x, x ≠ n → (x ∈ g'.log ↔ x ∈ g.log))
    (R : RB K X db fs0 fs g) (h1 : K.source n = false → RBn K X db fs0 fs g' n)
    (h2 : (g'.node n).st = .building → n ∈ g'.log)
    (h3 : K.isFile n = true → (g'.node n).st = .upToDate → fs n = (g'.node n).stamp)
    (h4 : K.isFile n = true → (g'.node n).st = .dynamicDeps → (g'.node n).stamp ≠ 0 →
      fs n = (g'.node n).stamp) : RB K X db fs0 fs g' := by
  have k : KeepUp g g' := by
    intro x hu
    have : x ≠ n := by rintro rfl; exact hn hu
    rw [hx x this]; exact ⟨hu, rfl⟩
  refine ⟨fun x hs => ?_, fun x hb => ?_, fun x hf hu => ?_, fun x hf hd h0 => ?_⟩
  all_goals by_cases h : x = n
  · subst h; exact h1 hs
  · exact (R.node x hs).mono k (by rw [hx x h]; exact ⟨rfl, rfl, rfl, rfl⟩) (hl x h) (fun _ => rfl)
  · subst h; exact h2 hb
  · rw [hx x h] at hb; exact (hl x h).2 (R.building x hb)
  · subst h; exact h3 hf hu
  · rw [hx x h] at hu ⊢; exact R.srcUp x hf hu
  · subst h; exact h4 hf hd h0
  · rw [hx x h] at hd h0 ⊢; exact R.srcDyn x hf hd h0

theorem rb_same {K : Kinds} {X : Nat → Prop} {db g g' : G} {fs0 fs : Disk}
    (h : ∀ x, (g'.node x).st = (g.node x).st ∧ (g'.node x).stamp = (g.node x).stamp ∧
      (g'.node x).static = (g.node x).static ∧ (g'.node x).dyn = (g.node x).dyn)
    (hl : g'.log = g.log) (R : RB K X db fs0 fs g) : RB K X db fs0 fs g' := by
  have k : KeepUp g g' := fun x hu => ⟨(h x).1.trans hu, (h x).2.1⟩
  refine ⟨fun x hs => (R.node x hs).mono k (h x) (by rw [hl]) (fun _ => rfl), fun x hb => ?_,
    fun x hf hu => ?_, fun x hf hd h0 => ?_⟩
  · rw [(h x).1] at hb; rw [hl]; exact R.building x hb
  · rw [(h x).1] at hu; rw [(h x).2.1]; exact R.srcUp x hf hu
  · rw [(h x).1] at hd; rw [(h x).2.1] at h0 ⊢; exact R.srcDyn x hf hd h0

theorem changed_of {g : G} {l : List Dep} (h : needDeps g l = true) :
    ∃ d ∈ l, d.weak = false ∧ Changed g d := by
  unfold needDeps at h
  rw [List.any_eq_true] at h
  obtain ⟨d, hd, h⟩ := h
  simp only [Bool.and_eq_true, Bool.not_eq_true', Bool.or_eq_true, beq_iff_eq, bne_iff_ne] at h
  exact ⟨d, hd, h.1, h.2⟩

theorem rb_closed {K : Kinds} {X : Nat → Prop} {db : G} {fs0 fs : Disk} {i : SweepIn}
    (hX : ∀ n g, (i.forceClean = true ∨ i.extra g n = true) → X n) :
    CClosed (envOf K fs i) Any (RB K X db fs0 fs) := by
  have statReason : ∀ g n, Sched.Inv g → RB K X db fs0 fs g → (g.node n).st = .staticDeps →
      (∀ d ∈ ids (g.node n).static, (g.node d).st = .upToDate) → K.source n = false →
      ((envOf K fs i).forceClean = true ∨ (envOf K fs i).needStatic g n = true) →
      Reason' K X db fs0 g n := by
    intro g n I R hst hup hs hneed
    have r := R.node n hs
    obtain ⟨s1, s2, s3⟩ := r.early (Or.inr hst)
    have hnl : n ∉ g.log := fun h => by have := I.log n h; rw [hst] at this; simp [St.rank] at this
    rcases hneed with h | h
    · exact Or.inl (hX n g (Or.inl h))
    · simp only [envOf, Bool.or_eq_true] at h
      rcases h with h | h
      · exact Or.inl (hX n g (Or.inr h))
      · simp only [needStatic, Bool.or_eq_true, Bool.and_eq_true, beq_iff_eq, bne_iff_ne] at h
        rcases h with ((h | h) | h) | h
        · exact Or.inr (Or.inl h)
        · exact Or.inr (Or.inr (Or.inl (s1 ▸ h)))
        · refine Or.inr (Or.inr (Or.inr (Or.inl ⟨h.1, ?_⟩)))
          rw [r.disk hnl, s1] at h; exact h.2
        · obtain ⟨d, hd, hw, hc⟩ := changed_of h
          refine Or.inr (Or.inr (Or.inr (Or.inr ⟨d, ?_, hw, hup _ (List.mem_map_of_mem hd), hc⟩)))
          rw [s2] at hd; exact List.mem_append_left _ hd
  have notLog : ∀ g n, Sched.Inv g → (g.node n).st.rank < 3 → n ∉ g.log := by
    intro g n I h hl; have := I.log n hl; omega
  constructor
  · intros; trivial
  · intro g n _ R _
    refine rb_same (g := g) (fun x => ?_) rfl R
    simp only [G.setTag, upd_node]; split <;> simp
  · -- fail
    intro g n I R _ hr
    have hn : (g.node n).st ≠ .upToDate := by
      rcases hr with hr | hr
      · intro h; rw [h] at hr; simp [St.rank] at hr
      · rw [hr]; simp
    have k : KeepUp g (g.setSt n .failed) := by
      intro x hu
      have : x ≠ n := by rintro rfl; exact hn hu
      simp [G.setSt, this, hu]
    refine rb_local (g := g) n (fun x hx => by simp [G.setSt, hx]) hn (fun _ _ => Iff.rfl) R (fun hs => ?_)
      (by simp [G.setSt]) (by simp [G.setSt]) (by simp [G.setSt])
    have r := R.node n hs
    refine ⟨by simp [G.setSt], by simp [G.setSt], fun h => k.reason (r.log h), by simp [G.setSt],
      fun h => r.disk h⟩
  · -- toStatic
    intro g n I R _ hst
    refine rb_local (g := g) n (fun x hx => by simp [G.setSt, hx]) (by simp [hst]) (fun _ _ => Iff.rfl) R
      (fun hs => ?_) (by simp [G.setSt]) (by simp [G.setSt]) (by simp [G.setSt])
    have r := R.node n hs
    have nl := notLog g n I (by simp [hst, St.rank])
    refine ⟨fun _ => ?_, by simp [G.setSt], fun h => absurd h nl, by simp [G.setSt], fun h => r.disk h⟩
    have := r.early (Or.inl hst); simpa [Same, G.setSt] using this
  · -- skip
    intro g n I R _ hst hup _ hneed
    simp only [envOf, Bool.or_eq_false_iff] at hneed
    obtain ⟨a, b, c, d⟩ := needStatic_false hneed.2
    have nl := notLog g n I (by simp [hst, St.rank])
    have k : KeepUp g (g.setSt n .dynamicDeps) := by
      intro x hu
      have : x ≠ n := by rintro rfl; rw [hst] at hu; cases hu
      simp [G.setSt, this, hu]
    refine rb_local (g := g) n (fun x hx => by simp [G.setSt, hx]) (by simp [hst]) (fun _ _ => Iff.rfl) R
      (fun hs => ?_) (by simp [G.setSt]) (by simp [G.setSt]) ?_
    · have r := R.node n hs
      have sm := r.early (Or.inr hst)
      have sm' : Same db (g.setSt n .dynamicDeps) n := by simpa [Same, G.setSt] using sm
      refine ⟨by simp [G.setSt], fun _ => Or.inl ?_, fun h => absurd h nl, by simp [G.setSt],
        fun h => r.disk h⟩
      refine k.clean sm' ⟨sm, a, sm.1 ▸ b, fun hf => ?_, fun dd hd hw => ?_⟩
      · rw [← r.disk nl, ← sm.1]; exact c hf
      · rw [← sm.2.1] at hd
        have := needDeps_false d dd hd hw
        refine ⟨hup _ (List.mem_map_of_mem hd), ?_⟩
        unfold Changed
        rintro (h | h)
        · exact this.1 h
        · exact h this.2
    · intro hf _ _
      simp only [G.setSt, upd_node, if_true]; exact (c hf).2
  · -- dynFail
    intro g n I R _ hst hup hneed _
    have nl := notLog g n I (by simp [hst, St.rank])
    refine rb_local (g := g) n (fun x hx => by simp [G.cleared, hx]) (by simp [hst]) (fun _ _ => Iff.rfl) R
      (fun hs => ?_) (by simp) (by simp) (by simp)
    exact ⟨by simp, by simp, fun h => absurd h nl, by simp, fun h => (R.node n hs).disk h⟩
  · -- dynOk
    intro g n ds I R _ hst hup hneed _
    have nl := notLog g n I (by simp [hst, St.rank])
    have k : KeepUp g ((g.cleared n).upd n (fun nd => { nd with st := .dynamicDeps, dyn := ds })) := by
      intro x hu
      have : x ≠ n := by rintro rfl; rw [hst] at hu; cases hu
      simp [G.cleared, this, hu]
    refine rb_local (g := g) n (fun x hx => by simp [G.cleared, hx]) (by simp [hst]) (fun _ _ => Iff.rfl) R
      (fun hs => ?_) (by simp) (by simp) (fun _ _ h => by simp [G.cleared] at h)
    exact ⟨by simp, fun _ => Or.inr ⟨by simp [G.cleared], k.reason (statReason g n I R hst hup hs hneed)⟩,
      fun h => absurd h nl, by simp, fun h => (R.node n hs).disk h⟩
  · -- enqueue
    intro g n I R _ hst hall hneed
    have nl := notLog g n I (by simp [hst, St.rank])
    have k : KeepUp g ((g.note n).enqueue n) := by
      intro x hu
      have : x ≠ n := by rintro rfl; rw [hst] at hu; cases hu
      simp [G.enqueue, G.setSt, G.note, this, hu]
    refine rb_local (g := g) n (fun x hx => by simp [G.enqueue, G.setSt, G.note, hx]) (by simp [hst])
      (fun x hx => by simp [G.enqueue, G.setSt, G.note, hx]) R (fun hs => ?_)
      (by simp [G.enqueue]) (by simp [G.enqueue, G.setSt]) (by simp [G.enqueue, G.setSt])
    have r := R.node n hs
    refine ⟨by simp [G.enqueue, G.setSt], by simp [G.enqueue, G.setSt], fun _ => k.reason ?_,
      by simp [G.enqueue, G.setSt], fun h => absurd (by simp [G.enqueue]) h⟩
    rcases r.dyn hst with c | c
    · rcases hneed with h | h
      · exact absurd (c.same.1 ▸ h) c.stamp
      · have h' : needDeps g (g.node n).dyn = true := by
          simpa [envOf, needDyn, needDeps, G.note] using h
        obtain ⟨d, hd, hw, hc⟩ := changed_of h'
        refine Or.inr (Or.inr (Or.inr (Or.inr ⟨d, ?_, hw, hall _ ?_, hc⟩)))
        · rw [c.same.2.2] at hd; exact List.mem_append_right _ hd
        · simp only [Node.allDeps, List.mem_append]; exact Or.inr (List.mem_map_of_mem hd)
    · exact c.2
  · -- done
    intro g n I R _ hst hall hs0 hnd
    have nl := notLog g n I (by simp [hst, St.rank])
    have hnd' : needDeps g (g.node n).dyn = false := by
      simpa [envOf, needDyn, needDeps, G.note] using hnd
    have k : KeepUp g ((g.note n).setSt n .upToDate) := by
      intro x hu
      have : x ≠ n := by rintro rfl; rw [hst] at hu; cases hu
      simp [G.setSt, G.note, this, hu]
    refine rb_local (g := g) n (fun x hx => by simp [G.setSt, G.note, hx]) (by simp [hst])
      (fun x hx => Iff.rfl) R (fun hs => ?_)
      (by simp [G.setSt]) (fun hf _ => ?_) (by simp [G.setSt])
    · have r := R.node n hs
      refine ⟨by simp [G.setSt], by simp [G.setSt], fun h => absurd h nl, fun _ _ => ?_,
        fun h => r.disk h⟩
      rcases r.dyn hst with c | c
      · refine k.clean (by have := c.same; simpa [Same, G.setSt, G.note] using this)
          ⟨c.same, c.always, c.stamp, c.file, fun d hd hw => ?_⟩
        rcases List.mem_append.1 hd with h | h
        · exact c.deps d h hw
        · rw [← c.same.2.2] at h
          have := needDeps_false hnd' d h hw
          refine ⟨hall _ (by simp only [Node.allDeps, List.mem_append]; exact Or.inr (List.mem_map_of_mem h)), ?_⟩
          unfold Changed
          rintro (h | h)
          · exact this.1 h
          · exact h this.2
      · exact absurd c.1 hs0
    · simp only [G.setSt, G.note, upd_node, if_true]; exact R.srcDyn n hf hst hs0

theorem rb_stamps {K : Kinds} {X : Nat → Prop} {db g : G} {fs0 fs : Disk} {l : List (Nat × Nat)}
    (h : StampsOK K fs l) (R : RB K X db fs0 fs g) : RB K X db fs0 fs (g.setStamps l) := by
  have st := setStamps_st l g
  have k : KeepUp g (g.setStamps l) := by
    intro x hu
    refine ⟨(st x).1.trans hu, ?_⟩
    rcases setStamps_stamp l h g x with hh | ⟨_, hf, hv⟩
    · exact hh
    · rw [hv]; exact R.srcUp x hf hu
  refine ⟨fun x hs => (R.node x hs).mono k ⟨(st x).1, ?_, (st x).2.2.1, (st x).2.2.2.1⟩
    (by rw [(st x).2.2.2.2.2.2.1]) (fun _ => rfl), fun x hb => ?_, fun x hf hu => ?_, fun x hf hd h0 => ?_⟩
  · rcases setStamps_stamp l h g x with hh | ⟨hh, _⟩
    · exact hh
    · rw [hs] at hh; cases hh
  · rw [(st x).1] at hb; rw [(st x).2.2.2.2.2.2.1]; exact R.building x hb
  · rw [(st x).1] at hu; rw [(k x hu).2]; exact R.srcUp x hf hu
  · rw [(st x).1] at hd
    rcases setStamps_stamp l h g x with hh | hh
    · rw [hh] at h0 ⊢; exact R.srcDyn x hf hd h0
    · exact hh.2.2.symm

theorem rb_finish {K : Kinds} {X : Nat → Prop} {db : G} {fs0 : Disk} {w : World} {n : Nat} {r : Res}
    (hb : (w.g.node n).st = .building) (R : RB K X db fs0 w.fs w.g) :
    RB K X db fs0 w.fs (finish w.g n (outcome K w.fs w.g n r)) := by
  have F := finish_fin w.g n (outcome K w.fs w.g n r)
  -- generic argument from a graph differing from `finish ..` in node n only
  have gen : ∀ g1 g2 : G, RB K X db fs0 w.fs g1 → (g1.node n).st = .building →
      (∀ x, x ≠ n → g2.node x = g1.node x) → g2.log = g1.log →
      ((g2.node n).st = .failed ∨ ((g2.node n).st = .upToDate ∧
        (K.isFile n = true → w.fs n = (g2.node n).stamp))) → RB K X db fs0 w.fs g2 := by
    intro g1 g2 R1 hb1 hx hl hst
    have k : KeepUp g1 g2 := by
      intro x hu
      have : x ≠ n := by rintro rfl; rw [hb1] at hu; cases hu
      rw [hx x this]; exact ⟨hu, rfl⟩
    have hin := R1.building n hb1
    refine rb_local (g := g1) n hx (by simp [hb1]) (fun x _ => by rw [hl]) R1 (fun hs => ?_) ?_ ?_ ?_
    · have r := R1.node n hs
      refine ⟨?_, ?_, fun h => k.reason (r.log (hl ▸ h)), fun _ h => absurd (by rw [hl]; exact hin) h,
        fun h => absurd (by rw [hl]; exact hin) h⟩
      · intro h; rcases hst with h' | h' <;> simp_all
      · intro h; rcases hst with h' | h' <;> simp_all
    · intro h; rw [hl]; exact hin
    · intro hf h; rcases hst with h' | h'
      · rw [h'] at h; cases h
      · exact h'.2 hf
    · intro hf h; rcases hst with h' | h'
      · rw [h'] at h; cases h
      · rw [h'.1] at h; cases h
  cases r with
  | ok virt disc =>
    have hso := firstSeen_ok K w.fs w.g disc
    have st := setStamps_st (firstSeen K w.fs w.g disc) w.g
    refine gen _ _ (rb_stamps hso R) ((st n).1.trans hb) (fun x hx => by simp [outcome, finish, hx]) rfl
      (Or.inr ⟨by simp [outcome, finish], fun hf => by simp [outcome, finish, hf]⟩)
  | finalizeFailed pd =>
    exact gen _ _ R hb (fun x hx => by simp [outcome, finish, hx]) rfl (Or.inl (by simp [outcome, finish]))
  | failed z =>
    exact gen _ _ R hb (fun x hx => by simp [outcome, finish, hx]) rfl (Or.inl (by simp [outcome, finish]))
  | aborted => exact R

theorem rb_run {K : Kinds} {X : Nat → Prop} {db : G} {fs0 : Disk} {fuel : Nat} {ts : List Nat}
    (evs : List IEv) : ∀ {w w' : World}, (∀ n, Forced evs n → X n) → Inv w.g → ProxyInv ts w.g →
      RB K X db fs0 w.fs w.g → irun K fuel ts w evs = some w' →
      RB K X db fs0 w'.fs w'.g ∧ Inv w'.g ∧ ProxyInv ts w'.g := by
  induction evs with
  | nil =>
    intro w w' _ I Q R h
    simp only [irun, Option.some.injEq] at h; subst h; exact ⟨R, I, Q⟩
  | cons ev evs ih =>
    intro w w' hX I Q R h
    have hX' : ∀ n, Forced evs n → X n := fun n ⟨i, hi, hh⟩ => hX n ⟨i, List.mem_cons_of_mem _ hi, hh⟩
    simp only [irun] at h
    split at h
    · cases h
    · rename_i w1 hs
      cases ev with
      | sweep i =>
        simp only [istep, Option.map_eq_some_iff] at hs
        obtain ⟨g', hg, rfl⟩ := hs
        obtain ⟨-, b, c⟩ := pass_ok I Q hg
        refine ih (w := { w with g := g' }) hX' b c ?_ h
        refine cpres_pass (rb_closed (i := i) fun n g hh => hX n ⟨i, List.mem_cons_self, ?_⟩)
          (fun _ _ => trivial) I R (fun g s R => rb_same (g := g) (fun _ => ⟨rfl, rfl, rfl, rfl⟩) rfl R)
          (fun g s R => rb_same (g := g) (fun _ => ⟨rfl, rfl, rfl, rfl⟩) rfl R) hg
        exact hh.imp id (fun h => ⟨g, h⟩)
      | write n s =>
        simp only [istep] at hs
        split at hs
        · rename_i hc
          cases hs
          refine ih (w := { w with fs := fun x => if x = n then s else w.fs x }) hX' I Q ?_ h
          have hin := R.building n hc.1
          refine ⟨fun x hsr => ?_, R.building, fun x hf hu => ?_, fun x hf hd h0 => ?_⟩
          · refine (R.node x hsr).mono (fun x h => ⟨h, rfl⟩) ⟨rfl, rfl, rfl, rfl⟩ Iff.rfl (fun hnl => ?_)
            have : x ≠ n := by rintro rfl; exact hnl hin
            simp [this]
          · have : x ≠ n := by rintro rfl; rw [hc.1] at hu; cases hu
            simp [this]; exact R.srcUp x hf hu
          · have : x ≠ n := by rintro rfl; rw [hc.1] at hd; cases hd
            simp [this]; exact R.srcDyn x hf hd h0
        · cases hs
      | finish n r =>
        simp only [istep] at hs
        split at hs
        · rename_i hb
          cases hs
          have := step_ok (g' := finish w.g n (outcome K w.fs w.g n r)) (fuel := fuel)
            (ev := .finish n (outcome K w.fs w.g n r)) I Q (by simp [step, hb])
          exact ih (w := { w with g := finish w.g n (outcome K w.fs w.g n r) }) hX' this.2.1 this.2.2
            (rb_finish hb R) h
        · cases hs

theorem rb_load {K : Kinds} {X : Nat → Prop} {db : G} {fs : Disk} : RB K X db fs fs (load db) where
  node n _ := ⟨fun _ => ⟨rfl, rfl, rfl⟩, by simp [load], by simp [load], by simp [load], fun _ => rfl⟩
  building n h := by simp [load] at h
  srcUp n _ h := by simp [load] at h
  srcDyn n _ h := by simp [load] at h

theorem rb_build {K : Kinds} {db : G} {fs : Disk} {fuel : Nat} {ts : List Nat} {evs : List IEv}
    {w : World} (h : irun K fuel ts ⟨load db, fs⟩ evs = some w) :
    RB K (Forced evs) db fs w.fs w.g ∧ Inv w.g ∧ ProxyInv ts w.g :=
  have i0 := init_inv (load_init db) ts
  rb_run evs (fun _ h => h) i0.1 i0.2 rb_load h

/-! ### Nodes that were found to need building -/

/-- the node needs building whatever happens to its own output: never built, or a recorded dependency
differs -/
def Needs (g : G) (n : Nat) : Prop :=
  (g.node n).stamp = 0 ∨ ∃ d ∈ (g.node n).static ++ (g.node n).dyn, d.weak = false ∧
    (g.node d.node).st = .upToDate ∧ Changed g d

/-- queued nodes that are not (yet) successfully built still need building -/
structure PB (K : Kinds) (fs : Disk) (g : G) : Prop where
  need : ∀ n, K.source n = false → n ∈ g.log → (g.node n).st ≠ .upToDate → Needs g n
  building : ∀ n, (g.node n).st = .building → n ∈ g.log
  srcUp : ∀ n, K.isFile n = true → (g.node n).st = .upToDate → fs n = (g.node n).stamp
  srcDyn : ∀ n, K.isFile n = true → (g.node n).st = .dynamicDeps → (g.node n).stamp ≠ 0 →
    fs n = (g.node n).stamp

theorem KeepUp.needs {g g' : G} {n : Nat} (k : KeepUp g g')
    (e : (g'.node n).stamp = (g.node n).stamp ∧ (g'.node n).static = (g.node n).static ∧
      (g'.node n).dyn = (g.node n).dyn) (h : Needs g n) : Needs g' n := by
  obtain ⟨e1, e2, e3⟩ := e
  rcases h with h | ⟨d, h1, h2, h3, h4⟩
  · exact Or.inl (e1.trans h)
  · exact Or.inr ⟨d, by rw [e2, e3]; exact h1, h2, (k _ h3).1, (k.changed h3).2 h4⟩

theorem pb_local {K : Kinds} {g g' : G} {fs : Disk} (n : Nat)
    (hx : ∀ x, x ≠ n → g'.node x = g.node x) (hn : (g.node n).st ≠ .upToDate)
    (hl : ∀ x, x ≠ n → (x ∈ g'.log ↔ x ∈ g.log)) (R : PB K fs g)
    (h1 : K.source n = false → n ∈ g'.log → (g'.node n).st ≠ .upToDate → Needs g' n)
    (h2 : (g'.node n).st = .building → n ∈ g'.log)
    (h3 : K.isFile n = true → (g'.node n).st = .upToDate → fs n = (g'.node n).stamp)
    (h4 : K.isFile n = true → (g'.node n).st = .dynamicDeps → (g'.node n).stamp ≠ 0 →
      fs n = (g'.node n).stamp) : PB K fs g' := by
  have k : KeepUp g g' := by
    intro x hu
    have : x ≠ n := by rintro rfl; exact hn hu
    rw [hx x this]; exact ⟨hu, rfl⟩
  refine ⟨fun x hs hin hu => ?_, fun x hb => ?_, fun x hf hu => ?_, fun x hf hd h0 => ?_⟩
  all_goals by_cases h : x = n
  · subst h; exact h1 hs hin hu
  · rw [hx x h] at hu
    exact k.needs (by rw [hx x h]; exact ⟨rfl, rfl, rfl⟩) (R.need x hs ((hl x h).1 hin) hu)
  · subst h; exact h2 hb
  · rw [hx x h] at hb; exact (hl x h).2 (R.building x hb)
  · subst h; exact h3 hf hu
  · rw [hx x h] at hu ⊢; exact R.srcUp x hf hu
  · subst h; exact h4 hf hd h0
  · rw [hx x h] at hd h0 ⊢; exact R.srcDyn x hf hd h0

theorem pb_same {K : Kinds} {g g' : G} {fs : Disk}
    (h : ∀ x, (g'.node x).st = (g.node x).st ∧ (g'.node x).stamp = (g.node x).stamp ∧
      (g'.node x).static = (g.node x).static ∧ (g'.node x).dyn = (g.node x).dyn)
    (hl : g'.log = g.log) (R : PB K fs g) : PB K fs g' := by
  have k : KeepUp g g' := fun x hu => ⟨(h x).1.trans hu, (h x).2.1⟩
  refine ⟨fun x hs hin hu => ?_, fun x hb => ?_, fun x hf hu => ?_, fun x hf hd h0 => ?_⟩
  · rw [(h x).1] at hu; exact k.needs (h x).2 (R.need x hs (hl ▸ hin) hu)
  · rw [(h x).1] at hb; rw [hl]; exact R.building x hb
  · rw [(h x).1] at hu; rw [(h x).2.1]; exact R.srcUp x hf hu
  · rw [(h x).1] at hd; rw [(h x).2.1] at h0 ⊢; exact R.srcDyn x hf hd h0

theorem pb_closed {K : Kinds} {fs : Disk} {i : SweepIn} : CClosed (envOf K fs i) Any (PB K fs) := by
  have notLog : ∀ g n, Sched.Inv g → (g.node n).st.rank < 3 → n ∉ g.log := by
    intro g n I h hl; have := I.log n hl; omega
  constructor
  · intros; trivial
  · intro g n _ R _
    refine pb_same (g := g) (fun x => ?_) rfl R
    simp only [G.setTag, upd_node]; split <;> simp
  · intro g n I R _ hr
    have hn : (g.node n).st ≠ .upToDate := by
      rcases hr with hr | hr
      · intro h; rw [h] at hr; simp [St.rank] at hr
      · rw [hr]; simp
    have k : KeepUp g (g.setSt n .failed) := by
      intro x hu
      have : x ≠ n := by rintro rfl; exact hn hu
      simp [G.setSt, this, hu]
    refine pb_local (g := g) n (fun x hx => by simp [G.setSt, hx]) hn (fun _ _ => Iff.rfl) R
      (fun hs hin _ => k.needs (by simp [G.setSt]) (R.need n hs hin hn))
      (by simp [G.setSt]) (by simp [G.setSt]) (by simp [G.setSt])
  · intro g n I R _ hst
    have nl := notLog g n I (by simp [hst, St.rank])
    exact pb_local (g := g) n (fun x hx => by simp [G.setSt, hx]) (by simp [hst]) (fun _ _ => Iff.rfl) R
      (fun _ h => absurd h nl) (by simp [G.setSt]) (by simp [G.setSt]) (by simp [G.setSt])
  · intro g n I R _ hst hup _ hneed
    simp only [envOf, Bool.or_eq_false_iff] at hneed
    obtain ⟨a, b, c, d⟩ := needStatic_false hneed.2
    have nl := notLog g n I (by simp [hst, St.rank])
    refine pb_local (g := g) n (fun x hx => by simp [G.setSt, hx]) (by simp [hst]) (fun _ _ => Iff.rfl) R
      (fun _ h => absurd h nl) (by simp [G.setSt]) (by simp [G.setSt]) ?_
    intro hf _ _
    simp only [G.setSt, upd_node, if_true]; exact (c hf).2
  · intro g n I R _ hst _ _ _
    have nl := notLog g n I (by simp [hst, St.rank])
    exact pb_local (g := g) n (fun x hx => by simp [G.cleared, hx]) (by simp [hst]) (fun _ _ => Iff.rfl) R
      (fun _ h => absurd h nl) (by simp) (by simp) (by simp)
  · intro g n ds I R _ hst _ _ _
    have nl := notLog g n I (by simp [hst, St.rank])
    exact pb_local (g := g) n (fun x hx => by simp [G.cleared, hx]) (by simp [hst]) (fun _ _ => Iff.rfl) R
      (fun _ h => absurd h nl) (by simp) (by simp) (fun _ _ h => by simp [G.cleared] at h)
  · intro g n I R _ hst hall hneed
    have k : KeepUp g ((g.note n).enqueue n) := by
      intro x hu
      have : x ≠ n := by rintro rfl; rw [hst] at hu; cases hu
      simp [G.enqueue, G.setSt, G.note, this, hu]
    refine pb_local (g := g) n (fun x hx => by simp [G.enqueue, G.setSt, G.note, hx]) (by simp [hst])
      (fun x hx => by simp [G.enqueue, G.setSt, G.note, hx]) R (fun hs _ _ => ?_)
      (by simp [G.enqueue]) (by simp [G.enqueue, G.setSt]) (by simp [G.enqueue, G.setSt])
    refine k.needs (by simp [G.enqueue, G.setSt, G.note]) ?_
    rcases hneed with h | h
    · exact Or.inl h
    · have h' : needDeps g (g.node n).dyn = true := by
        simpa [envOf, needDyn, needDeps, G.note] using h
      obtain ⟨d, hd, hw, hc⟩ := changed_of h'
      refine Or.inr ⟨d, List.mem_append_right _ hd, hw, hall _ ?_, hc⟩
      simp only [Node.allDeps, List.mem_append]; exact Or.inr (List.mem_map_of_mem hd)
  · intro g n I R _ hst hall hs0 _
    refine pb_local (g := g) n (fun x hx => by simp [G.setSt, G.note, hx]) (by simp [hst])
      (fun x hx => Iff.rfl) R (fun _ _ h => absurd (by simp [G.setSt]) h)
      (by simp [G.setSt]) (fun hf _ => ?_) (by simp [G.setSt])
    simp only [G.setSt, G.note, upd_node, if_true]; exact R.srcDyn n hf hst hs0

theorem pb_stamps {K : Kinds} {g : G} {fs : Disk} {l : List (Nat × Nat)}
    (h : StampsOK K fs l) (R : PB K fs g) : PB K fs (g.setStamps l) := by
  have st := setStamps_st l g
  have k : KeepUp g (g.setStamps l) := by
    intro x hu
    refine ⟨(st x).1.trans hu, ?_⟩
    rcases setStamps_stamp l h g x with hh | ⟨_, hf, hv⟩
    · exact hh
    · rw [hv]; exact R.srcUp x hf hu
  refine ⟨fun x hs hin hu => ?_, fun x hb => ?_, fun x hf hu => ?_, fun x hf hd h0 => ?_⟩
  · rw [(st x).1] at hu; rw [(st x).2.2.2.2.2.2.1] at hin
    refine k.needs ⟨?_, (st x).2.2.1, (st x).2.2.2.1⟩ (R.need x hs hin hu)
    rcases setStamps_stamp l h g x with hh | ⟨hh, _⟩
    · exact hh
    · rw [hs] at hh; cases hh
  · rw [(st x).1] at hb; rw [(st x).2.2.2.2.2.2.1]; exact R.building x hb
  · rw [(st x).1] at hu; rw [(k x hu).2]; exact R.srcUp x hf hu
  · rw [(st x).1] at hd
    rcases setStamps_stamp l h g x with hh | hh
    · rw [hh] at h0 ⊢; exact R.srcDyn x hf hd h0
    · exact hh.2.2.symm

/-- no job of the run failed in `Finalize` -/
def NoFinalizeFailure (evs : List IEv) : Prop := ∀ n pd, .finish n (.finalizeFailed pd) ∉ evs

theorem pb_finish {K : Kinds} {w : World} {n : Nat} {r : Res} (hb : (w.g.node n).st = .building)
    (hr : ∀ pd, r ≠ .finalizeFailed pd) (R : PB K w.fs w.g) :
    PB K w.fs (finish w.g n (outcome K w.fs w.g n r)) := by
  cases r with
  | ok virt disc =>
    have hso := firstSeen_ok K w.fs w.g disc
    have st := setStamps_st (firstSeen K w.fs w.g disc) w.g
    refine pb_local (g := w.g.setStamps (firstSeen K w.fs w.g disc)) n
      (fun x hx => by simp [outcome, finish, hx]) (by rw [(st n).1, hb]; simp) (fun _ _ => Iff.rfl)
      (pb_stamps hso R) (fun _ _ h => absurd (by simp [outcome, finish]) h)
      (by simp [outcome, finish]) (fun hf _ => by simp [outcome, finish, hf]) (by simp [outcome, finish])
  | finalizeFailed pd => exact absurd rfl (hr pd)
  | failed z =>
    refine pb_local (g := w.g) n (fun x hx => by simp [outcome, finish, hx]) (by simp [hb])
      (fun _ _ => Iff.rfl) R (fun hs hin _ => ?_) (by simp [outcome, finish]) (by simp [outcome, finish])
      (by simp [outcome, finish])
    have hq := R.need n hs hin (by simp [hb])
    have k : KeepUp w.g (finish w.g n (outcome K w.fs w.g n (.failed z))) := by
      intro x hu
      have : x ≠ n := by rintro rfl; rw [hb] at hu; cases hu
      simp [outcome, finish, this, hu]
    cases z with
    | true => left; simp [outcome, finish]
    | false => exact k.needs (by simp [outcome, finish]) hq
  | aborted => exact R

theorem pb_run {K : Kinds} {fuel : Nat} {ts : List Nat} (evs : List IEv) : ∀ {w w' : World},
    NoFinalizeFailure evs → Sched.Inv w.g → ProxyInv ts w.g → PB K w.fs w.g →
      irun K fuel ts w evs = some w' → PB K w'.fs w'.g := by
  induction evs with
  | nil =>
    intro w w' _ I Q R h
    simp only [irun, Option.some.injEq] at h; subst h; exact R
  | cons ev evs ih =>
    intro w w' hN I Q R h
    have hN' : NoFinalizeFailure evs := fun n pd hm => hN n pd (List.mem_cons_of_mem _ hm)
    simp only [irun] at h
    split at h
    · cases h
    · rename_i w1 hs
      cases ev with
      | sweep i =>
        simp only [istep, Option.map_eq_some_iff] at hs
        obtain ⟨g', hg, rfl⟩ := hs
        obtain ⟨-, b, c⟩ := pass_ok I Q hg
        refine ih (w := { w with g := g' }) hN' b c ?_ h
        exact cpres_pass (pb_closed (i := i)) (fun _ _ => trivial) I R
          (fun g s R => pb_same (g := g) (fun _ => ⟨rfl, rfl, rfl, rfl⟩) rfl R)
          (fun g s R => pb_same (g := g) (fun _ => ⟨rfl, rfl, rfl, rfl⟩) rfl R) hg
      | write n s =>
        simp only [istep] at hs
        split at hs
        · rename_i hc
          cases hs
          refine ih (w := { w with fs := fun x => if x = n then s else w.fs x }) hN' I Q ?_ h
          refine ⟨R.need, R.building, fun x hf hu => ?_, fun x hf hd h0 => ?_⟩
          · have : x ≠ n := by rintro rfl; rw [hc.1] at hu; cases hu
            simp [this]; exact R.srcUp x hf hu
          · have : x ≠ n := by rintro rfl; rw [hc.1] at hd; cases hd
            simp [this]; exact R.srcDyn x hf hd h0
        · cases hs
      | finish n r =>
        simp only [istep] at hs
        split at hs
        · rename_i hb
          cases hs
          have := step_ok (g' := finish w.g n (outcome K w.fs w.g n r)) (fuel := fuel)
            (ev := .finish n (outcome K w.fs w.g n r)) I Q (by simp [step, hb])
          refine ih (w := { w with g := finish w.g n (outcome K w.fs w.g n r) }) hN' this.2.1 this.2.2
            (pb_finish hb ?_ R) h
          rintro pd rfl
          exact hN n pd List.mem_cons_self
        · cases hs

theorem pb_load {K : Kinds} {db : G} {fs : Disk} : PB K fs (load db) where
  need n _ h := by simp [load] at h
  building n h := by simp [load] at h
  srcUp n _ h := by simp [load] at h
  srcDyn n _ h := by simp [load] at h

end Verif.Incr
