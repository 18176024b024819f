import Verif.Incr.Spec
/-! Invariants of incremental builds. -/
namespace Verif.Incr
open Verif.Sched
variable {C : Type}

theorem Tool.local_ {w w' : Nat → C} (t : Tool C) : (∀ r ∈ (t.eval w).2, w' r = w r) →
    t.eval w' = t.eval w := by
  induction t with
  | ret c => intro _; rfl
  | read r k ih =>
    intro h
    simp only [Tool.eval] at h ⊢
    have hr : w' r = w r := h r List.mem_cons_self
    rw [hr, ih (w r) (fun x hx => h x (List.mem_cons_of_mem _ hx))]

theorem Sem.local_ (S : Sem C) (n : Nat) (w w' : Nat → C) (h : ∀ r ∈ (S.tool n w).2, w' r = w r) :
    S.tool n w' = S.tool n w := Tool.local_ _ h

/-- Two runs of a job that agree on everything both of them read have the same result. -/
theorem Tool.both {w w' : Nat → C} (t : Tool C) :
    (∀ r, r ∈ (t.eval w).2 → r ∈ (t.eval w').2 → w' r = w r) → t.eval w' = t.eval w := by
  induction t with
  | ret c => intro _; rfl
  | read r k ih =>
    intro h
    simp only [Tool.eval] at h ⊢
    have hr : w' r = w r := h r List.mem_cons_self List.mem_cons_self
    rw [hr] at h ⊢
    rw [ih (w r) (fun x h1 h2 => h x (List.mem_cons_of_mem _ h1) (List.mem_cons_of_mem _ h2))]

/-- the node's version can no longer change in this build -/
def Settled (K : Kinds) (g : G) (r : Nat) : Prop :=
  (g.node r).st = .upToDate ∨ (K.source r = true ∧ K.isFile r = true)

/-- what the database says about a node is true: its version was made from the recorded versions -/
def DBok (S : Sem C) (K : Kinds) (g : G) (n : Nat) : Prop :=
  K.source n = false → (g.node n).stamp ≠ 0 → ∃ w0 : Nat → C,
    S.content n (g.node n).stamp = (S.tool n w0).1 ∧
    ∀ r ∈ (S.tool n w0).2, ∃ d ∈ (g.node n).static ++ (g.node n).dyn,
      d.weak = false ∧ d.node = r ∧ w0 r = S.content r d.stamp

def DynOK (K : Kinds) (fs : Disk) (g : G) (n : Nat) : Prop :=
  (g.node n).st = .dynamicDeps → (g.node n).stamp ≠ 0 →
    (K.isFile n = true → fs n = (g.node n).stamp) ∧ (K.source n = false → 
    ∀ d ∈ (g.node n).static, d.weak = false → (g.node d.node).stamp = d.stamp)

structure UpFacts (S : Sem C) (K : Kinds) (fs : Disk) (g : G) (n : Nat) : Prop where
  disk : K.isFile n = true → fs n = (g.node n).stamp
  recd : K.source n = false → ∀ d ∈ (g.node n).static ++ (g.node n).dyn, d.weak = false → d.stamp = ver K fs g d.node
  deps : K.source n = false → ∀ d ∈ ids ((g.node n).static ++ (g.node n).dyn), Settled K g d
  cons : K.source n = false → S.content n (g.node n).stamp = (S.tool n (view S K fs g)).1 ∧
    ∀ r ∈ (S.tool n (view S K fs g)).2, r ∈ ids ((g.node n).static ++ (g.node n).dyn)

def UpOK (S : Sem C) (K : Kinds) (fs : Disk) (g : G) (n : Nat) : Prop :=
  (g.node n).st = .upToDate → UpFacts S K fs g n

/-- dependency edges of non-input nodes -/
def Edge (K : Kinds) (g : G) (b a : Nat) : Prop :=
  K.source a = false ∧ b ∈ ids ((g.node a).static ++ (g.node a).dyn)

structure WP (S : Sem C) (K : Kinds) (fs : Disk) (g : G) : Prop where
  db : ∀ n, DBok S K g n
  dyn : ∀ n, DynOK K fs g n
  up : ∀ n, UpOK S K fs g n
  acc : ∀ n, (g.node n).st = .upToDate → Acc (Edge K g) n

/-- things about settled nodes that a step leaves alone -/
structure Keep (K : Kinds) (fs : Disk) (g : G) (fs' : Disk) (g' : G) : Prop where
  up : ∀ x, (g.node x).st = .upToDate → (g'.node x).st = .upToDate ∧
    (g'.node x).static = (g.node x).static ∧ (g'.node x).dyn = (g.node x).dyn ∧
    (g'.node x).stamp = (g.node x).stamp ∧ (K.isFile x = true → fs' x = fs x)
  ver : ∀ x, Settled K g x → ver K fs' g' x = ver K fs g x

theorem Keep.settled {K : Kinds} {fs fs' : Disk} {g g' : G} (k : Keep K fs g fs' g') {x : Nat}
    (h : Settled K g x) : Settled K g' x := h.imp (fun h => (k.up x h).1) id

theorem Keep.upFacts {S : Sem C} {K : Kinds} {fs fs' : Disk} {g g' : G} (k : Keep K fs g fs' g')
    {n : Nat} (hu : (g.node n).st = .upToDate) (u : UpFacts S K fs g n) : UpFacts S K fs' g' n := by
  obtain ⟨-, e1, e2, e3, e4⟩ := k.up n hu
  refine ⟨fun h => by rw [e4 h, e3]; exact u.disk h, fun hs d hd hw => ?_, fun hs d hd => ?_, fun hs => ?_⟩
  · rw [e1, e2] at hd
    rw [u.recd hs d hd hw]
    exact (k.ver _ (u.deps hs _ (List.mem_map_of_mem hd))).symm
  · rw [e1, e2] at hd; exact k.settled (u.deps hs d hd)
  · obtain ⟨c1, c2⟩ := u.cons hs
    have : S.tool n (view S K fs' g') = S.tool n (view S K fs g) := by
      apply S.local_
      intro r hr
      unfold view
      rw [k.ver r (u.deps hs r (c2 r hr))]
    rw [e1, e2, e3, this]; exact ⟨c1, c2⟩

/-- accessibility survives -/
theorem Keep.acc {S : Sem C} {K : Kinds} {fs fs' : Disk} {g g' : G} (k : Keep K fs g fs' g')
    (P : ∀ n, UpOK S K fs g n) {n : Nat} (a : Acc (Edge K g) n) (hu : (g.node n).st = .upToDate) :
    Acc (Edge K g') n := by
  induction a with
  | intro x _ ih =>
    refine Acc.intro x fun y hy => ?_
    obtain ⟨-, e1, e2, -, -⟩ := k.up x hu
    obtain ⟨h1, h2⟩ := hy
    rw [e1, e2] at h2
    rcases (P x hu).deps h1 y h2 with hs | hs
    · exact ih y ⟨h1, h2⟩ hs
    · refine Acc.intro y fun z hz => ?_
      have := hz.1; rw [hs.1] at this; cases this

theorem keep_local {K : Kinds} {fs : Disk} {g g' : G} (n : Nat)
    (hx : ∀ x, x ≠ n → g'.node x = g.node x) (hn : (g.node n).st ≠ .upToDate) :
    Keep K fs g fs g' where
  up x hu := by
    have : x ≠ n := by rintro rfl; exact hn hu
    rw [hx x this]; exact ⟨hu, rfl, rfl, rfl, fun _ => rfl⟩
  ver x hs := by
    unfold ver
    rcases hs with hs | hs
    · have : x ≠ n := by rintro rfl; exact hn hs
      rw [hx x this]
    · simp [hs.2]

/-- updating one node that is not up to date -/
theorem wp_local {S : Sem C} {K : Kinds} {fs : Disk} {g g' : G} (n : Nat) (I : Inv g)
    (hx : ∀ x, x ≠ n → g'.node x = g.node x) (hn : (g.node n).st ≠ .upToDate) (P : WP S K fs g)
    (h1 : DBok S K g' n) (h2 : DynOK K fs g' n) (h3 : UpOK S K fs g' n)
    (h4 : (g'.node n).st = .upToDate → K.source n = false → n ∉ ids ((g'.node n).static ++ (g'.node n).dyn)) :
    WP S K fs g' := by
  have k := keep_local (K := K) (fs := fs) n hx hn
  have up : ∀ x, UpOK S K fs g' x := by
    intro x hu
    by_cases h : x = n
    · subst h; exact h3 hu
    · rw [hx x h] at hu; exact k.upFacts hu (P.up x hu)
  refine ⟨fun x => ?_, fun x => ?_, up, fun x hu => ?_⟩
  · by_cases h : x = n
    · subst h; exact h1
    · unfold DBok; rw [hx x h]; exact P.db x
  · by_cases h : x = n
    · subst h; exact h2
    · intro hs hst
      rw [hx x h] at hs hst ⊢
      obtain ⟨a2, a3⟩ := P.dyn x hs hst
      refine ⟨a2, fun hsr d hd hw => ?_⟩
      have : d.node ≠ n := by
        intro he
        have := (I.node x).statPhase (by simp [hs, St.rank]) (by simp [hs]) d.node
          (List.mem_map_of_mem hd)
        rw [he] at this; exact hn this
      rw [hx _ this]; exact a3 hsr d hd hw
  · by_cases h : x = n
    · subst h
      refine Acc.intro x fun y hy => ?_
      rcases (up x hu).deps hy.1 y hy.2 with hs | hs
      · by_cases hyx : y = x
        · subst hyx; exact absurd hy.2 (h4 hu hy.1)
        · rw [hx y hyx] at hs
          exact k.acc P.up (P.acc y hs) hs
      · refine Acc.intro y fun z hz => ?_
        have := hz.1; rw [hs.1] at this; cases this
    · rw [hx x h] at hu; exact k.acc P.up (P.acc x hu) hu

/-- an update of an unfinished (or failed) node that does not make it up to date -/
theorem wp_pending {S : Sem C} {K : Kinds} {fs : Disk} {g g' : G} (n : Nat) (I : Inv g)
    (hx : ∀ x, x ≠ n → g'.node x = g.node x) (hn : (g.node n).st ≠ .upToDate) (P : WP S K fs g)
    (hn' : (g'.node n).st ≠ .upToDate) (h1 : DBok S K g' n) (h2 : DynOK K fs g' n) :
    WP S K fs g' :=
  wp_local n I hx hn P h1 h2 (fun h => absurd h hn') (fun h => absurd h hn')

theorem wp_tag {S : Sem C} {K : Kinds} {fs : Disk} {g g' : G}
    (h : ∀ x, (g'.node x).st = (g.node x).st ∧ (g'.node x).stamp = (g.node x).stamp ∧
      (g'.node x).static = (g.node x).static ∧ (g'.node x).dyn = (g.node x).dyn)
    (P : WP S K fs g) : WP S K fs g' := by
  have k : Keep K fs g fs g' := by
    refine ⟨fun x hu => ?_, fun x _ => ?_⟩
    · obtain ⟨a, b, c, d⟩ := h x; exact ⟨a.trans hu, c, d, b, fun _ => rfl⟩
    · unfold ver; rw [(h x).2.1]
  refine ⟨fun n => ?_, fun n => ?_, fun n hu => ?_, fun n hu => ?_⟩
  · obtain ⟨a, b, c, d⟩ := h n; unfold DBok; rw [b, c, d]; exact P.db n
  · obtain ⟨a, b, c, d⟩ := h n
    intro h1 h2
    rw [a] at h1; rw [b] at h2
    obtain ⟨q, r⟩ := P.dyn n h1 h2
    refine ⟨fun hf => by rw [b]; exact q hf, fun hsr d hd hw => ?_⟩
    rw [c] at hd; rw [(h _).2.1]; exact r hsr d hd hw
  · rw [(h n).1] at hu; exact k.upFacts hu (P.up n hu)
  · rw [(h n).1] at hu; exact k.acc P.up (P.acc n hu) hu

theorem needDeps_false {g : G} {l : List Dep} (h : needDeps g l = false) :
    ∀ d ∈ l, d.weak = false → (g.node d.node).stamp ≠ 0 ∧ (g.node d.node).stamp = d.stamp := by
  intro d hd hw
  unfold needDeps at h
  rw [List.any_eq_false] at h
  have := h d hd
  simp [hw] at this
  exact this

theorem needStatic_false {K : Kinds} {fs : Disk} {g : G} {n : Nat} (h : needStatic K fs g n = false) :
    K.always n = false ∧ (g.node n).stamp ≠ 0 ∧
    (K.isFile n = true → fs n ≠ 0 ∧ fs n = (g.node n).stamp) ∧
    needDeps g (g.node n).static = false := by
  unfold needStatic at h
  simp only [Bool.or_eq_false_iff, Bool.and_eq_false_iff, beq_eq_false_iff_ne, bne_eq_false_iff_eq] at h
  obtain ⟨⟨⟨a, b⟩, c⟩, d⟩ := h
  refine ⟨a, b, fun hf => ?_, d⟩
  rcases c with c | c
  · rw [hf] at c; cases c
  · exact c

theorem UpOK.ver_eq {S : Sem C} {K : Kinds} {fs : Disk} {g : G} {r : Nat} (P : UpOK S K fs g r)
    (h : (g.node r).st = .upToDate) : ver K fs g r = (g.node r).stamp := by
  unfold ver
  split
  · exact (P h).disk (by assumption)
  · rfl

theorem wp_closed (S : Sem C) (K : Kinds) (fs : Disk) (i : SweepIn) :
    CClosed (envOf K fs i) Any (WP S K fs) := by
  constructor
  · intros; trivial
  · intro g n _ P _
    refine wp_tag (fun x => ?_) P
    simp only [G.setTag, upd_node]; split <;> simp
  · intro g n I P _ hr
    have hn : (g.node n).st ≠ .upToDate := by
      rcases hr with hr | hr
      · intro h; rw [h] at hr; simp [St.rank] at hr
      · rw [hr]; simp
    refine wp_pending n I (fun x hx => by simp [G.setSt, hx]) hn P (by simp [G.setSt]) ?_ ?_
    · have := P.db n; simpa [DBok, G.setSt] using this
    · intro h; simp [G.setSt] at h
  · intro g n I P _ hst
    refine wp_pending n I (fun x hx => by simp [G.setSt, hx]) (by simp [hst]) P (by simp [G.setSt]) ?_ ?_
    · have := P.db n; simpa [DBok, G.setSt] using this
    · intro h; simp [G.setSt] at h
  · intro g n I P _ hst hup _ hneed
    simp only [envOf, Bool.or_eq_false_iff] at hneed
    obtain ⟨a, b, c, d⟩ := needStatic_false hneed.2
    refine wp_pending n I (fun x hx => by simp [G.setSt, hx]) (by simp [hst]) P (by simp [G.setSt]) ?_ ?_
    · have := P.db n; simpa [DBok, G.setSt] using this
    · intro _ _
      have hsame : ∀ x, ((g.setSt n .dynamicDeps).node x).stamp = (g.node x).stamp := by
        intro x; simp only [G.setSt, upd_node]; split <;> simp
      refine ⟨fun hf => ?_, fun _ dd hd hw => ?_⟩
      · rw [hsame]; exact (c hf).2
      · rw [hsame]
        exact (needDeps_false d dd (by simpa [G.setSt] using hd) hw).2
  · intro g n I P _ hst _ _ _
    refine wp_pending n I (fun x hx => by simp [G.cleared, hx]) (by simp [hst]) P (by simp) ?_ ?_
    · intro _ h; simp [G.cleared] at h
    · intro h; simp at h
  · intro g n ds I P _ hst _ _ _
    refine wp_pending n I (fun x hx => by simp [G.cleared, hx]) (by simp [hst]) P (by simp) ?_ ?_
    · intro _ h; simp [G.cleared] at h
    · intro _ h; simp [G.cleared] at h
  · intro g n I P _ hst _ _
    refine wp_pending n I (fun x hx => by simp [G.enqueue, G.setSt, G.note, hx]) (by simp [hst]) P
      (by simp [G.enqueue, G.setSt]) ?_ ?_
    · have := P.db n; simpa [DBok, G.enqueue, G.setSt, G.note] using this
    · intro h; simp [G.enqueue, G.setSt] at h
  · intro g n I P _ hst hall hs hnd
    have hne : n ∉ (g.node n).allDeps := fun h => by have := hall n h; rw [hst] at this; cases this
    have hnd' : needDeps g (g.node n).dyn = false := by
      simpa [envOf, needDyn, needDeps, G.note] using hnd
    obtain ⟨d2, d3⟩ := P.dyn n hst hs
    have hx : ∀ x, x ≠ n → ((g.note n).setSt n .upToDate).node x = g.node x :=
      fun x hx => by simp [G.setSt, G.note, hx]
    have hnn : ((g.note n).setSt n .upToDate).node n = { g.node n with st := .upToDate } := by
      simp [G.setSt, G.note]
    have k := keep_local (K := K) (fs := fs) n hx (by simp [hst])
    have hids : ∀ d ∈ (g.node n).static ++ (g.node n).dyn, (g.node d.node).st = .upToDate := by
      intro d hd
      apply hall
      simp only [Node.allDeps, ids, ← List.map_append, List.append_assoc]
      rcases List.mem_append.1 hd with h | h
      · simp; exact Or.inr (Or.inl ⟨d, h, rfl⟩)
      · simp; exact Or.inr (Or.inr ⟨d, h, rfl⟩)
    have hrec : K.source n = false → ∀ d ∈ (g.node n).static ++ (g.node n).dyn, d.weak = false →
        d.stamp = ver K fs g d.node := by
      intro hsr d hd hw
      rw [(P.up _).ver_eq (hids d hd)]
      rcases List.mem_append.1 hd with h | h
      · exact (d3 hsr d h hw).symm
      · exact (needDeps_false hnd' d h hw).2.symm
    refine wp_local n I hx (by simp [hst]) P ?_ ?_ ?_ ?_
    · unfold DBok; rw [hnn]; exact P.db n
    · intro h; rw [hnn] at h; cases h
    · intro _
      refine ⟨fun hf => by rw [hnn]; exact d2 hf, ?_, ?_, ?_⟩
      · rw [hnn]; intro hsr d hd hw
        rw [k.ver _ (Or.inl (hids d hd))]; exact hrec hsr d hd hw
      · rw [hnn]; intro _ d hd
        obtain ⟨dd, hdd, rfl⟩ := List.mem_map.1 hd
        exact k.settled (Or.inl (hids dd hdd))
      · rw [hnn]; intro hsrc
        obtain ⟨w0, e1, e2⟩ := P.db n hsrc hs
        have : S.tool n (view S K fs ((g.note n).setSt n .upToDate)) = S.tool n w0 := by
          apply S.local_
          intro r hr
          obtain ⟨d, hd, hw, rfl, e3⟩ := e2 r hr
          unfold view
          rw [k.ver _ (Or.inl (hids d hd)), ← hrec hsrc d hd hw]; exact e3.symm
        rw [this]
        refine ⟨e1, fun r hr => ?_⟩
        obtain ⟨d, hd, hw, rfl, e3⟩ := e2 r hr
        exact List.mem_map_of_mem hd
    · intro _ _; rw [hnn]
      intro h
      obtain ⟨dd, hdd, he⟩ := List.mem_map.1 h
      have := hids dd hdd; rw [he, hst] at this; cases this

/-! ### Job events -/

theorem wp_write {S : Sem C} {K : Kinds} {fs : Disk} {g : G} {n s : Nat} (P : WP S K fs g)
    (hb : (g.node n).st = .building) (hs : K.source n = false) :
    WP S K (fun x => if x = n then s else fs x) g := by
  have k : Keep K fs g (fun x => if x = n then s else fs x) g := by
    refine ⟨fun x hu => ?_, fun x h => ?_⟩
    · have : x ≠ n := by rintro rfl; rw [hb] at hu; cases hu
      simp [this, hu]
    · have : x ≠ n := by
        rintro rfl
        rcases h with h | h
        · rw [hb] at h; cases h
        · rw [hs] at h; simp at h
      simp [ver, this]
  refine ⟨P.db, fun x h1 h2 => ?_, fun x hu => k.upFacts hu (P.up x hu), fun x hu => P.acc x hu⟩
  obtain ⟨b, c⟩ := P.dyn x h1 h2
  have : x ≠ n := by rintro rfl; rw [hb] at h1; cases h1
  exact ⟨fun hf => by simp [this]; exact b hf, c⟩

/-- the file stamps are those of input files on disk that had no stamp -/
def StampsOK (K : Kinds) (fs : Disk) (l : List (Nat × Nat)) : Prop :=
  ∀ p ∈ l, K.source p.1 = true ∧ K.isFile p.1 = true ∧ p.2 = fs p.1

theorem firstSeen_ok (K : Kinds) (fs : Disk) (g : G) (disc : Option (List Dep)) :
    StampsOK K fs (firstSeen K fs g disc) := by
  intro p hp
  simp only [firstSeen, List.mem_map, List.mem_filter, Bool.and_eq_true] at hp
  obtain ⟨d, ⟨_, ⟨h1, h2⟩, _⟩, rfl⟩ := hp
  exact ⟨h1, h2, rfl⟩

/-- stamps after `setStamps` -/
theorem setStamps_stamp {K : Kinds} {fs : Disk} (l : List (Nat × Nat)) (h : StampsOK K fs l) :
    ∀ (g : G) (x : Nat), ((g.setStamps l).node x).stamp = (g.node x).stamp ∨
      (K.source x = true ∧ K.isFile x = true ∧ ((g.setStamps l).node x).stamp = fs x) := by
  induction l with
  | nil => intro g x; left; rfl
  | cons a l ih =>
    intro g x
    have ih := ih (fun p hp => h p (List.mem_cons_of_mem _ hp))
    obtain ⟨h1, h2, h3⟩ := h a List.mem_cons_self
    simp only [G.setStamps]
    rcases ih (g.upd a.1 (fun nd => { nd with stamp := a.2 })) x with hh | hh
    · rw [hh]
      by_cases hx : x = a.1
      · right; subst hx; exact ⟨h1, h2, by simp [h3]⟩
      · left; simp [hx]
    · right; exact hh

theorem setStamps_mem {K : Kinds} {fs : Disk} (l : List (Nat × Nat)) (h : StampsOK K fs l)
    {x : Nat} : ∀ (g : G), x ∈ l.map Prod.fst → ((g.setStamps l).node x).stamp = fs x := by
  induction l with
  | nil => intro g hx; simp at hx
  | cons a l ih =>
    intro g hx
    have hl := fun p hp => h p (List.mem_cons_of_mem _ hp)
    obtain ⟨h1, h2, h3⟩ := h a List.mem_cons_self
    simp only [G.setStamps]
    by_cases hm : x ∈ l.map Prod.fst
    · exact ih hl _ hm
    · simp only [List.map_cons, List.mem_cons] at hx
      have hx : x = a.1 := hx.resolve_right hm
      rcases setStamps_stamp l hl (g.upd a.1 (fun nd => { nd with stamp := a.2 })) x with hh | hh
      · rw [hh]; subst hx; simp [h3]
      · exact hh.2.2

theorem keep_stamps {S : Sem C} {K : Kinds} {fs : Disk} {g : G} {l : List (Nat × Nat)}
    (h : StampsOK K fs l) (P : WP S K fs g) : Keep K fs g fs (g.setStamps l) := by
  have st := setStamps_st l g
  refine ⟨fun x hu => ?_, fun x hs => ?_⟩
  · obtain ⟨a1, a2, a3, a4, -⟩ := st x
    refine ⟨a1.trans hu, a3, a4, ?_, fun _ => rfl⟩
    rcases setStamps_stamp l h g x with hh | ⟨_, hh, h3⟩
    · exact hh
    · rw [h3]; exact (P.up x hu).disk hh
  · unfold ver
    split
    · rfl
    · rcases setStamps_stamp l h g x with hh | ⟨_, hh, h3⟩
      · exact hh
      · contradiction

theorem wp_stamps {S : Sem C} {K : Kinds} {fs : Disk} {g : G} {l : List (Nat × Nat)} (I : Inv g)
    (h : StampsOK K fs l) (P : WP S K fs g) : WP S K fs (g.setStamps l) := by
  have st := setStamps_st l g
  have k := keep_stamps h P
  refine ⟨fun x hs => ?_, fun x h1 h2 => ?_, fun x hu => ?_, fun x hu => ?_⟩
  · obtain ⟨a1, a2, a3, a4, -⟩ := st x
    rcases setStamps_stamp l h g x with hh | ⟨hh, _, _⟩
    · rw [hh, a3, a4]; exact P.db x hs
    · rw [hs] at hh; cases hh
  · obtain ⟨a1, a2, a3, a4, -⟩ := st x
    rw [a1] at h1
    rcases setStamps_stamp l h g x with hh | ⟨hh, hf, hv⟩
    · rw [hh] at h2 ⊢
      obtain ⟨q, r⟩ := P.dyn x h1 h2
      refine ⟨q, fun hsr d hd hw => ?_⟩
      rw [a3] at hd
      have hup := (I.node x).statPhase (by simp [h1, St.rank]) (by simp [h1]) d.node
        (List.mem_map_of_mem hd)
      rw [(k.up _ hup).2.2.2.1]; exact r hsr d hd hw
    · exact ⟨fun _ => hv.symm, fun hsr => by rw [hsr] at hh; cases hh⟩
  · rw [(st x).1] at hu; exact k.upFacts hu (P.up x hu)
  · rw [(st x).1] at hu; exact k.acc P.up (P.acc x hu) hu

/-- completion of a successful job -/
theorem wp_ok {S : Sem C} {K : Kinds} {w : World} {n virt : Nat} {disc : Option (List Dep)} (I : Inv w.g)
    (P : WP S K w.fs w.g) (hb : (w.g.node n).st = .building)
    (H : Honest S K w (.finish n (.ok virt disc))) :
    WP S K w.fs (finish w.g n (outcome K w.fs w.g n (.ok virt disc))) := by
  obtain ⟨g, fs⟩ := w
  simp only [Honest] at I P hb H
  obtain ⟨H1, H2⟩ := H
  have hso := firstSeen_ok K fs g disc
  have P1 := wp_stamps I hso P
  have k1 := keep_stamps hso P
  have st := setStamps_st (firstSeen K fs g disc) g
  simp only [outcome, finish]
  generalize hg1 : g.setStamps (firstSeen K fs g disc) = g1 at P1 k1 st
  have I1 : Inv g1 := by
    have F := finish_fin g n (.ok 0 none (firstSeen K fs g disc))
    -- `setStamps` changes stamps only
    refine ⟨fun x => ?_, ?_, ?_⟩
    · have i := I.node x
      have e := st x
      have up : ∀ {d}, (g.node d).st = .upToDate → (g1.node d).st = .upToDate :=
        fun {d} h => by rw [(st d).1]; exact h
      refine ⟨fun a b d hd => ?_, fun a b d hd => ?_, fun a d hd => ?_, fun a => ?_, fun a d hd => ?_, fun a => ?_⟩
      · rw [e.1] at a b; rw [e.2.1] at hd; exact up (i.prePhase a b d hd)
      · rw [e.1] at a b; rw [e.2.2.1] at hd; exact up (i.statPhase a b d hd)
      · rw [e.1] at a; rw [e.2.2.2.2.2.1] at hd; exact up (i.usedUp a d hd)
      · rw [e.1] at a; rw [e.2.2.2.2.2.1, i.usedEq a]; simp [Node.allDeps, e.2.1, e.2.2.1, e.2.2.2.1]
      · rw [e.1] at a; rw [e.2.1, e.2.2.1] at hd; rw [e.2.2.2.2.2.1]; exact i.usedSup a d hd
      · rw [e.1] at a
        have r := i.root a
        clear i a e
        induction r with
        | @self x h1 h2 => exact .self ((st x).1.trans h1) ((st x).2.2.2.2.1.trans h2)
        | @dep x d h1 h2 _ ih =>
          refine .dep ((st x).1.trans h1) ?_ ih
          simpa [Node.allDeps, (st x).2.1, (st x).2.2.1, (st x).2.2.2.1] using h2
    · intro x hx; rw [(st x).2.2.2.2.2.2.1] at hx; rw [(st x).1]; exact I.log x hx
    · rw [(st 0).2.2.2.2.2.2.1]; exact I.nodup
  have hb1 : (g1.node n).st = .building := (st n).1.trans hb
  have e3 : (g1.node n).static = (g.node n).static := (st n).2.2.1
  have e4 : (g1.node n).dyn = (g.node n).dyn := (st n).2.2.2.1
  -- every dependency is settled and carries its version as stamp
  have hdep : ∀ d ∈ (g.node n).static ++ disc.getD (g.node n).dyn,
      Settled K g d.node ∧ (g1.node d.node).stamp = ver K fs g d.node := by
    intro d hd
    have viaUp : (g.node d.node).st = .upToDate →
        Settled K g d.node ∧ (g1.node d.node).stamp = ver K fs g d.node := by
      intro hu
      exact ⟨Or.inl hu, by rw [(k1.up _ hu).2.2.2.1, (P.up _).ver_eq hu]⟩
    have used : d.node ∈ (g.node n).allDeps → (g.node d.node).st = .upToDate := by
      intro h; rw [← (I.node n).usedEq hb] at h; exact (I.node n).usedUp (Or.inl hb) _ h
    rcases List.mem_append.1 hd with h | h
    · exact viaUp (used (by simp only [Node.allDeps, List.mem_append]; exact Or.inl (Or.inr (List.mem_map_of_mem h))))
    · cases disc with
      | none =>
        exact viaUp (used (by simp only [Node.allDeps, List.mem_append]; exact Or.inr (List.mem_map_of_mem h)))
      | some ds =>
        simp only [Option.getD_some] at h H1
        rcases H1 d.node (List.mem_map_of_mem h) with hu | ⟨hs, hf, hv⟩
        · exact viaUp hu
        · refine ⟨Or.inr ⟨hs, hf⟩, ?_⟩
          simp only [ver, hf, if_true]
          rcases hv with hv | hv
          · rw [← hg1]
            refine setStamps_mem _ hso g ?_
            simp only [firstSeen, List.mem_map, List.mem_filter, Option.getD_some]
            exact ⟨(d.node, fs d.node), ⟨d, ⟨h, by simp [hs, hf, hv]⟩, rfl⟩, rfl⟩
          · rcases setStamps_stamp _ hso g d.node with hh | hh
            · rw [hg1] at hh; rw [hh, hv]
            · rw [hg1] at hh; exact hh.2.2
  have hne : K.source n = false → ∀ d ∈ (g.node n).static ++ disc.getD (g.node n).dyn, d.node ≠ n := by
    intro hs d hd he
    rcases (hdep d hd).1 with h | h
    · rw [he, hb] at h; cases h
    · rw [he, hs] at h; simp at h
  generalize hg2 : g1.upd n _ = g2
  have hn2 : g2.node n = { g1.node n with
      st := .upToDate, stamp := if K.isFile n then fs n else virt,
      static := stampDeps g1 (g.node n).static, dyn := stampDeps g1 (disc.getD (g.node n).dyn) } := by
    rw [← hg2]; simp [e3, e4]
  have hx2 : ∀ x, x ≠ n → g2.node x = g1.node x := by
    intro x hx; rw [← hg2]; simp [hx]
  have hdeps : (g2.node n).static ++ (g2.node n).dyn =
      stampDeps g1 ((g.node n).static ++ disc.getD (g.node n).dyn) := by
    rw [hn2]; simp [stampDeps]
  have k2 := keep_local (K := K) (fs := fs) n hx2 (by simp [hb1])
  have hver : ∀ d ∈ (g.node n).static ++ disc.getD (g.node n).dyn,
      ver K fs g2 d.node = ver K fs g d.node := by
    intro d hd
    rw [k2.ver _ (k1.settled (hdep d hd).1), k1.ver _ (hdep d hd).1]
  have htool : K.source n = false → S.tool n (view S K fs g2) = S.tool n (view S K fs g) := by
    intro hs
    apply S.local_
    intro r hr
    obtain ⟨d, hd, _, rfl⟩ := (H2 hs).2 r hr
    unfold view; rw [hver d hd]
  refine wp_local n I1 hx2 (by simp [hb1]) P1 ?_ ?_ ?_ ?_
  · intro hs _
    refine ⟨view S K fs g, ?_, fun r hr => ?_⟩
    · rw [hn2]; exact (H2 hs).1
    · obtain ⟨d, hd, hw, rfl⟩ := (H2 hs).2 r hr
      refine ⟨{ d with stamp := (g1.node d.node).stamp }, ?_, hw, rfl, ?_⟩
      · rw [hdeps]; exact List.mem_map_of_mem hd
      · simp only [view]; rw [(hdep d hd).2]
  · intro h; rw [hn2] at h; cases h
  · intro _
    refine ⟨fun hf => by rw [hn2]; simp [hf], ?_, ?_, ?_⟩
    · intro hs d hd hw
      rw [hdeps] at hd
      obtain ⟨d0, hd0, rfl⟩ := List.mem_map.1 hd
      simp only
      rw [hver d0 hd0]; exact (hdep d0 hd0).2
    · intro hs d hd
      rw [hdeps, ids_stampDeps] at hd
      obtain ⟨d0, hd0, rfl⟩ := List.mem_map.1 hd
      exact k2.settled (k1.settled (hdep d0 hd0).1)
    · intro hs
      rw [htool hs]
      refine ⟨by rw [hn2]; exact (H2 hs).1, fun r hr => ?_⟩
      obtain ⟨d, hd, _, rfl⟩ := (H2 hs).2 r hr
      rw [hdeps, ids_stampDeps]; exact List.mem_map_of_mem hd
  · intro _ hs h
    rw [hdeps, ids_stampDeps] at h
    obtain ⟨d0, hd0, he⟩ := List.mem_map.1 h
    exact hne hs d0 hd0 he

/-- One event of a build. -/
theorem wp_step {S : Sem C} {K : Kinds} {fuel : Nat} {ts : List Nat} {w w' : World} {ev : IEv}
    (I : Inv w.g) (Q : ProxyInv ts w.g) (P : WP S K w.fs w.g) (H : Honest S K w ev)
    (h : istep K fuel ts w ev = some w') :
    SRel w.g w'.g ∧ Inv w'.g ∧ ProxyInv ts w'.g ∧ WP S K w'.fs w'.g := by
  cases ev with
  | sweep i =>
    simp only [istep, Option.map_eq_some_iff] at h
    obtain ⟨g', hg, rfl⟩ := h
    obtain ⟨a, b, c⟩ := pass_ok I Q hg
    exact ⟨a, b, c, cpres_pass (wp_closed S K w.fs i) (fun _ _ => trivial) I P
      (fun g s P => wp_tag (g := g) (fun _ => ⟨rfl, rfl, rfl, rfl⟩) P)
      (fun g s P => wp_tag (g := g) (fun _ => ⟨rfl, rfl, rfl, rfl⟩) P) hg⟩
  | write n s =>
    simp only [istep] at h
    split at h
    · rename_i hc
      cases h
      exact ⟨SRel.refl _, I, Q, wp_write P hc.1 hc.2.2⟩
    · cases h
  | finish n r =>
    have hs : ∀ g', (w.g.node n).st = .building → g' = finish w.g n (outcome K w.fs w.g n r) →
        SRel w.g g' ∧ Inv g' ∧ ProxyInv ts g' := by
      rintro g' hb rfl
      exact step_ok (fuel := fuel) (ev := .finish n (outcome K w.fs w.g n r)) I Q (by simp [step, hb])
    simp only [istep] at h
    split at h
    · rename_i hb
      cases h
      obtain ⟨a, b, c⟩ := hs _ hb rfl
      refine ⟨a, b, c, ?_⟩
      cases r with
      | ok virt disc => exact wp_ok I P hb H
      | finalizeFailed pd => exact absurd H id
      | failed z =>
        refine wp_pending n I (fun x hx => by simp [finish, outcome, hx]) (by simp [hb]) P
          (by simp [finish, outcome]) ?_ ?_
        · intro hsr h0
          simp only [finish, outcome, upd_node, if_true] at h0 ⊢
          cases z with
          | true => simp at h0
          | false => exact P.db n hsr h0
        · intro h; simp [finish, outcome] at h
      | aborted => exact P
    · cases h

theorem wp_run {S : Sem C} {K : Kinds} {fuel : Nat} {ts : List Nat} (evs : List IEv) :
    ∀ {w w' : World}, Inv w.g → ProxyInv ts w.g → WP S K w.fs w.g → HonestRun S K fuel ts w evs →
      irun K fuel ts w evs = some w' →
      SRel w.g w'.g ∧ Inv w'.g ∧ ProxyInv ts w'.g ∧ WP S K w'.fs w'.g := by
  induction evs with
  | nil =>
    intro w w' I Q P _ h
    simp only [irun, Option.some.injEq] at h; subst h; exact ⟨SRel.refl _, I, Q, P⟩
  | cons ev evs ih =>
    intro w w' I Q P H h
    simp only [irun] at h
    simp only [HonestRun] at H
    split at h
    · cases h
    · rename_i w1 hs
      rw [hs] at H
      obtain ⟨S1, I1, Q1, P1⟩ := wp_step I Q P H.1 hs
      obtain ⟨S2, I2, Q2, P2⟩ := ih I1 Q1 P1 H.2 h
      exact ⟨S1.trans S2, I2, Q2, P2⟩

theorem load_init (db : G) : Init (load db) where
  st _ := rfl
  tag _ := Nat.le_refl _
  self _ := rfl
  proxy := rfl
  log := rfl

theorem wp_load {S : Sem C} {K : Kinds} {fs : Disk} {db : G} (h : ∀ n, DBok S K db n) :
    WP S K fs (load db) where
  db := h
  dyn n hs := by simp [load] at hs
  up n hs := by simp [load] at hs
  acc n hs := by simp [load] at hs

/-- a build from a truthful database -/
theorem builds_ok {S : Sem C} {K : Kinds} {ts : List Nat} {db : G} {fs : Disk} {w : World}
    (h : ∀ n, DBok S K db n) (b : Builds S K ts db fs w) :
    Inv w.g ∧ ProxyInv ts w.g ∧ WP S K w.fs w.g := by
  obtain ⟨fuel, evs, H, hr⟩ := b.run
  have i0 := init_inv (load_init db) ts
  obtain ⟨-, a, b, c⟩ := wp_run evs i0.1 i0.2 (wp_load h) H hr
  exact ⟨a, b, c⟩

/-- The database is truthful at every point of every history. -/
theorem history_ok {K : Kinds} {S : Sem C} {db : G} {fs : Disk} (h : History K S db fs) :
    ∀ n, DBok S K db n := by
  induction h with
  | fresh hf => intro n _ h0; exact absurd (hf.stamp n) h0
  | built _ b ih => exact (builds_ok ih b).2.2.db
  | killed _ _ ih => exact ih
  | edited _ ih => exact ih
  | lost _ hf _ => intro n _ h0; exact absurd (hf.stamp n) h0
  | reparsed _ hc hm ih =>
    intro n hs h0
    rcases hm n with h | ⟨hk, h1, h2, h3, h4⟩
    · exact absurd (h hs) h0
    · rw [h2] at h0
      rw [hk] at hs
      have := ih n hs h0
      unfold Sem.tool at this ⊢
      rw [h1, h2, h3, h4, hc]; exact this

end Verif.Incr
