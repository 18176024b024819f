import Verif.Sched.Model
/-! Helper lemmas for the scheduler model: invariants of a sweep. -/
namespace Verif.Sched

/-- the node has been visited in the current pass -/
def tagged (g : G) (x : Nat) : Prop := (g.node x).tag = g.tag

def Adv (s s' : St) : Prop := s' = s ∨ (s.rank < 3 ∧ s.rank < s'.rank)

theorem Adv.refl (s : St) : Adv s s := Or.inl rfl
theorem Adv.trans {a b c : St} (h1 : Adv a b) (h2 : Adv b c) : Adv a c := by
  unfold Adv at *
  rcases h1 with h1 | h1 <;> rcases h2 with h2 | h2 <;> subst_vars <;> simp_all <;> omega
theorem Adv.fix {a b : St} (h : Adv a b) (h3 : 3 ≤ a.rank) : b = a := by
  rcases h with h | h
  · exact h
  · omega
theorem Adv.up {b : St} (h : Adv .upToDate b) : b = .upToDate := h.fix (by simp [St.rank])
theorem Adv.fail {b : St} (h : Adv .failed b) : b = .failed := h.fix (by simp [St.rank])
theorem Adv.rank_le {a b : St} (h : Adv a b) : a.rank ≤ b.rank := by
  rcases h with h | h
  · rw [h]; exact Nat.le_refl _
  · omega

/-- What a (part of a) sweep may do to the graph. -/
structure Rel (g g' : G) : Prop where
  tag : g'.tag = g.tag
  proxy : g'.proxy = g.proxy
  adv : ∀ x, Adv (g.node x).st (g'.node x).st
  pre : ∀ x, (g'.node x).pre = (g.node x).pre
  static : ∀ x, (g'.node x).static = (g.node x).static
  dyn : ∀ x, 2 ≤ (g.node x).st.rank → (g'.node x).dyn = (g.node x).dyn
  self : ∀ x, 3 ≤ (g.node x).st.rank → (g'.node x).selfFailed = (g.node x).selfFailed
  used : ∀ x, 3 ≤ (g.node x).st.rank → g'.used x = g.used x
  stamp : ∀ x, 3 ≤ (g.node x).st.rank → (g'.node x).stamp = (g.node x).stamp
  tags : ∀ x, (g'.node x).tag = (g.node x).tag ∨ (g'.node x).tag = g.tag

theorem Rel.refl (g : G) : Rel g g := by
  constructor <;> intros <;> simp [Adv]

theorem Rel.trans {a b c : G} (h1 : Rel a b) (h2 : Rel b c) : Rel a c where
  tag := h2.tag.trans h1.tag
  proxy := h2.proxy.trans h1.proxy
  adv x := (h1.adv x).trans (h2.adv x)
  pre x := (h2.pre x).trans (h1.pre x)
  static x := (h2.static x).trans (h1.static x)
  dyn x h := (h2.dyn x (Nat.le_trans h (h1.adv x).rank_le)).trans (h1.dyn x h)
  self x h := (h2.self x (Nat.le_trans h (h1.adv x).rank_le)).trans (h1.self x h)
  used x h := (h2.used x (Nat.le_trans h (h1.adv x).rank_le)).trans (h1.used x h)
  stamp x h := (h2.stamp x (Nat.le_trans h (h1.adv x).rank_le)).trans (h1.stamp x h)
  tags x := by
    rcases h1.tags x with h | h <;> rcases h2.tags x with h' | h' <;> simp [h, h', h1.tag]

theorem Rel.tagged {g g' : G} (h : Rel g g') {x : Nat} (t : tagged g x) : tagged g' x := by
  unfold Sched.tagged at *
  rw [h.tag]; rcases h.tags x with h' | h' <;> simp [h', t]

theorem Rel.upToDate {g g' : G} (h : Rel g g') {x : Nat} (u : (g.node x).st = .upToDate) :
    (g'.node x).st = .upToDate := (u ▸ h.adv x).up

/-- A failed node together with the chain of failed dependencies leading to a node whose own work
failed. -/
inductive RootCause (g : G) : Nat → Prop where
  | self {x} : (g.node x).st = .failed → (g.node x).selfFailed = true → RootCause g x
  | dep {x d} : (g.node x).st = .failed → d ∈ (g.node x).allDeps → RootCause g d → RootCause g x

theorem RootCause.failed {g x} (h : RootCause g x) : (g.node x).st = .failed := by
  cases h <;> assumption

theorem Rel.allDeps {g g' : G} (h : Rel g g') {x : Nat} (u : 2 ≤ (g.node x).st.rank) :
    (g'.node x).allDeps = (g.node x).allDeps := by
  simp [Node.allDeps, h.pre, h.static, h.dyn x u]

theorem RootCause.mono {g g' : G} (h : Rel g g') {x} (r : RootCause g x) : RootCause g' x := by
  induction r with
  | @self x hf hs =>
    have := h.adv x
    rw [hf] at this
    exact .self this.fail (by rw [h.self x (by simp [hf, St.rank])]; exact hs)
  | @dep x d hf hd _ ih =>
    have := h.adv x
    rw [hf] at this
    exact .dep this.fail (by rw [h.allDeps (by simp [hf, St.rank])]; exact hd) ih

/-- Facts about one node that hold throughout a build. -/
structure NodeInv (g : G) (x : Nat) : Prop where
  prePhase : 1 ≤ (g.node x).st.rank → (g.node x).st ≠ .failed →
    ∀ d ∈ ids (g.node x).pre, (g.node d).st = .upToDate
  statPhase : 2 ≤ (g.node x).st.rank → (g.node x).st ≠ .failed →
    ∀ d ∈ ids (g.node x).static, (g.node d).st = .upToDate
  usedUp : (g.node x).st = .building ∨ (g.node x).st = .upToDate →
    ∀ d ∈ g.used x, (g.node d).st = .upToDate
  usedEq : (g.node x).st = .building → g.used x = (g.node x).allDeps
  usedSup : (g.node x).st = .upToDate →
    ∀ d ∈ ids (g.node x).pre ++ ids (g.node x).static, d ∈ g.used x
  root : (g.node x).st = .failed → RootCause g x

structure Inv (g : G) : Prop where
  node : ∀ x, NodeInv g x
  log : ∀ x ∈ g.log, 3 ≤ (g.node x).st.rank
  nodup : g.log.Nodup

theorem NodeInv.mono {g g' : G} (h : Rel g g') {x : Nat}
    (e : (g'.node x).st = (g.node x).st) (ed : (g'.node x).dyn = (g.node x).dyn)
    (eu : g'.used x = g.used x) (i : NodeInv g x) : NodeInv g' x where
  prePhase a b d hd := by
    rw [h.pre] at hd; rw [e] at a b; exact h.upToDate (i.prePhase a b d hd)
  statPhase a b d hd := by
    rw [h.static] at hd; rw [e] at a b; exact h.upToDate (i.statPhase a b d hd)
  usedUp a d hd := by
    rw [e] at a; rw [eu] at hd; exact h.upToDate (i.usedUp a d hd)
  usedEq a := by
    rw [e] at a; rw [eu, i.usedEq a]; simp [Node.allDeps, h.pre, h.static, ed]
  usedSup a d hd := by
    rw [e] at a; rw [h.pre, h.static] at hd; rw [eu]; exact i.usedSup a d hd
  root a := by rw [e] at a; exact (i.root a).mono h

/-- Local update of one node keeps the invariant. -/
theorem inv_local {g g' : G} (n : Nat) (R : Rel g g') (I : Inv g)
    (hx : ∀ x, x ≠ n → g'.node x = g.node x ∧ g'.used x = g.used x)
    (hn : NodeInv g' n)
    (hl : g'.log = g.log ∨ (g'.log = n :: g.log ∧ (g.node n).st.rank < 3 ∧ 3 ≤ (g'.node n).st.rank)) :
    Inv g' where
  node x := by
    by_cases h : x = n
    · subst h; exact hn
    · have ⟨h1, h2⟩ := hx x h
      exact NodeInv.mono R (by rw [h1]) (by rw [h1]) h2 (I.node x)
  log x hxl := by
    rcases hl with hl | ⟨hl, _, h3⟩
    · rw [hl] at hxl; exact Nat.le_trans (I.log x hxl) (R.adv x).rank_le
    · rw [hl] at hxl
      rcases List.mem_cons.1 hxl with h | h
      · subst h; exact h3
      · exact Nat.le_trans (I.log x h) (R.adv x).rank_le
  nodup := by
    rcases hl with hl | ⟨hl, h2, _⟩
    · rw [hl]; exact I.nodup
    · rw [hl]; refine List.nodup_cons.2 ⟨fun h => ?_, I.nodup⟩
      have := I.log n h; omega

@[simp] theorem upd_node (g : G) (n : Nat) (f : Node → Node) (x : Nat) :
    (g.upd n f).node x = if x = n then f (g.node x) else g.node x := rfl
@[simp] theorem upd_tag (g : G) (n : Nat) (f : Node → Node) : (g.upd n f).tag = g.tag := rfl
@[simp] theorem upd_proxy (g : G) (n : Nat) (f : Node → Node) : (g.upd n f).proxy = g.proxy := rfl
@[simp] theorem upd_log (g : G) (n : Nat) (f : Node → Node) : (g.upd n f).log = g.log := rfl
@[simp] theorem upd_used (g : G) (n : Nat) (f : Node → Node) : (g.upd n f).used = g.used := rfl

theorem rel_upd {g : G} {n : Nat} {f : Node → Node} (h : (g.node n).st.rank < 3)
    (ha : Adv (g.node n).st (f (g.node n)).st) (hp : (f (g.node n)).pre = (g.node n).pre)
    (hs : (f (g.node n)).static = (g.node n).static)
    (hd : 2 ≤ (g.node n).st.rank → (f (g.node n)).dyn = (g.node n).dyn)
    (ht : (f (g.node n)).tag = (g.node n).tag ∨ (f (g.node n)).tag = g.tag) :
    Rel g (g.upd n f) := by
  constructor <;> intros <;> simp <;> (try split) <;> (try subst_vars) <;> (try simp_all [Adv.refl]) <;> omega

theorem rel_setTag (g : G) (n : Nat) : Rel g (g.setTag n) := by
  unfold G.setTag
  constructor <;> intros <;> simp <;> (try split) <;> (try subst_vars) <;> (try simp_all [Adv.refl])

theorem inv_setTag {g : G} {n : Nat} (I : Inv g) : Inv (g.setTag n) := by
  refine inv_local n (rel_setTag g n) I (fun x hx => by simp [G.setTag, hx]) ?_ (Or.inl rfl)
  exact NodeInv.mono (rel_setTag g n) (by simp [G.setTag]) (by simp [G.setTag]) rfl (I.node n)

/-- `b` is `a` possibly turned FAILED and possibly retagged. -/
structure Weak (a b : Node) : Prop where
  st : b.st = a.st ∨ b.st = .failed
  pre : b.pre = a.pre
  static : b.static = a.static
  dyn : b.dyn = a.dyn
  stamp : b.stamp = a.stamp
  self : b.selfFailed = a.selfFailed

theorem Weak.refl (a : Node) : Weak a a := ⟨Or.inl rfl, rfl, rfl, rfl, rfl, rfl⟩
theorem Weak.trans {a b c : Node} (h : Weak a b) (k : Weak b c) : Weak a c where
  st := by rcases h.st with h | h <;> rcases k.st with k | k <;> simp [h, k]
  pre := k.pre.trans h.pre
  static := k.static.trans h.static
  dyn := k.dyn.trans h.dyn
  stamp := k.stamp.trans h.stamp
  self := k.self.trans h.self

theorem Weak.allDeps {a b : Node} (h : Weak a b) : b.allDeps = a.allDeps := by
  simp [Node.allDeps, h.pre, h.static, h.dyn]

/-- dependency list of the phase the node is in -/
def cur (nd : Node) : List Nat :=
  match nd.st with
  | .notProcessed => ids nd.pre
  | .staticDeps => ids nd.static
  | .dynamicDeps => ids nd.dyn
  | _ => []

theorem cur_sub (nd : Node) : ∀ d ∈ cur nd, d ∈ nd.allDeps := by
  intro d hd
  unfold cur at hd
  split at hd <;> simp_all [Node.allDeps]

/-- setting a node FAILED because a dependency failed -/
theorem setFailed_ok {g : G} {n d : Nat} (I : Inv g)
    (hn : (g.node n).st.rank < 3 ∨ (g.node n).st = .failed)
    (hd : d ∈ (g.node n).allDeps) (hf : (g.node d).st = .failed) :
    Rel g (g.setSt n .failed) ∧ Inv (g.setSt n .failed) := by
  have R : Rel g (g.setSt n .failed) := by
    rcases hn with hn | hn
    · exact rel_upd hn (Or.inr ⟨hn, show _ < 4 by omega⟩) rfl rfl (fun _ => rfl) (Or.inl rfl)
    · have : g.setSt n .failed = g := by
        unfold G.setSt G.upd
        cases g with | mk node tag proxy log used =>
        simp only [G.mk.injEq, and_true]
        funext x
        by_cases hx : x = n
        · subst hx; simp only at hn; simp [← hn]
        · simp [hx]
      rw [this]; exact Rel.refl g
  refine ⟨R, inv_local n R I (fun x hx => by simp [G.setSt, hx]) ?_ (Or.inl rfl)⟩
  have hst : ((g.setSt n .failed).node n).st = .failed := by simp [G.setSt]
  refine ⟨?_, ?_, ?_, ?_, ?_, ?_⟩ <;> simp only [hst] <;> intros <;> try simp_all
  refine .dep hst (d := d) ?_ (((I.node d).root hf).mono R)
  simpa [G.setSt, Node.allDeps] using hd

/-! ### The dependency loop -/

/-- What one visit of a dependency `d` may do, seen from the node `n` whose dependencies are
being checked. -/
structure VisitPost (n : Nat) (g g1 : G) (d : Nat) : Prop where
  rel : Rel g g1
  inv : Inv g1
  own : g1.node n = g.node n ∨
    (Weak (g.node n) (g1.node n) ∧ tagged g1 n ∧ (g1.node d).st ≠ .upToDate)

/-- Hypotheses on the recursion while checking dependencies of `n`. -/
structure VisitHyp (rec : G → Nat → Option G) (n : Nat) : Prop where
  onTagged : ∀ g d g1, Inv g → tagged g n → visit rec g d = some g1 →
    Rel g g1 ∧ Inv g1 ∧ g1.node n = g.node n
  onUntagged : ∀ g d g1, Inv g → ¬ tagged g n → (g.node n).st.rank < 3 → d ∈ cur (g.node n) →
    visit rec g d = some g1 → VisitPost n g g1 d

theorem weak_rank {a b : Node} (h : Weak a b) (ha : a.st.rank < 3) :
    b.st.rank < 3 ∨ b.st = .failed := by
  rcases h.st with h | h
  · left; rw [h]; exact ha
  · right; exact h

/-- state of node `n` during the loop -/
def LoopCtx (nd : Node) (n : Nat) (g : G) (ok : Bool) : Prop :=
  g.node n = nd ∨ (Weak nd (g.node n) ∧ tagged g n ∧ ok = false)

/-- state of node `n` after the loop -/
def LoopEnd (nd : Node) (n : Nat) (g : G) (ok : Bool) : Prop :=
  g.node n = nd ∨ (Weak nd (g.node n) ∧ ok = false)

theorem loop_ok {rec : G → Nat → Option G} {stop : Bool} {n : Nat} (nd : Node)
    (hnd : nd.st.rank < 3) (ds : List Nat) (hds : ∀ d ∈ ds, d ∈ cur nd) (H : VisitHyp rec n) :
    ∀ (g g' : G) (ok ok' : Bool) (u u' f f' : Nat),
      checkLoop rec stop n g ds ok u f = some (g', ok', u', f') → Inv g →
      LoopCtx nd n g ok →
      Rel g g' ∧ Inv g' ∧ LoopEnd nd n g' ok' ∧
      (ok' = true → ok = true ∧ ∀ d ∈ ds, (g'.node d).st = .upToDate) ∧
      (f < f' → ∃ d ∈ ds, (g'.node d).st = .failed) := by
  induction ds with
  | nil =>
    intro g g' ok ok' u u' f f' h I C
    simp only [checkLoop, Option.some.injEq, Prod.mk.injEq] at h
    obtain ⟨rfl, rfl, rfl, rfl⟩ := h
    exact ⟨Rel.refl _, I, C.imp id (fun h => ⟨h.1, h.2.2⟩), fun h => ⟨h, by simp⟩, by omega⟩
  | cons d ds ih =>
    intro g g' ok ok' u u' f f' h I C
    have ih := ih (fun d hd => hds d (List.mem_cons_of_mem _ hd))
    have hdc : d ∈ cur nd := hds d List.mem_cons_self
    simp only [checkLoop] at h
    split at h
    · cases h
    · rename_i g1 hv
      -- facts about the visit
      have key : Rel g g1 ∧ Inv g1 ∧
          (g1.node n = nd ∨ (Weak nd (g1.node n) ∧ tagged g1 n ∧
            (ok = false ∨ (g1.node d).st ≠ .upToDate))) := by
        by_cases ht : tagged g n
        · have ⟨R, I1, e⟩ := H.onTagged g d g1 I ht hv
          refine ⟨R, I1, ?_⟩
          rcases C with C | ⟨C1, _, C3⟩
          · left; rw [e]; exact C
          · right; rw [e]; exact ⟨C1, R.tagged ht, Or.inl C3⟩
        · rcases C with C | ⟨_, C2, _⟩
          · have P := H.onUntagged g d g1 I ht (by rw [C]; exact hnd) (by rw [C]; exact hdc) hv
            refine ⟨P.rel, P.inv, ?_⟩
            rcases P.own with o | ⟨o1, o2, o3⟩
            · left; rw [o]; exact C
            · right; rw [C] at o1; exact ⟨o1, o2, Or.inr o3⟩
          · exact absurd C2 ht
      obtain ⟨R, I1, K⟩ := key
      have Cfalse : LoopCtx nd n g1 false := by
        rcases K with K | ⟨k1, k2, _⟩
        · exact Or.inl K
        · exact Or.inr ⟨k1, k2, rfl⟩
      split at h
      · -- upToDate
        rename_i hup
        have C1 : LoopCtx nd n g1 ok := by
          rcases K with K | ⟨k1, k2, k3⟩
          · exact Or.inl K
          · rcases k3 with k3 | k3
            · exact Or.inr ⟨k1, k2, k3⟩
            · exact absurd hup k3
        have ⟨R2, I2, C2, O2, F2⟩ := ih g1 g' ok ok' _ u' _ f' h I1 C1
        refine ⟨R.trans R2, I2, C2, fun hok => ⟨(O2 hok).1, ?_⟩, ?_⟩
        · intro x hx
          rcases List.mem_cons.1 hx with rfl | hx
          · exact R2.upToDate hup
          · exact (O2 hok).2 x hx
        · intro hf; have ⟨x, hx, hx2⟩ := F2 hf; exact ⟨x, List.mem_cons_of_mem _ hx, hx2⟩
      · -- failed
        rename_i hfail
        split at h
        · simp only [Option.some.injEq, Prod.mk.injEq] at h
          obtain ⟨rfl, rfl, rfl, rfl⟩ := h
          have w : Weak nd (g1.node n) := by
            rcases K with K | ⟨k1, _, _⟩
            · rw [K]; exact Weak.refl _
            · exact k1
          have hda : d ∈ (g1.node n).allDeps := by
            rw [w.allDeps]; exact cur_sub _ _ hdc
          have ⟨R2, I2⟩ := setFailed_ok I1 (weak_rank w hnd) hda hfail
          refine ⟨R.trans R2, I2, ?_, fun h => by simp at h, fun _ => ⟨d, List.mem_cons_self, ?_⟩⟩
          · right
            refine ⟨?_, rfl⟩
            refine w.trans ⟨?_, ?_, ?_, ?_, ?_, ?_⟩ <;> simp [G.setSt]
          · have := R2.adv d; rw [hfail] at this; exact this.fail
        · have ⟨R2, I2, C2, O2, F2⟩ := ih g1 g' false ok' _ u' _ f' h I1 Cfalse
          refine ⟨R.trans R2, I2, C2, fun hok => by simpa using (O2 hok).1, ?_⟩
          intro _
          refine ⟨d, List.mem_cons_self, ?_⟩
          have := R2.adv d; rw [hfail] at this; exact this.fail
      · have ⟨R2, I2, C2, O2, F2⟩ := ih g1 g' false ok' _ u' _ f' h I1 Cfalse
        refine ⟨R.trans R2, I2, C2, fun hok => by simpa using (O2 hok).1, ?_⟩
        intro hf; have ⟨x, hx, hx2⟩ := F2 hf; exact ⟨x, List.mem_cons_of_mem _ hx, hx2⟩

theorem checkDeps_ok {rec : G → Nat → Option G} {stop : Bool} {n : Nat} {g g' : G} {ok : Bool}
    {deps : List Nat} (hnd : (g.node n).st.rank < 3) (hds : ∀ d ∈ deps, d ∈ cur (g.node n))
    (H : VisitHyp rec n) (I : Inv g) (h : checkDeps rec stop g n deps = some (g', ok)) :
    Rel g g' ∧ Inv g' ∧ LoopEnd (g.node n) n g' ok ∧
      (ok = true → ∀ d ∈ deps, (g'.node d).st = .upToDate) := by
  unfold checkDeps at h
  split at h
  · cases h
  · rename_i g1 ok1 u f hl
    have ⟨R, I1, C, O, F⟩ := loop_ok (g.node n) hnd deps hds H g g1 true ok1 0 u 0 f hl I (Or.inl rfl)
    split at h
    · rename_i hc
      simp only [Option.some.injEq, Prod.mk.injEq] at h
      obtain ⟨rfl, rfl⟩ := h
      have ⟨d, hd, hf⟩ := F hc.2.2
      have w : Weak (g.node n) (g1.node n) := by
        rcases C with C | C
        · rw [C]; exact Weak.refl _
        · exact C.1
      have ⟨R2, I2⟩ := setFailed_ok I1 (weak_rank w hnd)
        (by rw [w.allDeps]; exact cur_sub _ _ (hds d hd)) hf
      have hok : ok1 = false := by
        cases hk : ok1
        · rfl
        · have := (O hk).2 d hd; rw [hf] at this; cases this
      refine ⟨R.trans R2, I2, Or.inr ⟨w.trans ?_, hok⟩, fun h => by simp [hok] at h⟩
      refine ⟨?_, ?_, ?_, ?_, ?_, ?_⟩ <;> simp [G.setSt]
    · simp only [Option.some.injEq, Prod.mk.injEq] at h
      obtain ⟨rfl, rfl⟩ := h
      exact ⟨R, I1, C, fun hk => (O hk).2⟩

theorem fromDynamic_ok {e : Env} {rec : G → Nat → Option G} {n : Nat} {g g' : G}
    (H : VisitHyp rec n) (I : Inv g) (hst : (g.node n).st = .dynamicDeps)
    (h : fromDynamic e rec g n = some g') : Rel g g' ∧ Inv g' := by
  unfold fromDynamic at h
  split at h
  · cases h
  · rename_i g1 hc
    cases h
    have ⟨R, I1, _, _⟩ := checkDeps_ok (by simp [hst, St.rank]) (by simp [cur, hst]) H I hc
    exact ⟨R, I1⟩
  · rename_i g1 hc
    have ⟨R, I1, C, O⟩ := checkDeps_ok (by simp [hst, St.rank]) (by simp [cur, hst]) H I hc
    have hn : g1.node n = g.node n := by
      rcases C with C | C
      · exact C
      · simp at C
    have hst1 : (g1.node n).st = .dynamicDeps := by rw [hn]; exact hst
    have hr : (g1.node n).st.rank = 2 := by simp [hst1, St.rank]
    have hall : ∀ d ∈ (g1.node n).allDeps, (g1.node d).st = .upToDate := by
      intro d hd
      unfold Node.allDeps at hd
      simp only [List.mem_append] at hd
      rcases hd with (hd | hd) | hd
      · exact (I1.node n).prePhase (by omega) (by simp [hst1]) d hd
      · exact (I1.node n).statPhase (by omega) (by simp [hst1]) d hd
      · rw [hn] at hd; exact O rfl d hd
    have hne : ∀ d ∈ (g1.node n).allDeps, d ≠ n := by
      rintro d hd rfl
      have := hall d hd; rw [hst1] at this; cases this
    -- generic argument for both outcomes
    have fin : ∀ (s : St) (l : List Nat), (s = .building ∨ s = .upToDate) →
        (l = g1.log ∨ l = n :: g1.log) →
        let g3 : G := { g1.setSt n s with
          used := fun x => if x = n then (g1.node n).allDeps else g1.used x, log := l }
        Rel g1 g3 ∧ Inv g3 := by
      intro s l hs hl g3
      have hs3 : 3 ≤ s.rank := by rcases hs with rfl | rfl <;> simp [St.rank]
      have R3 : Rel g1 g3 := by
        have R0 : Rel g1 (g1.setSt n s) :=
          rel_upd (by omega) (Or.inr ⟨by omega, by show _ < s.rank; omega⟩) rfl rfl (fun _ => rfl) (Or.inl rfl)
        refine ⟨R0.tag, R0.proxy, R0.adv, R0.pre, R0.static, R0.dyn, R0.self, ?_, R0.stamp, R0.tags⟩
        intro x hx
        have : x ≠ n := by rintro rfl; omega
        simp [g3, this]
      have hst3 : (g3.node n).st = s := by simp [g3, G.setSt]
      have hsub : ∀ d, d ∈ (g1.node n).allDeps → (g3.node d).st = .upToDate :=
        fun d hd => R3.upToDate (hall d hd)
      have hsne : s ≠ .failed := by rcases hs with rfl | rfl <;> simp
      refine ⟨R3, inv_local n R3 I1 (fun x hx => by simp [g3, G.setSt, hx]) ?_ ?_⟩
      · refine ⟨?_, ?_, ?_, ?_, ?_, ?_⟩
        · intro _ _ d hd; rw [R3.pre] at hd
          exact hsub d (by simp [Node.allDeps, hd])
        · intro _ _ d hd; rw [R3.static] at hd
          exact hsub d (by simp [Node.allDeps, hd])
        · intro _ d hd
          simp only [g3, if_true] at hd
          exact hsub d hd
        · intro _; simp [g3, G.setSt, Node.allDeps]
        · intro _ d hd
          rw [R3.pre, R3.static] at hd
          simp only [g3, if_true]
          unfold Node.allDeps
          exact List.mem_append_left _ hd
        · intro hf; rw [hst3] at hf; exact absurd hf hsne
      · rcases hl with rfl | rfl
        · left; rfl
        · right; exact ⟨rfl, by omega, by rw [hst3]; exact hs3⟩
    simp only at h
    split at h
    · cases h
      have := fin .building (n :: g1.log) (Or.inl rfl) (Or.inr rfl)
      exact ⟨R.trans this.1, this.2⟩
    · cases h
      have := fin .upToDate g1.log (Or.inr rfl) (Or.inl rfl)
      exact ⟨R.trans this.1, this.2⟩

/-- moving a node to a later dependency phase -/
theorem phase_ok {g : G} {n : Nat} {f : Node → Node} (I : Inv g) (h : (g.node n).st.rank < 3)
    (hs : (f (g.node n)).st = .staticDeps ∨ (f (g.node n)).st = .dynamicDeps)
    (hr : (g.node n).st.rank ≤ (f (g.node n)).st.rank)
    (hp : (f (g.node n)).pre = (g.node n).pre)
    (hst : (f (g.node n)).static = (g.node n).static)
    (hd : 2 ≤ (g.node n).st.rank → (f (g.node n)).dyn = (g.node n).dyn)
    (ht : (f (g.node n)).tag = (g.node n).tag)
    (hpre : ∀ d ∈ ids (g.node n).pre, (g.node d).st = .upToDate)
    (hstat : (f (g.node n)).st = .dynamicDeps → ∀ d ∈ ids (g.node n).static, (g.node d).st = .upToDate) :
    Rel g (g.upd n f) ∧ Inv (g.upd n f) := by
  have ha : Adv (g.node n).st (f (g.node n)).st := by
    by_cases hE : (f (g.node n)).st = (g.node n).st
    · exact Or.inl hE
    · refine Or.inr ⟨h, ?_⟩
      rcases hs with hs | hs <;> rw [hs] at hE hr ⊢ <;> cases hg : (g.node n).st <;>
        simp_all [St.rank]
  have R : Rel g (g.upd n f) := rel_upd h ha hp hst hd (Or.inl ht)
  have hst' : ((g.upd n f).node n).st = (f (g.node n)).st := by simp
  refine ⟨R, inv_local n R I (fun x hx => by simp [hx]) ?_ (Or.inl rfl)⟩
  refine ⟨?_, ?_, ?_, ?_, ?_, ?_⟩
  · intro _ _ d hd; rw [R.pre] at hd; exact R.upToDate (hpre d hd)
  · intro h2 _ d hd
    rw [R.static] at hd
    rw [hst'] at h2
    refine R.upToDate (hstat ?_ d hd)
    rcases hs with hs | hs
    · rw [hs] at h2; simp [St.rank] at h2
    · exact hs
  · intro hx; rw [hst'] at hx; rcases hs with hs | hs <;> simp [hs] at hx
  · intro hx; rw [hst'] at hx; rcases hs with hs | hs <;> simp [hs] at hx
  · intro hx; rw [hst'] at hx; rcases hs with hs | hs <;> simp [hs] at hx
  · intro hx; rw [hst'] at hx; rcases hs with hs | hs <;> simp [hs] at hx

theorem fromStatic_ok {e : Env} {rec : G → Nat → Option G} {n : Nat} {g g' : G}
    (H : VisitHyp rec n) (I : Inv g) (hst : (g.node n).st = .staticDeps)
    (h : fromStatic e rec g n = some g') : Rel g g' ∧ Inv g' := by
  unfold fromStatic at h
  split at h
  · cases h
  · rename_i g1 hc
    cases h
    have ⟨R, I1, _, _⟩ := checkDeps_ok (by simp [hst, St.rank]) (by simp [cur, hst]) H I hc
    exact ⟨R, I1⟩
  · rename_i g1 hc
    have ⟨R, I1, C, O⟩ := checkDeps_ok (by simp [hst, St.rank]) (by simp [cur, hst]) H I hc
    have hn : g1.node n = g.node n := by
      rcases C with C | C
      · exact C
      · simp at C
    have hst1 : (g1.node n).st = .staticDeps := by rw [hn]; exact hst
    have hr : (g1.node n).st.rank = 1 := by simp [hst1, St.rank]
    have hpre := (I1.node n).prePhase (by omega) (by simp [hst1])
    have hstat : ∀ d ∈ ids (g1.node n).static, (g1.node d).st = .upToDate := by
      intro d hd; rw [hn] at hd; exact O rfl d hd
    split at h
    · dsimp only at h
      split at h
      · cases h
        have R2 : Rel g1 ((g1.upd n (fun nd => { nd with stamp := 0, dyn := [] })).upd n
            (fun nd => { nd with st := .failed, selfFailed := true })) := by
          constructor <;> intros <;> simp <;> (try split) <;> (try subst_vars) <;>
            (try simp_all [Adv, St.rank])
        refine ⟨R.trans R2, inv_local n R2 I1 (fun x hx => by simp [hx]) ?_ (Or.inl rfl)⟩
        refine ⟨?_, ?_, ?_, ?_, ?_, ?_⟩ <;> simp
        exact .self (by simp) (by simp)
      · rename_i ds hdd
        have P := phase_ok (g := g1) (n := n)
          (f := fun nd => { nd with stamp := 0, st := .dynamicDeps, dyn := ds }) I1 (by omega)
          (Or.inr rfl) (by show _ ≤ 2; omega) rfl rfl (by omega) rfl hpre (fun _ => hstat)
        have heq : ((g1.upd n (fun nd => { nd with stamp := 0, dyn := [] })).upd n
            (fun nd => { nd with st := .dynamicDeps, dyn := ds })) =
            g1.upd n (fun nd => { nd with stamp := 0, st := .dynamicDeps, dyn := ds }) := by
          unfold G.upd
          simp only [G.mk.injEq, and_true]
          funext x
          split <;> simp
        rw [heq] at h
        have Q := fromDynamic_ok H P.2 (by simp) h
        exact ⟨(R.trans P.1).trans Q.1, Q.2⟩
    · have P := phase_ok (g := g1) (n := n)
          (f := fun nd => { nd with st := .dynamicDeps }) I1 (by omega)
          (Or.inr rfl) (by show _ ≤ 2; omega) rfl rfl (by omega) rfl hpre (fun _ => hstat)
      have Q := fromDynamic_ok H P.2 (by simp) h
      exact ⟨(R.trans P.1).trans Q.1, Q.2⟩

theorem fromPre_ok {e : Env} {rec : G → Nat → Option G} {n : Nat} {g g' : G}
    (H : VisitHyp rec n) (I : Inv g) (hst : (g.node n).st = .notProcessed)
    (h : fromPre e rec g n = some g') : Rel g g' ∧ Inv g' := by
  unfold fromPre at h
  split at h
  · cases h
  · rename_i g1 hc
    cases h
    have ⟨R, I1, _, _⟩ := checkDeps_ok (by simp [hst, St.rank]) (by simp [cur, hst]) H I hc
    exact ⟨R, I1⟩
  · rename_i g1 hc
    have ⟨R, I1, C, O⟩ := checkDeps_ok (by simp [hst, St.rank]) (by simp [cur, hst]) H I hc
    have hn : g1.node n = g.node n := by
      rcases C with C | C
      · exact C
      · simp at C
    have hst1 : (g1.node n).st = .notProcessed := by rw [hn]; exact hst
    have hr : (g1.node n).st.rank = 0 := by simp [hst1, St.rank]
    have hpre : ∀ d ∈ ids (g1.node n).pre, (g1.node d).st = .upToDate := by
      intro d hd; rw [hn] at hd; exact O rfl d hd
    have P := phase_ok (g := g1) (n := n)
          (f := fun nd => { nd with st := .staticDeps }) I1 (by omega)
          (Or.inl rfl) (by show _ ≤ 1; omega) rfl rfl (by omega) rfl hpre (by simp)
    have Q := fromStatic_ok H P.2 (by simp) h
    exact ⟨(R.trans P.1).trans Q.1, Q.2⟩

theorem body_ok {e : Env} {rec : G → Nat → Option G} {n : Nat} {g g' : G}
    (H : VisitHyp rec n) (I : Inv g) (h : body e rec g n = some g') : Rel g g' ∧ Inv g' := by
  unfold body at h
  split at h
  · exact fromPre_ok H I (by assumption) h
  · exact fromStatic_ok H I (by assumption) h
  · exact fromDynamic_ok H I (by assumption) h
  · cases h; exact ⟨Rel.refl _, I⟩

/-! ### Frame property and re-entrancy -/

/-- Visited nodes other than the current one are never touched again in the pass. -/
def Frame (n : Nat) (g g' : G) : Prop := ∀ x, x ≠ n → tagged g x → g'.node x = g.node x

/-- Behaviour of a recursive call on an already tagged node. -/
def Good (rec : G → Nat → Option G) : Prop :=
  ∀ g n g', rec g n = some g' → tagged g n → Inv g → Rel g g' ∧ Inv g' ∧ Frame n g g'

theorem tagged_setTag (g : G) (n : Nat) : tagged (g.setTag n) n := by
  simp [tagged, G.setTag]

theorem tagged_upd {g : G} {n x : Nat} {f : Node → Node} (h : x ≠ n) :
    tagged (g.upd n f) x ↔ tagged g x := by
  simp [tagged, h]

theorem visit_good {rec} (K : Good rec) {g g1 : G} {d : Nat} (I : Inv g)
    (h : visit rec g d = some g1) :
    Rel g g1 ∧ Inv g1 ∧ ∀ x, tagged g x → g1.node x = g.node x := by
  unfold visit at h
  split at h
  · rename_i hc
    have ⟨R, I1, F⟩ := K _ _ _ h (tagged_setTag g d) (inv_setTag I)
    refine ⟨(rel_setTag g d).trans R, I1, fun x hx => ?_⟩
    have hxd : x ≠ d := by rintro rfl; exact hc.2 hx
    rw [F x hxd ((tagged_upd hxd).2 hx)]
    simp [G.setTag, hxd]
  · cases h; exact ⟨Rel.refl _, I, fun _ _ => rfl⟩

/-- Rel + invariant + frame of the loop for a tagged node. -/
theorem loop_frame {rec} (K : Good rec) {stop : Bool} {n : Nat} (ds : List Nat) :
    ∀ (g g' : G) (ok ok' : Bool) (u u' f f' : Nat),
      checkLoop rec stop n g ds ok u f = some (g', ok', u', f') →
      Inv g → (∀ d ∈ ds, d ∈ (g.node n).allDeps) → (g.node n).st.rank < 3 → tagged g n →
      Rel g g' ∧ Inv g' ∧ Frame n g g' ∧ Weak (g.node n) (g'.node n) := by
  induction ds with
  | nil =>
    intro g g' ok ok' u u' f f' h I _ _ _
    simp only [checkLoop, Option.some.injEq, Prod.mk.injEq] at h
    obtain ⟨rfl, rfl, rfl, rfl⟩ := h
    exact ⟨Rel.refl _, I, fun _ _ _ => rfl, Weak.refl _⟩
  | cons d ds ih =>
    intro g g' ok ok' u u' f f' h I hds hr ht
    simp only [checkLoop] at h
    split at h
    · cases h
    · rename_i g1 hv
      have ⟨R, I1, F⟩ := visit_good K I hv
      have e := F n ht
      have step : ∀ ok u f, checkLoop rec stop n g1 ds ok u f = some (g', ok', u', f') →
          Rel g g' ∧ Inv g' ∧ Frame n g g' ∧ Weak (g.node n) (g'.node n) := by
        intro ok u f h
        have ⟨R2, I2, F2, W2⟩ := ih g1 g' ok ok' u u' f f' h I1
          (fun d hd => by rw [e]; exact hds d (List.mem_cons_of_mem _ hd)) (by rw [e]; exact hr)
          (R.tagged ht)
        refine ⟨R.trans R2, I2, fun x hx hxt => ?_, e ▸ W2⟩
        rw [F2 x hx (R.tagged hxt), F x hxt]
      split at h
      · exact step _ _ _ h
      · rename_i hfail
        split at h
        · simp only [Option.some.injEq, Prod.mk.injEq] at h
          obtain ⟨rfl, rfl, rfl, rfl⟩ := h
          have ⟨R2, I2⟩ := setFailed_ok I1 (n := n) (d := d) (by left; rw [e]; exact hr)
            (by rw [e]; exact hds d List.mem_cons_self) hfail
          refine ⟨R.trans R2, I2, fun x hx hxt => ?_, ?_⟩
          · simp [G.setSt, hx, F x hxt]
          · rw [← e]; refine ⟨?_, ?_, ?_, ?_, ?_, ?_⟩ <;> simp [G.setSt]
        · exact step _ _ _ h
      · exact step _ _ _ h

theorem checkDeps_frame {rec} (K : Good rec) {stop : Bool} {n : Nat} {g g' : G} {ok : Bool}
    {deps : List Nat} (h : checkDeps rec stop g n deps = some (g', ok)) (I : Inv g)
    (hds : ∀ d ∈ deps, d ∈ (g.node n).allDeps) (hr : (g.node n).st.rank < 3) (ht : tagged g n) :
    Frame n g g' := by
  unfold checkDeps at h
  split at h
  · cases h
  · rename_i g1 ok1 u f hl
    have ⟨_, _, F, _⟩ := loop_frame K deps g g1 _ _ _ _ _ _ hl I hds hr ht
    split at h
    · simp only [Option.some.injEq, Prod.mk.injEq] at h
      obtain ⟨rfl, rfl⟩ := h
      intro x hx hxt
      simp [G.setSt, hx, F x hx hxt]
    · simp only [Option.some.injEq, Prod.mk.injEq] at h
      obtain ⟨rfl, rfl⟩ := h
      exact F

theorem Frame.trans {n : Nat} {a b c : G} (h1 : Frame n a b) (R : Rel a b) (h2 : Frame n b c) :
    Frame n a c := fun x hx ht => by rw [h2 x hx (R.tagged ht), h1 x hx ht]

theorem frame_upd {n : Nat} {g : G} {f : Node → Node} : Frame n g (g.upd n f) :=
  fun x hx _ => by simp [hx]

/-- some dependency of the current phase of `n` is on the recursion stack -/
def Waits (g : G) (n : Nat) : Prop :=
  ∃ c ∈ cur (g.node n), tagged g c ∧ (g.node c).st.rank < 3

/-- the effect of a recursion on an untagged node `n` that is being processed further up the stack -/
def OuterPost (n d : Nat) (g g' : G) : Prop :=
  g'.node n = g.node n ∨
    (Weak (g.node n) (g'.node n) ∧ tagged g' n ∧ (g'.node d).st ≠ .upToDate)

structure Claim (rec : G → Nat → Option G) : Prop where
  good : Good rec
  /-- re-entering a node one of whose current dependencies is on the stack cannot advance it -/
  blk : ∀ g n g', rec g n = some g' → Inv g → tagged g n → (g.node n).st.rank < 3 → Waits g n →
    Weak (g.node n) (g'.node n)
  outer : ∀ g n d g', rec g d = some g' → Inv g → tagged g d → n ≠ d → (g.node d).st.rank < 3 →
    ¬ tagged g n → (g.node n).st.rank < 3 → Waits g n → OuterPost n d g g'

theorem Weak.ne_up {a b : Node} (h : Weak a b) (ha : a.st.rank < 3) : b.st ≠ .upToDate := by
  rcases weak_rank h ha with h | h
  · intro hb; rw [hb] at h; simp [St.rank] at h
  · rw [h]; simp

theorem visit_outer {rec} (K : Claim rec) {g g1 : G} {n d : Nat} (I : Inv g)
    (hn : ¬ tagged g n) (hr : (g.node n).st.rank < 3)
    (hw : Waits g n ∨ d ∈ cur (g.node n)) (h : visit rec g d = some g1) :
    OuterPost n d g g1 := by
  have h0 := h
  unfold visit at h
  split at h
  · rename_i hc
    have It := inv_setTag (n := d) I
    have hd' : ((g.setTag d).node d).st = (g.node d).st := by simp [G.setTag]
    by_cases hnd : n = d
    · subst hnd
      have hst : ((g.setTag n).node n).st = (g.node n).st := by simp [G.setTag]
      have hcur : cur ((g.setTag n).node n) = cur (g.node n) := by simp [G.setTag, cur]
      have hw' : Waits (g.setTag n) n := by
        rcases hw with ⟨c, hc1, hc2, hc3⟩ | hw
        · have : c ≠ n := by rintro rfl; exact hn hc2
          exact ⟨c, by rw [hcur]; exact hc1, (tagged_upd this).2 hc2, by simp [G.setTag, this, hc3]⟩
        · exact ⟨n, by rw [hcur]; exact hw, tagged_setTag g n, by rw [hst]; exact hr⟩
      have w := K.blk _ _ _ h It (tagged_setTag g n) (by rw [hst]; exact hr) hw'
      have w0 : Weak (g.node n) ((g.setTag n).node n) := by
        refine ⟨?_, ?_, ?_, ?_, ?_, ?_⟩ <;> simp [G.setTag]
      have R := (K.good _ _ _ h (tagged_setTag g n) It).1
      exact Or.inr ⟨w0.trans w, R.tagged (tagged_setTag g n), (w0.trans w).ne_up hr⟩
    · have en : (g.setTag d).node n = g.node n := by simp [G.setTag, hnd]
      have hw' : Waits (g.setTag d) n := by
        rcases hw with ⟨c, hc1, hc2, hc3⟩ | hw
        · have : c ≠ d := by rintro rfl; exact hc.2 hc2
          exact ⟨c, by rw [en]; exact hc1, (tagged_upd this).2 hc2, by simp [G.setTag, this, hc3]⟩
        · exact ⟨d, by rw [en]; exact hw, tagged_setTag g d, by rw [hd']; exact hc.1⟩
      have := K.outer _ n d _ h It (tagged_setTag g d) hnd (by rw [hd']; exact hc.1)
        (fun t => hn ((tagged_upd hnd).1 t)) (by rw [en]; exact hr) hw'
      unfold OuterPost at this ⊢
      rwa [en] at this
  · cases h; exact Or.inl rfl

theorem vh_of_claim {rec} (K : Claim rec) (n : Nat) : VisitHyp rec n where
  onTagged g d g1 I t h := by
    have ⟨R, I1, F⟩ := visit_good K.good I h
    exact ⟨R, I1, F n t⟩
  onUntagged g d g1 I t hr hd h := by
    have ⟨R, I1, _⟩ := visit_good K.good I h
    exact ⟨R, I1, visit_outer K I t hr (Or.inr hd) h⟩

/-- loop of a tagged node `d`, seen from an untagged node `n` waiting further up the stack -/
theorem loop_outer {rec} (K : Claim rec) {stop : Bool} {n d : Nat} (hnd : n ≠ d) (ds : List Nat) :
    ∀ (g g' : G) (ok ok' : Bool) (u u' f f' : Nat),
      checkLoop rec stop d g ds ok u f = some (g', ok', u', f') →
      Inv g → tagged g d → ¬ tagged g n → (g.node n).st.rank < 3 → Waits g n →
      (g'.node n = g.node n) ∨ (Weak (g.node n) (g'.node n) ∧ tagged g' n ∧ ok' = false) := by
  induction ds with
  | nil =>
    intro g g' ok ok' u u' f f' h _ _ _ _ _
    simp only [checkLoop, Option.some.injEq, Prod.mk.injEq] at h
    obtain ⟨rfl, rfl, rfl, rfl⟩ := h
    exact Or.inl rfl
  | cons x ds ih =>
    intro g g' ok ok' u u' f f' h I ht hn hr hw
    -- once `n` is tagged nothing touches it, and a false flag stays false
    have after : ∀ (ds : List Nat) (g g' : G) (u u' f f' : Nat) (ok' : Bool),
        checkLoop rec stop d g ds false u f = some (g', ok', u', f') → Inv g → tagged g n →
        g'.node n = g.node n ∧ ok' = false ∧ tagged g' n := by
      intro ds
      induction ds with
      | nil =>
        intro g g' u u' f f' ok' h _ t
        simp only [checkLoop, Option.some.injEq, Prod.mk.injEq] at h
        obtain ⟨rfl, rfl, rfl, rfl⟩ := h
        exact ⟨rfl, rfl, t⟩
      | cons y ds ih2 =>
        intro g g' u u' f f' ok' h I t
        simp only [checkLoop] at h
        split at h
        · cases h
        · rename_i g1 hv
          have ⟨R, I1, F⟩ := visit_good K.good I hv
          have e := F n t
          have step : ∀ u f, checkLoop rec stop d g1 ds false u f = some (g', ok', u', f') →
              g'.node n = g.node n ∧ ok' = false ∧ tagged g' n := by
            intro u f h
            have ⟨a, b, c⟩ := ih2 g1 g' u u' f f' ok' h I1 (R.tagged t)
            exact ⟨a.trans e, b, c⟩
          split at h
          · exact step _ _ h
          · split at h
            · simp only [Option.some.injEq, Prod.mk.injEq] at h
              obtain ⟨rfl, rfl, rfl, rfl⟩ := h
              refine ⟨by simp [G.setSt, hnd, e], rfl, ?_⟩
              exact (tagged_upd hnd).2 (R.tagged t)
            · exact step _ _ h
          · exact step _ _ h
    simp only [checkLoop] at h
    split at h
    · cases h
    · rename_i g1 hv
      have ⟨R, I1, F⟩ := visit_good K.good I hv
      rcases visit_outer K I hn hr (Or.inl hw) hv with e | ⟨w, t1, hne⟩
      · -- n untouched so far
        by_cases ht1 : tagged g1 n
        · exfalso; unfold tagged at ht1 hn; rw [e, R.tag] at ht1; exact hn ht1
        have hw1 : Waits g1 n := by
          obtain ⟨c, c1, c2, c3⟩ := hw
          exact ⟨c, by rw [e]; exact c1, R.tagged c2, by rw [F c c2]; exact c3⟩
        have step : ∀ ok u f, checkLoop rec stop d g1 ds ok u f = some (g', ok', u', f') →
            (g'.node n = g.node n) ∨ (Weak (g.node n) (g'.node n) ∧ tagged g' n ∧ ok' = false) := by
          intro ok u f h
          have := ih g1 g' ok ok' u u' f f' h I1 (R.tagged ht) ht1 (by rw [e]; exact hr) hw1
          rwa [e] at this
        split at h
        · exact step _ _ _ h
        · split at h
          · simp only [Option.some.injEq, Prod.mk.injEq] at h
            obtain ⟨rfl, rfl, rfl, rfl⟩ := h
            exact Or.inl (by simp [G.setSt, hnd, e])
          · exact step _ _ _ h
        · exact step _ _ _ h
      · -- n was re-entered
        right
        split at h
        · rename_i hup; exact absurd hup hne
        · split at h
          · simp only [Option.some.injEq, Prod.mk.injEq] at h
            obtain ⟨rfl, rfl, rfl, rfl⟩ := h
            refine ⟨?_, (tagged_upd hnd).2 t1, rfl⟩
            simpa [G.setSt, hnd] using w
          · have ⟨a, b, c⟩ := after ds g1 g' _ u' _ f' ok' h I1 t1
            exact ⟨by rw [a]; exact w, c, b⟩
        · have ⟨a, b, c⟩ := after ds g1 g' _ u' _ f' ok' h I1 t1
          exact ⟨by rw [a]; exact w, c, b⟩

theorem checkDeps_outer {rec} (K : Claim rec) {stop : Bool} {n d : Nat} (hnd : n ≠ d) {deps : List Nat}
    {g g' : G} {ok : Bool} (h : checkDeps rec stop g d deps = some (g', ok))
    (I : Inv g) (ht : tagged g d) (hn : ¬ tagged g n) (hr : (g.node n).st.rank < 3) (hw : Waits g n) :
    (g'.node n = g.node n) ∨ (Weak (g.node n) (g'.node n) ∧ tagged g' n ∧ ok = false) := by
  unfold checkDeps at h
  split at h
  · cases h
  · rename_i g1 ok1 u f hl
    have := loop_outer K hnd deps g g1 _ _ _ _ _ _ hl I ht hn hr hw
    split at h
    · simp only [Option.some.injEq, Prod.mk.injEq] at h
      obtain ⟨rfl, rfl⟩ := h
      rcases this with a | ⟨a, b, c⟩
      · left; simp [G.setSt, hnd, a]
      · right; exact ⟨by simpa [G.setSt, hnd] using a, (tagged_upd hnd).2 b, c⟩
    · simp only [Option.some.injEq, Prod.mk.injEq] at h
      obtain ⟨rfl, rfl⟩ := h
      exact this

/-! ### Decomposition of `body` into phases -/

theorem fromDynamic_cases {e : Env} {rec n} {g g' : G} (h : fromDynamic e rec g n = some g') :
    ∃ g1 ok, checkDeps rec e.stopOnFirstError g n (ids (g.node n).dyn) = some (g1, ok) ∧
      ((ok = false ∧ g' = g1) ∨
       (ok = true ∧ (∀ x, x ≠ n → g'.node x = g1.node x) ∧ g'.tag = g1.tag ∧
        (g'.node n).tag = (g1.node n).tag ∧
        ((g'.node n).st = .building ∨ (g'.node n).st = .upToDate))) := by
  unfold fromDynamic at h
  split at h
  · cases h
  · rename_i g1 hc; cases h; exact ⟨_, false, hc, Or.inl ⟨rfl, rfl⟩⟩
  · rename_i g1 hc
    refine ⟨g1, true, hc, Or.inr ⟨rfl, ?_⟩⟩
    dsimp only at h
    split at h <;> cases h
    · refine ⟨fun x hx => ?_, ?_, ?_, ?_⟩ <;> simp [G.enqueue, G.setSt, *]
    · refine ⟨fun x hx => ?_, ?_, ?_, ?_⟩ <;> simp [G.setSt, *]

theorem fromStatic_cases {e : Env} {rec n} {g g' : G} (h : fromStatic e rec g n = some g') :
    ∃ g1 ok, checkDeps rec e.stopOnFirstError g n (ids (g.node n).static) = some (g1, ok) ∧
      ((ok = false ∧ g' = g1) ∨
       (ok = true ∧ ∃ f, g' = g1.upd n f ∧ (f (g1.node n)).st = .failed ∧
          (f (g1.node n)).tag = (g1.node n).tag) ∨
       (ok = true ∧ ∃ f, fromDynamic e rec (g1.upd n f) n = some g' ∧
          (f (g1.node n)).st = .dynamicDeps ∧ (f (g1.node n)).tag = (g1.node n).tag ∧
          (f (g1.node n)).pre = (g1.node n).pre ∧ (f (g1.node n)).static = (g1.node n).static)) := by
  unfold fromStatic at h
  split at h
  · cases h
  · rename_i g1 hc; cases h; exact ⟨_, false, hc, Or.inl ⟨rfl, rfl⟩⟩
  · rename_i g1 hc
    refine ⟨g1, true, hc, Or.inr ?_⟩
    have comp : ∀ f1 f2 : Node → Node, (g1.upd n f1).upd n f2 = g1.upd n (fun nd => f2 (f1 nd)) := by
      intro f1 f2
      unfold G.upd
      simp only [G.mk.injEq, and_true]
      funext x
      split <;> simp
    split at h
    · dsimp only at h
      split at h
      · cases h
        left
        exact ⟨rfl, _, comp _ _, rfl, rfl⟩
      · right
        rw [comp] at h
        exact ⟨rfl, _, h, rfl, rfl, rfl, rfl⟩
    · right
      exact ⟨rfl, _, h, rfl, rfl, rfl, rfl⟩

theorem fromPre_cases {e : Env} {rec n} {g g' : G} (h : fromPre e rec g n = some g') :
    ∃ g1 ok, checkDeps rec e.stopOnFirstError g n (ids (g.node n).pre) = some (g1, ok) ∧
      ((ok = false ∧ g' = g1) ∨
       (ok = true ∧ fromStatic e rec (g1.setSt n .staticDeps) n = some g')) := by
  unfold fromPre at h
  split at h
  · cases h
  · rename_i g1 hc; cases h; exact ⟨_, false, hc, Or.inl ⟨rfl, rfl⟩⟩
  · rename_i g1 hc; exact ⟨g1, true, hc, Or.inr ⟨rfl, h⟩⟩

/-- Invariant and relation after entering the dynamic phase (result of the static phase). -/
theorem enterDynamic {g1 : G} {n : Nat} {f : Node → Node} (I1 : Inv g1)
    (hst : (g1.node n).st = .staticDeps)
    (hstat : ∀ d ∈ ids (g1.node n).static, (g1.node d).st = .upToDate)
    (h1 : (f (g1.node n)).st = .dynamicDeps) (h2 : (f (g1.node n)).tag = (g1.node n).tag)
    (h3 : (f (g1.node n)).pre = (g1.node n).pre) (h4 : (f (g1.node n)).static = (g1.node n).static) :
    Rel g1 (g1.upd n f) ∧ Inv (g1.upd n f) :=
  phase_ok I1 (by simp [hst, St.rank]) (Or.inr h1) (by simp [hst, h1, St.rank]) h3 h4
    (by simp [hst, St.rank]) h2
    ((I1.node n).prePhase (by simp [hst, St.rank]) (by simp [hst])) (fun _ => hstat)

theorem enterStatic {g1 : G} {n : Nat} (I1 : Inv g1)
    (hst : (g1.node n).st = .notProcessed)
    (hpre : ∀ d ∈ ids (g1.node n).pre, (g1.node d).st = .upToDate) :
    Rel g1 (g1.setSt n .staticDeps) ∧ Inv (g1.setSt n .staticDeps) :=
  phase_ok I1 (by simp [hst, St.rank]) (Or.inl rfl) (by simp [hst, St.rank]) rfl rfl
    (by simp [hst, St.rank]) rfl hpre (by simp)

theorem cur_static {nd : Node} (h : nd.st = .staticDeps) : cur nd = ids nd.static := by simp [cur, h]
theorem cur_dyn {nd : Node} (h : nd.st = .dynamicDeps) : cur nd = ids nd.dyn := by simp [cur, h]
theorem cur_pre {nd : Node} (h : nd.st = .notProcessed) : cur nd = ids nd.pre := by simp [cur, h]

theorem loopEnd_true {nd : Node} {n : Nat} {g : G} (h : LoopEnd nd n g true) : g.node n = nd := by
  rcases h with h | h
  · exact h
  · simp at h

section frame
variable {e : Env} {rec : G → Nat → Option G} (K : Claim rec) {n : Nat} {g g' : G}
include K

theorem fromDynamic_frame (I : Inv g) (hst : (g.node n).st = .dynamicDeps) (ht : tagged g n)
    (h : fromDynamic e rec g n = some g') : Frame n g g' := by
  obtain ⟨g1, ok, hc, hcase⟩ := fromDynamic_cases h
  have F := checkDeps_frame K.good hc I (by simp [Node.allDeps]; intros; simp [*])
    (by simp [hst, St.rank]) ht
  rcases hcase with ⟨_, rfl⟩ | ⟨_, hx, _⟩
  · exact F
  · intro x hxn hxt; rw [hx x hxn]; exact F x hxn hxt

theorem fromStatic_frame (I : Inv g) (hst : (g.node n).st = .staticDeps) (ht : tagged g n)
    (h : fromStatic e rec g n = some g') : Frame n g g' := by
  obtain ⟨g1, ok, hc, hcase⟩ := fromStatic_cases h
  have hr : (g.node n).st.rank < 3 := by simp [hst, St.rank]
  have F := checkDeps_frame K.good hc I (by simp [Node.allDeps]; intros; simp [*]) hr ht
  have ⟨R, I1, C, O⟩ := checkDeps_ok hr (by rw [cur_static hst]; exact fun _ h => h) (vh_of_claim K n) I hc
  rcases hcase with ⟨_, rfl⟩ | ⟨_, f, rfl, _⟩ | ⟨rfl, f, hd, h1, h2, h3, h4⟩
  · exact F
  · exact F.trans R frame_upd
  · have en := loopEnd_true C
    have ⟨R2, I2⟩ := enterDynamic I1 (by rw [en]; exact hst) (by rw [en]; exact O rfl) h1 h2 h3 h4
    have t2 := R2.tagged (R.tagged ht)
    exact (F.trans R frame_upd).trans (R.trans R2) (fromDynamic_frame K I2 (by simp [h1]) t2 hd)

theorem fromPre_frame (I : Inv g) (hst : (g.node n).st = .notProcessed) (ht : tagged g n)
    (h : fromPre e rec g n = some g') : Frame n g g' := by
  obtain ⟨g1, ok, hc, hcase⟩ := fromPre_cases h
  have hr : (g.node n).st.rank < 3 := by simp [hst, St.rank]
  have F := checkDeps_frame K.good hc I (by simp [Node.allDeps]; intros; simp [*]) hr ht
  have ⟨R, I1, C, O⟩ := checkDeps_ok hr (by rw [cur_pre hst]; exact fun _ h => h) (vh_of_claim K n) I hc
  rcases hcase with ⟨_, rfl⟩ | ⟨rfl, hd⟩
  · exact F
  · have en := loopEnd_true C
    have ⟨R2, I2⟩ := enterStatic (n := n) I1 (by rw [en]; exact hst) (by rw [en]; exact O rfl)
    have t2 := R2.tagged (R.tagged ht)
    exact (F.trans R frame_upd).trans (R.trans R2) (fromStatic_frame K I2 (by simp [G.setSt]) t2 hd)

theorem body_frame (I : Inv g) (ht : tagged g n) (h : body e rec g n = some g') : Frame n g g' := by
  unfold body at h
  split at h
  · exact fromPre_frame K I (by assumption) ht h
  · exact fromStatic_frame K I (by assumption) ht h
  · exact fromDynamic_frame K I (by assumption) ht h
  · cases h; exact fun _ _ _ => rfl

/-- first phase of a blocked node ends with `allDependenciesUpToDate = false` -/
theorem blocked_checkDeps {stop : Bool} {ok : Bool} (I : Inv g) (ht : tagged g n)
    (hr : (g.node n).st.rank < 3) (hw : Waits g n)
    (hc : checkDeps rec stop g n (cur (g.node n)) = some (g', ok)) :
    ok = false ∧ Weak (g.node n) (g'.node n) := by
  have F := checkDeps_frame K.good hc I (cur_sub _) hr ht
  have ⟨R, I1, C, O⟩ := checkDeps_ok hr (fun _ h => h) (vh_of_claim K n) I hc
  have hok : ok = false := by
    cases hk : ok
    · rfl
    · exfalso
      subst hk
      obtain ⟨c, c1, c2, c3⟩ := hw
      have up := O rfl c c1
      have en := loopEnd_true C
      by_cases hcn : c = n
      · subst hcn; rw [en] at up; rw [up] at c3; simp [St.rank] at c3
      · rw [F c hcn c2] at up; rw [up] at c3; simp [St.rank] at c3
  refine ⟨hok, ?_⟩
  rcases C with C | C
  · rw [C]; exact Weak.refl _
  · exact C.1

theorem body_blk (I : Inv g) (ht : tagged g n) (hr : (g.node n).st.rank < 3) (hw : Waits g n)
    (h : body e rec g n = some g') : Weak (g.node n) (g'.node n) := by
  unfold body at h
  split at h
  · rename_i hst
    obtain ⟨g1, ok, hc, hcase⟩ := fromPre_cases h
    rw [← cur_pre hst] at hc
    have ⟨hok, w⟩ := blocked_checkDeps K I ht hr hw hc
    rcases hcase with ⟨_, rfl⟩ | ⟨hk, _⟩
    · exact w
    · simp [hok] at hk
  · rename_i hst
    obtain ⟨g1, ok, hc, hcase⟩ := fromStatic_cases h
    rw [← cur_static hst] at hc
    have ⟨hok, w⟩ := blocked_checkDeps K I ht hr hw hc
    rcases hcase with ⟨_, rfl⟩ | ⟨hk, _⟩ | ⟨hk, _⟩
    · exact w
    · simp [hok] at hk
    · simp [hok] at hk
  · rename_i hst
    obtain ⟨g1, ok, hc, hcase⟩ := fromDynamic_cases h
    rw [← cur_dyn hst] at hc
    have ⟨hok, w⟩ := blocked_checkDeps K I ht hr hw hc
    rcases hcase with ⟨_, rfl⟩ | ⟨hk, _⟩
    · exact w
    · simp [hok] at hk
  · cases h; exact Weak.refl _

/-- one phase of `d` seen from the waiting node `m` -/
theorem phase_outer {stop : Bool} {ok : Bool} {m : Nat} (I : Inv g) (ht : tagged g n) (hmn : m ≠ n)
    (hr : (g.node n).st.rank < 3) (hm : ¬ tagged g m) (hmr : (g.node m).st.rank < 3) (hw : Waits g m)
    (hc : checkDeps rec stop g n (cur (g.node n)) = some (g', ok)) :
    (ok = false → OuterPost m n g g') ∧
    (ok = true → g'.node m = g.node m ∧ ¬ tagged g' m ∧ Waits g' m) := by
  have F := checkDeps_frame K.good hc I (cur_sub _) hr ht
  have ⟨R, I1, C, O⟩ := checkDeps_ok hr (fun _ h => h) (vh_of_claim K n) I hc
  have P := checkDeps_outer K hmn hc I ht hm hmr hw
  constructor
  · rintro rfl
    rcases P with P | ⟨p1, p2, _⟩
    · exact Or.inl P
    · refine Or.inr ⟨p1, p2, ?_⟩
      rcases C with C | C
      · rw [C]; exact (Weak.refl _).ne_up hr
      · exact C.1.ne_up hr
  · rintro rfl
    rcases P with P | P
    · refine ⟨P, ?_, ?_⟩
      · unfold tagged at hm ⊢; rw [P, R.tag]; exact hm
      · obtain ⟨c, c1, c2, c3⟩ := hw
        refine ⟨c, by rw [P]; exact c1, R.tagged c2, ?_⟩
        by_cases hcn : c = n
        · subst hcn; rw [loopEnd_true C]; exact c3
        · rw [F c hcn c2]; exact c3
    · simp at P

omit K in
theorem outer_upd {m : Nat} {f : Node → Node} (hmn : m ≠ n) (ht : tagged g n)
    (hf : (f (g.node n)).st.rank < 3) (htf : (f (g.node n)).tag = (g.node n).tag)
    (hm : ¬ tagged g m) (hw : Waits g m) :
    (g.upd n f).node m = g.node m ∧ ¬ tagged (g.upd n f) m ∧ Waits (g.upd n f) m := by
  refine ⟨by simp [hmn], fun t => hm ((tagged_upd hmn).1 t), ?_⟩
  obtain ⟨c, c1, c2, c3⟩ := hw
  refine ⟨c, by simpa [hmn] using c1, ?_, ?_⟩
  · by_cases hcn : c = n
    · subst hcn; simp only [tagged, upd_node, if_true, upd_tag]; rw [htf]; exact c2
    · exact (tagged_upd hcn).2 c2
  · by_cases hcn : c = n
    · subst hcn; simpa using hf
    · simpa [hcn] using c3

theorem fromDynamic_outer {m : Nat} (I : Inv g) (hst : (g.node n).st = .dynamicDeps) (ht : tagged g n)
    (hmn : m ≠ n) (hm : ¬ tagged g m) (hmr : (g.node m).st.rank < 3) (hw : Waits g m)
    (h : fromDynamic e rec g n = some g') : OuterPost m n g g' := by
  obtain ⟨g1, ok, hc, hcase⟩ := fromDynamic_cases h
  rw [← cur_dyn hst] at hc
  have ⟨P1, P2⟩ := phase_outer K I ht hmn (by simp [hst, St.rank]) hm hmr hw hc
  rcases hcase with ⟨hk, rfl⟩ | ⟨hk, hx, _⟩
  · exact P1 hk
  · left; rw [hx m hmn]; exact (P2 hk).1

theorem fromStatic_outer {m : Nat} (I : Inv g) (hst : (g.node n).st = .staticDeps) (ht : tagged g n)
    (hmn : m ≠ n) (hm : ¬ tagged g m) (hmr : (g.node m).st.rank < 3) (hw : Waits g m)
    (h : fromStatic e rec g n = some g') : OuterPost m n g g' := by
  obtain ⟨g1, ok, hc, hcase⟩ := fromStatic_cases h
  have hr : (g.node n).st.rank < 3 := by simp [hst, St.rank]
  rw [← cur_static hst] at hc
  have ⟨P1, P2⟩ := phase_outer K I ht hmn hr hm hmr hw hc
  have ⟨R, I1, C, O⟩ := checkDeps_ok hr (fun _ h => h) (vh_of_claim K n) I hc
  rcases hcase with ⟨hk, rfl⟩ | ⟨hk, f, rfl, _⟩ | ⟨rfl, f, hd, h1, h2, h3, h4⟩
  · exact P1 hk
  · left; simp [hmn, (P2 hk).1]
  · have en := loopEnd_true C
    have ⟨e1, e2, e3⟩ := P2 rfl
    have ⟨R2, I2⟩ := enterDynamic I1 (by rw [en]; exact hst)
      (by rw [en, ← cur_static hst]; exact O rfl) h1 h2 h3 h4
    have t2 := R2.tagged (R.tagged ht)
    have ⟨u1, u2, u3⟩ := outer_upd (f := f) hmn (R.tagged ht) (by simp [h1, St.rank]) h2 e2 e3
    have := fromDynamic_outer K I2 (by simp [h1]) t2 hmn u2 (by rw [u1, e1]; exact hmr) u3 hd
    unfold OuterPost at this ⊢
    rwa [u1, e1] at this

theorem fromPre_outer {m : Nat} (I : Inv g) (hst : (g.node n).st = .notProcessed) (ht : tagged g n)
    (hmn : m ≠ n) (hm : ¬ tagged g m) (hmr : (g.node m).st.rank < 3) (hw : Waits g m)
    (h : fromPre e rec g n = some g') : OuterPost m n g g' := by
  obtain ⟨g1, ok, hc, hcase⟩ := fromPre_cases h
  have hr : (g.node n).st.rank < 3 := by simp [hst, St.rank]
  rw [← cur_pre hst] at hc
  have ⟨P1, P2⟩ := phase_outer K I ht hmn hr hm hmr hw hc
  have ⟨R, I1, C, O⟩ := checkDeps_ok hr (fun _ h => h) (vh_of_claim K n) I hc
  rcases hcase with ⟨hk, rfl⟩ | ⟨rfl, hd⟩
  · exact P1 hk
  · have en := loopEnd_true C
    have ⟨e1, e2, e3⟩ := P2 rfl
    have ⟨R2, I2⟩ := enterStatic (n := n) I1 (by rw [en]; exact hst) (by rw [en, ← cur_pre hst]; exact O rfl)
    have t2 := R2.tagged (R.tagged ht)
    have ⟨u1, u2, u3⟩ := outer_upd (f := fun nd => { nd with st := .staticDeps }) hmn (R.tagged ht)
      (by simp [St.rank]) rfl e2 e3
    have := fromStatic_outer K I2 (by simp [G.setSt]) t2 hmn u2 (by
      show ((g1.upd n _).node m).st.rank < 3; rw [u1, e1]; exact hmr) u3 hd
    unfold OuterPost at this ⊢
    have u1' : (g1.setSt n .staticDeps).node m = g1.node m := u1
    rwa [u1', e1] at this

theorem body_outer {m : Nat} (I : Inv g) (ht : tagged g n) (hmn : m ≠ n) (hm : ¬ tagged g m)
    (hmr : (g.node m).st.rank < 3) (hw : Waits g m)
    (h : body e rec g n = some g') : OuterPost m n g g' := by
  unfold body at h
  split at h
  · exact fromPre_outer K I (by assumption) ht hmn hm hmr hw h
  · exact fromStatic_outer K I (by assumption) ht hmn hm hmr hw h
  · exact fromDynamic_outer K I (by assumption) ht hmn hm hmr hw h
  · cases h; exact Or.inl rfl

end frame

theorem claim (e : Env) (f : Nat) : Claim (buildRecurse e f) := by
  induction f with
  | zero =>
    constructor
    · intro g n g' h; simp [buildRecurse] at h
    · intro g n g' h; simp [buildRecurse] at h
    · intro g n d g' h; simp [buildRecurse] at h
  | succ f ih =>
    constructor
    · intro g n g' h t I
      have ⟨R, I1⟩ := body_ok (vh_of_claim ih n) I h
      exact ⟨R, I1, body_frame ih I t h⟩
    · intro g n g' h I t hr hw
      exact body_blk ih I t hr hw h
    · intro g n d g' h I t hnd _ hn hr hw
      exact body_outer ih I t hnd hn hr hw h

/-- A (top level or nested) call of `BuildRecurse` keeps the invariant and only advances nodes. -/
theorem buildRecurse_ok {e : Env} {f : Nat} {g g' : G} {n : Nat} (I : Inv g)
    (h : buildRecurse e f g n = some g') : Rel g g' ∧ Inv g' := by
  cases f with
  | zero => simp [buildRecurse] at h
  | succ f => exact body_ok (vh_of_claim (claim e f) n) I h

end Verif.Sched
