import Verif.Sched.Lemmas
/-! Lifting of the sweep invariants to whole builds, termination and progress. -/
namespace Verif.Sched

/-! ### A generic preservation principle for sweeps -/

/-- record the dependencies of `n` at the moment its checks succeeded (ghost) -/
def G.note (g : G) (n : Nat) : G :=
  { g with used := fun x => if x = n then (g.node n).allDeps else g.used x }

/-- A predicate closed under all elementary updates a sweep performs on nodes in `A`. -/
structure Closed (e : Env) (A : Nat → Prop) (P : G → Prop) : Prop where
  deps : ∀ g n, P g → A n → ∀ d ∈ (g.node n).allDeps, A d
  setTag : ∀ g n, P g → A n → P (g.setTag n)
  setSt : ∀ g n s, s ≠ .building → s ≠ .upToDate → P g → A n → P (g.setSt n s)
  done : ∀ g n, P g → A n → P ((g.note n).setSt n .upToDate)
  enqueue : ∀ g n, P g → A n → P ((g.note n).enqueue n)
  clear : ∀ g n, P g → A n → P (g.upd n (fun nd => { nd with stamp := 0, dyn := [] }))
  fail : ∀ g n, P g → A n → e.doDyn g n = none →
    P (g.upd n (fun nd => { nd with st := .failed, selfFailed := true }))
  dyn : ∀ g n ds, P g → A n → e.doDyn g n = some ds →
    P (g.upd n (fun nd => { nd with st := .dynamicDeps, dyn := ds }))

section pres
variable {e : Env} {A : Nat → Prop} {P : G → Prop} (C : Closed e A P) {rec : G → Nat → Option G}
  (hrec : ∀ g n g', A n → P g → rec g n = some g' → P g')
include C hrec

theorem pres_visit {g g' : G} {d : Nat} (hA : A d) (hp : P g) (h : visit rec g d = some g') : P g' := by
  unfold visit at h
  split at h
  · exact hrec _ _ _ hA (C.setTag _ _ hp hA) h
  · cases h; exact hp

theorem pres_loop {stop : Bool} {n : Nat} (hA : A n) (ds : List Nat) (hds : ∀ d ∈ ds, A d) :
    ∀ (g g' : G) (ok ok' : Bool) (u u' f f' : Nat), P g →
      checkLoop rec stop n g ds ok u f = some (g', ok', u', f') → P g' := by
  induction ds with
  | nil =>
    intro g g' ok ok' u u' f f' hp h
    simp only [checkLoop, Option.some.injEq, Prod.mk.injEq] at h
    obtain ⟨rfl, _⟩ := h; exact hp
  | cons d ds ih =>
    have ih := ih (fun d hd => hds d (List.mem_cons_of_mem _ hd))
    intro g g' ok ok' u u' f f' hp h
    simp only [checkLoop] at h
    split at h
    · cases h
    · rename_i g1 hv
      have hp1 := pres_visit C hrec (hds d List.mem_cons_self) hp hv
      split at h
      · exact ih _ _ _ _ _ _ _ _ hp1 h
      · split at h
        · simp only [Option.some.injEq, Prod.mk.injEq] at h
          obtain ⟨rfl, _⟩ := h; exact C.setSt _ _ _ (by simp) (by simp) hp1 hA
        · exact ih _ _ _ _ _ _ _ _ hp1 h
      · exact ih _ _ _ _ _ _ _ _ hp1 h

theorem pres_checkDeps {stop : Bool} {n : Nat} (hA : A n) {ds : List Nat} (hds : ∀ d ∈ ds, A d)
    {g g' : G} {ok : Bool} (hp : P g)
    (h : checkDeps rec stop g n ds = some (g', ok)) : P g' := by
  unfold checkDeps at h
  split at h
  · cases h
  · rename_i hl
    have hp1 := pres_loop C hrec hA ds hds _ _ _ _ _ _ _ _ hp hl
    split at h <;> cases h
    · exact C.setSt _ _ _ (by simp) (by simp) hp1 hA
    · exact hp1

theorem pres_fromDynamic {n : Nat} (hA : A n) {g g' : G} (hp : P g)
    (h : fromDynamic e rec g n = some g') : P g' := by
  have hds : ∀ d ∈ ids (g.node n).dyn, A d :=
    fun d hd => C.deps g n hp hA d (by simp [Node.allDeps, hd])
  unfold fromDynamic at h
  split at h
  · cases h
  · rename_i hc; cases h; exact pres_checkDeps C hrec hA hds hp hc
  · rename_i g1 hc
    have hp1 := pres_checkDeps C hrec hA hds hp hc
    dsimp only at h
    split at h <;> cases h
    · exact C.enqueue _ _ hp1 hA
    · exact C.done _ _ hp1 hA

theorem pres_fromStatic {n : Nat} (hA : A n) {g g' : G} (hp : P g)
    (h : fromStatic e rec g n = some g') : P g' := by
  have hds : ∀ d ∈ ids (g.node n).static, A d :=
    fun d hd => C.deps g n hp hA d (by simp [Node.allDeps, hd])
  unfold fromStatic at h
  split at h
  · cases h
  · rename_i hc; cases h; exact pres_checkDeps C hrec hA hds hp hc
  · rename_i g1 hc
    have hp1 := pres_checkDeps C hrec hA hds hp hc
    split at h
    · dsimp only at h
      split at h
      · cases h; exact C.fail _ _ (C.clear _ _ hp1 hA) hA (by assumption)
      · exact pres_fromDynamic C hrec hA (C.dyn _ _ _ (C.clear _ _ hp1 hA) hA (by assumption)) h
    · exact pres_fromDynamic C hrec hA (C.setSt _ _ _ (by simp) (by simp) hp1 hA) h

theorem pres_body {n : Nat} (hA : A n) {g g' : G} (hp : P g) (h : body e rec g n = some g') : P g' := by
  unfold body at h
  split at h
  · have hds : ∀ d ∈ ids (g.node n).pre, A d :=
      fun d hd => C.deps g n hp hA d (by simp [Node.allDeps, hd])
    unfold fromPre at h
    split at h
    · cases h
    · rename_i hc; cases h; exact pres_checkDeps C hrec hA hds hp hc
    · rename_i g1 hc
      exact pres_fromStatic C hrec hA (C.setSt _ _ _ (by simp) (by simp) (pres_checkDeps C hrec hA hds hp hc) hA) h
  · exact pres_fromStatic C hrec hA hp h
  · exact pres_fromDynamic C hrec hA hp h
  · cases h; exact hp

end pres

theorem pres_buildRecurse {e : Env} {A : Nat → Prop} {P : G → Prop} (C : Closed e A P) (f : Nat) :
    ∀ g n g', A n → P g → buildRecurse e f g n = some g' → P g' := by
  induction f with
  | zero => intro g n g' _ _ h; simp [buildRecurse] at h
  | succ f ih => intro g n g' hA hp h; exact pres_body C ih hA hp h

theorem pres_targets {e : Env} {A : Nat → Prop} {P : G → Prop} (C : Closed e A P) {fuel : Nat}
    (ts : List Nat) (hts : ∀ t ∈ ts, A t) :
    ∀ g g' u u' f f', P g → targetLoop e fuel g ts u f = some (g', u', f') → P g' := by
  induction ts with
  | nil => intro g g' u u' f f' hp h; simp only [targetLoop, Option.some.injEq, Prod.mk.injEq] at h
           obtain ⟨rfl, _⟩ := h; exact hp
  | cons t ts ih =>
    have ih := ih (fun d hd => hts d (List.mem_cons_of_mem _ hd))
    intro g g' u u' f f' hp h
    simp only [targetLoop] at h
    split at h
    · cases h
    · rename_i g1 hv
      have hp1 : P g1 := by
        split at hv
        · exact pres_buildRecurse C fuel _ _ _ (hts t List.mem_cons_self) hp hv
        · cases hv; exact hp
      split at h <;> exact ih _ _ _ _ _ _ hp1 h

theorem pres_pass {e : Env} {A : Nat → Prop} {P : G → Prop} (C : Closed e A P) {fuel : Nat}
    {ts : List Nat} (hts : ∀ t ∈ ts, A t) {g g' : G}
    (hp : P { g with tag := g.tag + 1 }) (hprox : ∀ g s, P g → P { g with proxy := s })
    (h : doBuildPass e fuel ts g = some g') : P g' := by
  unfold doBuildPass at h
  split at h
  · cases h
  · rename_i hl
    have hp1 := pres_targets C _ hts _ _ _ _ _ _ hp hl
    split at h <;> cases h
    · exact hprox _ _ hp1
    · exact hp1

/-! ### Target loop -/

theorem targets_ok {e : Env} {fuel : Nat} (ts : List Nat) :
    ∀ (g g' : G) (u u' f f' : Nat), Inv g → targetLoop e fuel g ts u f = some (g', u', f') →
      Rel g g' ∧ Inv g' ∧ u' + f' ≤ u + f + ts.length ∧
      (u' + f' = u + f + ts.length → ∀ t ∈ ts, 4 ≤ (g'.node t).st.rank) ∧
      (u' + f' < u + f + ts.length → ∃ t ∈ ts, ∃ g1, Rel g1 g' ∧ (g1.node t).st.rank < 4) ∧
      f ≤ f' ∧ (f' = f → ∀ t ∈ ts, 4 ≤ (g'.node t).st.rank → ∃ g1, Rel g1 g' ∧ (g1.node t).st ≠ .failed) ∧
      (f < f' → ∃ t ∈ ts, (g'.node t).st = .failed) ∧
      (f' = f → u' = u + ts.length → ∀ t ∈ ts, (g'.node t).st = .upToDate) := by
  induction ts with
  | nil =>
    intro g g' u u' f f' I h
    simp only [targetLoop, Option.some.injEq, Prod.mk.injEq] at h
    obtain ⟨rfl, rfl, rfl⟩ := h
    simp [Rel.refl, I]
  | cons t ts ih =>
    intro g g' u u' f f' I h
    simp only [targetLoop] at h
    split at h
    · cases h
    · rename_i g1 hv
      have ⟨R1, I1⟩ : Rel g g1 ∧ Inv g1 := by
        split at hv
        · exact buildRecurse_ok I hv
        · cases hv; exact ⟨Rel.refl _, I⟩
      split at h
      · rename_i hst
        have ⟨R2, I2, a1, a2, a3, a4, a5, a6, a7⟩ := ih _ _ _ _ _ _ I1 h
        have hst' := R2.upToDate hst
        refine ⟨R1.trans R2, I2, ?_, ?_, ?_, a4, ?_, ?_, ?_⟩
        · simp; omega
        · intro hh x hx; simp at hh
          rcases List.mem_cons.1 hx with rfl | hx
          · simp [hst', St.rank]
          · exact a2 (by omega) x hx
        · intro hh; simp at hh
          obtain ⟨x, hx, r⟩ := a3 (by omega)
          exact ⟨x, List.mem_cons_of_mem _ hx, r⟩
        · intro hh x hx hr
          rcases List.mem_cons.1 hx with rfl | hx
          · exact ⟨g1, R2, by simp [hst]⟩
          · exact a5 hh x hx hr
        · intro hh; obtain ⟨x, hx, r⟩ := a6 hh; exact ⟨x, List.mem_cons_of_mem _ hx, r⟩
        · intro h1 h2 x hx
          rcases List.mem_cons.1 hx with rfl | hx
          · exact hst'
          · exact a7 h1 (by simp at h2; omega) x hx
      · rename_i hst
        have ⟨R2, I2, a1, a2, a3, a4, a5, a6, a7⟩ := ih _ _ _ _ _ _ I1 h
        have hst' : (g'.node t).st = .failed := by have := R2.adv t; rw [hst] at this; exact this.fail
        refine ⟨R1.trans R2, I2, ?_, ?_, ?_, by omega, ?_, ?_, ?_⟩
        · simp; omega
        · intro hh x hx; simp at hh
          rcases List.mem_cons.1 hx with rfl | hx
          · simp [hst', St.rank]
          · exact a2 (by omega) x hx
        · intro hh; simp at hh
          obtain ⟨x, hx, r⟩ := a3 (by omega)
          exact ⟨x, List.mem_cons_of_mem _ hx, r⟩
        · intro hh; omega
        · intro hh; exact ⟨t, List.mem_cons_self, hst'⟩
        · intro h1; omega
      · rename_i n1 n2
        have ⟨R2, I2, a1, a2, a3, a4, a5, a6, a7⟩ := ih _ _ _ _ _ _ I1 h
        refine ⟨R1.trans R2, I2, ?_, ?_, ?_, a4, ?_, ?_, ?_⟩
        · simp; omega
        · intro hh; simp at hh; omega
        · intro _
          refine ⟨t, List.mem_cons_self, g1, R2, ?_⟩
          revert n1 n2; cases (g1.node t).st <;> simp [St.rank]
        · intro hh x hx hr
          rcases List.mem_cons.1 hx with rfl | hx
          · exact ⟨g1, R2, fun h => n2 h⟩
          · exact a5 hh x hx hr
        · intro hh; obtain ⟨x, hx, r⟩ := a6 hh; exact ⟨x, List.mem_cons_of_mem _ hx, r⟩
        · intro h1 h2; simp at h2; omega

/-! ### Whole builds -/

theorem inv_bump {g : G} (I : Inv g) (k : Nat) (p : St) : Inv { g with tag := k, proxy := p } where
  node x := by
    have i := I.node x
    refine ⟨i.prePhase, i.statPhase, i.usedUp, i.usedEq, i.usedSup, fun h => ?_⟩
    have := i.root h
    clear h i
    induction this with
    | self h1 h2 => exact .self h1 h2
    | dep h1 h2 _ ih => exact .dep h1 h2 ih
  log := I.log
  nodup := I.nodup

/-- Facts tying the proxy root to its targets. -/
structure ProxyInv (ts : List Nat) (g : G) : Prop where
  up : g.proxy = .upToDate → ∀ t ∈ ts, (g.node t).st = .upToDate
  fail : g.proxy = .failed → (∃ t ∈ ts, (g.node t).st = .failed) ∧ ∀ t ∈ ts, 4 ≤ (g.node t).st.rank

/-- What one event may do to node states. -/
def StepAdv (s s' : St) : Prop := s' = s ∨ (s.rank < 4 ∧ s.rank < s'.rank)

theorem Adv.step {a b : St} (h : Adv a b) : StepAdv a b := h.imp id (fun h => ⟨by omega, h.2⟩)
theorem StepAdv.trans {a b c : St} (h : StepAdv a b) (k : StepAdv b c) : StepAdv a c := by
  unfold StepAdv at *
  rcases h with h | h <;> rcases k with k | k <;> subst_vars <;> simp_all <;> omega
theorem StepAdv.fix {a b : St} (h : StepAdv a b) (h3 : 4 ≤ a.rank) : b = a := by
  rcases h with h | h
  · exact h
  · omega
theorem StepAdv.rank_le {a b : St} (h : StepAdv a b) : a.rank ≤ b.rank := by
  rcases h with h | h
  · rw [h]; exact Nat.le_refl _
  · omega

/-- What one event may do to the graph. -/
structure SRel (g g' : G) : Prop where
  adv : ∀ x, StepAdv (g.node x).st (g'.node x).st
  pre : ∀ x, (g'.node x).pre = (g.node x).pre
  static : ∀ x, ids (g'.node x).static = ids (g.node x).static

theorem SRel.refl (g : G) : SRel g g := ⟨fun _ => Or.inl rfl, fun _ => rfl, fun _ => rfl⟩
theorem SRel.trans {a b c : G} (h : SRel a b) (k : SRel b c) : SRel a c :=
  ⟨fun x => (h.adv x).trans (k.adv x), fun x => (k.pre x).trans (h.pre x),
   fun x => (k.static x).trans (h.static x)⟩
theorem SRel.up {a b : G} (h : SRel a b) {x : Nat} (u : (a.node x).st = .upToDate) :
    (b.node x).st = .upToDate := by
  rw [(h.adv x).fix (by rw [u]; simp [St.rank]), u]
theorem SRel.fail {a b : G} (h : SRel a b) {x : Nat} (u : (a.node x).st = .failed) :
    (b.node x).st = .failed := by
  rw [(h.adv x).fix (by rw [u]; simp [St.rank]), u]

theorem pass_ok {e : Env} {fuel : Nat} {ts : List Nat} {g g' : G} (I : Inv g) (Q : ProxyInv ts g)
    (h : doBuildPass e fuel ts g = some g') : SRel g g' ∧ Inv g' ∧ ProxyInv ts g' := by
  unfold doBuildPass at h
  split at h
  · cases h
  · rename_i g1 u f hl
    have ⟨R, I1, a1, a2, a3, a4, a5, a6, a7⟩ :=
      targets_ok ts _ _ _ _ _ _ (inv_bump I (g.tag + 1) g.proxy) hl
    have S : SRel g g1 := ⟨fun x => (R.adv x).step, R.pre, fun x => by rw [R.static]⟩
    simp only [Nat.zero_add] at a1 a2 a3 a4 a5 a6 a7
    split at h <;> cases h
    · rename_i hc
      refine ⟨⟨S.adv, S.pre, S.static⟩, inv_bump I1 g1.tag _, ?_, ?_⟩
      · intro hp t ht
        have hf : f = 0 := by
          by_cases hf : f = 0
          · exact hf
          · simp [hf] at hp
        exact a7 hf (by omega) t ht
      · intro hp
        have hf : f ≠ 0 := by
          by_cases hf : f = 0
          · simp [hf] at hp
          · exact hf
        exact ⟨a6 (by omega), a2 (by omega)⟩
    · refine ⟨S, I1, ?_, ?_⟩
      · intro hp t ht; rw [R.proxy] at hp; exact S.up (Q.up hp t ht)
      · intro hp; rw [R.proxy] at hp
        obtain ⟨⟨t, ht, hf⟩, hall⟩ := Q.fail hp
        exact ⟨⟨t, ht, S.fail hf⟩, fun t ht => Nat.le_trans (hall t ht) (S.adv t).rank_le⟩

@[simp] theorem setStamps_st (l : List (Nat × Nat)) : ∀ (g : G) (x : Nat),
    ((g.setStamps l).node x).st = (g.node x).st ∧ ((g.setStamps l).node x).pre = (g.node x).pre ∧
    ((g.setStamps l).node x).static = (g.node x).static ∧ ((g.setStamps l).node x).dyn = (g.node x).dyn ∧
    ((g.setStamps l).node x).selfFailed = (g.node x).selfFailed ∧ (g.setStamps l).used = g.used ∧
    (g.setStamps l).log = g.log ∧ (g.setStamps l).proxy = g.proxy ∧ (g.setStamps l).tag = g.tag ∧
    ((g.setStamps l).node x).tag = (g.node x).tag := by
  induction l with
  | nil => intro g x; simp [G.setStamps]
  | cons a l ih =>
    intro g x
    simp only [G.setStamps]
    have := ih (g.upd a.1 (fun nd => { nd with stamp := a.2 })) x
    simp only [this, upd_node, upd_tag, upd_proxy, upd_log, upd_used]
    split <;> simp

/-- Effect of the completion of a job that was BUILDING, as a relation. -/
structure Fin (n : Nat) (g g' : G) : Prop where
  other : ∀ x, x ≠ n → (g'.node x).st = (g.node x).st ∧ (g'.node x).dyn = (g.node x).dyn ∧
    (g'.node x).selfFailed = (g.node x).selfFailed
  pre : ∀ x, (g'.node x).pre = (g.node x).pre
  static : ∀ x, ids (g'.node x).static = ids (g.node x).static
  used : g'.used = g.used
  log : g'.log = g.log
  proxy : g'.proxy = g.proxy
  st : (g'.node n).st = .upToDate ∨ ((g'.node n).st = .failed ∧ (g'.node n).selfFailed = true) ∨ g' = g
  tag : g'.tag = g.tag
  tags : ∀ x, (g'.node x).tag = (g.node x).tag

@[simp] theorem ids_stampDeps (g : G) (l : List Dep) : ids (stampDeps g l) = ids l := by
  simp [ids, stampDeps, Function.comp_def]

theorem finish_fin (g : G) (n : Nat) (o : Outcome) : Fin n g (finish g n o) := by
  cases o with
  | ok s disc fs =>
    simp only [finish]
    have S := setStamps_st fs g
    refine ⟨fun x hx => ?_, fun x => ?_, fun x => ?_, ?_, ?_, ?_, Or.inl ?_, ?_, fun x => ?_⟩
    · simp [hx, S]
    · simp only [upd_node]; split <;> simp [S]
    · simp only [upd_node]; split <;> simp [S]
    · simp [(S 0).2.2.2.2.2.1]
    · simp [(S 0).2.2.2.2.2.2.1]
    · simp [(S 0).2.2.2.2.2.2.2.1]
    · simp
    · simp [(S 0).2.2.2.2.2.2.2.2.1]
    · simp only [upd_node]; split <;> simp [S]
  | finalizeFailed s pd =>
    refine ⟨fun x hx => ?_, fun x => ?_, fun x => ?_, rfl, rfl, rfl, Or.inr (Or.inl ?_), rfl, fun x => ?_⟩
    · simp [finish, hx]
    · simp only [finish, upd_node]; split <;> simp
    · simp only [finish, upd_node]; split <;> simp
    · simp [finish]
    · simp only [finish, upd_node]; split <;> simp
  | failed z =>
    refine ⟨fun x hx => ?_, fun x => ?_, fun x => ?_, rfl, rfl, rfl, Or.inr (Or.inl ?_), rfl, fun x => ?_⟩
    · simp [finish, hx]
    · simp only [finish, upd_node]; split <;> simp
    · simp only [finish, upd_node]; split <;> simp
    · simp [finish]
    · simp only [finish, upd_node]; split <;> simp
  | aborted =>
    exact ⟨fun _ _ => ⟨rfl, rfl, rfl⟩, fun _ => rfl, fun _ => rfl, rfl, rfl, rfl, Or.inr (Or.inr rfl),
      rfl, fun _ => rfl⟩

theorem Fin.srel {n : Nat} {g g' : G} (F : Fin n g g') (hb : (g.node n).st = .building) : SRel g g' := by
  refine ⟨fun x => ?_, F.pre, F.static⟩
  by_cases hx : x = n
  · subst hx
    rcases F.st with h | ⟨h, _⟩ | h
    · right; rw [hb, h]; simp [St.rank]
    · right; rw [hb, h]; simp [St.rank]
    · left; rw [h]
  · left; exact (F.other x hx).1

theorem Fin.root {n : Nat} {g g' : G} (F : Fin n g g') (hb : (g.node n).st = .building) {x : Nat}
    (r : RootCause g x) : RootCause g' x := by
  induction r with
  | @self x h1 h2 =>
    have hx : x ≠ n := by rintro rfl; rw [hb] at h1; cases h1
    exact .self (by rw [(F.other x hx).1]; exact h1) (by rw [(F.other x hx).2.2]; exact h2)
  | @dep x d h1 h2 _ ih =>
    have hx : x ≠ n := by rintro rfl; rw [hb] at h1; cases h1
    refine .dep (by rw [(F.other x hx).1]; exact h1) ?_ ih
    simpa [Node.allDeps, F.pre, F.static, (F.other x hx).2.1] using h2

theorem Fin.inv {n : Nat} {g g' : G} (F : Fin n g g') (hb : (g.node n).st = .building) (I : Inv g) :
    Inv g' := by
  have S := F.srel hb
  refine ⟨fun x => ?_, ?_, ?_⟩
  · have i := I.node x
    by_cases hx : x = n
    · subst hx
      rcases F.st with h | ⟨h, hs⟩ | h
      · refine ⟨fun _ _ d hd => ?_, fun _ _ d hd => ?_, fun _ d hd => ?_, ?_, fun _ d hd => ?_, ?_⟩
        · rw [F.pre] at hd; exact S.up (i.prePhase (by simp [hb, St.rank]) (by simp [hb]) d hd)
        · rw [F.static] at hd; exact S.up (i.statPhase (by simp [hb, St.rank]) (by simp [hb]) d hd)
        · rw [F.used] at hd; exact S.up (i.usedUp (Or.inl hb) d hd)
        · rw [h]; simp
        · rw [F.pre, F.static] at hd
          rw [F.used, i.usedEq hb]
          simp only [Node.allDeps]
          exact List.mem_append_left _ hd
        · rw [h]; simp
      · refine ⟨?_, ?_, ?_, ?_, ?_, ?_⟩
        · simp [h]
        · simp [h]
        · simp [h]
        · simp [h]
        · simp [h]
        · intro _; exact .self h hs
      · rw [h]; exact i
    · have ⟨e1, e2, e3⟩ := F.other x hx
      refine ⟨fun a b d hd => ?_, fun a b d hd => ?_, fun a d hd => ?_, fun a => ?_, fun a d hd => ?_, fun a => ?_⟩
      · rw [e1] at a b; rw [F.pre] at hd; exact S.up (i.prePhase a b d hd)
      · rw [e1] at a b; rw [F.static] at hd; exact S.up (i.statPhase a b d hd)
      · rw [e1] at a; rw [F.used] at hd; exact S.up (i.usedUp a d hd)
      · rw [e1] at a; rw [F.used, i.usedEq a]; simp [Node.allDeps, F.pre, F.static, e2]
      · rw [e1] at a; rw [F.pre, F.static] at hd; rw [F.used]; exact i.usedSup a d hd
      · rw [e1] at a; exact F.root hb (i.root a)
  · intro x hx; rw [F.log] at hx; exact Nat.le_trans (I.log x hx) (S.adv x).rank_le
  · rw [F.log]; exact I.nodup

theorem step_ok {fuel : Nat} {ts : List Nat} {g g' : G} {ev : Ev} (I : Inv g) (Q : ProxyInv ts g)
    (h : step fuel ts g ev = some g') : SRel g g' ∧ Inv g' ∧ ProxyInv ts g' := by
  cases ev with
  | sweep e => exact pass_ok I Q h
  | finish n o =>
    simp only [step] at h
    split at h
    · rename_i hb
      cases h
      have F := finish_fin g n o
      have S := F.srel hb
      refine ⟨S, F.inv hb I, ?_, ?_⟩
      · intro hp t ht; rw [F.proxy] at hp; exact S.up (Q.up hp t ht)
      · intro hp; rw [F.proxy] at hp
        obtain ⟨⟨t, ht, hf⟩, hall⟩ := Q.fail hp
        exact ⟨⟨t, ht, S.fail hf⟩, fun t ht => Nat.le_trans (hall t ht) (S.adv t).rank_le⟩
    · cases h

theorem run_ok {fuel : Nat} {ts : List Nat} (evs : List Ev) : ∀ {g g' : G}, Inv g → ProxyInv ts g →
    run fuel ts g evs = some g' → SRel g g' ∧ Inv g' ∧ ProxyInv ts g' := by
  induction evs with
  | nil => intro g g' I Q h; simp only [run, Option.some.injEq] at h; subst h; exact ⟨SRel.refl _, I, Q⟩
  | cons ev evs ih =>
    intro g g' I Q h
    simp only [run] at h
    split at h
    · cases h
    · rename_i g1 hs
      have ⟨S1, I1, Q1⟩ := step_ok I Q hs
      have ⟨S2, I2, Q2⟩ := ih I1 Q1 h
      exact ⟨S1.trans S2, I2, Q2⟩

theorem init_inv {g : G} (h : Init g) (ts : List Nat) : Inv g ∧ ProxyInv ts g := by
  refine ⟨⟨fun x => ?_, ?_, ?_⟩, ?_, ?_⟩
  · refine ⟨?_, ?_, ?_, ?_, ?_, ?_⟩ <;> simp [h.st, St.rank]
  · simp [h.log]
  · simp [h.log]
  · simp [h.proxy]
  · simp [h.proxy]

/-! ### Queue log and provenance of failures -/

/-- the trivial node predicate -/
def Any (_ : Nat) : Prop := True

/-- building nodes are in the log, and the log contains `L` -/
def Logged (L : List Nat) (g : G) : Prop :=
  (∀ n, (g.node n).st = .building → n ∈ g.log) ∧ ∀ n ∈ L, n ∈ g.log

theorem logged_closed (e : Env) (L : List Nat) : Closed e Any (Logged L) := by
  constructor
  · intros; trivial
  · intro g n hp _
    refine ⟨fun x hx => ?_, hp.2⟩
    simp only [G.setTag, upd_node] at hx
    split at hx <;> exact hp.1 x hx
  · intro g n s hs _ hp _
    refine ⟨fun x hx => ?_, hp.2⟩
    simp only [G.setSt, upd_node] at hx
    split at hx
    · exact absurd hx hs
    · exact hp.1 x hx
  · intro g n hp _
    refine ⟨fun x hx => ?_, hp.2⟩
    simp only [G.setSt, G.note, upd_node] at hx
    split at hx
    · cases hx
    · exact hp.1 x hx
  · intro g n hp _
    refine ⟨fun x hx => ?_, fun x hx => List.mem_cons_of_mem _ (hp.2 x hx)⟩
    simp only [G.enqueue, G.setSt, G.note, upd_node] at hx ⊢
    split at hx
    · subst_vars; exact List.mem_cons_self
    · exact List.mem_cons_of_mem _ (hp.1 x hx)
  · intro g n hp _
    refine ⟨fun x hx => ?_, hp.2⟩
    simp only [upd_node] at hx
    split at hx <;> exact hp.1 x hx
  · intro g n hp _ _
    refine ⟨fun x hx => ?_, hp.2⟩
    simp only [upd_node] at hx
    split at hx
    · cases hx
    · exact hp.1 x hx
  · intro g n ds hp _ _
    refine ⟨fun x hx => ?_, hp.2⟩
    simp only [upd_node] at hx
    split at hx
    · cases hx
    · exact hp.1 x hx

/-- Every ghost failure flag satisfies `K`. -/
def Blame (K : Nat → Prop) (g : G) : Prop := ∀ n, (g.node n).selfFailed = true → K n

theorem blame_closed (e : Env) (K : Nat → Prop) (hK : ∀ g n, e.doDyn g n = none → K n) :
    Closed e Any (Blame K) := by
  constructor
  · intros; trivial
  · intro g n hp _ x hx
    simp only [G.setTag, upd_node] at hx
    split at hx <;> exact hp x hx
  · intro g n s _ _ hp _ x hx
    simp only [G.setSt, upd_node] at hx
    split at hx <;> exact hp x hx
  · intro g n hp _ x hx
    simp only [G.setSt, G.note, upd_node] at hx
    split at hx <;> exact hp x hx
  · intro g n hp _ x hx
    simp only [G.enqueue, G.setSt, G.note, upd_node] at hx ⊢
    split at hx <;> exact hp x hx
  · intro g n hp _ x hx
    simp only [upd_node] at hx
    split at hx <;> exact hp x hx
  · intro g n hp _ hd x hx
    simp only [upd_node] at hx
    split at hx
    · subst_vars; exact hK g _ hd
    · exact hp x hx
  · intro g n ds hp _ _ x hx
    simp only [upd_node] at hx
    split at hx <;> exact hp x hx

/-- tags never exceed the pass tag -/
def TagLe (g : G) : Prop := ∀ n, (g.node n).tag ≤ g.tag

theorem tagle_closed (e : Env) : Closed e Any TagLe := by
  constructor
  · intros; trivial
  · intro g n hp _ x
    simp only [G.setTag, upd_node, upd_tag]; split
    · exact Nat.le_refl _
    · exact hp x
  · intro g n s _ _ hp _ x
    simp only [G.setSt, upd_node, upd_tag]; split <;> exact hp x
  · intro g n hp _ x
    simp only [G.setSt, G.note, upd_node, upd_tag]; split <;> exact hp x
  · intro g n hp _ x
    simp only [G.enqueue, G.setSt, G.note, upd_node, upd_tag]; split <;> exact hp x
  · intro g n hp _ x
    simp only [upd_node, upd_tag]; split <;> exact hp x
  · intro g n hp _ hd x
    simp only [upd_node, upd_tag]; split <;> exact hp x
  · intro g n ds hp _ _ x
    simp only [upd_node, upd_tag]; split <;> exact hp x

/-- dependencies of built nodes were recorded when their checks passed, or lie in `U` -/
def Noted (U : Nat → Prop) (g : G) : Prop :=
  ∀ x, (g.node x).st = .building ∨ (g.node x).st = .upToDate →
    ∀ d ∈ (g.node x).allDeps, d ∈ g.used x ∨ U d

theorem noted_closed (e : Env) (U : Nat → Prop) : Closed e Any (Noted U) := by
  constructor
  · intros; trivial
  · intro g n hp _ x hx d hd
    simp only [G.setTag, upd_node, upd_used] at hx hd ⊢
    split at hd
    · rename_i h; subst h; simp only [if_true] at hx; exact hp x hx d hd
    · rename_i h; simp only [h, if_false] at hx; exact hp x hx d hd
  · intro g n s h1 h2 hp _ x hx d hd
    simp only [G.setSt, upd_node, upd_used] at hx hd ⊢
    split at hx
    · rcases hx with hx | hx
      · exact absurd hx h1
      · exact absurd hx h2
    · simp_all only [if_false]; exact hp x hx d hd
  · intro g n hp _ x hx d hd
    simp only [G.setSt, G.note, upd_node, upd_used] at hx hd ⊢
    split at hd
    · rename_i h; subst h; left; simpa [Node.allDeps] using hd
    · rename_i h; simp only [h, if_false] at hx ⊢; exact hp x hx d hd
  · intro g n hp _ x hx d hd
    simp only [G.enqueue, G.setSt, G.note, upd_node, upd_used] at hx hd ⊢
    split at hd
    · rename_i h; subst h; left; simpa [Node.allDeps] using hd
    · rename_i h; simp only [h, if_false] at hx ⊢; exact hp x hx d hd
  · intro g n hp _ x hx d hd
    simp only [upd_node, upd_used] at hx hd ⊢
    split at hd
    · rename_i h; subst h
      simp only [if_true] at hx
      refine hp x hx d ?_
      simp only [Node.allDeps, ids, List.map_nil, List.append_nil] at hd ⊢
      exact List.mem_append_left _ hd
    · rename_i h; simp only [h, if_false] at hx; exact hp x hx d hd
  · intro g n hp _ _ x hx d hd
    simp only [upd_node, upd_used] at hx hd ⊢
    split at hd
    · rename_i h; subst h; simp at hx
    · rename_i h; simp only [h, if_false] at hx; exact hp x hx d hd
  · intro g n ds hp _ _ x hx d hd
    simp only [upd_node, upd_used] at hx hd ⊢
    split at hd
    · rename_i h; subst h; simp at hx
    · rename_i h; simp only [h, if_false] at hx; exact hp x hx d hd

end Verif.Sched
