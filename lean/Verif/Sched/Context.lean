import Verif.Sched.Sweep
/-! A preservation principle for sweeps whose steps carry the facts that hold when they happen. -/
namespace Verif.Sched

/-- stamp and dynamic dependencies reset before `DoDynamicDependencies` -/
def G.cleared (g : G) (n : Nat) : G := g.upd n (fun nd => { nd with stamp := 0, dyn := [] })

/-- A predicate closed under every elementary step of a sweep, in the situations where the step
occurs, for nodes in `A`. -/
structure CClosed (e : Env) (A : Nat → Prop) (P : G → Prop) : Prop where
  deps : ∀ g n, P g → A n → ∀ d ∈ (g.node n).allDeps, A d
  setTag : ∀ g n, Inv g → P g → A n → P (g.setTag n)
  fail : ∀ g n, Inv g → P g → A n → ((g.node n).st.rank < 3 ∨ (g.node n).st = .failed) →
    P (g.setSt n .failed)
  toStatic : ∀ g n, Inv g → P g → A n → (g.node n).st = .notProcessed → P (g.setSt n .staticDeps)
  skip : ∀ g n, Inv g → P g → A n → (g.node n).st = .staticDeps →
    (∀ d ∈ ids (g.node n).static, (g.node d).st = .upToDate) →
    e.forceClean = false → e.needStatic g n = false → P (g.setSt n .dynamicDeps)
  dynFail : ∀ g n, Inv g → P g → A n → (g.node n).st = .staticDeps →
    (∀ d ∈ ids (g.node n).static, (g.node d).st = .upToDate) →
    (e.forceClean = true ∨ e.needStatic g n = true) → e.doDyn (g.cleared n) n = none →
    P ((g.cleared n).upd n (fun nd => { nd with st := .failed, selfFailed := true }))
  dynOk : ∀ g n ds, Inv g → P g → A n → (g.node n).st = .staticDeps →
    (∀ d ∈ ids (g.node n).static, (g.node d).st = .upToDate) →
    (e.forceClean = true ∨ e.needStatic g n = true) → e.doDyn (g.cleared n) n = some ds →
    P ((g.cleared n).upd n (fun nd => { nd with st := .dynamicDeps, dyn := ds }))
  enqueue : ∀ g n, Inv g → P g → A n → (g.node n).st = .dynamicDeps →
    (∀ d ∈ (g.node n).allDeps, (g.node d).st = .upToDate) →
    ((g.node n).stamp = 0 ∨ e.needDyn (g.note n) n = true) → P ((g.note n).enqueue n)
  done : ∀ g n, Inv g → P g → A n → (g.node n).st = .dynamicDeps →
    (∀ d ∈ (g.node n).allDeps, (g.node d).st = .upToDate) →
    (g.node n).stamp ≠ 0 → e.needDyn (g.note n) n = false → P ((g.note n).setSt n .upToDate)

section cpres
variable {e : Env} {A : Nat → Prop} {P : G → Prop} (C : CClosed e A P) {rec : G → Nat → Option G} (K : Claim rec)
  (hrec : ∀ g n g', Inv g → P g → A n → rec g n = some g' → P g')
include C K hrec

theorem cpres_visit {g g' : G} {d : Nat} (I : Inv g) (hA : A d) (hp : P g) (h : visit rec g d = some g') :
    P g' := by
  unfold visit at h
  split at h
  · exact hrec _ _ _ (inv_setTag I) (C.setTag _ _ I hp hA) hA h
  · cases h; exact hp


theorem cpres_loop {stop : Bool} {n : Nat} (hA : A n) (nd : Node) (hnd : nd.st.rank < 3) (ds : List Nat)
    (hds : ∀ d ∈ ds, d ∈ cur nd) (hAd : ∀ d ∈ ds, A d) :
    ∀ (g g' : G) (ok ok' : Bool) (u u' f f' : Nat), Inv g → P g → LoopCtx nd n g ok →
      checkLoop rec stop n g ds ok u f = some (g', ok', u', f') → P g' := by
  have H := vh_of_claim K n
  induction ds with
  | nil =>
    intro g g' ok ok' u u' f f' _ hp _ h
    simp only [checkLoop, Option.some.injEq, Prod.mk.injEq] at h
    obtain ⟨rfl, _⟩ := h; exact hp
  | cons d ds ih =>
    have ih := ih (fun d hd => hds d (List.mem_cons_of_mem _ hd)) (fun d hd => hAd d (List.mem_cons_of_mem _ hd))
    have hdc : d ∈ cur nd := hds d List.mem_cons_self
    intro g g' ok ok' u u' f f' I hp C0 h
    simp only [checkLoop] at h
    split at h
    · cases h
    · rename_i g1 hv
      have hp1 := cpres_visit C K hrec I (hAd d List.mem_cons_self) hp hv
      have key : Rel g g1 ∧ Inv g1 ∧
          (g1.node n = nd ∨ (Weak nd (g1.node n) ∧ tagged g1 n ∧
            (ok = false ∨ (g1.node d).st ≠ .upToDate))) := by
        by_cases ht : tagged g n
        · have ⟨R, I1, e⟩ := H.onTagged g d g1 I ht hv
          refine ⟨R, I1, ?_⟩
          rcases C0 with C | ⟨C1, _, C3⟩
          · left; rw [e]; exact C
          · right; rw [e]; exact ⟨C1, R.tagged ht, Or.inl C3⟩
        · rcases C0 with C | ⟨_, C2, _⟩
          · have P := H.onUntagged g d g1 I ht (by rw [C]; exact hnd) (by rw [C]; exact hdc) hv
            refine ⟨P.rel, P.inv, ?_⟩
            rcases P.own with o | ⟨o1, o2, o3⟩
            · left; rw [o]; exact C
            · right; rw [C] at o1; exact ⟨o1, o2, Or.inr o3⟩
          · exact absurd C2 ht
      obtain ⟨R, I1, K1⟩ := key
      have Cfalse : LoopCtx nd n g1 false := by
        rcases K1 with K | ⟨k1, k2, _⟩
        · exact Or.inl K
        · exact Or.inr ⟨k1, k2, rfl⟩
      split at h
      · rename_i hup
        refine ih _ _ _ _ _ _ _ _ I1 hp1 ?_ h
        rcases K1 with K | ⟨k1, k2, k3⟩
        · exact Or.inl K
        · rcases k3 with k3 | k3
          · exact Or.inr ⟨k1, k2, k3⟩
          · exact absurd hup k3
      · split at h
        · simp only [Option.some.injEq, Prod.mk.injEq] at h
          obtain ⟨rfl, _⟩ := h
          refine C.fail _ _ I1 hp1 hA ?_
          rcases K1 with K | ⟨k1, _, _⟩
          · rw [K]; exact Or.inl hnd
          · exact weak_rank k1 hnd
        · exact ih _ _ _ _ _ _ _ _ I1 hp1 Cfalse h
      · exact ih _ _ _ _ _ _ _ _ I1 hp1 Cfalse h

theorem cpres_checkDeps {stop : Bool} {n : Nat} (hA : A n) {ds : List Nat} {g g' : G} {ok : Bool} (I : Inv g)
    (hnd : (g.node n).st.rank < 3) (hds : ∀ d ∈ ds, d ∈ cur (g.node n)) (hp : P g)
    (h : checkDeps rec stop g n ds = some (g', ok)) : P g' := by
  unfold checkDeps at h
  split at h
  · cases h
  · rename_i g1 ok1 u f hl
    have hp1 := cpres_loop C K hrec hA _ hnd ds hds
      (fun d hd => C.deps g n hp hA d (cur_sub _ _ (hds d hd))) _ _ _ _ _ _ _ _ I hp (Or.inl rfl) hl
    have ⟨R, I1, C1, _, _⟩ := loop_ok (g.node n) hnd ds hds (vh_of_claim K n) _ _ _ _ _ _ _ _ hl I (Or.inl rfl)
    split at h <;> cases h
    · refine C.fail _ _ I1 hp1 hA ?_
      rcases C1 with C1 | C1
      · rw [C1]; exact Or.inl hnd
      · exact weak_rank C1.1 hnd
    · exact hp1

theorem cpres_fromDynamic {n : Nat} (hA : A n) {g g' : G} (I : Inv g) (hst : (g.node n).st = .dynamicDeps)
    (hp : P g) (h : fromDynamic e rec g n = some g') : P g' := by
  have hr : (g.node n).st.rank < 3 := by simp [hst, St.rank]
  have hcu : ∀ d ∈ ids (g.node n).dyn, d ∈ cur (g.node n) := by simp [cur, hst]
  unfold fromDynamic at h
  split at h
  · cases h
  · rename_i hc; cases h; exact cpres_checkDeps C K hrec hA I hr hcu hp hc
  · rename_i g1 hc
    have hp1 := cpres_checkDeps C K hrec hA I hr hcu hp hc
    have ⟨R, I1, C1, O⟩ := checkDeps_ok hr hcu (vh_of_claim K n) I hc
    have hn : g1.node n = g.node n := loopEnd_true C1
    have hst1 : (g1.node n).st = .dynamicDeps := by rw [hn]; exact hst
    have hall : ∀ d ∈ (g1.node n).allDeps, (g1.node d).st = .upToDate := by
      intro d hd
      unfold Node.allDeps at hd
      simp only [List.mem_append] at hd
      rcases hd with (hd | hd) | hd
      · exact (I1.node n).prePhase (by simp [hst1, St.rank]) (by simp [hst1]) d hd
      · exact (I1.node n).statPhase (by simp [hst1, St.rank]) (by simp [hst1]) d hd
      · rw [hn] at hd; exact O rfl d hd
    dsimp only at h
    split at h
    · rename_i hc2
      cases h
      exact C.enqueue g1 n I1 hp1 hA hst1 hall hc2
    · rename_i hc2
      cases h
      refine C.done g1 n I1 hp1 hA hst1 hall (fun h0 => hc2 (Or.inl h0)) ?_
      cases hq : e.needDyn (g1.note n) n
      · rfl
      · exact absurd (Or.inr hq) hc2

theorem cpres_fromStatic {n : Nat} (hA : A n) {g g' : G} (I : Inv g) (hst : (g.node n).st = .staticDeps)
    (hp : P g) (h : fromStatic e rec g n = some g') : P g' := by
  have hr : (g.node n).st.rank < 3 := by simp [hst, St.rank]
  have hcu : ∀ d ∈ ids (g.node n).static, d ∈ cur (g.node n) := by simp [cur, hst]
  unfold fromStatic at h
  split at h
  · cases h
  · rename_i hc; cases h; exact cpres_checkDeps C K hrec hA I hr hcu hp hc
  · rename_i g1 hc
    have hp1 := cpres_checkDeps C K hrec hA I hr hcu hp hc
    have ⟨R, I1, C1, O⟩ := checkDeps_ok hr hcu (vh_of_claim K n) I hc
    have hn : g1.node n = g.node n := loopEnd_true C1
    have hst1 : (g1.node n).st = .staticDeps := by rw [hn]; exact hst
    have hup : ∀ d ∈ ids (g1.node n).static, (g1.node d).st = .upToDate := by
      intro d hd; rw [hn] at hd; exact O rfl d hd
    have comp : ∀ f1 f2 : Node → Node, (g1.upd n f1).upd n f2 = g1.upd n (fun nd => f2 (f1 nd)) := by
      intro f1 f2
      unfold G.upd
      simp only [G.mk.injEq, and_true]
      funext x
      split <;> simp
    split at h
    · rename_i hnd
      dsimp only at h
      split at h
      · cases h; exact C.dynFail g1 n I1 hp1 hA hst1 hup hnd (by assumption)
      · rename_i ds hdd
        have hq := C.dynOk g1 n ds I1 hp1 hA hst1 hup hnd hdd
        have ED := enterDynamic (f := fun nd => { nd with stamp := 0, st := .dynamicDeps, dyn := ds }) I1
          hst1 hup rfl rfl rfl rfl
        refine cpres_fromDynamic C K hrec hA ?_ (by simp) hq h
        unfold G.cleared
        rw [comp]; exact ED.2
    · rename_i hnd
      have hf : e.forceClean = false := by
        cases hq : e.forceClean
        · rfl
        · exact absurd (Or.inl hq) hnd
      have hs : e.needStatic g1 n = false := by
        cases hq : e.needStatic g1 n
        · rfl
        · exact absurd (Or.inr hq) hnd
      have ED := enterDynamic (f := fun nd => { nd with st := .dynamicDeps }) I1
          hst1 hup rfl rfl rfl rfl
      exact cpres_fromDynamic C K hrec hA ED.2 (by simp [G.setSt]) (C.skip g1 n I1 hp1 hA hst1 hup hf hs) h

theorem cpres_body {n : Nat} (hA : A n) {g g' : G} (I : Inv g) (hp : P g) (h : body e rec g n = some g') :
    P g' := by
  unfold body at h
  split at h
  · rename_i hst
    have hr : (g.node n).st.rank < 3 := by simp [hst, St.rank]
    have hcu : ∀ d ∈ ids (g.node n).pre, d ∈ cur (g.node n) := by simp [cur, hst]
    unfold fromPre at h
    split at h
    · cases h
    · rename_i hc; cases h; exact cpres_checkDeps C K hrec hA I hr hcu hp hc
    · rename_i g1 hc
      have hp1 := cpres_checkDeps C K hrec hA I hr hcu hp hc
      have ⟨R, I1, C1, O⟩ := checkDeps_ok hr hcu (vh_of_claim K n) I hc
      have hn : g1.node n = g.node n := loopEnd_true C1
      have hst1 : (g1.node n).st = .notProcessed := by rw [hn]; exact hst
      have ES := enterStatic (n := n) I1 hst1 (by rw [hn]; exact O rfl)
      exact cpres_fromStatic C K hrec hA ES.2 (by simp [G.setSt]) (C.toStatic g1 n I1 hp1 hA hst1) h
  · exact cpres_fromStatic C K hrec hA I (by assumption) hp h
  · exact cpres_fromDynamic C K hrec hA I (by assumption) hp h
  · cases h; exact hp

end cpres

theorem cpres_buildRecurse {e : Env} {A : Nat → Prop} {P : G → Prop} (C : CClosed e A P) (f : Nat) :
    ∀ g n g', Inv g → P g → A n → buildRecurse e f g n = some g' → P g' := by
  induction f with
  | zero => intro g n g' _ _ _ h; simp [buildRecurse] at h
  | succ f ih => intro g n g' I hp hA h; exact cpres_body C (claim e f) ih hA I hp h

theorem cpres_targets {e : Env} {A : Nat → Prop} {P : G → Prop} (C : CClosed e A P) {fuel : Nat} (ts : List Nat)
    (hts : ∀ t ∈ ts, A t) :
    ∀ g g' u u' f f', Inv g → P g → targetLoop e fuel g ts u f = some (g', u', f') → P g' := by
  induction ts with
  | nil => intro g g' u u' f f' _ hp h; simp only [targetLoop, Option.some.injEq, Prod.mk.injEq] at h
           obtain ⟨rfl, _⟩ := h; exact hp
  | cons t ts ih =>
    have ih := ih (fun d hd => hts d (List.mem_cons_of_mem _ hd))
    intro g g' u u' f f' I hp h
    simp only [targetLoop] at h
    split at h
    · cases h
    · rename_i g1 hv
      have ⟨hp1, I1⟩ : P g1 ∧ Inv g1 := by
        split at hv
        · exact ⟨cpres_buildRecurse C fuel _ _ _ I hp (hts t List.mem_cons_self) hv, (buildRecurse_ok I hv).2⟩
        · cases hv; exact ⟨hp, I⟩
      split at h <;> exact ih _ _ _ _ _ _ I1 hp1 h

/-- A sweep preserves every predicate closed under its steps. -/
theorem cpres_pass {e : Env} {A : Nat → Prop} {P : G → Prop} (C : CClosed e A P) {fuel : Nat} {ts : List Nat}
    (hts : ∀ t ∈ ts, A t) {g g' : G} (I : Inv g) (hp : P g) (htag : ∀ g s, P g → P { g with tag := s })
    (hprox : ∀ g s, P g → P { g with proxy := s })
    (h : doBuildPass e fuel ts g = some g') : P g' := by
  unfold doBuildPass at h
  split at h
  · cases h
  · rename_i hl
    have hp1 := cpres_targets C _ hts _ _ _ _ _ _ (inv_bump I (g.tag + 1) g.proxy) (htag _ _ hp) hl
    split at h <;> cases h
    · exact hprox _ _ hp1
    · exact hp1

end Verif.Sched
