import Verif.Sched.Cycle
/-! A sweep that changes nothing leaves a cycle of unfinished nodes. -/
namespace Verif.Sched

def Same (g g' : G) : Prop := ∀ x, (g'.node x).st = (g.node x).st

theorem same_split {a b c : G} (h1 : Rel a b) (h2 : Rel b c) (h : Same a c) : Same a b ∧ Same b c := by
  have key : ∀ x, (b.node x).st = (a.node x).st := by
    intro x
    rcases h1.adv x with e | e
    · exact e
    · have := (h2.adv x).rank_le
      rw [h x] at this; omega
  exact ⟨key, fun x => by rw [h x, key x]⟩

theorem cur_same {a b : G} (R : Rel a b) (S : Same a b) (x : Nat) : cur (b.node x) = cur (a.node x) := by
  unfold cur
  rw [S x]
  cases hs : (a.node x).st <;> simp only
  · rw [R.pre]
  · rw [R.static]
  · rw [R.dyn x (by simp [hs, St.rank])]

/-- the node waits for an unfinished node visited in this pass -/
def HasNext (g : G) (x : Nat) : Prop :=
  ∃ d ∈ cur (g.node x), (g.node d).st.rank < 3 ∧ tagged g d

theorem HasNext.mono {a b : G} (R : Rel a b) (S : Same a b) {x : Nat} (h : HasNext a x) : HasNext b x := by
  obtain ⟨d, h1, h2, h3⟩ := h
  exact ⟨d, by rw [cur_same R S]; exact h1, by rw [S d]; exact h2, R.tagged h3⟩

def NewGood (g g' : G) : Prop :=
  ∀ x, tagged g' x → ¬ tagged g x → (g'.node x).st.rank < 3 → HasNext g' x

theorem NewGood.trans {a b c : G} (h1 : NewGood a b) (h2 : NewGood b c) (R : Rel b c) (S : Same b c) :
    NewGood a c := by
  intro x hx hx' hr
  by_cases ht : tagged b x
  · exact (h1 x ht hx' (by rw [← S x]; exact hr)).mono R S
  · exact h2 x hx ht hr

def NoBuilding (g : G) : Prop := ∀ x, (g.node x).st ≠ .building

/-- progress claim for recursive calls -/
def Prog (rec : G → Nat → Option G) : Prop :=
  ∀ g n g', rec g n = some g' → Inv g → Same g g' → NoBuilding g → (g.node n).st.rank < 3 →
    HasNext g' n ∧ NewGood g g'

theorem visit_prog {rec} (K : Claim rec) (P : Prog rec) {g g1 : G} {d : Nat}
    (I : Inv g) (h : visit rec g d = some g1) (S : Same g g1) (B : NoBuilding g) :
    NewGood g g1 ∧ ((g1.node d).st.rank < 3 → tagged g1 d) := by
  have h0 := h
  unfold visit at h
  split at h
  · rename_i hc
    have It := inv_setTag (n := d) I
    have Rt := rel_setTag g d
    have R := (K.good _ _ _ h (tagged_setTag g d) It).1
    have ⟨S1, S2⟩ := same_split Rt R S
    have ⟨H, N⟩ := P _ _ _ h It S2 (fun x => by rw [S1 x]; exact B x) (by rw [S1 d]; exact hc.1)
    refine ⟨fun x hx hx' hr => ?_, fun _ => R.tagged (tagged_setTag g d)⟩
    by_cases hxd : x = d
    · subst hxd; exact H
    · exact N x hx (fun t => hx' ((tagged_upd hxd).1 t)) hr
  · rename_i hc
    cases h
    refine ⟨fun x hx hx' => absurd hx hx', fun hr => ?_⟩
    unfold tagged
    by_cases ht : (g.node d).tag = g.tag
    · exact ht
    · exact absurd ⟨hr, ht⟩ hc

theorem loop_prog {rec : G → Nat → Option G} (K : Claim rec) (P : Prog rec) {stop : Bool} {n : Nat}
    (nd : Node) (hnd : nd.st.rank < 3) (ds : List Nat) (hds : ∀ d ∈ ds, d ∈ cur nd) :
    ∀ (g g' : G) (ok ok' : Bool) (u u' f f' : Nat),
      checkLoop rec stop n g ds ok u f = some (g', ok', u', f') → Inv g →
      LoopCtx nd n g ok → Same g g' → (g'.node n).st = nd.st → NoBuilding g →
      NewGood g g' ∧
      ((∃ d ∈ ds, (g'.node d).st.rank < 3 ∧ tagged g' d) ∨
        (u' + f' = u + f + ds.length ∧ f ≤ f' ∧ (ok' = ok ∨ (stop = false ∧ f < f')))) := by
  induction ds with
  | nil =>
    intro g g' ok ok' u u' f f' h I C _ _ _
    simp only [checkLoop, Option.some.injEq, Prod.mk.injEq] at h
    obtain ⟨rfl, rfl, rfl, rfl⟩ := h
    exact ⟨fun x h1 h2 => absurd h1 h2, Or.inr (by simp)⟩
  | cons d ds ih =>
    intro g g' ok ok' u u' f f' h I C S hn B
    have ih := ih (fun d hd => hds d (List.mem_cons_of_mem _ hd))
    have hdc : d ∈ cur nd := hds d List.mem_cons_self
    have H := vh_of_claim K n
    simp only [checkLoop] at h
    split at h
    · cases h
    · rename_i g1 hv
      have key : Rel g g1 ∧ Inv g1 ∧
          (g1.node n = nd ∨ (Weak nd (g1.node n) ∧ tagged g1 n ∧
            (ok = false ∨ (g1.node d).st ≠ .upToDate))) := by
        by_cases ht : tagged g n
        · have ⟨R, I1, e⟩ := H.onTagged g d g1 I ht hv
          refine ⟨R, I1, ?_⟩
          rcases C with C | ⟨C1, _, C3⟩
          · left; rw [e]; exact C
          · right; rw [e]; exact ⟨C1, R.tagged ht, Or.inl C3⟩
        · rcases C with C | ⟨_, C2, _⟩
          · have P := H.onUntagged g d g1 I ht (by rw [C]; exact hnd) (by rw [C]; exact hdc) hv
            refine ⟨P.rel, P.inv, ?_⟩
            rcases P.own with o | ⟨o1, o2, o3⟩
            · left; rw [o]; exact C
            · right; rw [C] at o1; exact ⟨o1, o2, Or.inr o3⟩
          · exact absurd C2 ht
      obtain ⟨R, I1, Kk⟩ := key
      have Cfalse : LoopCtx nd n g1 false := by
        rcases Kk with Kk | ⟨k1, k2, _⟩
        · exact Or.inl Kk
        · exact Or.inr ⟨k1, k2, rfl⟩
      -- rest of the loop
      have rest : ∀ ok2 u2 f2, checkLoop rec stop n g1 ds ok2 u2 f2 = some (g', ok', u', f') →
          LoopCtx nd n g1 ok2 →
          (NewGood g g' ∧ Rel g1 g' ∧ Same g1 g' ∧ ((g1.node d).st.rank < 3 → tagged g1 d)) ∧
          ((∃ d ∈ ds, (g'.node d).st.rank < 3 ∧ tagged g' d) ∨
          (u' + f' = u2 + f2 + ds.length ∧ f2 ≤ f' ∧ (ok' = ok2 ∨ (stop = false ∧ f2 < f')))) := by
        intro ok2 u2 f2 h C2
        have ⟨R2, _⟩ := loop_ok nd hnd ds (fun d hd => hds d (List.mem_cons_of_mem _ hd)) H _ _ _ _ _ _ _ _ h I1 C2
        have ⟨S1, S2⟩ := same_split R R2 S
        have ⟨N1, T1⟩ := visit_prog K P I hv S1 B
        have ⟨N2, O2⟩ := ih _ _ _ _ _ _ _ _ h I1 C2 S2 hn (fun x => by rw [S1 x]; exact B x)
        exact ⟨⟨N1.trans N2 R2 S2, R2, S2, T1⟩, O2⟩
      split at h
      · rename_i hup
        have C1 : LoopCtx nd n g1 ok := by
          rcases Kk with Kk | ⟨k1, k2, k3⟩
          · exact Or.inl Kk
          · rcases k3 with k3 | k3
            · exact Or.inr ⟨k1, k2, k3⟩
            · exact absurd hup k3
        have ⟨⟨N, _⟩, O⟩ := rest _ _ _ h C1
        refine ⟨N, ?_⟩
        rcases O with ⟨x, hx, hx2⟩ | ⟨o1, o2, o3⟩
        · exact Or.inl ⟨x, List.mem_cons_of_mem _ hx, hx2⟩
        · refine Or.inr ⟨by simp; omega, o2, o3⟩
      · rename_i hfail
        split at h
        · simp only [Option.some.injEq, Prod.mk.injEq] at h
          obtain ⟨rfl, rfl, rfl, rfl⟩ := h
          simp only [G.setSt, upd_node, if_true] at hn
          rw [← hn] at hnd; simp [St.rank] at hnd
        · rename_i hstop
          have ⟨⟨N, _⟩, O⟩ := rest _ _ _ h Cfalse
          refine ⟨N, ?_⟩
          rcases O with ⟨x, hx, hx2⟩ | ⟨o1, o2, o3⟩
          · exact Or.inl ⟨x, List.mem_cons_of_mem _ hx, hx2⟩
          · exact Or.inr ⟨by simp; omega, by omega, Or.inr ⟨by simpa using hstop, by omega⟩⟩
      · rename_i n1 n2
        have ⟨⟨N, R2, S2, T⟩, O⟩ := rest _ _ _ h Cfalse
        refine ⟨N, Or.inl ⟨d, List.mem_cons_self, ?_⟩⟩
        have hb : (g1.node d).st ≠ .building := by rw [← S2 d, S d]; exact B d
        have hr : (g1.node d).st.rank < 3 := by
          revert n1 n2 hb; cases (g1.node d).st <;> simp [St.rank]
        exact ⟨by rw [S2 d]; exact hr, R2.tagged (T hr)⟩

theorem checkDeps_prog {rec : G → Nat → Option G} (K : Claim rec) (P : Prog rec) {stop : Bool} {n : Nat}
    {g g' : G} {ok : Bool} (hnd : (g.node n).st.rank < 3)
    (h : checkDeps rec stop g n (cur (g.node n)) = some (g', ok)) (I : Inv g) (S : Same g g')
    (B : NoBuilding g) :
    NewGood g g' ∧ (ok = false → HasNext g' n) := by
  have Rall := (checkDeps_ok hnd (fun _ h => h) (vh_of_claim K n) I h).1
  unfold checkDeps at h
  split at h
  · cases h
  · rename_i g1 ok1 u f hl
    split at h
    · simp only [Option.some.injEq, Prod.mk.injEq] at h
      obtain ⟨rfl, rfl⟩ := h
      have := S n
      simp only [G.setSt, upd_node, if_true] at this
      rw [← this] at hnd; simp [St.rank] at hnd
    · rename_i hc
      simp only [Option.some.injEq, Prod.mk.injEq] at h
      obtain ⟨rfl, rfl⟩ := h
      have ⟨N, O⟩ := loop_prog K P (g.node n) hnd _ (fun _ h => h) _ _ _ _ _ _ _ _ hl I (Or.inl rfl) S (S n) B
      refine ⟨N, fun hok => ?_⟩
      rcases O with ⟨d, hd, h1, h2⟩ | ⟨o1, o2, o3⟩
      · exact ⟨d, by rw [cur_same Rall S]; exact hd, h1, h2⟩
      · exfalso
        rcases o3 with o3 | o3
        · simp [hok] at o3
        · exact hc ⟨o3.1, by omega, o3.2⟩

/-- if the state of `n` is unchanged, `body` returned right after its first dependency check -/
theorem body_stuck {e : Env} {rec} (K : Claim rec) {g g' : G} {n : Nat} (I : Inv g)
    (hnd : (g.node n).st.rank < 3) (h : body e rec g n = some g')
    (S : (g'.node n).st = (g.node n).st) :
    checkDeps rec e.stopOnFirstError g n (cur (g.node n)) = some (g', false) := by
  have VH := vh_of_claim K n
  unfold body at h
  split at h
  · rename_i hst
    obtain ⟨g1, ok, hc, hcase⟩ := fromPre_cases h
    rw [← cur_pre hst] at hc
    rcases hcase with ⟨rfl, rfl⟩ | ⟨rfl, hd⟩
    · exact hc
    · exfalso
      have ⟨R, I1, C, O⟩ := checkDeps_ok hnd (fun _ h => h) VH I hc
      have en := loopEnd_true C
      have ⟨R2, I2⟩ := enterStatic (n := n) I1 (by rw [en]; exact hst) (by rw [en, ← cur_pre hst]; exact O rfl)
      have ⟨R3, _⟩ := fromStatic_ok VH I2 (by simp [G.setSt]) hd
      have := (R3.adv n).rank_le
      rw [S, hst] at this
      simp [G.setSt, St.rank] at this
  · rename_i hst
    obtain ⟨g1, ok, hc, hcase⟩ := fromStatic_cases h
    rw [← cur_static hst] at hc
    rcases hcase with ⟨rfl, rfl⟩ | ⟨rfl, f, rfl, hf, _⟩ | ⟨rfl, f, hd, h1, h2, h3, h4⟩
    · exact hc
    · exfalso
      simp only [upd_node, if_true] at S
      rw [hf, hst] at S; cases S
    · exfalso
      have ⟨R, I1, C, O⟩ := checkDeps_ok hnd (fun _ h => h) VH I hc
      have en := loopEnd_true C
      have ⟨R2, I2⟩ := enterDynamic I1 (by rw [en]; exact hst)
        (by rw [en, ← cur_static hst]; exact O rfl) h1 h2 h3 h4
      have ⟨R3, _⟩ := fromDynamic_ok VH I2 (by simp [h1]) hd
      have := (R3.adv n).rank_le
      rw [S, hst] at this
      simp [h1, St.rank] at this
  · rename_i hst
    obtain ⟨g1, ok, hc, hcase⟩ := fromDynamic_cases h
    rw [← cur_dyn hst] at hc
    rcases hcase with ⟨rfl, rfl⟩ | ⟨rfl, _, _, _, hd⟩
    · exact hc
    · exfalso
      rw [S, hst] at hd
      rcases hd with hd | hd <;> cases hd
  · rename_i h1 h2 h3
    exfalso
    revert h1 h2 h3 hnd
    cases (g.node n).st <;> simp [St.rank]

theorem prog (e : Env) (f : Nat) : Prog (buildRecurse e f) := by
  induction f with
  | zero => intro g n g' h; simp [buildRecurse] at h
  | succ f ih =>
    intro g n g' h I S B hr
    have hc := body_stuck (claim e f) I hr h (S n)
    have ⟨N, H⟩ := checkDeps_prog (claim e f) ih hr hc I S B
    exact ⟨H rfl, N⟩

theorem targets_prog {e : Env} {fuel : Nat} (ts : List Nat) :
    ∀ (g g' : G) (u u' f f' : Nat), Inv g → targetLoop e fuel g ts u f = some (g', u', f') →
      Same g g' → NoBuilding g →
      NewGood g g' ∧ (∀ t ∈ ts, (g'.node t).st.rank < 3 → HasNext g' t) ∧
      (u' + f' < u + f + ts.length → ∃ t ∈ ts, (g'.node t).st.rank < 3) := by
  induction ts with
  | nil =>
    intro g g' u u' f f' I h S B
    simp only [targetLoop, Option.some.injEq, Prod.mk.injEq] at h
    obtain ⟨rfl, rfl, rfl⟩ := h
    exact ⟨fun x h1 h2 => absurd h1 h2, by simp, by simp⟩
  | cons t ts ih =>
    intro g g' u u' f f' I h S B
    simp only [targetLoop] at h
    split at h
    · cases h
    · rename_i g1 hv
      have ⟨R1, I1⟩ : Rel g g1 ∧ Inv g1 := by
        split at hv
        · exact buildRecurse_ok I hv
        · cases hv; exact ⟨Rel.refl _, I⟩
      have rest : ∀ u2 f2, targetLoop e fuel g1 ts u2 f2 = some (g', u', f') →
          NewGood g g' ∧ (∀ x ∈ t :: ts, (g'.node x).st.rank < 3 → HasNext g' x) ∧
          (u' + f' < u2 + f2 + ts.length → ∃ t ∈ ts, (g'.node t).st.rank < 3) ∧ Same g1 g' := by
        intro u2 f2 h
        have ⟨R2, _⟩ := targets_ok ts _ _ _ _ _ _ I1 h
        have ⟨S1, S2⟩ := same_split R1 R2 S
        have hv' : NewGood g g1 ∧ ((g1.node t).st.rank < 3 → HasNext g1 t) := by
          split at hv
          · rename_i hr
            have ⟨a, b⟩ := prog e fuel _ _ _ hv I S1 B hr
            exact ⟨b, fun _ => a⟩
          · rename_i hr
            cases hv
            exact ⟨fun x h1 h2 => absurd h1 h2, fun h => absurd h hr⟩
        have ⟨N2, T2, X2⟩ := ih _ _ _ _ _ _ I1 h S2 (fun x => by rw [S1 x]; exact B x)
        refine ⟨hv'.1.trans N2 R2 S2, fun x hx hr => ?_, X2, S2⟩
        rcases List.mem_cons.1 hx with rfl | hx
        · exact (hv'.2 (by rw [← S2 x]; exact hr)).mono R2 S2
        · exact T2 x hx hr
      split at h
      · have ⟨a, b, c, _⟩ := rest _ _ h
        refine ⟨a, b, fun hh => ?_⟩
        simp at hh
        obtain ⟨x, hx, r⟩ := c (by omega)
        exact ⟨x, List.mem_cons_of_mem _ hx, r⟩
      · have ⟨a, b, c, _⟩ := rest _ _ h
        refine ⟨a, b, fun hh => ?_⟩
        simp at hh
        obtain ⟨x, hx, r⟩ := c (by omega)
        exact ⟨x, List.mem_cons_of_mem _ hx, r⟩
      · rename_i n1 n2
        have ⟨a, b, c, S2⟩ := rest _ _ h
        refine ⟨a, b, fun _ => ⟨t, List.mem_cons_self, ?_⟩⟩
        have hb : (g'.node t).st ≠ .building := by rw [S t]; exact B t
        rw [← S2 t] at n1 n2
        revert n1 n2 hb; cases (g'.node t).st <;> simp [St.rank]

/-- A sweep over a graph with nothing in flight that changes no state and does not finish the root
leaves an unfinished target below which every visited node waits for another visited node. -/
theorem pass_stuck {e : Env} {fuel : Nat} {ts : List Nat} {g g' : G} (I : Inv g) (L : TagLe g)
    (B : NoBuilding g) (h : doBuildPass e fuel ts g = some g') (S : Same g g')
    (hp : g'.proxy.rank < 4) :
    ∃ t ∈ ts, (g'.node t).st.rank < 3 ∧ HasNext g' t ∧
      ∀ x, tagged g' x → (g'.node x).st.rank < 3 → HasNext g' x := by
  unfold doBuildPass at h
  split at h
  · cases h
  · rename_i g1 u f hl
    split at h
    · exfalso
      cases h
      simp only at hp
      split at hp <;> simp [St.rank] at hp
    · rename_i hc
      cases h
      have I0 := inv_bump I (g.tag + 1) g.proxy
      obtain ⟨R, -, a1, -⟩ := targets_ok ts _ _ _ _ _ _ I0 hl
      have ⟨N, T, X⟩ := targets_prog ts _ _ _ _ _ _ I0 hl S B
      obtain ⟨t, ht, hr⟩ := X (by omega)
      refine ⟨t, ht, hr, T t ht hr, fun x hx hxr => N x hx ?_ hxr⟩
      unfold tagged
      have := L x
      simp only; omega

theorem hasNext_edge {g : G} {x : Nat} (hx : (g.node x).st.rank < 3) (h : HasNext g x) :
    ∃ d, OpenEdge g x d ∧ (g.node d).st.rank < 3 ∧ tagged g d := by
  obtain ⟨d, h1, h2, h3⟩ := h
  exact ⟨d, ⟨(unfinished_iff g x).2 hx, (unfinished_iff g d).2 h2,
    (dependsOn_iff g x d).2 (cur_sub _ d h1)⟩, h2, h3⟩

theorem stuck_not_acc {g : G} (hall : ∀ x, tagged g x → (g.node x).st.rank < 3 → HasNext g x) {t : Nat}
    (h : Acc (fun b a => OpenEdge g a b) t) : (g.node t).st.rank < 3 → HasNext g t → False := by
  induction h with
  | intro a _ ih =>
    intro hr hn
    obtain ⟨d, e, dr, dt⟩ := hasNext_edge hr hn
    exact ih d e dr (hall d dt dr)

end Verif.Sched
