import Verif.Sched.Sweep
import Verif.Sched.Spec
/-! The cyclic dependency check is exact and terminates; sweeps terminate and make progress. -/
namespace Verif.Sched

theorem unfinished_iff (g : G) (n : Nat) : Unfinished g n ↔ (g.node n).st.rank < 3 := by
  unfold Unfinished
  cases (g.node n).st <;> simp [St.rank]

theorem dependsOn_iff (g : G) (a b : Nat) : DependsOn g a b ↔ b ∈ (g.node a).allDeps := by
  simp [DependsOn, Node.allDeps]

/-- DFS invariant: visited nodes are on the stack or known to be acyclic -/
def TagInv (g : G) (stack : List Nat) (t : Tags) : Prop :=
  ∀ x ∈ t, x ∈ stack ∨ Acc (fun b a => OpenEdge g a b) x

theorem cycLoop_complete {g : G} {rec : Tags → Nat → Option (Bool × Tags)} {stack : List Nat}
    (hrec : ∀ t n t', rec t n = some (false, t') → TagInv g stack t →
      TagInv g stack t' ∧ (Unfinished g n → Acc (fun b a => OpenEdge g a b) n))
    (ds : List Nat) : ∀ t t', cycLoop rec t ds = some (false, t') → TagInv g stack t →
      TagInv g stack t' ∧ ∀ d ∈ ds, Unfinished g d → Acc (fun b a => OpenEdge g a b) d := by
  induction ds with
  | nil => intro t t' h T; simp only [cycLoop, Option.some.injEq, Prod.mk.injEq, true_and] at h
           subst h; exact ⟨T, by simp⟩
  | cons d ds ih =>
    intro t t' h T
    simp only [cycLoop] at h
    split at h
    · cases h
    · cases h
    · rename_i t1 hr
      have ⟨T1, A1⟩ := hrec _ _ _ hr T
      have ⟨T2, A2⟩ := ih _ _ h T1
      refine ⟨T2, fun x hx => ?_⟩
      rcases List.mem_cons.1 hx with rfl | hx
      · exact A1
      · exact A2 x hx

theorem cyc_complete (g : G) (f : Nat) : ∀ stack t n t', cycRecurse g f stack t n = some (false, t') →
    TagInv g stack t → TagInv g stack t' ∧ (Unfinished g n → Acc (fun b a => OpenEdge g a b) n) := by
  induction f with
  | zero => intro stack t n t' h; simp [cycRecurse] at h
  | succ f ih =>
    intro stack t n t' h T
    simp only [cycRecurse] at h
    split at h
    · rename_i hr
      simp only [Option.some.injEq, Prod.mk.injEq, true_and] at h; subst h
      exact ⟨T, fun hu => by rw [unfinished_iff] at hu; omega⟩
    · split at h
      · cases h
      · rename_i hns
        split at h
        · rename_i hnt
          simp only [Option.some.injEq, Prod.mk.injEq, true_and] at h; subst h
          exact ⟨T, fun _ => (T n hnt).resolve_left hns⟩
        · have ⟨T1, A1⟩ := cycLoop_complete (ih (n :: stack)) _ _ _ h (by
            intro x hx
            rcases List.mem_cons.1 hx with rfl | hx
            · exact Or.inl List.mem_cons_self
            · exact (T x hx).imp (List.mem_cons_of_mem _) id)
          have An : Acc (fun b a => OpenEdge g a b) n :=
            Acc.intro _ (fun y hy => A1 y ((dependsOn_iff g n y).1 hy.2.2) hy.2.1)
          refine ⟨fun x hx => ?_, fun _ => An⟩
          rcases T1 x hx with h | h
          · rcases List.mem_cons.1 h with rfl | h
            · exact Or.inr An
            · exact Or.inl h
          · exact Or.inr h

theorem acc_no_cycle {α : Type} {r : α → α → Prop} {t : α} (h : Acc (fun b a => r a b) t) :
    ∀ x, Relation.ReflTransGen r t x → ¬ Relation.TransGen r x x := by
  induction h with
  | intro a _ ih =>
    intro x hx hc
    -- move one step around
    rcases Relation.ReflTransGen.cases_head hx with rfl | ⟨b, hab, hbx⟩
    · obtain ⟨b, hab, hba⟩ := Relation.TransGen.head'_iff.1 hc
      have hbb : Relation.TransGen r b b :=
        Relation.TransGen.tail' hba hab
      exact ih b hab b Relation.ReflTransGen.refl hbb
    · exact ih b hab x hbx hc

/-- soundness: a positive answer exhibits a cycle below the start node -/
theorem cycLoop_sound {rec : Tags → Nat → Option (Bool × Tags)} {K : Prop} (ds : List Nat)
    (hrec : ∀ t n t', n ∈ ds → rec t n = some (true, t') → K) :
    ∀ t t', cycLoop rec t ds = some (true, t') → K := by
  induction ds with
  | nil => intro t t' h; simp [cycLoop] at h
  | cons d ds ih =>
    intro t t' h
    simp only [cycLoop] at h
    split at h
    · cases h
    · rename_i hr; exact hrec _ _ _ List.mem_cons_self hr
    · exact ih (fun t n t' hn => hrec t n t' (List.mem_cons_of_mem _ hn)) _ _ h

theorem cyc_sound (g : G) (f : Nat) : ∀ stack t n t', cycRecurse g f stack t n = some (true, t') →
    (Unfinished g n → ∀ s ∈ stack, Relation.TransGen (OpenEdge g) s n) →
    Unfinished g n ∧ ∃ x, Relation.ReflTransGen (OpenEdge g) n x ∧ Relation.TransGen (OpenEdge g) x x := by
  induction f with
  | zero => intro stack t n t' h; simp [cycRecurse] at h
  | succ f ih =>
    intro stack t n t' h hs
    simp only [cycRecurse] at h
    split at h
    · cases h
    · rename_i hr
      have hu : Unfinished g n := (unfinished_iff g n).2 (by omega)
      have hs := hs hu
      refine ⟨hu, ?_⟩
      split at h
      · rename_i hm
        exact ⟨n, Relation.ReflTransGen.refl, hs n hm⟩
      · split at h
        · cases h
        · refine cycLoop_sound (K := ∃ x, Relation.ReflTransGen (OpenEdge g) n x ∧
            Relation.TransGen (OpenEdge g) x x) _ ?_ _ _ h
          intro t1 d t1' hd hr1
          have hdep := (dependsOn_iff g n d).2 hd
          have ⟨hud, x, hx1, hx2⟩ := ih _ _ _ _ hr1 (by
            intro hud s hsm
            have e : OpenEdge g n d := ⟨hu, hud, hdep⟩
            rcases List.mem_cons.1 hsm with rfl | hsm
            · exact Relation.TransGen.single e
            · exact (hs s hsm).tail e)
          exact ⟨x, Relation.ReflTransGen.head ⟨hu, hud, hdep⟩ hx1, hx2⟩

theorem cyclicCheck_exact (g : G) (fuel : Nat) (ts : List Nat) (b : Bool)
    (hp : g.proxy.rank < 3) (h : cyclicCheck g fuel ts = some b) :
    b = true ↔ CycleReachable g ts := by
  unfold cyclicCheck at h
  rw [if_neg (by omega)] at h
  cases hl : cycLoop (cycRecurse g fuel []) [] ts with
  | none => rw [hl] at h; simp at h
  | some p =>
    obtain ⟨b', t'⟩ := p
    rw [hl] at h; simp at h; subst h
    cases b' with
    | true =>
      simp only [true_iff]
      refine cycLoop_sound _ ?_ _ _ hl
      intro t n t' hn hr
      have ⟨hu, x, h1, h2⟩ := cyc_sound g fuel _ _ _ _ hr (by simp)
      exact ⟨n, hn, x, hu, h1, h2⟩
    | false =>
      simp only [Bool.false_eq_true, false_iff]
      rintro ⟨t, ht, x, hu, h1, h2⟩
      have ⟨_, A⟩ := cycLoop_complete (cyc_complete g fuel []) _ _ _ hl (by intro x hx; simp at hx)
      exact acc_no_cycle (A t ht hu) x h1 h2

/-- a negative answer means every unfinished target is well founded -/
theorem cyclicCheck_false {g : G} {fuel : Nat} {ts : List Nat} (hp : g.proxy.rank < 3)
    (h : cyclicCheck g fuel ts = some false) :
    ∀ t ∈ ts, Unfinished g t → Acc (fun b a => OpenEdge g a b) t := by
  unfold cyclicCheck at h
  rw [if_neg (by omega)] at h
  cases hl : cycLoop (cycRecurse g fuel []) [] ts with
  | none => rw [hl] at h; simp at h
  | some p =>
    obtain ⟨b', t'⟩ := p
    rw [hl] at h; simp at h; subst h
    exact (cycLoop_complete (cyc_complete g fuel []) _ _ _ hl (by intro x hx; simp at hx)).2

/-! ### Termination -/

/-- number of nodes below `N` satisfying a predicate -/
def cnt (N : Nat) (p : Nat → Bool) : Nat := (List.range N).countP p

theorem cnt_le {N : Nat} {p q : Nat → Bool} (h : ∀ x, p x = true → q x = true) : cnt N p ≤ cnt N q :=
  List.countP_mono_left (fun x _ => h x)

theorem cnt_lt {N d : Nat} {p q : Nat → Bool} (h : ∀ x, p x = true → q x = true) (hd : d < N)
    (h1 : p d = false) (h2 : q d = true) : cnt N p < cnt N q := by
  unfold cnt
  induction N with
  | zero => omega
  | succ N ih =>
    rw [List.range_succ, List.countP_append, List.countP_append]
    simp only [List.countP_singleton]
    by_cases hdN : d = N
    · subst hdN
      have := cnt_le (N := d) h
      unfold cnt at this
      simp [h1, h2]; omega
    · have := ih (by omega)
      have : (if p N = true then 1 else 0) ≤ (if q N = true then 1 else 0) := by
        split <;> simp_all
      omega

theorem cnt_bound (N : Nat) (p : Nat → Bool) : cnt N p ≤ N := by
  unfold cnt
  exact Nat.le_trans List.countP_le_length (by simp)

/-- The DFS visits each node at most once, so `N + 1` levels suffice. -/
theorem cyc_total (N : Nat) (g : G) (hW : Within N g) (f : Nat) : ∀ stack (t : Tags) n, n < N →
    cnt N (fun x => decide (x ∉ t)) < f →
    ∃ b t', cycRecurse g f stack t n = some (b, t') ∧ ∀ x ∈ t, x ∈ t' := by
  induction f with
  | zero => intro stack t n hn h; omega
  | succ f ih =>
    intro stack t n hn h
    simp only [cycRecurse]
    split
    · exact ⟨_, _, rfl, fun x hx => hx⟩
    · split
      · exact ⟨_, _, rfl, fun x hx => hx⟩
      · split
        · exact ⟨_, _, rfl, fun x hx => hx⟩
        · rename_i hnt
          have hd : ∀ d ∈ (g.node n).allDeps, d < N := fun d hd => hW n d ((dependsOn_iff g n d).2 hd)
          have hlt : cnt N (fun x => decide (x ∉ n :: t)) < f := by
            have := cnt_lt (N := N) (d := n) (p := fun x => decide (x ∉ n :: t))
              (q := fun x => decide (x ∉ t)) (by simp) hn (by simp) (by simpa using hnt)
            omega
          have : ∀ (ds : List Nat), (∀ d ∈ ds, d < N) → ∀ t : Tags,
              cnt N (fun x => decide (x ∉ t)) < f →
              ∃ b t', cycLoop (cycRecurse g f (n :: stack)) t ds = some (b, t') ∧ ∀ x ∈ t, x ∈ t' := by
            intro ds
            induction ds with
            | nil => intro _ t _; exact ⟨_, _, rfl, fun x hx => hx⟩
            | cons d ds ih2 =>
              intro hds t ht
              obtain ⟨b, t1, hr, hsub⟩ := ih (n :: stack) t d (hds d List.mem_cons_self) ht
              simp only [cycLoop, hr]
              cases b with
              | true => exact ⟨_, _, rfl, hsub⟩
              | false =>
                have hle := cnt_le (N := N) (p := fun x => decide (x ∉ t1)) (q := fun x => decide (x ∉ t))
                  (by intro x hx; simp at hx ⊢; exact fun h => hx (hsub x h))
                obtain ⟨b, t2, hr2, hsub2⟩ := ih2 (fun d hd => hds d (List.mem_cons_of_mem _ hd)) t1 (by omega)
                exact ⟨b, t2, hr2, fun x hx => hsub2 x (hsub x hx)⟩
          obtain ⟨b, t', hr, hsub⟩ := this _ hd _ hlt
          exact ⟨b, t', hr, fun x hx => hsub x (List.mem_cons_of_mem _ hx)⟩

theorem cyclicCheck_total (N : Nat) (g : G) (hW : Within N g) (ts : List Nat) (hts : ∀ t ∈ ts, t < N)
    (f : Nat) (hf : N < f) : ∃ b, cyclicCheck g f ts = some b := by
  unfold cyclicCheck
  split
  · exact ⟨_, rfl⟩
  · have : ∀ (ds : List Nat), (∀ d ∈ ds, d < N) → ∀ t : Tags,
        ∃ b t', cycLoop (cycRecurse g f []) t ds = some (b, t') := by
      intro ds
      induction ds with
      | nil => intro _ t; exact ⟨_, _, rfl⟩
      | cons d ds ih2 =>
        intro hds t
        have hb := cnt_bound N (fun x => decide (x ∉ t))
        obtain ⟨b, t1, hr, hsub⟩ := cyc_total N g hW f [] t d (hds d List.mem_cons_self) (by omega)
        simp only [cycLoop, hr]
        cases b with
        | true => exact ⟨_, _, rfl⟩
        | false => exact ih2 (fun d hd => hds d (List.mem_cons_of_mem _ hd)) t1
    obtain ⟨b, t', hr⟩ := this ts hts []
    exact ⟨b, by simp [hr]⟩

/-- nodes below `N` not yet visited in this pass -/
def unt (N : Nat) (g : G) : Nat := cnt N (fun x => decide ((g.node x).tag ≠ g.tag))

/-- predicate kept by everything in one sweep -/
def Bnd (N k : Nat) (h : Nat → Node) (g : G) : Prop :=
  Within N g ∧ unt N g ≤ k ∧ ∀ x, N ≤ x → g.node x = h x

/-- the nodes of the graph -/
def Lt (N : Nat) (x : Nat) : Prop := x < N

theorem within_upd {N : Nat} {g : G} {n : Nat} {f : Node → Node} (h : Within N g)
    (h1 : (f (g.node n)).pre = (g.node n).pre) (h2 : (f (g.node n)).static = (g.node n).static)
    (h3 : ∀ b ∈ ids (f (g.node n)).dyn, b < N) : Within N (g.upd n f) := by
  intro x b hb
  unfold DependsOn at hb
  simp only [upd_node] at hb
  split at hb
  · rename_i hx; subst hx
    rw [h1, h2] at hb
    rcases hb with hb | hb | hb
    · exact h x b (Or.inl hb)
    · exact h x b (Or.inr (Or.inl hb))
    · exact h3 b hb
  · exact h x b hb

theorem unt_upd {N : Nat} {g : G} {n : Nat} {f : Node → Node} (h : (f (g.node n)).tag = (g.node n).tag) :
    unt N (g.upd n f) = unt N g := by
  unfold unt; congr 1; funext x
  simp only [upd_node, upd_tag]; split
  · subst_vars; rw [h]
  · rfl

theorem unt_setTag_le {N : Nat} {g : G} {n : Nat} : unt N (g.setTag n) ≤ unt N g := by
  apply cnt_le
  intro x hx
  simp only [G.setTag, upd_node, upd_tag, decide_eq_true_eq] at hx ⊢
  split at hx
  · simp at hx
  · simpa using hx

theorem unt_setTag_lt {N : Nat} {g : G} {n : Nat} (hn : n < N) (h : (g.node n).tag ≠ g.tag) :
    unt N (g.setTag n) < unt N g := by
  apply cnt_lt (d := n) _ hn
  · simp [G.setTag]
  · simpa using h
  · intro x hx
    simp only [G.setTag, upd_node, upd_tag, decide_eq_true_eq] at hx ⊢
    split at hx
    · simp at hx
    · simpa using hx

theorem bnd_closed (N k : Nat) (h : Nat → Node) (e : Env) (hE : EnvWithin N e) :
    Closed e (Lt N) (Bnd N k h) := by
  have dynOK : ∀ g : G, Within N g → ∀ n, ∀ b ∈ ids (g.node n).dyn, b < N :=
    fun g h n b hb => h n b (Or.inr (Or.inr hb))
  have up : ∀ (g : G) (n : Nat) (f : Node → Node), Bnd N k h g → Lt N n →
      (f (g.node n)).pre = (g.node n).pre → (f (g.node n)).static = (g.node n).static →
      (∀ b ∈ ids (f (g.node n)).dyn, b < N) → (f (g.node n)).tag = (g.node n).tag →
      Bnd N k h (g.upd n f) := by
    intro g n f hp hn h1 h2 h3 h4
    refine ⟨within_upd hp.1 h1 h2 h3, by rw [unt_upd h4]; exact hp.2.1, fun x hx => ?_⟩
    unfold Lt at hn
    simp only [upd_node]; rw [if_neg (by omega)]; exact hp.2.2 x hx
  constructor
  · intro g n hp hn d hd
    exact hp.1 n d ((dependsOn_iff g n d).2 hd)
  · intro g n hp hn
    refine ⟨within_upd hp.1 rfl rfl (dynOK g hp.1 n), Nat.le_trans unt_setTag_le hp.2.1, fun x hx => ?_⟩
    unfold Lt at hn
    simp only [G.setTag, upd_node]; rw [if_neg (by omega)]; exact hp.2.2 x hx
  · intro g n s _ _ hp hn; exact up g n _ hp hn rfl rfl (dynOK g hp.1 n) rfl
  · intro g n hp hn; exact up (g.note n) n _ hp hn rfl rfl (dynOK g hp.1 n) rfl
  · intro g n hp hn
    exact up (g.note n) n (fun nd => { nd with st := .building }) hp hn rfl rfl (dynOK g hp.1 n) rfl
  · intro g n hp hn; exact up g n _ hp hn rfl rfl (by simp [ids]) rfl
  · intro g n hp hn _; exact up g n _ hp hn rfl rfl (dynOK g hp.1 n) rfl
  · intro g n ds hp hn hd; exact up g n _ hp hn rfl rfl (fun b hb => hE g n ds hd b hb) rfl

section total
variable {N : Nat} {hn : Nat → Node} {e : Env} (hE : EnvWithin N e) {f : Nat}
  (ih : ∀ g n, Within N g → n < N → unt N g < f → ∃ g', buildRecurse e f g n = some g')
include hE ih

theorem total_loop {k : Nat} (hk : k ≤ f) {stop : Bool} {n : Nat} (ds : List Nat) (hds : ∀ d ∈ ds, d < N) :
    ∀ (g : G) (ok : Bool) (u v : Nat), Bnd N k hn g →
      ∃ r, checkLoop (buildRecurse e f) stop n g ds ok u v = some r := by
  induction ds with
  | nil => intro g ok u v _; exact ⟨_, rfl⟩
  | cons d ds ih2 =>
    intro g ok u v hB
    have ih2 := ih2 (fun d hd => hds d (List.mem_cons_of_mem _ hd))
    have hd := hds d List.mem_cons_self
    have : ∃ g1, visit (buildRecurse e f) g d = some g1 := by
      unfold visit
      split
      · rename_i hc
        have h1 := unt_setTag_lt hd hc.2
        exact ih _ d ((bnd_closed N k hn e hE).setTag g d hB hd).1 hd (by have := hB.2.1; omega)
      · exact ⟨_, rfl⟩
    obtain ⟨g1, hv⟩ := this
    have hB1 : Bnd N k hn g1 := pres_visit (bnd_closed N k hn e hE) (pres_buildRecurse (bnd_closed N k hn e hE) f) hd hB hv
    simp only [checkLoop, hv]
    split
    · exact ih2 _ _ _ _ hB1
    · split
      · exact ⟨_, rfl⟩
      · exact ih2 _ _ _ _ hB1
    · exact ih2 _ _ _ _ hB1

theorem total_checkDeps {k : Nat} (hk : k ≤ f) {stop : Bool} {n : Nat} (ds : List Nat)
    (hA : n < N) (hds : ∀ d ∈ ds, d < N) (g : G) (hB : Bnd N k hn g) :
    ∃ g1 ok, checkDeps (buildRecurse e f) stop g n ds = some (g1, ok) ∧ Bnd N k hn g1 := by
  have ⟨r, hr⟩ := total_loop hE ih hk (stop := stop) (n := n) ds hds g true 0 0 hB
  have : ∃ g1 ok, checkDeps (buildRecurse e f) stop g n ds = some (g1, ok) := by
    unfold checkDeps
    obtain ⟨a, b, c, d⟩ := r
    rw [hr]; dsimp only
    split
    · exact ⟨_, _, rfl⟩
    · exact ⟨_, _, rfl⟩
  obtain ⟨g1, ok, h⟩ := this
  exact ⟨g1, ok, h, pres_checkDeps (bnd_closed N k hn e hE) (pres_buildRecurse (bnd_closed N k hn e hE) f) hA hds hB h⟩

theorem total_fromDynamic {k : Nat} (hk : k ≤ f) (g : G) (n : Nat) (hA : n < N) (hB : Bnd N k hn g) :
    ∃ g', fromDynamic e (buildRecurse e f) g n = some g' := by
  obtain ⟨g1, ok, h, _⟩ := total_checkDeps hE ih hk (stop := e.stopOnFirstError) (n := n)
    (ids (g.node n).dyn) hA (fun d hd => hB.1 n d (Or.inr (Or.inr hd))) g hB
  unfold fromDynamic
  rw [h]
  cases ok
  · exact ⟨_, rfl⟩
  · dsimp only; split <;> exact ⟨_, rfl⟩

theorem total_fromStatic {k : Nat} (hk : k ≤ f) (g : G) (n : Nat) (hA : n < N) (hB : Bnd N k hn g) :
    ∃ g', fromStatic e (buildRecurse e f) g n = some g' := by
  obtain ⟨g1, ok, h, hB1⟩ := total_checkDeps hE ih hk (stop := e.stopOnFirstError) (n := n)
    (ids (g.node n).static) hA (fun d hd => hB.1 n d (Or.inr (Or.inl hd))) g hB
  have C := bnd_closed N k hn e hE
  unfold fromStatic
  rw [h]
  cases ok
  · exact ⟨_, rfl⟩
  · dsimp only
    split
    · split
      · exact ⟨_, rfl⟩
      · exact total_fromDynamic hE ih hk _ n hA (C.dyn _ _ _ (C.clear _ _ hB1 hA) hA (by assumption))
    · exact total_fromDynamic hE ih hk _ n hA (C.setSt _ _ _ (by simp) (by simp) hB1 hA)

theorem total_body {k : Nat} (hk : k ≤ f) (g : G) (n : Nat) (hA : n < N) (hB : Bnd N k hn g) :
    ∃ g', body e (buildRecurse e f) g n = some g' := by
  have C := bnd_closed N k hn e hE
  unfold body
  split
  · obtain ⟨g1, ok, h, hB1⟩ := total_checkDeps hE ih hk (stop := e.stopOnFirstError) (n := n)
      (ids (g.node n).pre) hA (fun d hd => hB.1 n d (Or.inl hd)) g hB
    unfold fromPre
    rw [h]
    cases ok
    · exact ⟨_, rfl⟩
    · exact total_fromStatic hE ih hk _ n hA (C.setSt _ _ _ (by simp) (by simp) hB1 hA)
  · exact total_fromStatic hE ih hk g n hA hB
  · exact total_fromDynamic hE ih hk g n hA hB
  · exact ⟨_, rfl⟩

end total

theorem buildRecurse_total {N : Nat} {e : Env} (hE : EnvWithin N e) (f : Nat) :
    ∀ g n, Within N g → n < N → unt N g < f → ∃ g', buildRecurse e f g n = some g' := by
  induction f with
  | zero => intro g n _ _ h; omega
  | succ f ih =>
    intro g n hW hn h
    exact total_body (hn := g.node) hE ih (k := f) (Nat.le_refl _) g n hn ⟨hW, by omega, fun _ _ => rfl⟩

theorem targets_total {N : Nat} {e : Env} (hE : EnvWithin N e) {fuel : Nat} (hf : N < fuel)
    (ts : List Nat) (hts : ∀ t ∈ ts, t < N) : ∀ (g : G) (u v : Nat), Within N g →
    ∃ r, targetLoop e fuel g ts u v = some r := by
  induction ts with
  | nil => intro g u v _; exact ⟨_, rfl⟩
  | cons t ts ih =>
    intro g u v hW
    have ih := ih (fun d hd => hts d (List.mem_cons_of_mem _ hd))
    have hB : Bnd N N g.node g := ⟨hW, cnt_bound _ _, fun _ _ => rfl⟩
    have : ∃ g1, (if (g.node t).st.rank < 3 then buildRecurse e fuel g t else some g) = some g1 ∧ Within N g1 := by
      split
      · obtain ⟨g1, h⟩ := buildRecurse_total hE fuel g t hW (hts t List.mem_cons_self)
          (Nat.lt_of_le_of_lt hB.2.1 hf)
        exact ⟨g1, h, (pres_buildRecurse (bnd_closed N N g.node e hE) fuel _ _ _ (hts t List.mem_cons_self) hB h).1⟩
      · exact ⟨g, rfl, hW⟩
    obtain ⟨g1, h, hW1⟩ := this
    simp only [targetLoop, h]
    split <;> exact ih _ _ _ hW1

theorem pass_total {N : Nat} {e : Env} (hE : EnvWithin N e) {fuel : Nat} (hf : N < fuel)
    (ts : List Nat) (hts : ∀ t ∈ ts, t < N) (g : G) (hW : Within N g) :
    ∃ g', doBuildPass e fuel ts g = some g' ∧ Within N g' ∧ ∀ x, N ≤ x → g'.node x = g.node x := by
  have ⟨r, h⟩ := targets_total hE hf ts hts { g with tag := g.tag + 1 } 0 0 hW
  have : ∃ g', doBuildPass e fuel ts g = some g' := by
    obtain ⟨a, b, c⟩ := r
    unfold doBuildPass
    rw [h]; dsimp only
    split <;> exact ⟨_, rfl⟩
  obtain ⟨g', hg⟩ := this
  have hB := pres_pass (bnd_closed N N g.node e hE) hts ⟨hW, cnt_bound _ _, fun _ _ => rfl⟩ (fun _ _ h => h) hg
  exact ⟨g', hg, hB.1, hB.2.2⟩

end Verif.Sched
