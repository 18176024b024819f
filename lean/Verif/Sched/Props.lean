import Verif.Sched.Progress
/-!
Properties C01-C08 of the build scheduler.

Every theorem quantifies over all graphs (cyclic or not, any number of nodes), all option settings,
all behaviours of the node classes (`Env`), and all interleavings of sweeps and job completions
(the event list). `fuel` bounds the recursion depth only; C08 shows that `N + 1` is always enough.
-/
namespace Verif.Sched

theorem occurs_ok {fuel : Nat} {ts : List Nat} {g0 : G} {evs : List Ev} {g : G}
    (h : Occurs fuel ts g0 evs g) : SRel g0 g ∧ Inv g ∧ ProxyInv ts g :=
  run_ok evs (init_inv h.1 ts).1 (init_inv h.1 ts).2 h.2

/-! A concrete diamond used as a witness in the examples below: 0 depends (statically) on 1 and 2,
both depend on 3; all nodes need building. -/

/-- environment in which every node needs building and nobody generates dependencies -/
def exEnv : Env :=
  { forceClean := false, stopOnFirstError := true, needStatic := fun _ _ => true,
    needDyn := fun _ _ => true, doDyn := fun _ _ => some [] }

def exG : G :=
  { node := fun n => { static := if n = 0 then [{ node := 1 }, { node := 2 }]
                                 else if n = 1 ∨ n = 2 then [{ node := 3 }] else [] }
    tag := 0, proxy := .notProcessed, log := [], used := fun _ => [] }

theorem exInit : Init exG := ⟨fun _ => rfl, fun _ => Nat.le_refl _, fun _ => rfl, rfl, rfl⟩

/-- a complete successful build of the diamond -/
def exEvs : List Ev :=
  [.sweep exEnv, .finish 3 (.ok 7 none []), .sweep exEnv, .finish 2 (.ok 8 none []),
   .finish 1 (.ok 9 none []), .sweep exEnv, .finish 0 (.ok 10 none []), .sweep exEnv]

/-- C01. Whenever a node's job exists (state BUILDING, from being queued until it is finalised), all
its pre-build, static and dynamic dependencies are UP_TO_DATE, and they stay so in every later state
of the build. -/
theorem C01_deps_up_to_date_while_building {fuel : Nat} {ts : List Nat} {g0 g g' : G}
    {evs evs' : List Ev} (h : Occurs fuel ts g0 evs g) (h' : run fuel ts g evs' = some g')
    {n d : Nat} (hb : (g.node n).st = .building) (hd : DependsOn g n d) :
    (g.node d).st = .upToDate ∧ (g'.node d).st = .upToDate := by
  have ⟨_, I, Q⟩ := occurs_ok h
  have hu : (g.node d).st = .upToDate :=
    (I.node n).usedUp (Or.inl hb) d (by rw [(I.node n).usedEq hb]; exact (dependsOn_iff g n d).1 hd)
  exact ⟨hu, (run_ok evs' I Q h').1.up hu⟩

example : ∃ g, Occurs 5 [0] exG (exEvs.take 3) g ∧ (g.node 1).st = .building ∧ DependsOn g 1 3 :=
  ⟨_, ⟨exInit, rfl⟩, rfl, Or.inr (Or.inl (by decide))⟩

theorem run_snoc {fuel : Nat} {ts : List Nat} (evs : List Ev) (ev : Ev) : ∀ g,
    run fuel ts g (evs ++ [ev]) = (run fuel ts g evs).bind (fun g1 => step fuel ts g1 ev) := by
  induction evs with
  | nil => intro g; simp only [List.nil_append, run, Option.bind_some]; cases step fuel ts g ev <;> rfl
  | cons a evs ih =>
    intro g
    simp only [List.cons_append, run]
    cases step fuel ts g a with
    | none => rfl
    | some g1 => exact ih g1

/-- the log grows and contains every building node -/
theorem logged_run {fuel : Nat} {ts : List Nat} (evs : List Ev) : ∀ {g g' : G} {L : List Nat},
    Logged L g → run fuel ts g evs = some g' → Logged L g' ∧ ∀ n ∈ completed evs, n ∈ g'.log := by
  induction evs with
  | nil => intro g g' L hl h; simp only [run, Option.some.injEq] at h; subst h; exact ⟨hl, by simp [completed]⟩
  | cons ev evs ih =>
    intro g g' L hl h
    simp only [run] at h
    split at h
    · cases h
    · rename_i g1 hs
      cases ev with
      | sweep e =>
        have hl1 : Logged L g1 := pres_pass (logged_closed e L) (fun _ _ => trivial) hl (fun _ _ h => h) hs
        have ⟨a, b⟩ := ih hl1 h
        exact ⟨a, by simpa [completed] using b⟩
      | finish n o =>
        simp only [step] at hs
        split at hs
        · rename_i hb
          cases hs
          have F := finish_fin g n o
          have hl1 : Logged (n :: L) (finish g n o) := by
            refine ⟨fun x hx => ?_, ?_⟩
            · rw [F.log]
              by_cases hxn : x = n
              · subst hxn; exact hl.1 x hb
              · rw [(F.other x hxn).1] at hx; exact hl.1 x hx
            · rw [F.log]
              intro x hx
              rcases List.mem_cons.1 hx with rfl | hx
              · exact hl.1 x hb
              · exact hl.2 x hx
          have ⟨a, b⟩ := ih hl1 h
          refine ⟨⟨a.1, fun x hx => a.2 x (List.mem_cons_of_mem _ hx)⟩, fun x hx => ?_⟩
          have hx' : x = n ∨ x ∈ completed evs := by
            cases o <;> simp [completed] at hx <;> first | exact hx | exact Or.inr hx
          rcases hx' with rfl | hx'
          · exact a.2 x List.mem_cons_self
          · exact b x hx'
        · cases hs

/-- a node that is finished never completes again -/
theorem completed_run {fuel : Nat} {ts : List Nat} (evs : List Ev) : ∀ {g g' : G}, Inv g → ProxyInv ts g →
    run fuel ts g evs = some g' →
    (completed evs).Nodup ∧ ∀ n ∈ completed evs, ¬ (4 ≤ (g.node n).st.rank) := by
  induction evs with
  | nil => intro g g' _ _ _; simp [completed]
  | cons ev evs ih =>
    intro g g' I Q h
    simp only [run] at h
    split at h
    · cases h
    · rename_i g1 hs
      have ⟨S, I1, Q1⟩ := step_ok I Q hs
      have ⟨a, b⟩ := ih I1 Q1 h
      have back : ∀ n ∈ completed evs, ¬ (4 ≤ (g.node n).st.rank) := by
        intro n hn hr
        exact b n hn (Nat.le_trans hr (S.adv n).rank_le)
      cases ev with
      | sweep e => exact ⟨by simpa [completed] using a, by simpa [completed] using back⟩
      | finish n o =>
        simp only [step] at hs
        split at hs
        · rename_i hb
          cases hs
          have base : ¬ (4 ≤ (g.node n).st.rank) := by rw [hb]; simp [St.rank]
          have fresh : o ≠ .aborted → n ∉ completed evs := by
            intro ho hn
            refine b n hn ?_
            cases o <;> simp_all [finish, St.rank]
          cases o with
          | aborted => exact ⟨by simpa [completed] using a, by simpa [completed] using back⟩
          | ok s d f =>
            refine ⟨List.nodup_cons.2 ⟨fresh (by simp), a⟩, fun x hx => ?_⟩
            rcases List.mem_cons.1 hx with rfl | hx
            · exact base
            · exact back x hx
          | failed z =>
            refine ⟨List.nodup_cons.2 ⟨fresh (by simp), a⟩, fun x hx => ?_⟩
            rcases List.mem_cons.1 hx with rfl | hx
            · exact base
            · exact back x hx
          | finalizeFailed s pd =>
            refine ⟨List.nodup_cons.2 ⟨fresh (by simp), a⟩, fun x hx => ?_⟩
            rcases List.mem_cons.1 hx with rfl | hx
            · exact base
            · exact back x hx
        · cases hs

/-- C02. In one build no node is queued twice, every job that runs was queued, and no node's job
completes twice. -/
theorem C02_built_at_most_once {fuel : Nat} {ts : List Nat} {g0 g : G} {evs : List Ev}
    (h : Occurs fuel ts g0 evs g) :
    g.log.Nodup ∧ (completed evs).Nodup ∧ (∀ n ∈ completed evs, n ∈ g.log) ∧
    (∀ n, (g.node n).st = .building → n ∈ g.log) := by
  have ⟨_, I, Q⟩ := occurs_ok h
  have i0 := init_inv h.1 ts
  have l0 : Logged [] g0 := ⟨fun n hn => (by rw [h.1.st n] at hn; cases hn), by simp⟩
  have ⟨l1, l2⟩ := logged_run evs l0 h.2
  exact ⟨I.nodup, (completed_run evs i0.1 i0.2 h.2).1, l2, l1.1⟩

example : ∃ g, Occurs 5 [0] exG exEvs g ∧ g.log = [0, 2, 1, 3] ∧ completed exEvs = [3, 2, 1, 0] :=
  ⟨_, ⟨exInit, rfl⟩, rfl, rfl⟩

/-- C03. Node states only move forward through the build phases, and UP_TO_DATE and FAILED are
final. -/
theorem C03_states_monotone {fuel : Nat} {ts : List Nat} {g0 g g' : G} {evs evs' : List Ev}
    (h : Occurs fuel ts g0 evs g) (h' : run fuel ts g evs' = some g') (n : Nat) :
    (g.node n).st.rank ≤ (g'.node n).st.rank ∧
    (Finished (g.node n).st → (g'.node n).st = (g.node n).st) := by
  have ⟨_, I, Q⟩ := occurs_ok h
  have S := (run_ok evs' I Q h').1
  refine ⟨(S.adv n).rank_le, fun hf => (S.adv n).fix ?_⟩
  rcases hf with hf | hf <;> rw [hf] <;> simp [St.rank]

example : ∃ g g', Occurs 5 [0] exG (exEvs.take 2) g ∧ run 5 [0] g (exEvs.drop 2) = some g' ∧
    (g.node 1).st = .staticDeps ∧ (g'.node 1).st = .upToDate ∧ (g.node 3).st = .upToDate :=
  ⟨_, _, ⟨exInit, rfl⟩, rfl, rfl, rfl, rfl⟩

theorem blame_run {fuel : Nat} {ts : List Nat} (E : List Ev) (evs : List Ev) :
    ∀ {g g' : G}, (∀ ev ∈ evs, ev ∈ E) → Blame (OwnFailure E) g →
    run fuel ts g evs = some g' → Blame (OwnFailure E) g' := by
  induction evs with
  | nil => intro g g' _ hb h; simp only [run, Option.some.injEq] at h; subst h; exact hb
  | cons ev evs ih =>
    intro g g' hE hb h
    have hev := hE ev List.mem_cons_self
    simp only [run] at h
    split at h
    · cases h
    · rename_i g1 hs
      refine ih (fun ev h => hE ev (List.mem_cons_of_mem _ h)) ?_ h
      cases ev with
      | sweep e =>
        exact pres_pass (blame_closed e _ (fun g n hd => Or.inr (Or.inr ⟨e, g, hev, hd⟩)))
          (fun _ _ => trivial) hb (fun _ _ h => h) hs
      | finish n o =>
        simp only [step] at hs
        split at hs
        · cases hs
          intro x hx
          have F := finish_fin g n o
          by_cases hxn : x = n
          · subst hxn
            cases o with
            | ok s d f =>
              simp only [finish, upd_node, if_true] at hx
              rw [(setStamps_st f g x).2.2.2.2.1] at hx
              exact hb x hx
            | finalizeFailed s pd => exact Or.inr (Or.inl ⟨s, pd, hev⟩)
            | failed z => exact Or.inl ⟨z, hev⟩
            | aborted => exact hb x hx
          · rw [(F.other x hxn).2.2] at hx; exact hb x hx
        · cases hs

/-- C04. A FAILED node has a chain of FAILED dependencies ending in a node that failed through its
own fault during this build. If the build as a whole is FAILED, such a target exists. -/
theorem C04_failure_has_root_cause {fuel : Nat} {ts : List Nat} {g0 g : G} {evs : List Ev}
    (h : Occurs fuel ts g0 evs g) {n : Nat} (hf : (g.node n).st = .failed) :
    ∃ m, Relation.ReflTransGen
        (fun a b => (g.node a).st = .failed ∧ DependsOn g a b ∧ (g.node b).st = .failed) n m ∧
      (g.node m).st = .failed ∧ OwnFailure evs m := by
  have ⟨_, I, _⟩ := occurs_ok h
  have hb : Blame (OwnFailure evs) g := blame_run evs evs (fun _ h => h)
    (fun x hx => by rw [h.1.self x] at hx; cases hx) h.2
  have hr := (I.node n).root hf
  clear hf
  induction hr with
  | @self x h1 h2 => exact ⟨x, .refl, h1, hb x h2⟩
  | @dep x d h1 h2 h3 ih =>
    obtain ⟨m, p, q⟩ := ih
    exact ⟨m, .head ⟨h1, (dependsOn_iff g x d).2 h2, h3.failed⟩ p, q⟩

theorem C04_build_failure_has_failed_target {fuel : Nat} {ts : List Nat} {g0 g : G} {evs : List Ev}
    (h : Occurs fuel ts g0 evs g) (hf : g.proxy = .failed) :
    ∃ t ∈ ts, (g.node t).st = .failed := ((occurs_ok h).2.2.fail hf).1

/-- a failing build of the diamond: job 3 fails, the failure reaches the root -/
def exFail : List Ev := [.sweep exEnv, .finish 3 (.failed false), .sweep exEnv]

example : ∃ g, Occurs 5 [0] exG exFail g ∧ g.proxy = .failed ∧ (g.node 0).st = .failed ∧
    OwnFailure exFail 3 :=
  ⟨_, ⟨exInit, rfl⟩, rfl, rfl, Or.inl (by simp [exFail])⟩

/-- C05 (partial). If the build succeeds, every target is UP_TO_DATE and so is everything reachable
through pre-build and static dependencies and through the dependencies each node had when its
dependency check passed (`used`, which includes the dynamic dependencies known at that time).
Missing: dynamic dependencies that `ObjectNode::Finalize` substitutes after the job has run; see
`C05_success_full` for the case in which those are ready and `C05_discovered_dependency_not_built`
for the counterexample. -/
theorem C05_success_partial {fuel : Nat} {ts : List Nat} {g0 g : G} {evs : List Ev}
    (h : Occurs fuel ts g0 evs g) (hs : g.proxy = .upToDate) {t n : Nat} (ht : t ∈ ts)
    (hr : Relation.ReflTransGen (fun a b => b ∈ ids (g.node a).pre ∨ b ∈ ids (g.node a).static ∨
      b ∈ g.used a) t n) : (g.node n).st = .upToDate := by
  have ⟨_, I, Q⟩ := occurs_ok h
  have h0 := Q.up hs t ht
  induction hr with
  | refl => exact h0
  | @tail b c _ e ih =>
    have i := I.node b
    rcases e with e | e | e
    · exact i.usedUp (Or.inr ih) c (i.usedSup ih c (List.mem_append_left _ e))
    · exact i.usedUp (Or.inr ih) c (i.usedSup ih c (List.mem_append_right _ e))
    · exact i.usedUp (Or.inr ih) c e

/-- all dependencies of built nodes are up to date -/
def FullUp (g : G) : Prop :=
  ∀ x, (g.node x).st = .building ∨ (g.node x).st = .upToDate →
    ∀ d ∈ (g.node x).allDeps, (g.node d).st = .upToDate

theorem full_run {fuel : Nat} {ts : List Nat} (evs : List Ev) : ∀ {g g' : G}, Inv g → ProxyInv ts g →
    FullUp g → DiscoveredReady fuel ts g evs → run fuel ts g evs = some g' → FullUp g' := by
  induction evs with
  | nil => intro g g' _ _ hf _ h; simp only [run, Option.some.injEq] at h; subst h; exact hf
  | cons ev evs ih =>
    intro g g' I Q hf hd h
    simp only [run] at h
    split at h
    · cases h
    · rename_i g1 hs
      have ⟨S, I1, Q1⟩ := step_ok I Q hs
      simp only [DiscoveredReady, hs] at hd
      refine ih I1 Q1 ?_ hd.2 h
      cases ev with
      | sweep e =>
        have hn : Noted (fun d => (g.node d).st = .upToDate) g1 :=
          pres_pass (noted_closed e _) (fun _ _ => trivial)
            (fun x hx d hdd => Or.inr (hf x hx d hdd)) (fun _ _ h => h) hs
        intro x hx d hdd
        rcases hn x hx d hdd with hu | hu
        · exact (I1.node x).usedUp hx d hu
        · exact S.up hu
      | finish n o =>
        simp only [step] at hs
        split at hs
        · rename_i hb
          cases hs
          have F := finish_fin g n o
          intro x hx d hdd
          by_cases hxn : x = n
          · subst hxn
            rw [← dependsOn_iff] at hdd
            unfold DependsOn at hdd
            rw [F.pre, F.static] at hdd
            have old : d ∈ (g.node x).allDeps → ((finish g x o).node d).st = .upToDate :=
              fun hh => S.up (hf x (Or.inl hb) d hh)
            rcases hdd with hdd | hdd | hdd
            · exact old (by simp [Node.allDeps, hdd])
            · exact old (by simp [Node.allDeps, hdd])
            · cases o with
              | ok s disc fs =>
                cases disc with
                | none =>
                  simp only [finish, upd_node, if_true, Option.getD_none, ids_stampDeps] at hdd
                  rw [(setStamps_st fs g x).2.2.2.1] at hdd
                  exact old (by simp [Node.allDeps, hdd])
                | some ds =>
                  simp only [finish, upd_node, if_true, Option.getD_some, ids_stampDeps] at hdd
                  exact S.up (hd.1 d hdd)
              | finalizeFailed s pd => simp [finish] at hx
              | failed z =>
                simp only [finish, upd_node, if_true] at hdd
                exact old (by simp [Node.allDeps, hdd])
              | aborted => exact old (by simp only [finish] at hdd; simp [Node.allDeps, hdd])
          · rw [(F.other x hxn).1] at hx
            refine S.up (hf x hx d ?_)
            simpa [Node.allDeps, F.pre, F.static, (F.other x hxn).2.1] using hdd
        · cases hs

/-- C05. If the dependencies discovered while finalising jobs are already up to date at that point
(`DiscoveredReady`), a successful build means that everything reachable from the targets through
pre-build, static or dynamic dependencies is UP_TO_DATE. -/
theorem C05_success_full {fuel : Nat} {ts : List Nat} {g0 g : G} {evs : List Ev}
    (h : Occurs fuel ts g0 evs g) (hd : DiscoveredReady fuel ts g0 evs) (hs : g.proxy = .upToDate)
    {t n : Nat} (ht : t ∈ ts) (hr : Relation.ReflTransGen (DependsOn g) t n) :
    (g.node n).st = .upToDate := by
  have ⟨_, I, Q⟩ := occurs_ok h
  have i0 := init_inv h.1 ts
  have hf := full_run evs i0.1 i0.2 (fun x hx => by rw [h.1.st x] at hx; simp at hx) hd h.2
  have h0 := Q.up hs t ht
  induction hr with
  | refl => exact h0
  | @tail b c _ e ih => exact hf b (Or.inr ih) c ((dependsOn_iff g b c).1 e)

example : ∃ g, Occurs 5 [0] exG exEvs g ∧ DiscoveredReady 5 [0] exG exEvs ∧ g.proxy = .upToDate ∧
    DependsOn g 1 3 :=
  ⟨_, ⟨exInit, rfl⟩, by repeat' constructor, rfl, Or.inr (Or.inl (by decide))⟩

/-- Finding: without that hypothesis the closure fails. Node 0 (say an object file) compiles and
reports node 1 as an included file; node 1 (say a header generated by a rule nobody depends on) has
not been processed in this build, yet the build succeeds. -/
theorem C05_discovered_dependency_not_built :
    ∃ (g0 g : G) (evs : List Ev), Occurs 5 [0] g0 evs g ∧ g.proxy = .upToDate ∧
      DependsOn g 0 1 ∧ (g.node 1).st = .notProcessed := by
  refine ⟨{ exG with node := fun _ => {} }, _,
    [.sweep exEnv, .finish 0 (.ok 5 (some [{ node := 1 }]) []), .sweep exEnv],
    ⟨⟨fun _ => rfl, fun _ => Nat.le_refl _, fun _ => rfl, rfl, rfl⟩, rfl⟩, rfl, ?_, rfl⟩
  exact Or.inr (Or.inr (by decide))

/-- C07. The cyclic dependency check answers yes exactly when a cycle of unfinished nodes is reachable
from the targets through unfinished nodes. -/
theorem C07_cycle_check_exact (g : G) (fuel : Nat) (targets : List Nat) (b : Bool)
    (hroot : g.proxy = .notProcessed) (h : cyclicCheck g fuel targets = some b) :
    b = true ↔ CycleReachable g targets :=
  cyclicCheck_exact g fuel targets b (by simp [hroot, St.rank]) h

/-- C07, totality: on a finite graph the check always answers. -/
theorem C07_cycle_check_terminates (N : Nat) (g : G) (hW : Within N g) (targets : List Nat)
    (ht : ∀ t ∈ targets, t < N) : ∃ b, cyclicCheck g (N + 1) targets = some b :=
  cyclicCheck_total N g hW targets ht (N + 1) (Nat.lt_succ_self N)

/-- two nodes that depend on each other -/
def exCyc : G :=
  { exG with node := fun n => { static := if n = 0 then [{ node := 1 }] else if n = 1 then [{ node := 0 }] else [] } }

example : Within 2 exCyc ∧ cyclicCheck exCyc 3 [0] = some true ∧ Within 4 exG ∧
    cyclicCheck exG 5 [0] = some false := by
  refine ⟨?_, rfl, ?_, rfl⟩
  · intro n b hb
    simp only [DependsOn, exCyc, ids] at hb
    split at hb
    · simp at hb; omega
    · split at hb <;> simp at hb <;> omega
  · intro n b hb
    simp only [DependsOn, exG, ids] at hb
    split at hb
    · simp at hb; omega
    · split at hb <;> simp at hb <;> omega

/-- C08. On every finite graph, cyclic or not and in any state, a sweep returns; the recursion depth
is at most the number of nodes plus one, and nodes outside the graph are not touched. -/
theorem C08_sweep_terminates (N : Nat) (e : Env) (hE : EnvWithin N e) (targets : List Nat)
    (ht : ∀ t ∈ targets, t < N) (g : G) (hW : Within N g) :
    ∃ g', doBuildPass e (N + 1) targets g = some g' ∧ Within N g' ∧ ∀ x, N ≤ x → g'.node x = g.node x :=
  pass_total hE (Nat.lt_succ_self N) targets ht g hW

example : EnvWithin 2 exEnv ∧ ∃ g', doBuildPass exEnv 3 [0] exCyc = some g' ∧
    (g'.node 1).st = .staticDeps := by
  refine ⟨?_, _, rfl, rfl⟩
  intro g n ds h d hd
  simp only [exEnv, Option.some.injEq] at h
  subst h; simp [ids] at hd

theorem tagle_run {fuel : Nat} {ts : List Nat} (evs : List Ev) : ∀ {g g' : G}, TagLe g →
    run fuel ts g evs = some g' → TagLe g' := by
  induction evs with
  | nil => intro g g' hl h; simp only [run, Option.some.injEq] at h; subst h; exact hl
  | cons ev evs ih =>
    intro g g' hl h
    simp only [run] at h
    split at h
    · cases h
    · rename_i g1 hs
      refine ih ?_ h
      cases ev with
      | sweep e =>
        exact pres_pass (tagle_closed e) (fun _ _ => trivial) (fun n => Nat.le_succ_of_le (hl n))
          (fun _ _ h => h) hs
      | finish n o =>
        simp only [step] at hs
        split at hs
        · cases hs
          have F := finish_fin g n o
          intro x; rw [F.tags, F.tag]; exact hl x
        · cases hs

theorem stall_core {N fuel : Nat} {e : Env} {ts : List Nat} {g g' : G} (I : Inv g) (L : TagLe g)
    (hW : Within N g') (ht : ∀ t ∈ ts, t < N) (hf : N < fuel)
    (hidle : ∀ x, (g.node x).st ≠ .building)
    (h : doBuildPass e fuel ts g = some g') (hpr : g'.proxy.rank < 3) (Q : ProxyInv ts g) :
    (∃ n, (g.node n).st.rank < (g'.node n).st.rank) ∨ cyclicCheck g' fuel ts = some true := by
  by_cases hs : Same g g'
  · right
    obtain ⟨t, htm, hr, hn, hall⟩ := pass_stuck I L hidle h hs (by omega)
    obtain ⟨b, hb⟩ := cyclicCheck_total N g' hW ts ht fuel hf
    cases b with
    | true => exact hb
    | false =>
      exfalso
      exact stuck_not_acc hall (cyclicCheck_false hpr hb t htm ((unfinished_iff g' t).2 hr)) hr hn
  · left
    have ⟨S, _, _⟩ := pass_ok I Q h
    obtain ⟨n, hn⟩ := Classical.not_forall.1 hs
    refine ⟨n, ?_⟩
    rcases S.adv n with e | e
    · exact absurd e hn
    · exact e.2

/-- C06. A sweep that runs while no job is in flight either finishes the build, or advances some
node, or the cyclic dependency check run after it reports a cycle, and then there really is one. -/
theorem C06_no_silent_stall {N : Nat} {ts : List Nat} {g0 g g' : G} {evs : List Ev} {e : Env}
    (h : Occurs (N + 1) ts g0 evs g) (hW : Within N g) (ht : ∀ t ∈ ts, t < N) (hE : EnvWithin N e)
    (hidle : ∀ x, (g.node x).st ≠ .building) (hs : doBuildPass e (N + 1) ts g = some g') :
    Finished g'.proxy ∨ (∃ n, (g.node n).st.rank < (g'.node n).st.rank) ∨
    (cyclicCheck g' (N + 1) ts = some true ∧ CycleReachable g' ts) := by
  have ⟨_, I, Q⟩ := occurs_ok h
  have L : TagLe g := tagle_run evs h.1.tag h.2
  obtain ⟨g2, hg2, hW2, _⟩ := pass_total hE (Nat.lt_succ_self N) ts ht g hW
  rw [hs] at hg2; cases hg2
  have hpx : g'.proxy.rank < 3 ∨ Finished g'.proxy := by
    -- the proxy is only ever NOT_PROCESSED, FAILED or UP_TO_DATE
    have hrun : ∀ (evs : List Ev) (g g' : G), (g.proxy = .notProcessed ∨ Finished g.proxy) →
        run (N + 1) ts g evs = some g' → (g'.proxy = .notProcessed ∨ Finished g'.proxy) := by
      intro evs
      induction evs with
      | nil => intro g g' hp h; simp only [run, Option.some.injEq] at h; subst h; exact hp
      | cons ev evs ih =>
        intro g g' hp h
        simp only [run] at h
        split at h
        · cases h
        · rename_i g1 hst
          refine ih g1 g' ?_ h
          cases ev with
          | finish n o =>
            simp only [step] at hst
            split at hst
            · cases hst; rw [(finish_fin g n o).proxy]; exact hp
            · cases hst
          | sweep e =>
            simp only [step, doBuildPass] at hst
            split at hst
            · cases hst
            · rename_i hl
              have R := pres_targets (P := fun h => h.proxy = g.proxy) (e := e) (A := Any)
                  (by constructor <;> intros <;> first | trivial | assumption)
                  ts (fun _ _ => trivial) _ _ _ _ _ _ (by exact rfl) hl
              split at hst <;> cases hst
              · right; simp only; split
                · exact Or.inr rfl
                · exact Or.inl rfl
              · rw [R]; exact hp
    have := hrun (evs ++ [.sweep e]) g0 g' (Or.inl h.1.proxy) (by rw [run_snoc, h.2]; exact hs)
    rcases this with h | h
    · left; rw [h]; simp [St.rank]
    · right; exact h
  rcases hpx with hp | hp
  · rcases stall_core I L hW2 ht (Nat.lt_succ_self N) hidle hs hp Q with h1 | h1
    · exact Or.inr (Or.inl h1)
    · exact Or.inr (Or.inr ⟨h1, (cyclicCheck_exact g' _ ts true hp h1).1 rfl⟩)
  · exact Or.inl hp

example : ∃ g', doBuildPass exEnv 3 [0] exCyc = some g' ∧ cyclicCheck g' 3 [0] = some true ∧
    (∀ x, (exCyc.node x).st ≠ .building) := ⟨_, rfl, rfl, fun x => by simp [exCyc]⟩

theorem sum_le {N : Nat} {f h : Nat → Nat} (hle : ∀ x, f x ≤ h x) :
    ((List.range N).map f).sum ≤ ((List.range N).map h).sum := by
  induction N with
  | zero => simp
  | succ N ih => simp [List.range_succ]; have := hle N; omega

theorem sum_lt {N d : Nat} {f h : Nat → Nat} (hle : ∀ x, f x ≤ h x) (hd : d < N) (hlt : f d < h d) :
    ((List.range N).map f).sum < ((List.range N).map h).sum := by
  induction N with
  | zero => omega
  | succ N ih =>
    simp [List.range_succ]
    by_cases hdN : d = N
    · subst hdN
      have := sum_le (N := d) hle; omega
    · have := ih (by omega)
      have := hle N; omega

/-- total progress made by nodes below `N` -/
def progress (N : Nat) (g : G) : Nat := ((List.range N).map (fun n => (g.node n).st.rank)).sum

theorem progress_bound (N : Nat) (g : G) : progress N g ≤ 5 * N := by
  unfold progress
  have := sum_le (N := N) (f := fun n => (g.node n).st.rank) (h := fun _ => 5)
    (fun x => by cases (g.node x).st <;> simp [St.rank])
  have hc : ((List.range N).map (fun _ => 5)).sum = 5 * N := by
    induction N with
    | zero => rfl
    | succ N ih => simp only [List.range_succ, List.map_append, List.sum_append, ih (sum_le fun x => by
        cases (g.node x).st <;> simp [St.rank])]; simp; omega
  omega

theorem idle_bound {N : Nat} {ts : List Nat} (ht : ∀ t ∈ ts, t < N) (evs : List Ev) :
    ∀ {g : G}, Inv g → ProxyInv ts g → TagLe g → Within N g → (∀ ev ∈ evs, EvWithin N ev) →
      (∀ x, N ≤ x → (g.node x).st = .notProcessed) →
      progress N g + idleSweeps N (N + 1) ts g evs ≤ 5 * N := by
  induction evs with
  | nil => intro g _ _ _ _ _ _; simp only [idleSweeps]; exact progress_bound N g
  | cons ev evs ih =>
    intro g I Q L W hev hout
    have hev' := fun ev h => hev ev (List.mem_cons_of_mem _ h)
    cases ev with
    | finish n o =>
      simp only [idleSweeps]
      split
      · exact progress_bound N g
      · rename_i g1 hs
        have ⟨S, I1, Q1⟩ := step_ok I Q hs
        have hw := hev _ List.mem_cons_self
        simp only [step] at hs
        split at hs
        · cases hs
          have F := finish_fin g n o
          have hle : progress N g ≤ progress N (finish g n o) := sum_le (fun x => (S.adv x).rank_le)
          have hnN : n < N := by
            cases o with
            | ok s disc fs => cases disc with
              | none => exact hw
              | some ds => exact hw.1
            | finalizeFailed s pd => cases pd with
              | none => exact hw
              | some ds => exact hw.1
            | failed z => exact hw
            | aborted => exact hw
          have W1 : Within N (finish g n o) := by
            intro x b hb
            unfold DependsOn at hb
            rw [F.pre, F.static] at hb
            rcases hb with hb | hb | hb
            · exact W x b (Or.inl hb)
            · exact W x b (Or.inr (Or.inl hb))
            · by_cases hxn : x = n
              · subst hxn
                cases o with
                | ok s disc fs =>
                  simp only [finish, upd_node, if_true, ids_stampDeps] at hb
                  cases disc with
                  | none =>
                    rw [Option.getD_none, (setStamps_st fs g x).2.2.2.1] at hb
                    exact W x b (Or.inr (Or.inr hb))
                  | some ds => exact hw.2 b hb
                | finalizeFailed s pd =>
                  simp only [finish, upd_node, if_true] at hb
                  cases pd with
                  | none => exact W x b (Or.inr (Or.inr hb))
                  | some ds => exact hw.2 b hb
                | failed z => simp only [finish, upd_node, if_true] at hb; exact W x b (Or.inr (Or.inr hb))
                | aborted => exact W x b (Or.inr (Or.inr hb))
              · rw [(F.other x hxn).2.1] at hb; exact W x b (Or.inr (Or.inr hb))
          have := ih I1 Q1 (by intro x; rw [F.tags, F.tag]; exact L x) W1 hev'
            (fun x hx => by rw [(F.other x (by omega)).1]; exact hout x hx)
          omega
        · cases hs
    | sweep e =>
      simp only [idleSweeps]
      split
      · exact progress_bound N g
      · rename_i g1 hs
        have ⟨S, I1, Q1⟩ := step_ok I Q hs
        have hE : EnvWithin N e := hev _ List.mem_cons_self
        simp only [step] at hs
        obtain ⟨g2, hg2, W1, O1⟩ := pass_total hE (Nat.lt_succ_self N) ts ht g W
        rw [hs] at hg2; cases hg2
        have L1 : TagLe g1 := pres_pass (tagle_closed e) (fun _ _ => trivial)
          (fun n => Nat.le_succ_of_le (L n)) (fun _ _ h => h) hs
        have := ih I1 Q1 L1 W1 hev' (fun x hx => by rw [O1 x hx]; exact hout x hx)
        have hle : progress N g ≤ progress N g1 := sum_le (fun x => (S.adv x).rank_le)
        split
        · rename_i hc
          have hidle : ∀ x, (g.node x).st ≠ .building := by
            intro x
            by_cases hx : x < N
            · exact hc.1 x hx
            · rw [hout x (by omega)]; simp
          rcases stall_core I L W1 ht (Nat.lt_succ_self N) hidle hs hc.2.1 Q with ⟨n, hn⟩ | h1
          · have hnN : n < N := by
              by_cases hx : n < N
              · exact hx
              · rw [O1 n (by omega)] at hn; omega
            have : progress N g < progress N g1 := sum_lt (fun x => (S.adv x).rank_le) hnN hn
            omega
          · exact absurd h1 hc.2.2
        · omega

/-- C06, bound. On a graph of `N` nodes, however long the build runs and however jobs complete, at
most `5 * N` sweeps can start with nothing in flight without finishing the build or reporting a
cycle: the build cannot spin forever. -/
theorem C06_bounded_idle_sweeps {N : Nat} {ts : List Nat} {g0 : G} (evs : List Ev) (hi : Init g0)
    (hW : Within N g0) (ht : ∀ t ∈ ts, t < N) (hev : ∀ ev ∈ evs, EvWithin N ev) :
    idleSweeps N (N + 1) ts g0 evs ≤ 5 * N := by
  have i0 := init_inv hi ts
  have := idle_bound ht evs i0.1 i0.2 hi.tag hW hev (fun x _ => hi.st x)
  omega

example : idleSweeps 4 5 [0] exG exEvs = 3 := by decide

end Verif.Sched
