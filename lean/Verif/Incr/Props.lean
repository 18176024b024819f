import Verif.Incr.Rebuild
/-!
Properties C09-C12: incremental builds.

All theorems quantify over every graph, every set of rules (`Sem`), every interleaving of sweeps, file
writes of jobs and job completions, and every history of builds, edits, interruptions, lost databases
and changed build files.
-/
namespace Verif.Incr
open Verif.Sched
variable {C : Type}

/-! ### A concrete workspace used as a witness

Node 0 is an output made from the source 1 (static dependency) and the header 2 (found during the
compilation); node 3 is a weak dependency of node 0. A version of a file is its content. -/

def exK : Kinds where
  isFile := fun _ => true
  always := fun n => n != 0
  source := fun n => n != 0
  source_always := by intro n h; exact h

/-- content = version; the job of 0 reads 1 and 2 and adds them up -/
def exS : Sem Nat where
  content := fun _ s => s
  prog := fun n => if n = 0 then .read 1 (fun a => .read 2 (fun b => .ret (a + b))) else .ret 0

def exDb : G where
  node := fun n => { static := if n = 0 then [{ node := 1 }, { node := 3, weak := true }] else [] }
  tag := 0
  proxy := .notProcessed
  log := []
  used := fun _ => []

theorem exFresh : Fresh exDb := ⟨fun _ => rfl⟩

def exIn : SweepIn where
  forceClean := false
  stopOnFirstError := true
  extra := fun _ _ => false
  doDyn := fun _ _ => some []

/-- versions of the files: 1, 2, 3 and the output -/
def exFs (a b c o : Nat) : Disk := fun n =>
  if n = 0 then o else if n = 1 then a else if n = 2 then b else if n = 3 then c else 0

/-- first build: compile 0, discover the header 2 -/
def exFirst (o : Nat) : List IEv :=
  [.sweep exIn, .finish 1 (.ok 0 none), .finish 3 (.ok 0 none), .sweep exIn,
   .write 0 o, .finish 0 (.ok 0 (some [{ node := 2 }])), .sweep exIn]

/-- later build in which the dynamic dependency has to be looked at first -/
def exLater : List IEv :=
  [.sweep exIn, .finish 1 (.ok 0 none), .finish 3 (.ok 0 none), .sweep exIn,
   .finish 2 (.ok 0 none), .sweep exIn]

/-- ... and 0 is compiled again -/
def exRebuild (o : Nat) : List IEv :=
  exLater ++ [.write 0 o, .finish 0 (.ok 0 (some [{ node := 2 }])), .sweep exIn]

/-- state after a list of events, for the examples -/
def after (db : G) (fs : Disk) (evs : List IEv) : World :=
  (irun exK 5 [0] ⟨load db, fs⟩ evs).getD ⟨load db, fs⟩

/-- after the first build -/
def exW1 : World := after exDb (exFs 5 6 7 0) (exFirst 11)

theorem exHonest1 : Builds exS exK [0] exDb (exFs 5 6 7 0) exW1 :=
  ⟨5, exFirst 11, by
    refine ⟨trivial, ⟨fun _ hd => absurd hd List.not_mem_nil, fun h => absurd h (by decide)⟩, ⟨fun _ hd => absurd hd List.not_mem_nil, fun h => absurd h (by decide)⟩, trivial, trivial,
      ⟨?_, fun _ => ⟨rfl, ?_⟩⟩, trivial, trivial⟩
    · decide
    · decide, rfl⟩

/-- the header changes from 6 to 8 and the project is built again -/
def exW2 : World := after exW1.g (exFs 5 8 7 11) (exRebuild 13)

theorem exHonest2 : Builds exS exK [0] exW1.g (exFs 5 8 7 11) exW2 :=
  ⟨5, exRebuild 13, by
    refine ⟨trivial, ⟨fun _ hd => absurd hd List.not_mem_nil, fun h => absurd h (by decide)⟩, ⟨fun _ hd => absurd hd List.not_mem_nil, fun h => absurd h (by decide)⟩, trivial, ⟨fun _ hd => absurd hd List.not_mem_nil, fun h => absurd h (by decide)⟩,
      trivial, trivial, ⟨?_, fun _ => ⟨rfl, ?_⟩⟩, trivial, trivial⟩
    · decide
    · decide, rfl⟩

/-- history: first build, edit of the header -/
theorem exHist : History exK exS exW1.g (exFs 5 8 7 11) :=
  .edited (.built (.fresh exFresh) exHonest1)

/-! ### C09 -/

/-- targets of a successful build -/
theorem targets_up {K : Kinds} {S : Sem C} {ts : List Nat} {db : G} {fs : Disk} {w : World}
    (h : History K S db fs) (b : Builds S K ts db fs w) (hs : w.g.proxy = .upToDate) {t : Nat}
    (ht : t ∈ ts) : (w.g.node t).st = .upToDate :=
  (builds_ok (history_ok h) b).2.1.up hs t ht

/-- C09 (partial: `Honest` excludes runs in which `Finalize` failed, see
`C09_finalize_failure_stale`). After any history, whenever a build reports success every node that can be reached from the
targets and is not an input is consistent: its content is what its rule produces from the current
contents of the nodes it reads, and (for files) the version on disk is the recorded one. -/
theorem C09_success_consistent_partial {K : Kinds} {S : Sem C} {ts : List Nat} {db : G} {fs : Disk}
    {w : World} (h : History K S db fs) (b : Builds S K ts db fs w) (hs : w.g.proxy = .upToDate)
    {t n : Nat} (ht : t ∈ ts) (hr : Relation.ReflTransGen (BuildEdge K w.g) t n)
    (hn : K.source n = false) :
    Consistent S K w n ∧ (K.isFile n = true → w.fs n = (w.g.node n).stamp) := by
  obtain ⟨I, Q, P⟩ := builds_ok (history_ok h) b
  have key : Settled K w.g n := by
    induction hr with
    | refl => exact Or.inl (Q.up hs t ht)
    | tail _ hyz ih =>
      rename_i y z hty
      have hu : (w.g.node y).st = .upToDate := by
        rcases ih hyz.1 with hh | hh
        · exact hh
        · rw [hyz.1] at hh; cases hh.1
      rcases hyz.2 with hp | hp | hp
      · exact Or.inl ((I.node y).usedUp (Or.inr hu) z ((I.node y).usedSup hu z (List.mem_append_left _ hp)))
      · exact (P.up y hu).deps hyz.1 z (by simp [ids] at hp ⊢; exact Or.inl hp)
      · exact (P.up y hu).deps hyz.1 z (by simp [ids] at hp ⊢; exact Or.inr hp)
  have hu : (w.g.node n).st = .upToDate := by
    rcases key with hh | hh
    · exact hh
    · rw [hn] at hh; cases hh.1
  refine ⟨?_, (P.up n hu).disk⟩
  unfold Consistent
  rw [← ((P.up n hu).cons hn).1]
  unfold view
  rw [(P.up n).ver_eq hu]

/-- C09 (partial, as above). The result of an incremental build is the result of a build from scratch: take any history
ending in a successful build, and a successful build of the same rules in a workspace that was never
built, whose inputs have the same contents. Every node that was brought up to date in both has the
same content in both. (Nothing is assumed about the order of work, the recorded dependencies or the
versions in the two builds.) -/
theorem C09_incremental_equals_clean_partial {K : Kinds} {S : Sem C} {ts ts' : List Nat} {db db' : G}
    {fs fs' : Disk} {w w' : World} (h : History K S db fs) (b : Builds S K ts db fs w)
    (h' : Fresh db') (b' : Builds S K ts' db' fs' w')
    (hin : ∀ r, K.source r = true → view S K w.fs w.g r = view S K w'.fs w'.g r)
    {n : Nat} (hu : (w.g.node n).st = .upToDate) (hu' : (w'.g.node n).st = .upToDate) :
    view S K w.fs w.g n = view S K w'.fs w'.g n := by
  obtain ⟨-, -, P⟩ := builds_ok (history_ok h) b
  obtain ⟨-, -, P'⟩ := builds_ok (history_ok (History.fresh (K := K) (S := S) (fs := fs') h')) b'
  have acc := P.acc n hu
  induction acc with
  | intro x _ ih =>
    cases hx : K.source x with
    | true => exact hin x hx
    | false =>
      obtain ⟨c1, c2⟩ := (P.up x hu).cons hx
      obtain ⟨c1', c2'⟩ := (P'.up x hu').cons hx
      have e : view S K w.fs w.g x = S.content x (w.g.node x).stamp := by
        unfold view; rw [(P.up x).ver_eq hu]
      have e' : view S K w'.fs w'.g x = S.content x (w'.g.node x).stamp := by
        unfold view; rw [(P'.up x).ver_eq hu']
      rw [e, e', c1, c1']
      have : S.tool x (view S K w'.fs w'.g) = S.tool x (view S K w.fs w.g) := by
        apply Tool.both
        intro r hr hr'
        have d := (P.up x hu).deps hx r (c2 r hr)
        have d' := (P'.up x hu').deps hx r (c2' r hr')
        cases hs : K.source r with
        | true => exact (hin r hs).symm
        | false =>
          have ur : (w.g.node r).st = .upToDate := d.resolve_right (by simp [hs])
          have ur' : (w'.g.node r).st = .upToDate := d'.resolve_right (by simp [hs])
          exact (ih r ⟨hx, c2 r hr⟩ ur ur').symm
      rw [this]

/-- C09, for the targets: both builds report success. -/
theorem C09_targets_equal_clean_partial {K : Kinds} {S : Sem C} {ts : List Nat} {db db' : G}
    {fs fs' : Disk} {w w' : World} (h : History K S db fs) (b : Builds S K ts db fs w)
    (hs : w.g.proxy = .upToDate) (h' : Fresh db') (b' : Builds S K ts db' fs' w')
    (hs' : w'.g.proxy = .upToDate)
    (hin : ∀ r, K.source r = true → view S K w.fs w.g r = view S K w'.fs w'.g r) {t : Nat}
    (ht : t ∈ ts) : view S K w.fs w.g t = view S K w'.fs w'.g t :=
  C09_incremental_equals_clean_partial h b h' b' hin (targets_up h b hs ht)
    (targets_up (History.fresh (S := S) (fs := fs') h') b' hs' ht)

/-- the edited header is noticed, 0 is rebuilt, and its content is the sum of the new inputs -/
example : History exK exS exW1.g (exFs 5 8 7 11) ∧ Builds exS exK [0] exW1.g (exFs 5 8 7 11) exW2 ∧
    exW2.g.proxy = .upToDate ∧ Relation.ReflTransGen (BuildEdge exK exW2.g) 0 0 ∧
    exK.source 0 = false ∧ view exS exK exW2.fs exW2.g 0 = 13 ∧ BuildEdge exK exW2.g 0 2 :=
  ⟨exHist, exHonest2, rfl, .refl, rfl, rfl, rfl, Or.inr (Or.inr (by decide))⟩

/-- a build from scratch with the edited header -/
def exW3 : World := after exDb (exFs 5 8 7 0) (exFirst 13)

theorem exHonest3 : Builds exS exK [0] exDb (exFs 5 8 7 0) exW3 :=
  ⟨5, exFirst 13, by
    refine ⟨trivial, ⟨fun _ hd => absurd hd List.not_mem_nil, fun h => absurd h (by decide)⟩, ⟨fun _ hd => absurd hd List.not_mem_nil, fun h => absurd h (by decide)⟩, trivial, trivial,
      ⟨?_, fun _ => ⟨rfl, ?_⟩⟩, trivial, trivial⟩
    · decide
    · decide, rfl⟩

example : exW2.g.proxy = .upToDate ∧ exW3.g.proxy = .upToDate ∧
    (∀ r, exK.source r = true → view exS exK exW2.fs exW2.g r = view exS exK exW3.fs exW3.g r) := by
  refine ⟨rfl, rfl, fun r hr => ?_⟩
  have h0 : r ≠ 0 := by simpa [exK] using hr
  have e2 : exW2.fs = fun x => if x = 0 then 13 else exFs 5 8 7 11 x := rfl
  have e3 : exW3.fs = fun x => if x = 0 then 13 else exFs 5 8 7 0 x := rfl
  simp [view, ver, e2, e3, exFs, h0, exK]

/-! ### C11 -/

/-- C11. A non-input node brought up to date by a build without forced rebuilds was built exactly if
there was a reason: it is always built, was never (successfully) built, its output is missing or was
modified, or a recorded non-weak static or dynamic dependency is missing or has another version. -/
theorem C11_rebuilt_iff {K : Kinds} {db : G} {fs : Disk} {fuel : Nat} {ts : List Nat}
    {evs : List IEv} {w : World} (h : irun K fuel ts ⟨load db, fs⟩ evs = some w) {n : Nat}
    (hn : K.source n = false) (hu : (w.g.node n).st = .upToDate) (hf : ¬ Forced evs n) :
    n ∈ w.g.log ↔ Reason K db fs w.g n := by
  have R := (rb_build h).1.node n hn
  constructor
  · intro hl
    rcases R.log hl with hh | hh | hh | hh | ⟨d, h1, h2, -, h4⟩
    · exact absurd hh hf
    · exact Or.inl hh
    · exact Or.inr (Or.inl hh)
    · exact Or.inr (Or.inr (Or.inl hh))
    · exact Or.inr (Or.inr (Or.inr ⟨d, h1, h2, h4⟩))
  · intro hr
    by_cases hl : n ∈ w.g.log
    · exact hl
    · exfalso
      have c := R.up hu hl
      rcases hr with hh | hh | hh | ⟨d, h1, h2, h3⟩
      · rw [c.always] at hh; cases hh
      · exact c.stamp hh
      · rcases hh.2 with h0 | h0
        · exact (c.file hh.1).1 h0
        · exact h0 (c.file hh.1).2
      · exact (c.deps d h1 h2).2 h3

/-- C11. The reason is present whenever a node has been handed to the job queue, also if the build is
still running, failed or was aborted. -/
theorem C11_queued_has_reason {K : Kinds} {db : G} {fs : Disk} {fuel : Nat} {ts : List Nat}
    {evs : List IEv} {w : World} (h : irun K fuel ts ⟨load db, fs⟩ evs = some w) {n : Nat}
    (hn : K.source n = false) (hl : n ∈ w.g.log) : Reason K db fs w.g n ∨ Forced evs n := by
  rcases ((rb_build h).1.node n hn).log hl with hh | hh | hh | hh | ⟨d, h1, h2, -, h4⟩
  · exact Or.inr hh
  · exact Or.inl (Or.inl hh)
  · exact Or.inl (Or.inr (Or.inl hh))
  · exact Or.inl (Or.inr (Or.inr (Or.inl hh)))
  · exact Or.inl (Or.inr (Or.inr (Or.inr ⟨d, h1, h2, h4⟩)))

/-- C11. Changes of weak dependencies alone never cause a rebuild: if the output is as recorded and
every dependency that changed is weak, the node is not built. -/
theorem C11_weak_change_no_rebuild {K : Kinds} {db : G} {fs : Disk} {fuel : Nat} {ts : List Nat}
    {evs : List IEv} {w : World} (h : irun K fuel ts ⟨load db, fs⟩ evs = some w) {n : Nat}
    (hn : K.always n = false) (hf : ¬ Forced evs n) (h0 : (db.node n).stamp ≠ 0)
    (hd : K.isFile n = true → fs n = (db.node n).stamp)
    (hw : ∀ d ∈ (db.node n).static ++ (db.node n).dyn, Changed w.g d → d.weak = true) :
    n ∉ w.g.log := by
  have hs : K.source n = false := by
    cases hs : K.source n with
    | false => rfl
    | true => rw [K.source_always n hs] at hn; cases hn
  intro hl
  rcases C11_queued_has_reason h hs hl with (hh | hh | hh | ⟨d, h1, h2, h3⟩) | hh
  · rw [hn] at hh; cases hh
  · exact h0 hh
  · have e := hd hh.1
    rcases hh.2 with h1 | h1
    · exact h0 (e ▸ h1)
    · exact h1 e
  · rw [hw d h1 h3] at h2; cases h2
  · exact hf hh

/-- a change of the header (dynamic dependency) is a reason; a change of the weak dependency is not -/
example : irun exK 5 [0] ⟨load exW1.g, exFs 5 8 7 11⟩ (exRebuild 13) = some exW2 ∧
    0 ∈ exW2.g.log ∧ Reason exK exW1.g (exFs 5 8 7 11) exW2.g 0 :=
  ⟨rfl, by decide, Or.inr (Or.inr (Or.inr ⟨⟨2, 6, false⟩, by decide, rfl, Or.inr (by decide)⟩))⟩

def exWeak : World := after exW1.g (exFs 5 6 9 11) exLater

example : irun exK 5 [0] ⟨load exW1.g, exFs 5 6 9 11⟩ exLater = some exWeak ∧
    (exWeak.g.node 0).st = .upToDate ∧ exWeak.g.proxy = .upToDate ∧
    (∀ d ∈ (exW1.g.node 0).static ++ (exW1.g.node 0).dyn, Changed exWeak.g d → d.weak = true) ∧
    (∃ d ∈ (exW1.g.node 0).static, Changed exWeak.g d) ∧ ¬ Forced exLater 0 := by
  have e : (exW1.g.node 0).static ++ (exW1.g.node 0).dyn = [⟨1, 5, false⟩, ⟨3, 7, true⟩, ⟨2, 6, false⟩] := rfl
  refine ⟨rfl, rfl, rfl, ?_, ⟨⟨3, 7, true⟩, by decide, Or.inr (by decide)⟩, ?_⟩
  · rw [e]
    intro d hd hc
    simp only [List.mem_cons, List.not_mem_nil, or_false] at hd
    rcases hd with rfl | rfl | rfl
    · rcases hc with hc | hc <;> revert hc <;> decide
    · rfl
    · rcases hc with hc | hc <;> revert hc <;> decide
  · rintro ⟨i, hi, h⟩
    simp only [exLater, List.mem_cons, List.not_mem_nil, or_false, reduceCtorEq, false_or] at hi
    simp only [IEv.sweep.injEq, or_self] at hi
    subst hi
    rcases h with h | ⟨g, h⟩ <;> simp [exIn] at h

/-! ### C10 -/

/-- builds do not write inputs -/
theorem source_disk {K : Kinds} {fuel : Nat} {ts : List Nat} (evs : List IEv) : ∀ {w w' : World},
    irun K fuel ts w evs = some w' → ∀ r, K.source r = true → w'.fs r = w.fs r := by
  induction evs with
  | nil => intro w w' h r _; simp only [irun, Option.some.injEq] at h; rw [h]
  | cons ev evs ih =>
    intro w w' h r hr
    simp only [irun] at h
    split at h
    · cases h
    · rename_i w1 hs
      rw [ih h r hr]
      cases ev with
      | sweep i =>
        simp only [istep, Option.map_eq_some_iff] at hs
        obtain ⟨g', -, rfl⟩ := hs; rfl
      | write n s =>
        simp only [istep] at hs
        split at hs
        · rename_i hc
          cases hs
          have : r ≠ n := by rintro rfl; rw [hc.2.2] at hr; cases hr
          simp [this]
        · cases hs
      | finish n o =>
        simp only [istep] at hs
        split at hs
        · cases hs; rfl
        · cases hs

/-- The argument for C10, for a second build that starts from any database with the records of the first build on
a set `X` of nodes closed under dependencies. -/
theorem null_build_on {K : Kinds} {S : Sem C} {ts ts2 : List Nat} {db db2 : G} {fs : Disk}
    {w w2 : World} (h : History K S db fs) (b : Builds S K ts db fs w) {fuel : Nat} {evs : List IEv}
    (h2 : irun K fuel ts2 ⟨load db2, w.fs⟩ evs = some w2) {X : Nat → Prop}
    (hX : ∀ x, X x → K.source x = false → Same w.g db2 x ∧
      ∀ d ∈ (w.g.node x).static ++ (w.g.node x).dyn, X d.node)
    (hex : ∀ n, (w.g.node n).st = .upToDate → ver K w.fs w.g n ≠ 0 ∧ (K.source n = false →
      ∀ d ∈ (w.g.node n).static ++ (w.g.node n).dyn, d.weak = false → ver K w.fs w.g d.node ≠ 0))
    (hsame : ∀ n, K.always n = true → ¬ (K.source n = true ∧ K.isFile n = true) →
      (w.g.node n).st = .upToDate → (w2.g.node n).st = .upToDate →
      (w2.g.node n).stamp = (w.g.node n).stamp)
    {n : Nat} (hn : X n) (hu : (w.g.node n).st = .upToDate) (hf : ∀ m, ¬ Forced evs m)
    (ha : K.always n = false) :
    n ∉ w2.g.log ∧ ((w2.g.node n).st = .upToDate → Same w.g w2.g n) := by
  obtain ⟨-, -, P⟩ := builds_ok (history_ok h) b
  have R := (rb_build h2).1
  have nsrc : ∀ x, K.always x = false → K.source x = false := by
    intro x hx
    cases hs : K.source x with
    | false => rfl
    | true => rw [K.source_always x hs] at hx; cases hx
  have acc := P.acc n hu
  induction acc with
  | intro x _ ih =>
    have hx := nsrc x ha
    obtain ⟨⟨s1, s2, s3⟩, hcl⟩ := hX x hn hx
    have hl : x ∉ w2.g.log := by
      intro hl
      rcases (R.node x hx).log hl with hh | hh | hh | hh | ⟨d, d1, d2, d3, d4⟩
      · exact hf x hh
      · rw [ha] at hh; cases hh
      · have := (hex x hu).1
        rw [(P.up x).ver_eq hu] at this; exact this (s1 ▸ hh)
      · have := (hex x hu).1
        rw [(P.up x).ver_eq hu] at this
        have e := (P.up x hu).disk hh.1
        rcases hh.2 with h0 | h0
        · exact this (e ▸ h0)
        · exact h0 (e.trans s1.symm)
      · rw [s2, s3] at d1
        have hv := (hex x hu).2 hx d d1 d2
        have hr := (P.up x hu).recd hx d d1 d2
        have hset := (P.up x hu).deps hx d.node (List.mem_map_of_mem d1)
        have key : (w2.g.node d.node).stamp = ver K w.fs w.g d.node := by
          by_cases hsf : K.source d.node = true ∧ K.isFile d.node = true
          · rw [← R.srcUp _ hsf.2 d3, source_disk evs h2 _ hsf.1]
            simp [ver, hsf.2]
          · have hup := hset.resolve_right hsf
            rw [(P.up _).ver_eq hup]
            cases hda : K.always d.node with
            | true => exact hsame _ hda hsf hup d3
            | false =>
              have := ih d.node ⟨hx, List.mem_map_of_mem d1⟩ (hcl d d1) hup hda
              exact (this.2 d3).1
        rcases d4 with d4 | d4
        · exact hv (key ▸ d4)
        · exact d4 (key.trans hr.symm)
    refine ⟨hl, fun hu2 => ?_⟩
    obtain ⟨t1, t2, t3⟩ := ((R.node x hx).up hu2 hl).same
    exact ⟨t1.trans s1, t2.trans s2, t3.trans s3⟩

/-- C10. Null build: after a build (from any history), if no file changes, no node that the build
brought up to date is built by the next build, of whatever targets, unless it is flagged as always
needing to be built or a rebuild is forced (`-clean`); and its record is left as it was.
Hypotheses: the dependencies exist (a missing input file is a reason to rebuild), and always-built
nodes other than input files come out the same. -/
theorem C10_null_build {K : Kinds} {S : Sem C} {ts ts2 : List Nat} {db : G} {fs : Disk}
    {w w2 : World} (h : History K S db fs) (b : Builds S K ts db fs w) {fuel : Nat} {evs : List IEv}
    (h2 : irun K fuel ts2 ⟨load w.g, w.fs⟩ evs = some w2)
    (hex : ∀ n, (w.g.node n).st = .upToDate → ver K w.fs w.g n ≠ 0 ∧ (K.source n = false →
      ∀ d ∈ (w.g.node n).static ++ (w.g.node n).dyn, d.weak = false → ver K w.fs w.g d.node ≠ 0))
    (hsame : ∀ n, K.always n = true → ¬ (K.source n = true ∧ K.isFile n = true) →
      (w.g.node n).st = .upToDate → (w2.g.node n).st = .upToDate →
      (w2.g.node n).stamp = (w.g.node n).stamp)
    {n : Nat} (hu : (w.g.node n).st = .upToDate) (hf : ∀ m, ¬ Forced evs m)
    (ha : K.always n = false) :
    n ∉ w2.g.log ∧ ((w2.g.node n).st = .upToDate → Same w.g w2.g n) := by
  exact null_build_on h b h2 (X := fun _ => True) (fun _ _ _ => ⟨⟨rfl, rfl, rfl⟩, fun _ _ => trivial⟩) hex hsame
    trivial hu hf ha

/-- after the first build of the example, a second build looks at the inputs and compiles nothing -/
def exNull : World := after exW1.g exW1.fs exLater

example : irun exK 5 [0] ⟨load exW1.g, exW1.fs⟩ exLater = some exNull ∧ exNull.g.proxy = .upToDate ∧
    exNull.g.log = [2, 3, 1] ∧ (exW1.g.node 0).st = .upToDate ∧ ver exK exW1.fs exW1.g 0 ≠ 0 :=
  ⟨rfl, rfl, rfl, rfl, by decide⟩

/-! ### C12 -/

/-- C12 (partial: without `Finalize` failures, see `C12_finalize_failure_forgotten`). Interruption: take any point of a build in which no `Finalize` failed (the build is stopped
there, or goes on to fail), and let the database be saved. A non-input node that had been found to need
building (it was handed to the queue, or its record was reset) but was not successfully built is built
by the next build before being considered up to date, whatever was done to the files, as long as its
dependencies have the versions they had. -/
theorem C12_unfinished_rebuilt_partial {K : Kinds} {db : G} {fs fs' : Disk} {fuel fuel' : Nat}
    {ts ts' : List Nat} {evs evs' : List IEv} {w w2 : World}
    (h : irun K fuel ts ⟨load db, fs⟩ evs = some w) (hN : NoFinalizeFailure evs) {n : Nat}
    (hn : K.source n = false) (hneed : n ∈ w.g.log ∨ (w.g.node n).stamp = 0)
    (hnot : (w.g.node n).st ≠ .upToDate)
    (h2 : irun K fuel' ts' ⟨load w.g, fs'⟩ evs' = some w2)
    (hsame : ∀ d, (w.g.node d).st = .upToDate → (w2.g.node d).st = .upToDate →
      (w2.g.node d).stamp = (w.g.node d).stamp)
    (hu2 : (w2.g.node n).st = .upToDate) : n ∈ w2.g.log := by
  by_cases hl : n ∈ w2.g.log
  · exact hl
  · exfalso
    have i0 := init_inv (load_init db) ts
    have B := pb_run evs hN i0.1 i0.2 pb_load h
    have c := ((rb_build h2).1.node n hn).up hu2 hl
    have hneeds : Needs w.g n := hneed.elim (fun hh => B.need n hn hh hnot) Or.inl
    rcases hneeds with h0 | ⟨d, d1, d2, d3, d4⟩
    · exact c.stamp h0
    · obtain ⟨u2, nc⟩ := c.deps d d1 d2
      apply nc
      unfold Changed at d4 ⊢
      rw [hsame _ d3 u2]; exact d4

/-- C12. The same if the process is killed, so that the database of the earlier build remains: the
node is built again, provided the interrupted job did not leave an output file carrying the version of
the earlier output. -/
theorem C12_killed_rebuilt {K : Kinds} {db : G} {fs : Disk} {fuel fuel' : Nat}
    {ts ts' : List Nat} {evs evs' : List IEv} {w w2 : World}
    (h : irun K fuel ts ⟨load db, fs⟩ evs = some w) {n : Nat}
    (hn : K.source n = false) (hneed : n ∈ w.g.log) (hX : ¬ Forced evs n)
    (h2 : irun K fuel' ts' ⟨load db, w.fs⟩ evs' = some w2)
    (hout : w.fs n = fs n ∨ w.fs n ≠ (db.node n).stamp)
    (hsame : ∀ d, (w.g.node d).st = .upToDate → (w2.g.node d).st = .upToDate →
      (w2.g.node d).stamp = (w.g.node d).stamp)
    (hu2 : (w2.g.node n).st = .upToDate) : n ∈ w2.g.log := by
  by_cases hl : n ∈ w2.g.log
  · exact hl
  · exfalso
    have c := ((rb_build h2).1.node n hn).up hu2 hl
    rcases ((rb_build h).1.node n hn).log hneed with hh | hh | hh | hh | ⟨d, d1, d2, d3, d4⟩
    · exact hX hh
    · rw [c.always] at hh; cases hh
    · exact c.stamp hh
    · obtain ⟨f1, f2⟩ := c.file hh.1
      rcases hout with ho | ho
      · rw [ho] at f1 f2
        rcases hh.2 with h0 | h0
        · exact f1 h0
        · exact h0 f2
      · exact ho f2
    · obtain ⟨u2, nc⟩ := c.deps d d1 d2
      apply nc
      unfold Changed at d4 ⊢
      rw [hsame _ d3 u2]; exact d4

/-- C12 (partial, as C09). Correctness does not depend on how the previous builds ended: stop a build at any point, keep
or lose its database, change any files, and build again. If that build reports success, every target
has the content that a build from scratch gives. -/
theorem C12_interruption_safe_partial {K : Kinds} {S : Sem C} {ts0 ts : List Nat} {db db1 db' : G}
    {fs fs1 fs' : Disk} {w0 w w' : World} (h : History K S db fs) (b0 : Builds S K ts0 db fs w0)
    (hdb : db1 = w0.g ∨ db1 = db ∨ Fresh db1) (b : Builds S K ts db1 fs1 w)
    (hs : w.g.proxy = .upToDate) (h' : Fresh db') (b' : Builds S K ts db' fs' w')
    (hs' : w'.g.proxy = .upToDate)
    (hin : ∀ r, K.source r = true → view S K w.fs w.g r = view S K w'.fs w'.g r) {t : Nat}
    (ht : t ∈ ts) : view S K w.fs w.g t = view S K w'.fs w'.g t := by
  have hh : History K S db1 fs1 := by
    rcases hdb with rfl | rfl | hf
    · exact .edited (.built h b0)
    · exact .edited (.killed h b0)
    · exact .fresh hf
  exact C09_targets_equal_clean_partial hh b hs h' b' hs' hin ht

/-- the build is stopped while 0 is being compiled again; it was queued because the header changed -/
def exStop : World := after exW1.g (exFs 5 8 7 11) exLater

example : irun exK 5 [0] ⟨load exW1.g, exFs 5 8 7 11⟩ exLater = some exStop ∧ NoFinalizeFailure exLater ∧
    0 ∈ exStop.g.log ∧ (exStop.g.node 0).st = .building ∧ (exStop.g.node 0).stamp = 11 ∧
    irun exK 5 [0] ⟨load exStop.g, exStop.fs⟩ (exRebuild 13) =
      some (after exStop.g exStop.fs (exRebuild 13)) ∧
    ((after exStop.g exStop.fs (exRebuild 13)).g.node 0).st = .upToDate ∧
    ((after exStop.g exStop.fs (exRebuild 13)).g.node 2).stamp = (exStop.g.node 2).stamp :=
  ⟨rfl, by intro n pd; simp [exLater], by decide, rfl, rfl, rfl, rfl, rfl⟩

/-- Finding: `NoFinalizeFailure` is needed. `ObjectNode::Finalize` (Graph/ObjectNode.cpp:237-272)
records the new stamp and clears the dynamic dependencies before it can fail (an included name that
belongs to a node that is not a file). If the recompilation had been caused by a dynamic dependency, the
static stamps still match; the next build then takes the node to be up to date: the failure is
forgotten, and so are the headers. -/
theorem C12_finalize_failure_forgotten :
    ∃ (w w2 : World) (evs evs' : List IEv),
      irun exK 5 [0] ⟨load exW1.g, exFs 5 8 7 11⟩ evs = some w ∧
      0 ∈ w.g.log ∧ (w.g.node 0).st = .failed ∧
      irun exK 5 [0] ⟨load w.g, w.fs⟩ evs' = some w2 ∧
      (∀ d, (w.g.node d).st = .upToDate → (w2.g.node d).st = .upToDate →
        (w2.g.node d).stamp = (w.g.node d).stamp) ∧
      w2.g.proxy = .upToDate ∧ (w2.g.node 0).st = .upToDate ∧ 0 ∉ w2.g.log ∧
      (w2.g.node 0).dyn = [] := by
  refine ⟨after exW1.g (exFs 5 8 7 11) (exLater ++ [.write 0 13, .finish 0 (.finalizeFailed (some []))]),
    after (after exW1.g (exFs 5 8 7 11)
      (exLater ++ [.write 0 13, .finish 0 (.finalizeFailed (some []))])).g (exFs 5 8 7 13)
      [.sweep exIn, .finish 1 (.ok 0 none), .finish 3 (.ok 0 none), .sweep exIn],
    exLater ++ [.write 0 13, .finish 0 (.finalizeFailed (some []))],
    [.sweep exIn, .finish 1 (.ok 0 none), .finish 3 (.ok 0 none), .sweep exIn],
    rfl, by decide, rfl, ?_, ?_, rfl, rfl, by decide, rfl⟩
  · have : (after exW1.g (exFs 5 8 7 11)
      (exLater ++ [.write 0 13, .finish 0 (.finalizeFailed (some []))])).fs = exFs 5 8 7 13 := by
      have e : (after exW1.g (exFs 5 8 7 11)
        (exLater ++ [.write 0 13, .finish 0 (.finalizeFailed (some []))])).fs =
          fun x => if x = 0 then 13 else exFs 5 8 7 11 x := rfl
      rw [e]; funext x; simp only [exFs]; split <;> rfl
    rw [this]; rfl
  · intro d h1 h2
    by_cases h : d < 4
    · rcases d with _ | _ | _ | _ | d
      · cases h1
      · rfl
      · rfl
      · rfl
      · omega
    · exfalso
      rcases d with _ | _ | _ | _ | d
      all_goals first | omega | skip
      cases h1

/-- Finding: consequence of the forgotten failure for C09. After the build in which `Finalize` failed,
the header is edited again (to 9); the next build reports success without compiling, and the output is
still 13 where a build from scratch would give 5 + 9 = 14. -/
theorem C09_finalize_failure_stale :
    ∃ (w w2 : World) (evs evs' : List IEv),
      irun exK 5 [0] ⟨load exW1.g, exFs 5 8 7 11⟩ evs = some w ∧
      irun exK 5 [0] ⟨load w.g, exFs 5 9 7 13⟩ evs' = some w2 ∧
      w2.g.proxy = .upToDate ∧ view exS exK w2.fs w2.g 0 = 13 ∧
      (exS.tool 0 (view exS exK w2.fs w2.g)).1 = 14 ∧ ¬ Consistent exS exK w2 0 := by
  refine ⟨_, _, exLater ++ [.write 0 13, .finish 0 (.finalizeFailed (some []))],
    [.sweep exIn, .finish 1 (.ok 0 none), .finish 3 (.ok 0 none), .sweep exIn],
    rfl, rfl, rfl, rfl, rfl, ?_⟩
  unfold Consistent
  decide

end Verif.Incr
