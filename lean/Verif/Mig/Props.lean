import Verif.Mig.Same
import Verif.Mig.Term
import Verif.Incr.Props
/-! C61: what survives a change of the build files. C62: an equivalent build file costs nothing. -/
namespace Verif.Mig
open Verif.Sched Verif.Incr

variable {schema : Nat → Schema} {init : Init} {O : NG}

/-! ### An example

Key 1 is a compiler, 2 an object list, 3 an object found while building, 4 its source file,
5 a header, 6 a second object list with changed options, 7 its old object. Types: 0 file, 1 compiler,
2 object list, 3 object. -/

/-- Classes of the example: a compiler with a path and a (never compared) manifest; an object list with
options and a compiler; an object with its owner and a cache key (never compared). -/
def exSchema : Nat → Schema
  | 1 => .cons false .str (.cons true .num .nil)
  | 2 => .cons false .strs (.cons false .ref .nil)
  | 3 => .cons false .ref (.cons true .num .nil)
  | _ => .nil

def nm (k : Nat) : Name := ⟨k, 0⟩

/-- Objects depend on the compiler and their source. -/
def exInit : Init := fun _ nd =>
  if nd.type = 3 then ([], [(nm 1, false), (nm (if nd.name.key = 3 then 4 else 8), false)]) else ([], [])

def exOld : NG where
  node
    | 1 => some { name := nm 1, type := 1, stamp := 100, props := .cons false (.str "cl") (.cons true (.num 77) .nil) }
    | 2 => some { name := nm 2, type := 2, stamp := 200, static := [{ node := 1, stamp := 100 }], dyn := [{ node := 3, stamp := 300 }],
                  props := .cons false (.strs ["-O2"]) (.cons false (.ref (some (nm 1))) .nil) }
    | 3 => some { name := nm 3, type := 3, stamp := 300, static := [{ node := 1, stamp := 100 }, { node := 4, stamp := 40 }],
                  dyn := [{ node := 5, stamp := 50 }], props := .cons false (.ref (some (nm 2))) (.cons true (.num 9) .nil) }
    | 4 => some { name := nm 4, type := 0 }
    | 5 => some { name := nm 5, type := 0 }
    | 6 => some { name := nm 6, type := 2, stamp := 600, static := [{ node := 1, stamp := 100 }], dyn := [{ node := 7, stamp := 700 }],
                  props := .cons false (.strs ["-O2"]) (.cons false (.ref (some (nm 1))) .nil) }
    | 7 => some { name := nm 7, type := 3, stamp := 700, static := [{ node := 1, stamp := 100 }, { node := 8, stamp := 80 }],
                  props := .cons false (.ref (some (nm 6))) (.cons true (.num 0) .nil) }
    | 8 => some { name := nm 8, type := 0 }
    | _ => none
  all := [1, 2, 3, 4, 5, 6, 7, 8]

/-- The new build file: the options of the second list are changed. -/
def exNew : NG where
  node
    | 1 => some { name := nm 1, type := 1, props := .cons false (.str "cl") (.cons true (.num 0) .nil) }
    | 2 => some { name := nm 2, type := 2, static := [{ node := 1 }],
                  props := .cons false (.strs ["-O2"]) (.cons false (.ref (some (nm 1))) .nil) }
    | 6 => some { name := nm 6, type := 2, static := [{ node := 1 }],
                  props := .cons false (.strs ["-O0"]) (.cons false (.ref (some (nm 1))) .nil) }
    | _ => none
  all := [1, 2, 6]

def Res.get {α : Type} (d : α) : Res α → α
  | .ok a => a
  | _ => d

def exG : NG := (migrate exInit exOld 9 exNew).get exNew

theorem exMigrate : migrate exInit exOld 9 exNew = .ok exG := rfl

theorem exLoaded : Loaded exSchema exOld where
  key n nd h := by
    simp only [exOld] at h
    split at h <;> first | (cases h; rfl) | cases h
  conf n nd h := by
    simp only [exOld] at h
    split at h <;> first | (cases h; rfl) | cases h

theorem exParsed : Parsed exSchema exNew where
  key n nd h := by
    simp only [exNew] at h
    split at h <;> first | (cases h; rfl) | cases h
  conf n nd h := by
    simp only [exNew] at h
    split at h <;> first | (cases h; rfl) | cases h
  clean n nd h := by
    simp only [exNew] at h
    split at h <;> first | (cases h; exact ⟨rfl, rfl, rfl⟩) | cases h

/-- C61. Migration is sound: whatever the old database and the new build files are, a node that keeps its
state ("built, with this version") has a counterpart in the old database with the same class, the same
compared properties, the same pre-build and static dependencies by exact name, class and state, and it
keeps exactly the recorded versions and discovered dependencies of that counterpart. -/
theorem C61_sound {f : Nat} {g g' : NG} (L : Loaded schema O) (hs : schema fileType = .nil)
    (P : Parsed schema g) (h : migrate init O f g = .ok g') {n : Nat} {nd : MNode}
    (hn : g'.node n = some nd) (hst : nd.stamp ≠ 0) :
    ∃ o, O.node n = some o ∧ Carried O g' o nd :=
  (migrateList_inv L hs _ h P.inv).1.ok n nd hn hst

example : Loaded exSchema exOld ∧ exSchema fileType = .nil ∧ Parsed exSchema exNew ∧
    migrate exInit exOld 9 exNew = .ok exG ∧ (exG.node 3).map (·.stamp) = some 300 ∧
    (exG.node 2).map (·.stamp) = some 200 ∧ (exG.node 6).map (·.stamp) = some 0 ∧
    (exG.node 7).isNone = true :=
  ⟨exLoaded, rfl, exParsed, exMigrate, rfl, rfl, rfl, rfl⟩

/-- C61. Migration does not touch what the new build files say: every parsed node is still there with its
name, class, compared properties and dependencies. -/
theorem C61_rules_kept {f : Nat} {g g' : NG} (L : Loaded schema O) (hs : schema fileType = .nil)
    (P : Parsed schema g) (h : migrate init O f g = .ok g') {n : Nat} {nd : MNode}
    (hn : g.node n = some nd) : ∃ nd', g'.node n = some nd' ∧ SameRule nd nd' := by
  obtain ⟨nd', h1, h2⟩ := (migrateList_inv L hs _ h P.inv).2 n nd hn
  exact ⟨nd', h1, h2.toSameRule⟩

/-- C61. A change cascades: if a pre-build or static dependency of a node does not have the state it had in
the old database (because it is new, or has changed itself), then the node has to be rebuilt. -/
theorem C61_cascades {f : Nat} {g g' : NG} (L : Loaded schema O) (hs : schema fileType = .nil)
    (P : Parsed schema g) (h : migrate init O f g = .ok g') {n : Nat} {nd : MNode}
    (hn : g'.node n = some nd) {d : Dep} (hd : d ∈ nd.pre ∨ d ∈ nd.static)
    (hc : ∀ x y, g'.node d.node = some x → O.node d.node = some y → x.stamp ≠ y.stamp) :
    nd.stamp = 0 := by
  by_cases hst : nd.stamp = 0
  · exact hst
  · exfalso
    obtain ⟨o, -, c⟩ := C61_sound L hs P h hn hst
    have kg := (migrateList_inv L hs _ h (P.inv (O := O))).1.key
    have key : ∀ (l a : List Dep), sig g' l = sig O a → none ∉ sig O a → d ∈ l → False := by
      intro l
      induction l with
      | nil => intro a _ _ hm; cases hm
      | cons b l ih =>
        intro a e hno hm
        cases a with
        | nil => simp [sig] at e
        | cons c a =>
          simp only [sig, List.map_cons, List.cons.injEq, List.mem_cons, not_or] at e hno
          rcases List.mem_cons.mp hm with rfl | hm
          · cases hx : O.node c.node with
            | none => simp [hx] at hno
            | some x =>
              cases hy : g'.node d.node with
              | none => simp [hx, hy] at e
              | some y =>
                simp only [hx, hy, Option.map_some, Option.some.injEq, Prod.mk.injEq] at e
                have ek : d.node = c.node := by rw [← L.key _ _ hx, ← kg _ _ hy, e.1.1]
                exact hc y x hy (by rw [ek]; exact hx) e.1.2.2
          · exact ih a e.2 hno.2 hm
    rcases hd with hd | hd
    · exact key _ _ c.pre c.some_pre hd
    · exact key _ _ c.static c.some_static hd

/-- with another compiler path everything is rebuilt -/
def exNew2 : NG := exNew.set 1 { name := nm 1, type := 1, props := .cons false (.str "gcc") (.cons true (.num 0) .nil) }

example : ((migrate exInit exOld 9 exNew2).get exNew2).node 1 |>.map (·.stamp) |>.isEqSome 0 := by decide
example : ((migrate exInit exOld 9 exNew2).get exNew2).node 2 |>.map (·.stamp) |>.isEqSome 0 := by decide

/-! ### Connection with the history of a workspace (C09) -/

/-- The graph as the scheduler sees it. -/
def toG (g : NG) : G where
  node k := match g.node k with
    | some nd => { stamp := nd.stamp, pre := nd.pre, static := nd.static, dyn := nd.dyn }
    | none => {}
  tag := 0
  proxy := .notProcessed
  log := []
  used := fun _ => []

/-- The rule of a node as the build files state it: class, compared properties, and the dependencies by
name and class. -/
structure SameDesc (O g : NG) (o nd : MNode) : Prop where
  type : nd.type = o.type
  props : erase nd.props = erase o.props
  pre : (nd.pre.map fun d => (g.node d.node).map fun x => (x.name, x.type)) =
    o.pre.map fun d => (O.node d.node).map fun x => (x.name, x.type)
  static : (nd.static.map fun d => (g.node d.node).map fun x => (x.name, x.type)) =
    o.static.map fun d => (O.node d.node).map fun x => (x.name, x.type)

theorem sig_desc {g : NG} {l a : List Dep} (h : sig g l = sig O a) :
    (l.map fun d => (g.node d.node).map fun x => (x.name, x.type)) =
    a.map fun d => (O.node d.node).map fun x => (x.name, x.type) := by
  have e : ∀ (X : NG) (k : List Dep), (k.map fun d => (X.node d.node).map fun x => (x.name, x.type)) =
      (sig X k).map (fun o => o.map fun p => (p.1, p.2.1)) := by
    intro X k; simp [sig, Function.comp_def]
  rw [e, e, h]

theorem Carried.desc {g : NG} {o nd : MNode} (c : Carried O g o nd) : SameDesc O g o nd where
  type := c.type
  props := c.props
  pre := sig_desc c.pre
  static := sig_desc c.static

theorem static_eq {g : NG} (kO : ∀ n nd, O.node n = some nd → nd.name.key = n)
    (kg : ∀ n nd, g.node n = some nd → nd.name.key = n) : ∀ (l a : List Dep), sig g l = sig O a →
    none ∉ sig O a → l.map (·.stamp) = a.map (·.stamp) → l.map (·.weak) = a.map (·.weak) → l = a
  | [], [], _, _, _, _ => rfl
  | [], _ :: _, e, _, _, _ => by simp [sig] at e
  | _ :: _, [], e, _, _, _ => by simp [sig] at e
  | d :: l, b :: a, e, hn, hs, hw => by
    simp only [sig, List.map_cons, List.cons.injEq, List.mem_cons, not_or] at e hn hs hw
    rw [static_eq kO kg l a e.2 hn.2 hs.2 hw.2]
    congr 1
    cases hx : O.node b.node with
    | none => simp [hx] at hn
    | some x =>
      cases hy : g.node d.node with
      | none => simp [hx, hy] at e
      | some y =>
        simp only [hx, hy, Option.map_some, Option.some.injEq, Prod.mk.injEq] at e
        have : d.node = b.node := by rw [← kO _ _ hx, ← kg _ _ hy, e.1.1]
        cases d; cases b; simp_all

variable {C : Type}

/-- C61. Migration is a legitimate step in the history of a workspace, as C09, C10 and C12 assume it: the old
database belongs to a history of the old rules; the work of a node depends on the build files only
through its description; whether a class is an input class is a matter of the class; and the weak flags
are determined by the description (LinkerNode.cpp:1581-1586: by the class of the dependency). -/
theorem C61_history {f : Nat} {g g' : NG} {K K' : Kinds} {S S' : Sem C} {fs : Disk} {isSource : Nat → Bool}
    (L : Loaded schema O) (hs : schema fileType = .nil) (P : Parsed schema g)
    (h : migrate init O f g = .ok g')
    (hK : ∀ n o, O.node n = some o → K.source n = isSource o.type)
    (hK' : ∀ n nd, g'.node n = some nd → K'.source n = isSource nd.type)
    (hc : S'.content = S.content)
    (hprog : ∀ n o nd, O.node n = some o → g'.node n = some nd → SameDesc O g' o nd → S'.prog n = S.prog n)
    (hweak : ∀ n o nd, O.node n = some o → g'.node n = some nd → SameDesc O g' o nd →
      nd.static.map (·.weak) = o.static.map (·.weak))
    (hist : History K S (toG O) fs) : History K' S' (toG g') fs := by
  refine .reparsed hist hc ?_
  intro n
  cases hn : g'.node n with
  | none => left; intro _; simp [toG, hn]
  | some nd =>
    by_cases hst : nd.stamp = 0
    · left; intro _; simp [toG, hn, hst]
    · right
      obtain ⟨o, ho, c⟩ := C61_sound L hs P h hn hst
      have kg := (migrateList_inv L hs _ h (P.inv (O := O))).1.key
      refine ⟨?_, hprog n o nd ho hn c.desc, ?_, ?_, ?_⟩
      · rw [hK' n nd hn, hK n o ho, c.type]
      · simp [toG, hn, ho, c.stamp]
      · simp only [toG, hn, ho]
        exact static_eq L.key kg _ _ c.static c.some_static c.recorded (hweak n o nd ho hn c.desc)
      · simp [toG, hn, ho, c.dyn]

/-- C61 with C09: after a change of the build files, a successful build that starts from the migrated
database leaves in every target what a build from scratch leaves there. (Partial as C09: `Finalize` does
not fail.) -/
theorem C61_equals_clean_partial {f : Nat} {g g' : NG} {K K' : Kinds} {S S' : Sem C} {fs fs' : Disk}
    {isSource : Nat → Bool} {ts : List Nat} {db' : G} {w w' : World}
    (L : Loaded schema O) (hs : schema fileType = .nil) (P : Parsed schema g)
    (h : migrate init O f g = .ok g')
    (hK : ∀ n o, O.node n = some o → K.source n = isSource o.type)
    (hK' : ∀ n nd, g'.node n = some nd → K'.source n = isSource nd.type)
    (hc : S'.content = S.content)
    (hprog : ∀ n o nd, O.node n = some o → g'.node n = some nd → SameDesc O g' o nd → S'.prog n = S.prog n)
    (hweak : ∀ n o nd, O.node n = some o → g'.node n = some nd → SameDesc O g' o nd →
      nd.static.map (·.weak) = o.static.map (·.weak))
    (hist : History K S (toG O) fs)
    (b : Builds S' K' ts (toG g') fs w) (hok : w.g.proxy = .upToDate)
    (hf : Fresh db') (b' : Builds S' K' ts db' fs' w') (hok' : w'.g.proxy = .upToDate)
    (hin : ∀ r, K'.source r = true → view S' K' w.fs w.g r = view S' K' w'.fs w'.g r)
    {t : Nat} (ht : t ∈ ts) : view S' K' w.fs w.g t = view S' K' w'.fs w'.g t :=
  C09_targets_equal_clean_partial (C61_history L hs P h hK hK' hc hprog hweak hist) b hok hf b' hok' hin ht

/-! ### An example of a history

The workspace of the example of C09 (`exW1`): node 0 is built from 1 and 2, weakly depends on 3. -/

def exHOld : NG where
  node
    | 0 => some { name := nm 0, type := 4, stamp := 11, static := [{ node := 1, stamp := 5 }, { node := 3, stamp := 7, weak := true }],
                  dyn := [{ node := 2, stamp := 6 }] }
    | 1 => some { name := nm 1, type := 0 }
    | 2 => some { name := nm 2, type := 0 }
    | 3 => some { name := nm 3, type := 0 }
    | _ => none
  all := [0, 1, 2, 3]

def exHNew : NG where
  node
    | 0 => some { name := nm 0, type := 4, static := [{ node := 1 }, { node := 3, weak := true }] }
    | 1 => some { name := nm 1, type := 0 }
    | 3 => some { name := nm 3, type := 0 }
    | _ => none
  all := [1, 3, 0]

def exHInit : Init := fun _ _ => ([], [])

def exHG : NG := (migrate exHInit exHOld 9 exHNew).get exHNew

theorem exHMigrate : migrate exHInit exHOld 9 exHNew = .ok exHG := rfl

theorem exHLoaded : Loaded (fun _ => .nil) exHOld where
  key n nd h := by
    simp only [exHOld] at h
    split at h <;> first | (cases h; rfl) | cases h
  conf n nd h := by
    simp only [exHOld] at h
    split at h <;> first | (cases h; rfl) | cases h

theorem exHParsed : Parsed (fun _ => .nil) exHNew where
  key n nd h := by
    simp only [exHNew] at h
    split at h <;> first | (cases h; rfl) | cases h
  conf n nd h := by
    simp only [exHNew] at h
    split at h <;> first | (cases h; rfl) | cases h
  clean n nd h := by
    simp only [exHNew] at h
    split at h <;> first | (cases h; exact ⟨rfl, rfl, rfl⟩) | cases h

/-- the database written after the first build of the example -/
theorem exHHist : History exK exS (toG exHOld) (exFs 5 8 7 11) := by
  refine .reparsed exHist rfl ?_
  intro n
  cases n with
  | zero => exact .inr ⟨rfl, rfl, rfl, rfl, rfl⟩
  | succ n => left; intro h; simp [exK] at h

/-- The hypotheses of `C61_history` hold for the example. -/
theorem exHHist' : History exK exS (toG exHG) (exFs 5 8 7 11) := by
  refine C61_history (isSource := fun t => t == 0) exHLoaded rfl exHParsed exHMigrate ?_ ?_ rfl (fun _ _ _ _ _ _ => rfl) ?_ exHHist
  · intro n o h
    simp only [exHOld] at h
    split at h <;> first | (cases h; rfl) | cases h
  · intro n o h
    rcases n with _ | _ | _ | _ | n
    · have e : (exHG.node 0).map (·.type) = some 4 := rfl
      rw [show exHG.node 0 = some o from h] at e
      simp only [Option.map_some, Option.some.injEq] at e
      rw [e]; rfl
    · have e : (exHG.node 1).map (·.type) = some 0 := rfl
      rw [show exHG.node 1 = some o from h] at e
      simp only [Option.map_some, Option.some.injEq] at e
      rw [e]; rfl
    · have e : (exHG.node 2).map (·.type) = some 0 := rfl
      rw [show exHG.node 2 = some o from h] at e
      simp only [Option.map_some, Option.some.injEq] at e
      rw [e]; rfl
    · have e : (exHG.node 3).map (·.type) = some 0 := rfl
      rw [show exHG.node 3 = some o from h] at e
      simp only [Option.map_some, Option.some.injEq] at e
      rw [e]; rfl
    · exact absurd (show (none : Option MNode) = some o from h) (by intro h; cases h)
  · intro n o nd ho hn _
    rcases n with _ | _ | _ | _ | n
    · have e : (exHG.node 0).map (fun x => x.static.map (·.weak)) = some [false, true] := rfl
      rw [hn] at e; cases ho
      simpa using e
    · have e : (exHG.node 1).map (fun x => x.static.map (·.weak)) = some [] := rfl
      rw [hn] at e; cases ho
      simpa using e
    · have e : (exHG.node 2).map (fun x => x.static.map (·.weak)) = some [] := rfl
      rw [hn] at e; cases ho
      simpa using e
    · have e : (exHG.node 3).map (fun x => x.static.map (·.weak)) = some [] := rfl
      rw [hn] at e; cases ho
      simpa using e
    · cases ho

example : (exHG.node 0).map (·.stamp) = some 11 ∧ (exHG.node 0).map (·.dyn) = some [{ node := 2, stamp := 6 }] :=
  ⟨rfl, rfl⟩

/-- C61. Migration ends: with names drawn from a finite list `U`, a recursion deeper than the number of these
names does not occur (every level marks another node). The result is a graph or a crash. -/
theorem C61_terminates {U : List Nat} {f : Nat} {g : NG} (W : Within init O U)
    (hg : ∀ k nd, g.node k = some nd → k ∈ U) (hf : U.length < f) : migrate init O f g ≠ .fuel :=
  migrateList_term W _ g hg (Nat.lt_of_le_of_lt (untag_le g) hf)

example : Within exInit exOld [1, 2, 3, 4, 5, 6, 7, 8] where
  old k o h := by
    simp only [exOld] at h
    split at h <;> first | (cases h; decide) | cases h
  init h nd p hp := by
    simp only [exInit] at hp
    split at hp
    · split at hp
      all_goals
        simp only [nm, List.nil_append, List.mem_cons, List.not_mem_nil, or_false] at hp
        rcases hp with rfl | rfl <;> decide
    · simp at hp

/-! ### C62 -/

/-- C62. If the build files were touched but describe the same project (comments, formatting, an equivalent
formulation), nothing is lost: the migration succeeds, every node of the build files is there, and every
node other than an input file - those found during earlier builds included - has the version, the build
time, the recorded versions of its static dependencies and the discovered dependencies of the old
database. `r` bounds the depth of the dependencies. -/
theorem C62_unchanged {r : Nat → Nat} {f : Nat} {g : NG} (L : Loaded schema O) (hs : schema fileType = .nil)
    (P : Parsed schema g) (B : SameBuild schema init O g r) (hf : ∀ n nd, g.node n = some nd → r n < f) :
    ∃ g', migrate init O f g = .ok g' ∧ (∀ n nd, g.node n = some nd → ∃ nd', g'.node n = some nd') ∧
      ∀ n nd, g'.node n = some nd → ∃ o, O.node n = some o ∧ nd.name = o.name ∧ nd.type = o.type ∧
        (nd.type ≠ fileType → nd.stamp = o.stamp ∧ nd.time = o.time ∧ keys nd.pre = keys o.pre ∧
          nd.static = o.static ∧ nd.dyn = o.dyn ∧
          ∀ d ∈ nd.pre ++ nd.static ++ nd.dyn, ∃ x, g'.node d.node = some x) := by
  have hb : ∀ k, DoneBelow O r g k := by
    intro k m nd hm ht _
    rw [(P.clean m nd hm).2.2] at ht; cases ht
  obtain ⟨g', h1, p, ht⟩ := migrateList_prog L hs B (f := f) g.all g (B.inv2 P)
    (fun n hn => by
      obtain ⟨nd, h⟩ := B.all' n hn
      exact ⟨⟨nd, h⟩, hf n nd h⟩) hb
  refine ⟨g', h1, fun n nd h => ?_, ?_⟩
  · obtain ⟨x, hx, -⟩ := ht n (B.all n nd h)
    exact ⟨x, hx⟩
  · intro n nd hn
    obtain ⟨o, D⟩ := p.inv.desc n nd hn
    refine ⟨o, D.old, D.name, D.type, fun hty => ?_⟩
    have htag : nd.tag = true := by
      cases hg : g.node n with
      | none => exact p.new n nd hn hg hty
      | some y =>
        obtain ⟨x, hx, hxt⟩ := ht n (B.all n y hg)
        rw [hn] at hx; cases hx; exact hxt
    have hd : Done O g' n nd := by
      rcases p.tagged n nd hn htag with ⟨y, hy, hyt⟩ | h
      · rw [(P.clean n y hy).2.2] at hyt; cases hyt
      · exact h
    rcases hd.file with h | ⟨o', h1, h2, h3, h4, h5, h6, h7⟩
    · exact absurd h hty
    · rw [D.old] at h1; cases h1
      refine ⟨h2, h3, h4, h5, h6, ?_⟩
      intro d hd
      rcases List.mem_append.mp hd with hd | hd
      · exact p.inv.closed n nd hn d hd
      · rw [h6] at hd; exact h7 d hd

/-- the build file of the example again, with a line of comment added -/
def exSame : NG where
  node
    | 1 => some { name := nm 1, type := 1, props := .cons false (.str "cl") (.cons true (.num 0) .nil) }
    | 2 => some { name := nm 2, type := 2, static := [{ node := 1 }],
                  props := .cons false (.strs ["-O2"]) (.cons false (.ref (some (nm 1))) .nil) }
    | 6 => some { name := nm 6, type := 2, static := [{ node := 1 }],
                  props := .cons false (.strs ["-O2"]) (.cons false (.ref (some (nm 1))) .nil) }
    | _ => none
  all := [1, 2, 6]

def exRank : Nat → Nat
  | 1 => 1
  | 3 | 7 => 2
  | 2 | 6 => 3
  | _ => 0

theorem exSameBuild : SameBuild exSchema exInit exOld exSame exRank where
  same n nd h := by
    simp only [exSame] at h
    split at h <;> first | (cases h; exact ⟨_, rfl, rfl, rfl, rfl, fun _ => ⟨rfl, rfl⟩⟩) | cases h
  all n nd h := by
    simp only [exSame] at h
    split at h <;> first | decide | cases h
  all' n h := by
    simp only [exSame, List.mem_cons, List.not_mem_nil, or_false] at h
    rcases h with rfl | rfl | rfl <;> exact ⟨_, rfl⟩
  file n o h ht := by
    simp only [exOld] at h
    split at h <;> first | (cases h; first | rfl | cases ht) | cases h
  closed n nd h d hd := by
    simp only [exSame] at h
    split at h <;> first | (cases h; simp at hd; done) | (cases h; simp at hd; subst hd; exact ⟨_, rfl⟩) | cases h
  closedOld n o h d hd := by
    simp only [exOld] at h
    split at h <;> first
      | (cases h; simp at hd; done)
      | (cases h; simp at hd; rcases hd with rfl | rfl | rfl <;> exact ⟨_, rfl⟩)
      | (cases h; simp at hd; rcases hd with rfl | rfl <;> exact ⟨_, rfl⟩)
      | (cases h; simp at hd; subst hd; exact ⟨_, rfl⟩)
      | cases h
  rank n o h d hd := by
    simp only [exOld] at h
    split at h <;> first
      | (cases h; simp at hd; done)
      | (cases h; simp at hd; rcases hd with rfl | rfl | rfl <;> decide)
      | (cases h; simp at hd; rcases hd with rfl | rfl <;> decide)
      | (cases h; simp at hd; subst hd; decide)
      | cases h
  refs n o h ht hg := by
    simp only [exOld] at h
    split at h <;> first
      | (cases h; exact absurd rfl ht)
      | (cases h; cases hg; done)
      | (cases h; simp only [refsIn, refsVal, and_true]; exact ⟨_, rfl, rfl⟩)
      | cases h
  init n o h ht hg x nd _ e1 e2 e3 := by
    simp only [exOld] at h
    split at h <;> first
      | (cases h; exact absurd rfl ht)
      | (cases h; cases hg; done)
      | (cases h; simp only [exInit, e1, e2]; rfl)
      | cases h
  deps n o h ht hg d hd := by
    simp only [exOld] at h
    split at h <;> first
      | (cases h; exact absurd rfl ht)
      | (cases h; cases hg; done)
      | (cases h
         simp at hd
         rcases hd with rfl | rfl
         · exact .inl ⟨_, rfl⟩
         · exact .inr (by intro x hx; cases hx; rfl))
      | cases h

example : (match migrate exInit exOld 4 exSame with
    | .ok g => (g.node 7).map (·.stamp) == some 700 && (g.node 6).map (·.dyn) == some [{ node := 7, stamp := 700 }]
    | _ => false) = true := by decide +kernel

/-- C62 with C10: a build, then an edit of the build files that does not change the project, then another
build: no node that the first build brought up to date is built again. `O` is the database that the first
build left; the other hypotheses are those of C10. -/
theorem C62_null_build {K : Kinds} {S : Sem C} {ts ts2 : List Nat} {db : G} {fs : Disk} {w w2 : World}
    (h : History K S db fs) (b : Builds S K ts db fs w)
    {r : Nat → Nat} {f : Nat} {g g' : NG} (L : Loaded schema O) (hs : schema fileType = .nil)
    (P : Parsed schema g) (B : SameBuild schema init O g r) (hf : ∀ n nd, g.node n = some nd → r n < f)
    (hm : migrate init O f g = .ok g')
    (hO : ∀ n o, O.node n = some o → K.source n = false → o.type ≠ fileType ∧ o.stamp = (w.g.node n).stamp ∧
      o.static = (w.g.node n).static ∧ o.dyn = (w.g.node n).dyn)
    {fuel : Nat} {evs : List IEv} (h2 : irun K fuel ts2 ⟨load (toG g'), w.fs⟩ evs = some w2)
    (hex : ∀ n, (w.g.node n).st = .upToDate → ver K w.fs w.g n ≠ 0 ∧ (K.source n = false →
      ∀ d ∈ (w.g.node n).static ++ (w.g.node n).dyn, d.weak = false → ver K w.fs w.g d.node ≠ 0))
    (hsame : ∀ n, K.always n = true → ¬ (K.source n = true ∧ K.isFile n = true) →
      (w.g.node n).st = .upToDate → (w2.g.node n).st = .upToDate →
      (w2.g.node n).stamp = (w.g.node n).stamp)
    {n : Nat} (hn : ∃ nd, g'.node n = some nd) (hu : (w.g.node n).st = .upToDate) (hforce : ∀ m, ¬ Forced evs m)
    (ha : K.always n = false) :
    n ∉ w2.g.log ∧ ((w2.g.node n).st = .upToDate → Same w.g w2.g n) := by
  obtain ⟨g'', e, -, hall⟩ := C62_unchanged L hs P B hf
  rw [hm] at e; cases e
  refine null_build_on h b h2 (X := fun x => ∃ nd, g'.node x = some nd) ?_ hex hsame hn hu hforce ha
  rintro x ⟨nd, hx⟩ hsrc
  obtain ⟨o, ho, -, hty, hst⟩ := hall x nd hx
  obtain ⟨o1, o2, o3, o4⟩ := hO x o ho hsrc
  obtain ⟨s1, -, -, s4, s5, s6⟩ := hst (by rw [hty]; exact o1)
  refine ⟨⟨?_, ?_, ?_⟩, ?_⟩
  · simp [toG, hx, s1, o2]
  · simp [toG, hx, s4, o3]
  · simp [toG, hx, s5, o4]
  · intro d hd
    rw [← o3, ← o4, ← s4, ← s5] at hd
    refine s6 d ?_
    simp only [List.mem_append] at hd ⊢
    rcases hd with hd | hd
    · exact .inl (.inr hd)
    · exact .inr hd

theorem exHSameBuild : SameBuild (fun _ => .nil) exHInit exHOld exHNew (fun n => if n = 0 then 1 else 0) where
  same n nd h := by
    simp only [exHNew] at h
    split at h <;> first | (cases h; exact ⟨_, rfl, rfl, rfl, rfl, fun _ => ⟨rfl, rfl⟩⟩) | cases h
  all n nd h := by
    simp only [exHNew] at h
    split at h <;> first | decide | cases h
  all' n h := by
    simp only [exHNew, List.mem_cons, List.not_mem_nil, or_false] at h
    rcases h with rfl | rfl | rfl <;> exact ⟨_, rfl⟩
  file n o h ht := by
    simp only [exHOld] at h
    split at h <;> first | (cases h; first | rfl | cases ht) | cases h
  closed n nd h d hd := by
    simp only [exHNew] at h
    split at h <;> first | (cases h; simp at hd; done) | (cases h; simp at hd; rcases hd with rfl | rfl <;> exact ⟨_, rfl⟩) | cases h
  closedOld n o h d hd := by
    simp only [exHOld] at h
    split at h <;> first
      | (cases h; simp at hd; done)
      | (cases h; simp at hd; rcases hd with rfl | rfl | rfl <;> exact ⟨_, rfl⟩)
      | cases h
  rank n o h d hd := by
    simp only [exHOld] at h
    split at h <;> first
      | (cases h; simp at hd; done)
      | (cases h; simp at hd; rcases hd with rfl | rfl | rfl <;> decide)
      | cases h
  refs n o h ht hg := by
    simp only [exHOld] at h
    split at h <;> first
      | (cases h; exact absurd rfl ht)
      | (cases h; cases hg; done)
      | cases h
  init n o h ht hg x nd _ e1 e2 e3 := by
    simp only [exHOld] at h
    split at h <;> first
      | (cases h; exact absurd rfl ht)
      | (cases h; cases hg; done)
      | cases h
  deps n o h ht hg d hd := by
    simp only [exHOld] at h
    split at h <;> first
      | (cases h; exact absurd rfl ht)
      | (cases h; cases hg; done)
      | cases h

/-- the build after the build file was touched: the inputs are looked at, nothing is compiled -/
example : irun exK 5 [0] ⟨load (toG exHG), exW1.fs⟩ exLater = some (after (toG exHG) exW1.fs exLater) ∧
    (after (toG exHG) exW1.fs exLater).g.proxy = .upToDate ∧
    (after (toG exHG) exW1.fs exLater).g.log = [2, 3, 1] := ⟨rfl, rfl, rfl⟩

end Verif.Mig
