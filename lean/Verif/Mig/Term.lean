import Verif.Mig.Spec
/-! The recursion of the migration ends: lemmas for `C61_terminates`. -/
namespace Verif.Mig
open Verif.Sched

def tagged (g : NG) (k : Nat) : Bool :=
  match g.node k with
  | some nd => nd.tag
  | none => false

def untag (U : List Nat) (g : NG) : Nat := U.countP fun k => !tagged g k

def Dom (U : List Nat) (g : NG) : Prop := ∀ k nd, g.node k = some nd → k ∈ U

/-- tags are kept, names stay in `U` -/
structure Mono (U : List Nat) (g g' : NG) : Prop where
  dom : Dom U g → Dom U g'
  tag : ∀ k, tagged g k = true → tagged g' k = true

variable {init : Init} {O : NG} {U : List Nat}

theorem Mono.refl (g : NG) : Mono U g g := ⟨id, fun _ h => h⟩

theorem Mono.trans {a b c : NG} (h : Mono U a b) (k : Mono U b c) : Mono U a c :=
  ⟨fun d => k.dom (h.dom d), fun x hx => k.tag x (h.tag x hx)⟩

theorem Mono.untag {g g' : NG} (h : Mono U g g') : untag U g' ≤ untag U g := by
  apply List.countP_mono_left
  intro x _ hx
  cases ht : tagged g x with
  | false => rfl
  | true => rw [h.tag x ht] at hx; cases hx

theorem countP_lt {p q : Nat → Bool} (h : ∀ x, p x = true → q x = true) {n : Nat} (hp : p n = false)
    (hq : q n = true) : ∀ {U : List Nat}, n ∈ U → U.countP p < U.countP q
  | a :: U, hm => by
    have le : U.countP p ≤ U.countP q := List.countP_mono_left fun x _ => h x
    rcases List.mem_cons.mp hm with rfl | hm
    · rw [List.countP_cons_of_neg (by simp [hp]), List.countP_cons_of_pos hq]; omega
    · have ih := countP_lt h hp hq hm
      simp only [List.countP_cons]
      cases ha : p a with
      | true => simp [h a ha, ih]
      | false => cases q a <;> simp <;> omega

theorem set_mono {g : NG} {n : Nat} {nd nd' : MNode} (h : g.node n = some nd)
    (ht : nd.tag = true → nd'.tag = true) : Mono U g (g.set n nd') where
  dom d k x hk := by
    simp only [NG.set] at hk
    split at hk
    · rename_i e; rw [e]; exact d n nd h
    · exact d k x hk
  tag k hk := by
    simp only [tagged, NG.set] at hk ⊢
    by_cases e : k = n
    · subst e; rw [h] at hk; simp [ht hk]
    · rw [if_neg e]; exact hk

theorem add_mono {g : NG} {nd : MNode} (h : g.node nd.name.key = none) (hU : nd.name.key ∈ U) :
    Mono U g (g.add nd) where
  dom d k x hk := by
    simp only [NG.add] at hk
    split at hk
    · rename_i e; rw [e]; exact hU
    · exact d k x hk
  tag k hk := by
    simp only [tagged, NG.add] at hk ⊢
    by_cases e : k = nd.name.key
    · rw [e, h] at hk; cases hk
    · rw [if_neg e]; exact hk

theorem addFiles_mono : ∀ (l : List (Name × Bool)) (g : NG), (∀ p ∈ l, p.1.key ∈ U) →
    Mono U g (addFiles g l) ∧ ∀ k nd, g.node k = some nd → (addFiles g l).node k = some nd
  | [], g, _ => ⟨Mono.refl g, fun _ _ h => h⟩
  | (nm, w) :: l, g, h => by
    have hl : ∀ p ∈ l, p.1.key ∈ U := fun p hp => h p (List.mem_cons_of_mem _ hp)
    simp only [addFiles]
    split
    · exact addFiles_mono l g hl
    · rename_i hn
      have hn : g.node nm.key = none := by simpa using hn
      obtain ⟨a, b⟩ := addFiles_mono l (g.add { name := nm, type := fileType }) hl
      refine ⟨(add_mono (nd := { name := nm, type := fileType }) hn (h (nm, w) (List.mem_cons_self ..))).trans a, ?_⟩
      intro k nd hk
      apply b
      simp only [NG.add]
      rw [if_neg (by rintro rfl; rw [hn] at hk; cases hk)]
      exact hk

theorem Res.bind_ne_fuel {α β : Type} {r : Res α} {f : α → Res β} (h : r ≠ .fuel)
    (hf : ∀ a, r = .ok a → f a ≠ .fuel) : r.bind f ≠ .fuel := by
  cases r with
  | ok a => exact hf a rfl
  | fuel => exact absurd rfl h
  | crash => intro h; cases h

theorem Res.bind_ok' {α β : Type} {r : Res α} {f : α → Res β} {b : β} (h : r.bind f = .ok b) :
    ∃ a, r = .ok a ∧ f a = .ok b := by
  cases r with
  | ok a => exact ⟨a, rfl, h⟩
  | fuel => cases h
  | crash => cases h

mutual
theorem migrateVal_ne (g : NG) : ∀ v, migrateVal g v ≠ .fuel
  | .str _ | .strs _ | .num _ | .bool _ => by intro h; cases h
  | .struct f => Res.bind_ne_fuel (migrateFields_ne g f) (by intro a _ h; cases h)
  | .structs f => Res.bind_ne_fuel (migrateElems_ne g f) (by intro a _ h; cases h)
  | .ref none => by intro h; cases h
  | .ref (some _) => by intro h; cases h
  | .refs l => by
    simp only [migrateVal]
    split <;> (intro h; cases h)
theorem migrateFields_ne (g : NG) : ∀ f, migrateFields g f ≠ .fuel
  | .nil => by intro h; cases h
  | .cons _ v r => Res.bind_ne_fuel (migrateVal_ne g v) fun _ _ =>
      Res.bind_ne_fuel (migrateFields_ne g r) (by intro a _ h; cases h)
theorem migrateElems_ne (g : NG) : ∀ f, migrateElems g f ≠ .fuel
  | .nil => by intro h; cases h
  | .cons v r => Res.bind_ne_fuel (migrateFields_ne g v) fun _ _ =>
      Res.bind_ne_fuel (migrateElems_ne g r) (by intro a _ h; cases h)
end

theorem createDep_mono (W : Within init O U) {g : NG} {m : Nat} {o : MNode} (ho : O.node m = some o)
    (hn : g.node o.name.key = none) : createDep init g o ≠ .fuel ∧
    ∀ g', createDep init g o = .ok g' → Mono U g g' := by
  unfold createDep
  split
  · refine ⟨(by intro h; cases h), ?_⟩
    intro g' h; cases h
    exact add_mono (nd := { name := o.name, type := o.type }) hn (W.old m o ho)
  · refine ⟨Res.bind_ne_fuel (migrateFields_ne _ _) (by intro a _ h; cases h), ?_⟩
    intro g' h
    obtain ⟨p, -, h⟩ := Res.bind_ok' h
    have h := Res.ok.inj h
    have m1 : Mono U g (g.add { name := o.name, type := o.type, props := p }) :=
      add_mono (nd := { name := o.name, type := o.type, props := p }) hn (W.old m o ho)
    have e1 : (g.add { name := o.name, type := o.type, props := p }).node o.name.key =
      some { name := o.name, type := o.type, props := p } := by simp [NG.add]
    obtain ⟨m2, k2⟩ := addFiles_mono (U := U)
      (init (g.add { name := o.name, type := o.type, props := p }) { name := o.name, type := o.type, props := p }).1
      (g.add { name := o.name, type := o.type, props := p })
      (fun q hq => W.init _ _ q (List.mem_append_left _ hq))
    obtain ⟨m3, k3⟩ := addFiles_mono (U := U)
      (init (g.add { name := o.name, type := o.type, props := p }) { name := o.name, type := o.type, props := p }).2
      _ (fun q hq => W.init _ _ q (List.mem_append_right _ hq))
    rw [← h]
    exact ((m1.trans m2).trans m3).trans (set_mono (k3 _ _ (k2 _ _ e1)) (by intro h; cases h))

/-- what a terminating visit guarantees below a bound on the untagged nodes -/
def Term (U : List Nat) (b : Nat) (rec : NG → Nat → Res NG) : Prop :=
  ∀ g n, Dom U g → untag U g < b → rec g n ≠ .fuel ∧ ∀ g', rec g n = .ok g' → Mono U g g'

theorem visitAll_term {b : Nat} {rec : NG → Nat → Res NG} (H : Term U b rec) : ∀ (l : List Dep) (g : NG),
    Dom U g → untag U g < b → visitAll rec g l ≠ .fuel ∧ ∀ g', visitAll rec g l = .ok g' → Mono U g g'
  | [], g, _, _ => ⟨(by intro h; cases h), fun g' h => by cases h; exact Mono.refl g⟩
  | d :: l, g, D, hb => by
    obtain ⟨h1, h2⟩ := H g d.node D hb
    have rest := fun g1 (e : rec g d.node = .ok g1) =>
      visitAll_term H l g1 ((h2 g1 e).dom D) (Nat.lt_of_le_of_lt (h2 g1 e).untag hb)
    refine ⟨Res.bind_ne_fuel h1 fun g1 e => (rest g1 e).1, ?_⟩
    intro g' h
    obtain ⟨g1, e, h⟩ := Res.bind_ok' h
    exact (h2 g1 e).trans ((rest g1 e).2 g' h)

theorem dynLoop_term (W : Within init O U) {b : Nat} {rec : NG → Nat → Res NG} (H : Term U b rec) :
    ∀ (l acc : List Dep) (g : NG), Dom U g → untag U g < b →
    dynLoop rec init O g l acc ≠ .fuel ∧ ∀ r, dynLoop rec init O g l acc = .ok r → Mono U g r.1
  | [], acc, g, _, _ => ⟨(by intro h; cases h), fun r h => by cases h; exact Mono.refl g⟩
  | d :: l, acc, g, D, hb => by
    simp only [dynLoop]
    split
    · exact ⟨(by intro h; cases h), by intro r h; cases h⟩
    · rename_i o ho
      split
      · split
        · exact ⟨(by intro h; cases h), fun r h => by cases h; exact Mono.refl g⟩
        · exact dynLoop_term W H l _ g D hb
      · rename_i hn
        obtain ⟨c1, c2⟩ := createDep_mono W ho hn
        split
        · have rest := fun g1 (e : createDep init g o = .ok g1) =>
            dynLoop_term W H l (acc ++ [d]) g1 ((c2 g1 e).dom D) (Nat.lt_of_le_of_lt (c2 g1 e).untag hb)
          refine ⟨Res.bind_ne_fuel c1 fun g1 e => (rest g1 e).1, ?_⟩
          intro r h
          obtain ⟨g1, e, h⟩ := Res.bind_ok' h
          exact (c2 g1 e).trans ((rest g1 e).2 r h)
        · have step := fun g1 (e : createDep init g o = .ok g1) =>
            H g1 o.name.key ((c2 g1 e).dom D) (Nat.lt_of_le_of_lt (c2 g1 e).untag hb)
          have rest := fun g1 (e : createDep init g o = .ok g1) g2 (e2 : rec g1 o.name.key = .ok g2) =>
            have m := (c2 g1 e).trans ((step g1 e).2 g2 e2)
            dynLoop_term W H l (acc ++ [d]) g2 (m.dom D) (Nat.lt_of_le_of_lt m.untag hb)
          refine ⟨Res.bind_ne_fuel c1 fun g1 e => Res.bind_ne_fuel (step g1 e).1 fun g2 e2 => (rest g1 e g2 e2).1, ?_⟩
          intro r h
          obtain ⟨g1, e, h⟩ := Res.bind_ok' h
          obtain ⟨g2, e2, h⟩ := Res.bind_ok' h
          exact ((c2 g1 e).trans ((step g1 e).2 g2 e2)).trans ((rest g1 e g2 e2).2 r h)

theorem finishNode_term {o : MNode} {n : Nat} {r : NG × Option (List Dep)} :
    finishNode o n r ≠ .fuel ∧ ∀ g', finishNode o n r = .ok g' → Mono U r.1 g' := by
  unfold finishNode
  split
  · exact ⟨(by intro h; cases h), fun g' h => by cases h; exact Mono.refl _⟩
  · split
    · exact ⟨(by intro h; cases h), by intro g' h; cases h⟩
    · rename_i nd hn
      exact ⟨(by intro h; cases h), fun g' h => by cases h; exact set_mono hn id⟩

theorem transfer_term (W : Within init O U) {b : Nat} {rec : NG → Nat → Res NG} (H : Term U b rec)
    (g : NG) (n : Nat) (D : Dom U g) (hb : untag U g < b) :
    transfer rec init O g n ≠ .fuel ∧ ∀ g', transfer rec init O g n = .ok g' → Mono U g g' := by
  unfold transfer
  split
  · exact ⟨(by intro h; cases h), fun g' h => by cases h; exact Mono.refl _⟩
  · rename_i o ho
    split
    · exact ⟨(by intro h; cases h), by intro g' h; cases h⟩
    · rename_i nd hn
      split
      · have m1 : Mono U g (g.set n { nd with static := restamp o.static nd.static }) := set_mono hn id
        obtain ⟨d1, d2⟩ := dynLoop_term W H o.dyn [] _ (m1.dom D) (Nat.lt_of_le_of_lt m1.untag hb)
        refine ⟨Res.bind_ne_fuel d1 fun r _ => (finishNode_term (U := U)).1, ?_⟩
        intro g' h
        obtain ⟨r, e, h⟩ := Res.bind_ok' h
        exact (m1.trans (d2 r e)).trans (finishNode_term.2 g' h)
      · exact ⟨(by intro h; cases h), fun g' h => by cases h; exact Mono.refl _⟩

theorem migrateNode_term (W : Within init O U) (f : Nat) : Term U f (migrateNode init O f) := by
  induction f with
  | zero => intro g n _ h; exact absurd h (Nat.not_lt_zero _)
  | succ f ih =>
    intro g n D hb
    simp only [migrateNode]
    split
    · exact ⟨(by intro h; cases h), by intro g' h; cases h⟩
    · rename_i nd hn
      split
      · exact ⟨(by intro h; cases h), fun g' h => by cases h; exact Mono.refl _⟩
      · rename_i ht
        have ht : nd.tag = false := by simpa using ht
        have m0 : Mono U g (g.set n { nd with tag := true }) := set_mono hn fun _ => rfl
        split
        · exact ⟨(by intro h; cases h), fun g' h => by cases h; exact m0⟩
        · have lt : untag U (g.set n { nd with tag := true }) < untag U g := by
            refine countP_lt ?_ (n := n) ?_ ?_ (D n nd hn)
            · intro x hx
              cases htx : tagged g x with
              | false => rfl
              | true => rw [m0.tag x htx] at hx; cases hx
            · simp [tagged, NG.set]
            · simp [tagged, hn, ht]
          have hb0 : untag U (g.set n { nd with tag := true }) < f := by omega
          obtain ⟨a1, a2⟩ := visitAll_term ih nd.pre _ (m0.dom D) hb0
          have s1 := fun g1 e => visitAll_term ih nd.static g1 ((a2 g1 e).dom (m0.dom D))
            (Nat.lt_of_le_of_lt (a2 g1 e).untag hb0)
          have s2 := fun g1 e g2 e2 =>
            have m := (a2 g1 e).trans ((s1 g1 e).2 g2 e2)
            transfer_term W ih g2 n (m.dom (m0.dom D)) (Nat.lt_of_le_of_lt m.untag hb0)
          refine ⟨Res.bind_ne_fuel a1 fun g1 e => Res.bind_ne_fuel (s1 g1 e).1 fun g2 e2 => (s2 g1 e g2 e2).1, ?_⟩
          intro g' h
          obtain ⟨g1, e, h⟩ := Res.bind_ok' h
          obtain ⟨g2, e2, h⟩ := Res.bind_ok' h
          exact ((m0.trans (a2 g1 e)).trans ((s1 g1 e).2 g2 e2)).trans ((s2 g1 e g2 e2).2 g' h)

theorem migrateList_term (W : Within init O U) {f : Nat} : ∀ (l : List Nat) (g : NG), Dom U g → untag U g < f →
    migrateList init O f g l ≠ .fuel
  | [], _, _, _ => by intro h; cases h
  | n :: l, g, D, hb => by
    obtain ⟨h1, h2⟩ := migrateNode_term W f g n D hb
    exact Res.bind_ne_fuel h1 fun g1 e =>
      migrateList_term W l g1 ((h2 g1 e).dom D) (Nat.lt_of_le_of_lt (h2 g1 e).untag hb)

theorem untag_le (g : NG) : untag U g ≤ U.length := List.countP_le_length

end Verif.Mig
