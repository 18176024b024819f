import Verif.Dirs.Lists
/-! Lemmas about the nodes that are created for listed files. -/
namespace Verif.Dirs
open Unity (Name)

theorem key_eq (n : Name) : key n = n.map (fold false) := by
  unfold key
  congr 1

theorem same_iff {a b : Name} : Same false a b ↔ key a = key b := by rw [key_eq, key_eq, Same]

theorem find_mem {g : Graph} {n m : Name} {k : Kind} (h : find g n = some (m, k)) : (m, k) ∈ g ∧ key m = key n := by
  unfold find at h
  exact ⟨List.mem_of_find?_eq_some h, by simpa using List.find?_some h⟩

theorem find_none {g : Graph} {n : Name} (h : find g n = none) : ∀ e ∈ g, key e.1 ≠ key n := by
  unfold find at h
  intro e he hk
  have := List.find?_eq_none.mp h e he
  simp [hk] at this

theorem find_congr {g : Graph} {n m : Name} (h : key n = key m) : find g n = find g m := by
  unfold find; rw [h]

theorem find_append {g x : Graph} {n : Name} {e : Name × Kind} (h : find g n = some e) : find (g ++ x) n = some e := by
  unfold find at h ⊢
  rw [List.find?_append, h]; rfl

theorem find_new {g : Graph} {n : Name} {k : Kind} (h : find g n = none) : find (g ++ [(n, k)]) n = some (n, k) := by
  unfold find at h ⊢
  rw [List.find?_append, h]
  simp

theorem sourceNode_ok {g g' : Graph} {f src : Name} (h : sourceNode g f = .ok (g', src)) :
    (∃ k, find g' f = some (src, k) ∧ k.isAFile = true) ∧ key src = key f ∧ ((g' = g ∧ ∃ k, find g f = some (src, k)) ∨ (g' = g ++ [(f, .file)] ∧ src = f)) := by
  unfold sourceNode at h
  cases hf : find g f with
  | none =>
    simp only [hf] at h
    cases h
    exact ⟨⟨.file, find_new hf, rfl⟩, rfl, .inr ⟨rfl, rfl⟩⟩
  | some e =>
    obtain ⟨n, k⟩ := e
    simp only [hf] at h
    split at h
    · next hk =>
      cases h
      exact ⟨⟨k, hf, hk⟩, (find_mem hf).2, .inl ⟨rfl, k, rfl⟩⟩
    · cases h

/-- one file copied: source and copy are in the graph; what the graph had it still has; new names are the file's and the copy's -/
theorem copyOne_ok {dest root : Name} {g g' : Graph} {f d : Name} (h : copyOne dest root g f = .ok (g', d)) :
    (∃ src k, find g' f = some (src, k) ∧ find g' (dest ++ f.drop root.length) = some (d, .copy src)) ∧
    (∃ x, g' = g ++ x ∧ ∀ e ∈ x, e.1 = f ∨ e.1 = dest ++ f.drop root.length) := by
  unfold copyOne at h
  cases hs : sourceNode g f with
  | error e => simp [hs] at h
  | ok p =>
    obtain ⟨g1, src⟩ := p
    simp only [hs] at h
    obtain ⟨⟨k, h1, _⟩, _, h2⟩ := sourceNode_ok hs
    have hx : ∃ x, g1 = g ++ x ∧ ∀ e ∈ x, e.1 = f := by
      rcases h2 with ⟨rfl, _⟩ | ⟨rfl, _⟩
      · exact ⟨[], by simp, by simp⟩
      · exact ⟨[(f, .file)], rfl, by simp⟩
    obtain ⟨x, rfl, hx⟩ := hx
    generalize dest ++ f.drop root.length = dst at h ⊢
    cases hd : find (g ++ x) dst with
    | none =>
      simp only [hd] at h
      cases h
      refine ⟨⟨src, k, find_append h1, find_new hd⟩, x ++ [(d, .copy src)], by simp, ?_⟩
      intro e he
      rcases List.mem_append.mp he with he | he
      · exact .inl (hx e he)
      · rw [List.mem_singleton.mp he]; exact .inr rfl
    | some e =>
      obtain ⟨n, kd⟩ := e
      cases kd with
      | copy s =>
        simp only [hd] at h
        split at h
        · next he =>
          cases h
          subst he
          exact ⟨⟨s, k, h1, hd⟩, x, rfl, fun e he => .inl (hx e he)⟩
        · cases h
      | file => simp [hd] at h
      | object s o => simp [hd] at h
      | other b => simp [hd] at h

/-- a loop over files -/
theorem eachFile_ok {α : Type} {f : Graph → α → Except Err (Graph × Name)} {P : α → Graph → Name → Prop} {N : α → Name → Prop}
    (hf : ∀ g x g' d, f g x = .ok (g', d) → P x g' d ∧ ∃ y, g' = g ++ y ∧ ∀ e ∈ y, N x e.1)
    (hP : ∀ x g d y, P x g d → P x (g ++ y) d) :
    ∀ (l : List α) (g g' : Graph) (ds : List Name), eachFile f g l = .ok (g', ds) →
      ds.length = l.length ∧ (∀ (i : Nat) x d, l[i]? = some x → ds[i]? = some d → P x g' d) ∧
      ∃ y, g' = g ++ y ∧ ∀ e ∈ y, ∃ x ∈ l, N x e.1
  | [], g, g', ds, h => by
    simp only [eachFile] at h
    cases h
    exact ⟨rfl, by simp, [], by simp, by simp⟩
  | x :: l, g, g', ds, h => by
    simp only [eachFile] at h
    cases h1 : f g x with
    | error e => simp [h1] at h
    | ok p =>
      obtain ⟨g1, d⟩ := p
      simp only [h1] at h
      cases h2 : eachFile f g1 l with
      | error e => simp [h2] at h
      | ok p =>
        obtain ⟨g2, ds'⟩ := p
        simp only [h2] at h
        cases h
        obtain ⟨h3, y, rfl, hy⟩ := hf g x g1 d h1
        obtain ⟨h4, h5, z, rfl, hz⟩ := eachFile_ok hf hP l _ g' ds' h2
        refine ⟨by simp [h4], ?_, y ++ z, by simp, ?_⟩
        · intro i a b ha hb
          cases i with
          | zero =>
            simp only [List.getElem?_cons_zero, Option.some.injEq] at ha hb
            subst ha; subst hb
            exact hP _ _ _ _ h3
          | succ i =>
            simp only [List.getElem?_cons_succ] at ha hb
            exact h5 i a b ha hb
        · intro e he
          rcases List.mem_append.mp he with he | he
          · exact ⟨x, by simp, hy e he⟩
          · obtain ⟨a, ha, hn⟩ := hz e he
            exact ⟨a, by simp [ha], hn⟩

theorem eachFile_append {α : Type} (f : Graph → α → Except Err (Graph × Name)) : ∀ (l l' : List α) (g : Graph),
    eachFile f g (l ++ l') =
      match eachFile f g l with
      | .error e => .error e
      | .ok (g, ds) =>
        match eachFile f g l' with
        | .error e => .error e
        | .ok (g, ds') => .ok (g, ds ++ ds')
  | [], l', g => by
    simp only [List.nil_append, eachFile]
    cases eachFile f g l' <;> rfl
  | x :: l, l', g => by
    simp only [List.cons_append, eachFile]
    cases f g x with
    | error e => rfl
    | ok p =>
      obtain ⟨g1, d⟩ := p
      simp only [eachFile_append f l l' g1]
      cases eachFile f g1 l with
      | error e => rfl
      | ok p =>
        obtain ⟨g2, ds⟩ := p
        simp only
        cases eachFile f g2 l' with
        | error e => rfl
        | ok p => rfl

theorem eachFile_map {α β : Type} (f : Graph → β → Except Err (Graph × Name)) (m : α → β) : ∀ (l : List α) (g : Graph),
    eachFile f g (l.map m) = eachFile (fun g x => f g (m x)) g l
  | [], g => rfl
  | x :: l, g => by
    simp only [List.map_cons, eachFile]
    cases f g (m x) with
    | error e => rfl
    | ok p => simp only [eachFile_map f m l]

/-- the files of some lists, each with the path of its list -/
def listed (lists : List (Name × List Name)) : List (Name × Name) := lists.flatMap fun l => l.2.map fun f => (l.1, f)

theorem copyDir_eq (dest : Name) : ∀ (lists : List (Name × List Name)) (g : Graph),
    copyDir dest g lists = eachFile (fun g (p : Name × Name) => copyOne dest p.1 g p.2) g (listed lists)
  | [], g => rfl
  | (root, files) :: ls, g => by
    simp only [copyDir, listed, List.flatMap_cons]
    rw [eachFile_append, eachFile_map]
    simp only
    cases eachFile (copyOne dest root) g files with
    | error e => rfl
    | ok p =>
      simp only [copyDir_eq dest ls, listed]
      rfl

theorem objects_eq (c : ObjConfig) : ∀ (lists : List (Name × List Name)) (g : Graph),
    objects c g lists = eachFile (fun g (p : Name × Name) => objectOne c p.1 g p.2) g (listed lists)
  | [], g => rfl
  | (root, files) :: ls, g => by
    simp only [objects, listed, List.flatMap_cons]
    rw [eachFile_append, eachFile_map]
    simp only
    cases eachFile (objectOne c root) g files with
    | error e => rfl
    | ok p =>
      simp only [objects_eq c ls, listed]
      rfl

/-- a loop that cannot fail, given an invariant -/
theorem eachFile_total {α : Type} {f : Graph → α → Except Err (Graph × Name)} (Inv : Graph → Prop) :
    ∀ (l : List α), (∀ x ∈ l, ∀ g, Inv g → ∃ g' d, f g x = .ok (g', d) ∧ Inv g') →
    ∀ g, Inv g → ∃ g' ds, eachFile f g l = .ok (g', ds)
  | [], _, g, _ => ⟨g, [], rfl⟩
  | x :: l, hf, g, hg => by
    obtain ⟨g1, d, h1, h2⟩ := hf x (by simp) g hg
    obtain ⟨g2, ds, h3⟩ := eachFile_total Inv l (fun y hy => hf y (by simp [hy])) g1 h2
    exact ⟨g2, d :: ds, by simp only [eachFile, h1, h3]⟩

/-- one object: source and object are in the graph -/
theorem objectOne_ok {c : ObjConfig} {base : Name} {g g' : Graph} {f d : Name} (h : objectOne c base g f = .ok (g', d)) :
    ∃ src k o, find g' f = some (src, k) ∧ objectName c src base = some o ∧ find g' o = some (d, .object src c.id) ∧
      ((∃ k, find g f = some (src, k)) ∨ src = f) ∧ ∃ x, g' = g ++ x ∧ ∀ e ∈ x, e.1 = f ∨ e.1 = o := by
  unfold objectOne at h
  cases hs : sourceNode g f with
  | error e => simp [hs] at h
  | ok p =>
    obtain ⟨g1, src⟩ := p
    simp only [hs] at h
    obtain ⟨⟨k, h1, hk⟩, hsk, h2⟩ := sourceNode_ok hs
    have hor : (∃ k, find g f = some (src, k)) ∨ src = f := h2.imp And.right And.right
    have hx : ∃ x, g1 = g ++ x ∧ ∀ e ∈ x, e.1 = f := by
      rcases h2 with ⟨rfl, _⟩ | ⟨rfl, _⟩
      · exact ⟨[], by simp, by simp⟩
      · exact ⟨[(f, .file)], rfl, by simp⟩
    obtain ⟨x, rfl, hx⟩ := hx
    cases ho : objectName c src base with
    | none => simp [ho] at h
    | some o =>
      simp only [ho] at h
      unfold createObject at h
      cases hd : find (g ++ x) o with
      | none =>
        simp only [hd] at h
        have hsrc : find (g ++ x ++ [(o, .object src c.id)]) src = some (src, k) := find_append (by rw [find_congr hsk]; exact h1)
        have : sourceNode (g ++ x ++ [(o, .object src c.id)]) src = .ok (g ++ x ++ [(o, .object src c.id)], src) := by
          unfold sourceNode
          rw [hsrc]
          simp [hk]
        rw [this] at h
        cases h
        refine ⟨src, k, d, find_append h1, ho, find_new hd, hor, x ++ [(d, .object src c.id)], by simp, ?_⟩
        intro e he
        rcases List.mem_append.mp he with he | he
        · exact .inl (hx e he)
        · rw [List.mem_singleton.mp he]; exact .inr rfl
      | some e =>
        obtain ⟨n, kd⟩ := e
        cases kd with
        | object s o' =>
          simp only [hd] at h
          split at h
          · cases h
          · next hne =>
            cases h
            simp only [ne_eq, not_or, Decidable.not_not] at hne
            obtain ⟨rfl, rfl⟩ := hne
            exact ⟨src, k, o, h1, ho, hd, hor, x, rfl, fun e he => .inl (hx e he)⟩
        | file => simp [hd] at h
        | copy s => simp [hd] at h
        | other b => simp [hd] at h

end Verif.Dirs
