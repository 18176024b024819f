import Verif.Vcx.Read
/-
Filters: the folders that are listed.
-/
namespace Verif.Vcx
open Sln (parents mem_parents)

theorem map_cons_split {c : Char} {l P1 P2 : List Text} {x : Text} (h : l.map (c :: ·) = P1 ++ x :: P2) :
    ∃ Q1 y Q2, l = Q1 ++ y :: Q2 ∧ P1 = Q1.map (c :: ·) ∧ x = c :: y ∧ P2 = Q2.map (c :: ·) := by
  obtain ⟨Q1, r, e, h1, h2⟩ := List.map_eq_append_iff.1 h
  obtain ⟨y, Q2, e', h3, h4⟩ := List.map_eq_cons_iff.1 h2
  exact ⟨Q1, y, Q2, by rw [e, e'], h1.symm, h3.symm, h4.symm⟩

/-- the parents of a parent are those before it -/
theorem parents_split : ∀ (t : Text) {P1 P2 : List Text} {x : Text}, parents t = P1 ++ x :: P2 → parents x = P1
  | [], P1, P2, x, h => by simp [parents] at h
  | c :: t, P1, P2, x, h => by
    unfold parents at h
    split at h
    · rename_i hc
      cases P1 with
      | nil =>
        have := (List.cons.inj h).1
        subst this
        rfl
      | cons p P1 =>
        obtain ⟨rfl, h'⟩ := List.cons.inj h
        obtain ⟨Q1, y, Q2, e, rfl, rfl, _⟩ := map_cons_split h'
        rw [parents, if_pos hc, parents_split t e]
    · rename_i hc
      obtain ⟨Q1, y, Q2, e, rfl, rfl, _⟩ := map_cons_split h
      rw [parents, if_neg hc, parents_split t e]

theorem map_cons_nodup {c : Char} : ∀ {l : List Text}, l.Nodup → (l.map (c :: ·)).Nodup
  | [], _ => List.nodup_nil
  | a :: l, h => by
    rw [List.nodup_cons] at h
    rw [List.map_cons, List.nodup_cons]
    refine ⟨?_, map_cons_nodup h.2⟩
    intro hm
    obtain ⟨b, hb, e⟩ := List.mem_map.1 hm
    exact h.1 ((List.cons.inj e).2 ▸ hb)

theorem parents_nodup : ∀ (t : Text), (parents t).Nodup
  | [] => List.nodup_nil
  | c :: t => by
    unfold parents
    split
    · rw [List.nodup_cons]
      refine ⟨?_, map_cons_nodup (parents_nodup t)⟩
      intro h
      obtain ⟨b, _, e⟩ := List.mem_map.1 h
      cases e
    · exact map_cons_nodup (parents_nodup t)

theorem not_mem_parents (t : Text) : t ∉ parents t := by
  intro h
  obtain ⟨r, e⟩ := (mem_parents t t).1 h
  have := congrArg List.length e
  rw [List.length_append, List.length_cons] at this
  exact absurd this ((fun a b : Nat => by omega : ∀ a b : Nat, a ≠ a + (b + 1)) _ _)

/-- all that is behind something in the list is its parents -/
def Chain (l : List Text) : Prop := ∀ L1 x L2, l = L1 ++ x :: L2 → L2 = (parents x).reverse

theorem chain_reverse_parents (t : Text) : Chain (parents t).reverse := by
  intro L1 x L2 h
  have : parents t = L2.reverse ++ x :: L1.reverse := by
    rw [← List.reverse_reverse (parents t), h]
    simp
  rw [parents_split t this, List.reverse_reverse]

theorem chain_chain (t : Text) : Chain (chain t) := by
  intro L1 x L2 h
  unfold chain at h
  cases L1 with
  | nil =>
    obtain ⟨rfl, rfl⟩ := List.cons.inj h
    rfl
  | cons a L1 => exact chain_reverse_parents t L1 x L2 (List.cons.inj h).2

theorem chain_nodup (t : Text) : (chain t).Nodup := by
  unfold chain
  rw [List.nodup_cons]
  refine ⟨fun h => not_mem_parents t (List.mem_reverse.1 h), ?_⟩
  exact (List.reverse_perm _).symm.nodup (parents_nodup t)

theorem mem_chain {t q : Text} : q ∈ chain t ↔ q = t ∨ ∃ r, t = q ++ '\\' :: r := by
  unfold chain
  rw [List.mem_cons, List.mem_reverse, mem_parents]

/-- no two folders of a kind have the same number -/
def HashOk (hash : Text → BitVec 32) (S : Text → Prop) : Prop := ∀ a b, S a → S b → hash a = hash b → a = b

theorem mem_hash {hash : Text → BitVec 32} {S : Text → Prop} {l : List Text} {f : Text} (hh : HashOk hash S) (hl : ∀ x ∈ l, S x) (hf : S f) : hash f ∈ l.map hash ↔ f ∈ l := by
  rw [List.mem_map]
  constructor
  · rintro ⟨g, hg, e⟩
    rw [← hh g f (hl g hg) hf e]
    exact hg
  · intro h
    exact ⟨f, h, rfl⟩

theorem addFolders_spec {hash : Text → BitVec 32} {S : Text → Prop} (hh : HashOk hash S) : ∀ {l acc r : List Text}, Chain l → l.Nodup → (∀ x ∈ l, S x) → (∀ x ∈ acc, S x) →
    acc.Nodup → (∀ y ∈ l, y ∈ acc → ∀ q ∈ parents y, q ∈ acc) → addFolders hash acc l = some r → r.Nodup ∧ ∀ x, x ∈ r ↔ x ∈ acc ∨ x ∈ l
  | [], acc, r, _, _, _, _, hn, _, h => by
    simp only [addFolders, Option.some.injEq] at h
    subst h
    exact ⟨hn, fun x => by simp⟩
  | f :: l, acc, r, hc, hd, hl, ha, hn, hp, h => by
    unfold addFolders at h
    split at h
    · rename_i hm
      have hm := (mem_hash hh ha (hl f (.head _))).1 hm
      obtain rfl := Option.some.inj h
      refine ⟨hn, fun x => ⟨.inl, ?_⟩⟩
      rintro (h | h)
      · exact h
      · rcases List.mem_cons.1 h with rfl | h
        · exact hm
        · rw [hc [] f l rfl] at h
          exact hp f (.head _) hm x (List.mem_reverse.1 h)
    · rename_i hm
      have hm : f ∉ acc := fun h => hm ((mem_hash hh ha (hl f (.head _))).2 h)
      split at h
      · cases h
      · rw [List.nodup_cons] at hd
        have ih := addFolders_spec hh (l := l) (acc := acc ++ [f]) (r := r) (fun L1 x L2 e => hc (f :: L1) x L2 (by rw [e]; rfl)) hd.2 (fun x hx => hl x (.tail _ hx))
          (fun x hx => by
            rcases List.mem_append.1 hx with hx | hx
            · exact ha x hx
            · rw [List.mem_singleton.1 hx]
              exact hl f (.head _))
          (by
            rw [List.nodup_append]
            refine ⟨hn, by simp, ?_⟩
            intro a ha b hb e
            rw [List.mem_singleton.1 hb] at e
            exact hm (e ▸ ha))
          (fun y hy hy' q hq => by
            rcases List.mem_append.1 hy' with hy' | hy'
            · exact List.mem_append_left _ (hp y (.tail _ hy) hy' q hq)
            · rw [List.mem_singleton.1 hy'] at hy
              exact absurd hy hd.1) h
        refine ⟨ih.1, fun x => ?_⟩
        rw [ih.2 x, List.mem_append, List.mem_singleton, List.mem_cons]
        exact ⟨fun h => h.elim (fun h => h.elim .inl fun e => .inr (.inl e)) fun h => .inr (.inr h),
          fun h => h.elim (fun h => .inl (.inl h)) fun h => h.elim (fun e => .inl (.inr e)) .inr⟩

theorem mem_parents_of_chain {t y q : Text} (hy : y ∈ chain t) (hq : q ∈ parents y) : q ∈ chain t := by
  rw [mem_chain] at hy ⊢
  obtain ⟨r, rfl⟩ := (mem_parents y q).1 hq
  rcases hy with rfl | ⟨r', rfl⟩
  · exact .inr ⟨r, rfl⟩
  · exact .inr ⟨r ++ '\\' :: r', by simp⟩

theorem foldersOf_spec {hash : Text → BitVec 32} {S : Text → Prop} (hh : HashOk hash S) : ∀ {l : List Text} {last : Text} {acc r : List Text},
    (∀ f ∈ l, f ≠ [] → ∀ x ∈ chain f, S x) → (∀ x ∈ acc, S x) → acc.Nodup → (∀ y ∈ acc, ∀ q ∈ parents y, q ∈ acc) → (last ≠ [] → last ∈ acc) → foldersOf hash l last acc = some r →
    r.Nodup ∧ ∀ x, x ∈ r ↔ x ∈ acc ∨ ∃ f ∈ l, f ≠ [] ∧ x ∈ chain f
  | [], last, acc, r, _, _, hn, _, _, h => by
    simp only [foldersOf, Option.some.injEq] at h
    subst h
    exact ⟨hn, fun x => by simp⟩
  | f :: l, last, acc, r, hl, ha, hn, hp, hlast, h => by
    unfold foldersOf at h
    split at h
    · rename_i hf
      obtain ⟨h1, h2⟩ := foldersOf_spec hh (fun g hg => hl g (.tail _ hg)) ha hn hp hlast h
      refine ⟨h1, fun x => ?_⟩
      rw [h2 x]
      constructor
      · rintro (h | ⟨g, hg, h⟩)
        · exact .inl h
        · exact .inr ⟨g, .tail _ hg, h⟩
      · rintro (hx | ⟨g, hg, hne, hx⟩)
        · exact .inl hx
        · rcases List.mem_cons.1 hg with rfl | hg
          · rcases hf with hf | rfl
            · exact absurd hf hne
            · left
              have hlast := hlast hne
              rcases List.mem_cons.1 hx with rfl | hx
              · exact hlast
              · exact hp _ hlast x (List.mem_reverse.1 hx)
          · exact .inr ⟨g, hg, hne, hx⟩
    · rename_i hf
      have hne : f ≠ [] := fun e => hf (.inl e)
      obtain ⟨acc', h1, h⟩ := Option.bind_eq_some_iff.1 h
      obtain ⟨a1, a2⟩ := addFolders_spec hh (chain_chain f) (chain_nodup f) (hl f (.head _) hne) ha hn (fun y _ hy => hp y hy) h1
      obtain ⟨h1, h2⟩ := foldersOf_spec hh (fun g hg => hl g (.tail _ hg))
        (fun x hx => ((a2 x).1 hx).elim (ha x) (hl f (.head _) hne x)) a1
        (fun y hy q hq => by
          rw [a2] at hy ⊢
          rcases hy with hy | hy
          · exact .inl (hp y hy q hq)
          · exact .inr (mem_parents_of_chain hy hq))
        (fun _ => (a2 f).2 (.inr (.head _))) h
      refine ⟨h1, fun x => ?_⟩
      rw [h2 x, a2]
      constructor
      · rintro ((h | h) | ⟨g, hg, h⟩)
        · exact .inl h
        · exact .inr ⟨f, .head _, hne, h⟩
        · exact .inr ⟨g, .tail _ hg, h⟩
      · rintro (hx | ⟨g, hg, hx⟩)
        · exact .inl (.inl hx)
        · rcases List.mem_cons.1 hg with rfl | hg
          · exact .inl (.inr hx.2)
          · exact .inr ⟨g, hg, hx⟩

/-! ### No assertion -/

theorem addFolders_some (hash : Text → BitVec 32) : ∀ {l acc : List Text}, [] ∉ l → ∃ r, addFolders hash acc l = some r
  | [], acc, _ => ⟨acc, rfl⟩
  | f :: l, acc, h => by
    unfold addFolders
    split
    · exact ⟨_, rfl⟩
    · rw [if_neg (fun e : f = [] => h (e ▸ List.mem_cons_self))]
      exact addFolders_some hash fun h' => h (.tail _ h')

theorem foldersOf_some (hash : Text → BitVec 32) : ∀ {l : List Text} {last : Text} {acc : List Text}, (∀ f ∈ l, f.head? ≠ some '\\') → ∃ r, foldersOf hash l last acc = some r
  | [], _, acc, _ => ⟨acc, rfl⟩
  | f :: l, last, acc, h => by
    unfold foldersOf
    split
    · exact foldersOf_some hash fun g hg => h g (.tail _ hg)
    · rename_i hf
      have : [] ∉ chain f := by
        rw [mem_chain]
        rintro (e | ⟨r, e⟩)
        · exact hf (.inl e.symm)
        · exact h f (.head _) (by rw [e]; rfl)
      obtain ⟨acc', e⟩ := addFolders_some hash (acc := acc) this
      rw [e]
      exact foldersOf_some hash fun g hg => h g (.tail _ hg)

/-! ### The document -/

def ident (hash : Text → BitVec 32) (d : Text) : Text := '{' :: Sln.hex8 (hash d) ++ "-6c94-4f93-bc2a-7f5284b7d434}".toList

def placeNode (folder : Text) (f : Text × Text) : Node :=
  .elem "CustomBuild".toList [("Include".toList, f.2)] (if folder = [] then [] else [leaf "Filter" folder])

def filterNode (hash : Text → BitVec 32) (d : Text) : Node :=
  .elem "ItemGroup".toList [] [.elem "Filter".toList [("Include".toList, d)] [leaf "UniqueIdentifier" (ident hash d)]]

theorem lines_place {d : Text} {f : Text × Text} (hf : Safe f.2) (hd : Safe d) : Lines (filterFile d f) [placeNode d f] := by
  refine .blk (by decide) (attrsOk_cons (by decide) hf attrsOk_nil) ?_
  split
  · exact .nil
  · exact .raw (by decide) (reads_safe hd.text)

theorem hexDigit_safe (n : Nat) (h : n < 16) : Sln.hexDigit n ≠ '"' ∧ Sln.hexDigit n ≠ '<' ∧ Sln.hexDigit n ≠ '&' := by
  revert n
  decide

theorem ident_safe (hash : Text → BitVec 32) (d : Text) : Safe (ident hash d) := by
  unfold ident
  rw [List.cons_append, safe_cons, safe_append]
  refine ⟨by decide, ?_, by decide⟩
  unfold Sln.hex8 Safe
  intro c hc
  obtain ⟨i, _, rfl⟩ := List.mem_map.1 hc
  exact hexDigit_safe _ (Nat.mod_lt _ (by decide))

theorem lines_filter {hash : Text → BitVec 32} {d : Text} (hd : Safe d) : Lines (filterLines hash d) [filterNode hash d] :=
  .blk (by decide) attrsOk_nil (.blk (by decide) (attrsOk_cons (by decide) hd attrsOk_nil) (.raw (by decide) (reads_safe (ident_safe hash d).text)))

theorem safe_chain {t q : Text} (h : Safe t) (hq : q ∈ chain t) : Safe q := by
  rcases mem_chain.1 hq with rfl | ⟨r, rfl⟩
  · exact h
  · exact (safe_append.1 h).1

/-- the document of filters -/
def filterKids (win : Bool) (hash : Text → BitVec 32) (p : Project) (files : List (Text × Text)) (folders : List Text) : List Node :=
  [.elem "ItemGroup".toList [] (files.flatMap fun f => [placeNode (folder win p f) f])] ++ folders.flatMap fun d => [filterNode hash d]

theorem read_filters {win : Bool} {rel : Text → Text} {hash : Text → BitVec 32} {p : Project} {text : Text}
    (hf : ∀ x ∈ uniqueFiles win rel p.files, Safe x.2 ∧ Safe (folder win p x))
    (hh : HashOk hash fun d => ∃ x ∈ uniqueFiles win rel p.files, folder win p x ≠ [] ∧ d ∈ chain (folder win p x))
    (ht : filtersText win rel hash p = some text) :
    ∃ folders : List Text, folders.Nodup ∧ (∀ d, d ∈ folders ↔ ∃ x ∈ uniqueFiles win rel p.files, folder win p x ≠ [] ∧ d ∈ chain (folder win p x)) ∧
      read text = some (.elem "Project".toList (attrs filterAttrs) (filterKids win hash p (uniqueFiles win rel p.files) folders)) := by
  obtain ⟨folders, h, rfl⟩ := Option.map_eq_some_iff.1 ht
  obtain ⟨h1, h2⟩ := foldersOf_spec hh (fun f hf hne x hx => by
    obtain ⟨y, hy, rfl⟩ := List.mem_map.1 hf
    exact ⟨y, hy, hne, hx⟩) (fun x hx => (List.not_mem_nil hx).elim) List.nodup_nil (fun x hx => (List.not_mem_nil hx).elim) (fun h => absurd rfl h) h
  have h2 : ∀ d, d ∈ folders ↔ ∃ x ∈ uniqueFiles win rel p.files, folder win p x ≠ [] ∧ d ∈ chain (folder win p x) := by
    intro d
    rw [h2]
    constructor
    · rintro (h | ⟨f, hf, h⟩)
      · cases h
      · obtain ⟨y, hy, rfl⟩ := List.mem_map.1 hf
        exact ⟨y, hy, h⟩
    · rintro ⟨y, hy, h⟩
      exact .inr ⟨_, List.mem_map.2 ⟨y, hy, rfl⟩, h⟩
  refine ⟨folders, h1, h2, ?_⟩
  refine read_file (by decide +kernel) (.append ?_ ?_)
  · exact .blk (by decide) attrsOk_nil (.flatMap fun f hx => lines_place (hf f hx).1 (hf f hx).2)
  · refine .flatMap fun d hd => lines_filter ?_
    obtain ⟨x, hx, _, hm⟩ := (h2 d).1 hd
    exact safe_chain (hf x hx).2 hm

theorem sub_filters {win : Bool} {hash : Text → BitVec 32} {p : Project} {files : List (Text × Text)} {folders : List Text} (as : List (Text × Text)) :
    (Node.elem "Project".toList as (filterKids win hash p files folders)).sub "ItemGroup" =
      .elem "ItemGroup".toList [] (files.map fun f => placeNode (folder win p f) f) :: folders.map (filterNode hash) := by
  unfold Node.sub Node.kids filterKids
  rw [flatMap_one, flatMap_one]
  exact filter_all fun n h => by
    rcases List.mem_append.1 h with h | h
    · rw [List.mem_singleton.1 h, is_elem]
      decide
    · obtain ⟨d, _, rfl⟩ := List.mem_map.1 h
      rw [filterNode, is_elem]
      decide

theorem placesIn_filters {win : Bool} {hash : Text → BitVec 32} {p : Project} {files : List (Text × Text)} {folders : List Text} (as : List (Text × Text)) :
    placesIn (.elem "Project".toList as (filterKids win hash p files folders)) = files.map fun f => (some f.2, if folder win p f = [] then [] else [shown (folder win p f)]) := by
  unfold placesIn
  rw [sub_filters, List.flatMap_cons]
  have h1 : ((files.map fun f => placeNode (folder win p f) f).filter (·.is "CustomBuild")) = files.map fun f => placeNode (folder win p f) f := filter_all fun n h => by
    obtain ⟨f, _, rfl⟩ := List.mem_map.1 h
    rw [placeNode, is_elem]
    decide
  have h2 : ((folders.map (filterNode hash)).flatMap fun g => (g.sub "CustomBuild").map fun e => (e.attr "Include", (e.sub "Filter").map (·.text))) = [] := by
    rw [List.flatMap_eq_nil_iff]
    intro n hn
    obtain ⟨d, _, rfl⟩ := List.mem_map.1 hn
    rw [List.map_eq_nil_iff]
    exact filter_none fun n h => by
      rw [List.mem_singleton.1 h, is_elem]
      decide
  rw [h2, List.append_nil]
  show ((files.map fun f => placeNode (folder win p f) f).filter (·.is "CustomBuild")).map _ = _
  rw [h1, List.map_map]
  apply List.map_congr_left
  intro f _
  refine Prod.ext rfl ?_
  simp only [Function.comp, placeNode, Node.sub, Node.kids]
  split
  · rfl
  · rw [filter_single, leaf, is_elem, if_pos (by simp), List.map_singleton, text_textNode]

theorem blank_ident (hash : Text → BitVec 32) (d : Text) : shown (ident hash d) = ident hash d := by
  unfold shown
  rw [if_neg]
  unfold ident blank
  rw [List.cons_append, List.all_cons]
  simp

theorem filtersIn_filters {win : Bool} {hash : Text → BitVec 32} {p : Project} {files : List (Text × Text)} {folders : List Text} (as : List (Text × Text)) :
    filtersIn (.elem "Project".toList as (filterKids win hash p files folders)) = folders.map fun d => (some d, [ident hash d]) := by
  unfold filtersIn
  rw [sub_filters, List.flatMap_cons]
  have h1 : ((files.map fun f => placeNode (folder win p f) f).filter (·.is "Filter")) = [] := filter_none fun n h => by
    obtain ⟨f, _, rfl⟩ := List.mem_map.1 h
    rw [placeNode, is_elem]
    decide
  show ((files.map fun f => placeNode (folder win p f) f).filter (·.is "Filter")).map _ ++ _ = _
  rw [h1, List.map_nil, List.nil_append, List.flatMap_map, ← flatMap_one]
  refine congrArg (fun f => folders.flatMap f) (funext fun d => ?_)
  have h2 : (filterNode hash d).sub "Filter" = [.elem "Filter".toList [("Include".toList, d)] [leaf "UniqueIdentifier" (ident hash d)]] := by
    unfold filterNode Node.sub Node.kids
    rw [filter_single, is_elem, if_pos (by simp)]
  rw [h2, List.map_singleton]
  refine congrArg (fun x => [x]) (Prod.ext rfl ?_)
  show (List.filter (·.is "UniqueIdentifier") [leaf "UniqueIdentifier" (ident hash d)]).map (·.text) = _
  rw [filter_single, leaf, is_elem, if_pos (by simp), List.map_singleton, text_textNode, blank_ident]

/-! ### Folders -/

theorem mem_takeWhile_ne (s : Char) : ∀ (l : List Char), ∀ c ∈ l.takeWhile (fun c => decide (c ≠ s)), c ≠ s
  | [], c, hc => by cases hc
  | a :: l, c, hc => by
    rw [List.takeWhile_cons] at hc
    split at hc
    · rename_i ha
      rcases List.mem_cons.1 hc with rfl | hc
      · exact of_decide_eq_true ha
      · exact mem_takeWhile_ne s l c hc
    · cases hc

theorem beforeLast_eq {t u : Text} (h : Sln.beforeLast '\\' t = some u) : ∃ name, t = u ++ '\\' :: name ∧ '\\' ∉ name := by
  unfold Sln.beforeLast at h
  split at h
  · rename_i hm
    have h := Option.some.inj h
    have e := List.takeWhile_append_dropWhile (p := fun c => decide (c ≠ '\\')) (l := t.reverse)
    have hm' : t.reverse.dropWhile (fun c => decide (c ≠ '\\')) ≠ [] := by
      intro h0
      rw [h0, List.append_nil] at e
      have : '\\' ∈ t.reverse.takeWhile (fun c => decide (c ≠ '\\')) := by rw [e]; exact List.mem_reverse.2 hm
      exact mem_takeWhile_ne _ _ _ this rfl
    obtain ⟨c, r, hr⟩ := List.exists_cons_of_ne_nil hm'
    have hc : c = '\\' := by
      have := List.head?_dropWhile_not (fun c => decide (c ≠ '\\')) t.reverse
      rw [hr] at this
      simpa using this
    subst hc
    rw [hr] at h e
    refine ⟨(t.reverse.takeWhile (fun c => decide (c ≠ '\\'))).reverse, ?_, fun hm => mem_takeWhile_ne _ _ _ (List.mem_reverse.1 hm) rfl⟩
    have := congrArg List.reverse e
    rw [List.reverse_reverse, List.reverse_append, List.reverse_cons] at this
    rw [← h, List.drop_one, List.tail_cons]
    refine this.symm.trans ?_
    rw [List.append_assoc, List.singleton_append]
  · cases h

theorem last_split {u u' n n' : Text} (h : u ++ '\\' :: n = u' ++ '\\' :: n') (hn : '\\' ∉ n) (hn' : '\\' ∉ n') : u = u' := by
  have key {as n n' : Text} (h : '\\' :: n = as ++ '\\' :: n') (hn : '\\' ∉ n) : as = [] := by
    cases as with
    | nil => rfl
    | cons c as =>
      rw [(List.cons.inj h).2] at hn
      exact absurd (List.mem_append_right _ (.head _)) hn
  rcases List.append_eq_append_iff.1 h with ⟨as, rfl, e⟩ | ⟨as, rfl, e⟩
  · rw [key e hn, List.append_nil]
  · rw [key e hn', List.append_nil]

theorem beforeLast_some {t : Text} (h : '\\' ∈ t) : ∃ u name, Sln.beforeLast '\\' t = some u ∧ t = u ++ '\\' :: name ∧ '\\' ∉ name := by
  cases e : Sln.beforeLast '\\' t with
  | none => rw [Sln.beforeLast, if_pos h] at e; cases e
  | some u =>
    obtain ⟨name, h⟩ := beforeLast_eq e
    exact ⟨u, name, rfl, h⟩

theorem same_length {a b : Text} (h : Same a b) : a.length = b.length := by
  have := congrArg List.length h
  rwa [List.length_map, List.length_map] at this

/-- which folder a file is in -/
theorem folderOf_spec {file : Text} (hb : '\\' ∈ file) : ∀ {bases : List Text},
    (folderOf bases file ≠ [] → ∃ b ∈ bases, ∃ pre name, file = pre ++ folderOf bases file ++ '\\' :: name ∧ '\\' ∉ name ∧ Same pre b) ∧
    (folderOf bases file = [] → ¬ ∃ b ∈ bases, ∃ pre d name, d ≠ [] ∧ file = pre ++ d ++ '\\' :: name ∧ '\\' ∉ name ∧ Same pre b)
  | [] => ⟨fun h => absurd rfl h, fun _ ⟨_, h, _⟩ => by cases h⟩
  | b :: bases => by
    obtain ⟨ih1, ih2⟩ := folderOf_spec hb (bases := bases)
    obtain ⟨u, name, e, hf, hn⟩ := beforeLast_some hb
    unfold folderOf
    simp only [e]
    have htake : file.take u.length = u := by rw [hf, List.take_left]
    split
    · rename_i hc
      rw [htake]
      unfold beginsWithI at hc
      simp only [Bool.and_eq_true, decide_eq_true_eq] at hc
      have hpre : file.take b.length = u.take b.length := by rw [hf, List.take_append_of_le_length (Nat.le_of_lt hc.2)]
      constructor
      · intro _
        refine ⟨b, .head _, u.take b.length, name, ?_, hn, ?_⟩
        · rw [List.take_append_drop]
          exact hf
        · rw [← hpre]
          exact same_iff.1 hc.1.2
      · intro h0
        rw [List.drop_eq_nil_iff] at h0
        exact absurd hc.2 (Nat.not_lt.2 h0)
    · rename_i hc
      constructor
      · intro h
        obtain ⟨b', hb', h⟩ := ih1 h
        exact ⟨b', .tail _ hb', h⟩
      · rintro h ⟨b', hb', pre, d, name', hd, hf', hn', hs⟩
        rcases List.mem_cons.1 hb' with rfl | hb'
        · apply hc
          have hu : u = pre ++ d := last_split (hf.symm.trans hf') hn hn'
          have hl := same_length hs
          constructor
          · unfold beginsWithI
            rw [Bool.and_eq_true, decide_eq_true_eq]
            refine ⟨?_, ?_⟩
            · rw [hf', List.append_assoc, List.length_append, hl]
              exact Nat.le_add_right _ _
            · rw [hf', List.append_assoc, ← hl, List.take_left]
              exact same_iff.2 hs
          · rw [hu, List.length_append, hl]
            have : 0 < d.length := List.length_pos_iff.2 hd
            exact (fun a b : Nat => by omega : ∀ a b : Nat, 0 < b → a < a + b) _ _ this
        · exact ih2 h ⟨b', hb', pre, d, name', hd, hf', hn', hs⟩

end Verif.Vcx
