import Verif.Vcx.Doc
import Verif.Sln.Init
import Verif.Sort.Props
/-
The files of a project: each is there once.
-/
namespace Verif.Vcx

theorem textLt_asymm : ∀ (a b : Text), Sln.textLt a b = true → Sln.textLt b a = false
  | _, [], h => by simp [Sln.textLt] at h
  | [], _ :: _, _ => by simp [Sln.textLt]
  | a :: s, b :: t, h => by
    unfold Sln.textLt at h ⊢
    by_cases e : a = b
    · subst e
      rw [if_pos rfl] at h ⊢
      exact textLt_asymm s t h
    · rw [if_neg e] at h
      rw [if_neg (fun x => e x.symm)]
      exact decide_eq_false (Char.lt_asymm (of_decide_eq_true h))

theorem textLt_trichotomy : ∀ (a b : Text), Sln.textLt a b = false → Sln.textLt b a = false → a = b
  | [], [], _, _ => rfl
  | [], _ :: _, h, _ => by simp [Sln.textLt] at h
  | _ :: _, [], _, h => by simp [Sln.textLt] at h
  | a :: s, b :: t, h, h' => by
    unfold Sln.textLt at h h'
    by_cases e : a = b
    · subst e
      rw [if_pos rfl] at h h'
      rw [textLt_trichotomy s t h h']
    · rw [if_neg e] at h
      rw [if_neg (fun x => e x.symm)] at h'
      exact absurd (Char.le_antisymm (Char.not_lt.1 (of_decide_eq_false h')) (Char.not_lt.1 (of_decide_eq_false h))) e

theorem textLt_trans : ∀ (a b c : Text), Sln.textLt a b = true → Sln.textLt b c = true → Sln.textLt a c = true
  | _, [], _, h, _ => by simp [Sln.textLt] at h
  | _, _ :: _, [], _, h => by simp [Sln.textLt] at h
  | [], _ :: _, _ :: _, _, _ => by simp [Sln.textLt]
  | a :: s, b :: t, c :: u, h, h' => by
    unfold Sln.textLt at h h' ⊢
    by_cases e : a = b
    · subst e
      rw [if_pos rfl] at h
      by_cases e' : a = c
      · subst e'
        rw [if_pos rfl] at h' ⊢
        exact textLt_trans s t u h h'
      · rw [if_neg e'] at h' ⊢
        exact h'
    · rw [if_neg e] at h
      by_cases e' : b = c
      · subst e'
        rw [if_neg e]
        exact h
      · rw [if_neg e'] at h'
        have hac := Char.lt_trans (of_decide_eq_true h) (of_decide_eq_true h')
        rw [if_neg (fun x => by subst x; exact Char.lt_irrefl _ hac)]
        exact decide_eq_true hac

theorem textLt_negtrans (a b c : Text) (h : Sln.textLt a b = false) (h' : Sln.textLt b c = false) : Sln.textLt a c = false := by
  cases e : Sln.textLt a c
  · rfl
  · cases e1 : Sln.textLt b a
    · have := textLt_trichotomy a b h e1
      subst this
      rw [h'] at e
      cases e
    · rw [textLt_trans b a c e1 e] at h'
      cases h'

theorem fileLt_weak : Sort.StrictWeak fileLt where
  asymm _ _ := textLt_asymm _ _
  negtrans _ _ _ := textLt_negtrans _ _ _

theorem same_iff {a b : Text} : Cont.equalsI a b = true ↔ Same a b := Sln.equalsI_iff a b

theorem Same.symm {a b : Text} (h : Same a b) : Same b a := Eq.symm h
theorem Same.trans {a b c : Text} (h : Same a b) (h' : Same b c) : Same a c := Eq.trans h h'

theorem mem_dedup : ∀ {l : List (Text × Text)} {prev f : Text × Text}, f ∈ dedup prev l → f ∈ l
  | [], _, _, h => by simp [dedup] at h
  | x :: l, prev, f, h => by
    unfold dedup at h
    split at h
    · exact .tail _ (mem_dedup h)
    · rcases List.mem_cons.1 h with rfl | h
      · exact .head _
      · exact .tail _ (mem_dedup h)

theorem dedup_all : ∀ {l : List (Text × Text)} {prev f : Text × Text}, f ∈ prev :: l → ∃ g ∈ prev :: dedup prev l, Same g.2 f.2
  | l, prev, _, .head _ => ⟨prev, .head _, rfl⟩
  | x :: l, prev, f, .tail _ h => by
    unfold dedup
    split
    · rename_i e
      rcases List.mem_cons.1 h with rfl | h
      · exact ⟨prev, .head _, (same_iff.1 e).symm⟩
      · exact dedup_all (.tail _ h)
    · obtain ⟨g, hg, hs⟩ := dedup_all (l := l) (prev := x) h
      exact ⟨g, .tail _ hg, hs⟩

theorem dedup_sorted : ∀ {l : List (Text × Text)} {prev : Text × Text}, (prev :: l).Pairwise (fun x y => fileLt y x = false) →
    (prev :: dedup prev l).Pairwise (fun x y => fileLt x y = true)
  | [], _, _ => by simp [dedup]
  | x :: l, prev, h => by
    unfold dedup
    rw [List.pairwise_cons] at h
    split
    · exact dedup_sorted (List.pairwise_cons.2 ⟨fun y hy => h.1 y (.tail _ hy), (List.pairwise_cons.1 h.2).2⟩)
    · rename_i e
      have ih := dedup_sorted h.2
      have hlt : fileLt prev x = true := by
        cases e' : fileLt prev x
        · exact absurd (same_iff.2 (textLt_trichotomy _ _ (h.1 x (.head _)) e')) e
        · rfl
      refine List.pairwise_cons.2 ⟨?_, ih⟩
      intro y hy
      rcases List.mem_cons.1 hy with rfl | hy
      · exact hlt
      · exact textLt_trans _ _ _ hlt ((List.pairwise_cons.1 ih).1 y hy)

theorem uniqueFiles_spec (win : Bool) (rel : Text → Text) (files : List Text) :
    (∀ x ∈ uniqueFiles win rel files, ∃ f ∈ files, x = (backslash f, relative win rel (backslash f))) ∧
    (∀ f ∈ files, ∃ x ∈ uniqueFiles win rel files, Same x.2 (relative win rel (backslash f))) ∧
    (uniqueFiles win rel files).Pairwise (fun x y => fileLt x y = true) := by
  obtain ⟨b, h1, h2, h3⟩ := Sort.C35_shellSort_sorts fileLt fileLt_weak ((files.map backslash).map fun f => (f, relative win rel f))
  have hb : Sln.sortBy fileLt ((files.map backslash).map fun f => (f, relative win rel f)) = b := by rw [Sln.sortBy, h1]; rfl
  have hm : ∀ x, x ∈ b ↔ ∃ f ∈ files, x = (backslash f, relative win rel (backslash f)) := by
    intro x
    rw [h2.mem_iff, List.map_map, List.mem_map]
    exact ⟨fun ⟨f, hf, e⟩ => ⟨f, hf, e.symm⟩, fun ⟨f, hf, e⟩ => ⟨f, hf, e.symm⟩⟩
  unfold uniqueFiles
  rw [hb]
  cases b with
  | nil =>
    refine ⟨fun x hx => (List.not_mem_nil hx).elim, fun f hf => ?_, List.Pairwise.nil⟩
    have := (hm _).2 ⟨f, hf, rfl⟩
    cases this
  | cons a l =>
    refine ⟨?_, ?_, dedup_sorted h3⟩
    · intro x hx
      apply (hm x).1
      rcases List.mem_cons.1 hx with rfl | hx
      · exact .head _
      · exact .tail _ (mem_dedup hx)
    · intro f hf
      exact dedup_all ((hm _).2 ⟨f, hf, rfl⟩)

theorem fileLt_not_same {x y : Text × Text} (h : fileLt x y = true) : ¬ Same x.2 y.2 := by
  intro e
  unfold fileLt at h
  rw [show x.2.map Str.lower = y.2.map Str.lower from e] at h
  rw [textLt_asymm _ _ h] at h
  cases h

end Verif.Vcx
