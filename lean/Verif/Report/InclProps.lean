import Verif.Report.Incl
import Verif.Report.InclSpec
/-!
C126: the includes of a library.
-/
namespace Verif.Report.Incl
open Verif.Report

/-! ### the table -/

/-- what was added: headers, and whether for a precompiled header -/
abbrev Log := List (Nat × Bool)

def cnt (M : Log) (d : Nat) : Nat := (M.filter fun e => e.1 = d).length
def anyp (M : Log) (d : Nat) : Bool := M.any fun e => decide (e.1 = d) && e.2

theorem cnt_snoc (M : Log) (d x : Nat) (p : Bool) : cnt (M ++ [(d, p)]) x = cnt M x + if d = x then 1 else 0 := by
  unfold cnt
  by_cases h : d = x <;> simp [h]

theorem anyp_snoc (M : Log) (d x : Nat) (p : Bool) : anyp (M ++ [(d, p)]) x = (anyp M x || (decide (d = x) && p)) := by
  simp [anyp]

theorem anyp_zero {M : Log} {d : Nat} (h : cnt M d = 0) : anyp M d = false := by
  unfold cnt at h
  rw [List.length_eq_zero_iff, List.filter_eq_nil_iff] at h
  unfold anyp
  rw [List.any_eq_false]
  intro e he
  have := h e he
  simp at this
  simp [this]

/-- the item of a header -/
def item (M : Log) (d : Nat) : Inc := ⟨d, cnt M d, anyp M d⟩

structure Inv (hash : Nat → Nat) (t : Table) (M : Log) : Prop where
  items : ∀ k, ∀ i ∈ t k, key hash i.node = k ∧ i = item M i.node ∧ 0 < cnt M i.node
  nodup : ∀ k, ((t k).map (·.node)).Nodup
  all : ∀ d, 0 < cnt M d → d ∈ (t (key hash d)).map (·.node)

theorem inv_nil (hash : Nat → Nat) : Inv hash (fun _ => []) [] := ⟨by simp, by simp, by simp [cnt]⟩

theorem bump_nodes (n : Nat) (p : Bool) : ∀ l, (bump n p l).map (·.node) = l.map (·.node)
  | [] => rfl
  | i :: l => by
    rw [bump]
    split
    · rfl
    · simp [bump_nodes n p l]

theorem bump_mem {n : Nat} {p : Bool} {j : Inc} : ∀ {l : List Inc}, (l.map (·.node)).Nodup → j ∈ bump n p l →
    (j.node ≠ n ∧ j ∈ l) ∨ (j.node = n ∧ ∃ i ∈ l, i.node = n ∧ j = ⟨n, i.count + 1, i.pch || p⟩)
  | [], _, h => by simp [bump] at h
  | i :: l, hn, h => by
    have hn := List.nodup_cons.1 (show (i.node :: l.map (·.node)).Nodup from hn)
    rw [bump] at h
    split at h
    · next e =>
      rcases List.mem_cons.1 h with h | h
      · subst h
        exact .inr ⟨e, i, by simp, e, by rw [← e]⟩
      · exact .inl ⟨fun e' => hn.1 (by rw [e, ← e']; exact List.mem_map_of_mem (f := (·.node)) h), List.mem_cons_of_mem _ h⟩
    · next e =>
      rcases List.mem_cons.1 h with h | h
      · subst h
        exact .inl ⟨e, by simp⟩
      · rcases bump_mem hn.2 h with ⟨h1, h2⟩ | ⟨h1, x, h2, h3⟩
        · exact .inl ⟨h1, List.mem_cons_of_mem _ h2⟩
        · exact .inr ⟨h1, x, List.mem_cons_of_mem _ h2, h3⟩

theorem find_iff {hash : Nat → Nat} {t : Table} {n : Nat} : (find hash t n).isSome = true ↔ n ∈ (t (key hash n)).map (·.node) := by
  unfold find
  rw [List.find?_isSome, List.mem_map]
  simp

theorem add_inv {hash : Nat → Nat} {t : Table} {M : Log} (h : Inv hash t M) (d : Nat) (p : Bool) : Inv hash (add hash d p t) (M ++ [(d, p)]) := by
  -- the table with an item for the header
  have base : ∃ t1 : Table, add hash d p t = (fun k => if k = key hash d then bump d p (t1 k) else t1 k) ∧
      (∀ k, ∀ i ∈ t1 k, key hash i.node = k ∧ i = item M i.node ∧ (i.node ≠ d → 0 < cnt M i.node)) ∧ (∀ k, ((t1 k).map (·.node)).Nodup) ∧
      (∀ x, 0 < cnt M x ∨ x = d → x ∈ (t1 (key hash x)).map (·.node)) := by
    by_cases hf : (find hash t d).isSome = true
    · refine ⟨t, by unfold add; rw [if_pos hf], fun k i hi => ⟨(h.items k i hi).1, (h.items k i hi).2.1, fun _ => (h.items k i hi).2.2⟩, h.nodup, ?_⟩
      rintro x (hx | rfl)
      · exact h.all x hx
      · exact find_iff.1 hf
    · have hnot : d ∉ (t (key hash d)).map (·.node) := fun e => hf (find_iff.2 e)
      have h0 : cnt M d = 0 := by
        rcases Nat.eq_zero_or_pos (cnt M d) with e | e
        · exact e
        · exact absurd (h.all d e) hnot
      refine ⟨insert hash t d, by unfold add; rw [if_neg hf], ?_, ?_, ?_⟩
      · intro k i hi
        unfold insert at hi
        split at hi
        · next e =>
          rcases List.mem_cons.1 hi with hi | hi
          · subst hi
            exact ⟨e.symm, by simp [item, h0, anyp_zero h0], fun e' => absurd rfl e'⟩
          · exact ⟨(h.items k i hi).1, (h.items k i hi).2.1, fun _ => (h.items k i hi).2.2⟩
        · exact ⟨(h.items k i hi).1, (h.items k i hi).2.1, fun _ => (h.items k i hi).2.2⟩
      · intro k
        unfold insert
        split
        · next e => subst e; exact List.nodup_cons.2 ⟨hnot, h.nodup _⟩
        · exact h.nodup k
      · intro x hx
        unfold insert
        rcases hx with hx | rfl
        · split
          · exact List.mem_cons_of_mem _ (h.all x hx)
          · exact h.all x hx
        · simp
  obtain ⟨t1, he, h1, h2, h3⟩ := base
  rw [he]
  refine ⟨?_, ?_, ?_⟩
  · intro k j hj
    have keep : ∀ k, ∀ j ∈ t1 k, j.node ≠ d → key hash j.node = k ∧ j = item (M ++ [(d, p)]) j.node ∧ 0 < cnt (M ++ [(d, p)]) j.node := by
      intro k j hj hne
      obtain ⟨a, b, c⟩ := h1 k j hj
      have e1 : cnt (M ++ [(d, p)]) j.node = cnt M j.node := by rw [cnt_snoc, if_neg (Ne.symm hne)]; rfl
      have e2 : anyp (M ++ [(d, p)]) j.node = anyp M j.node := by rw [anyp_snoc]; simp [Ne.symm hne]
      refine ⟨a, ?_, by rw [e1]; exact c hne⟩
      unfold item
      rw [e1, e2]
      exact b
    split at hj
    · next e =>
      rcases bump_mem (h2 k) hj with ⟨hne, hm⟩ | ⟨hn, i, hi, hin, hji⟩
      · exact keep k j hm hne
      · obtain ⟨a, b, _⟩ := h1 k i hi
        refine ⟨by rw [hn]; exact e.symm, ?_, by rw [hn, cnt_snoc]; simp⟩
        rw [hji]
        rw [hin] at b
        simp only [item, cnt_snoc, anyp_snoc, if_true, decide_true, Bool.true_and]
        rw [b]
        rfl
    · next e =>
      refine keep k j hj fun hn => e ?_
      rw [← (h1 k j hj).1, hn]
  · intro k
    split
    · rw [bump_nodes]; exact h2 k
    · exact h2 k
  · intro x hx
    rw [cnt_snoc] at hx
    have hx' : 0 < cnt M x ∨ x = d := by
      by_cases e : d = x
      · exact .inr e.symm
      · rw [if_neg e] at hx; exact .inl hx
    have := h3 x hx'
    split
    · rw [bump_nodes]; exact this
    · exact this

/-! ### the walk -/

/-- what an object adds -/
def adds (g : Nat → Node) (pch : Nat → Bool) (o : Nat) : Log := (g o).dynamic_.map fun d => (d, pch o)

theorem fold_inv {hash : Nat → Nat} {p : Bool} : ∀ (l : List Nat) {t : Table} {M : Log}, Inv hash t M →
    Inv hash (l.foldl (fun t d => add hash d p t) t) (M ++ l.map fun d => (d, p))
  | [], _, _, h => by simpa using h
  | d :: l, t, M, h => by
    have := fold_inv (p := p) l (add_inv h d p)
    simpa using this

theorem each_spec {g : Nat → Node} {pch : Nat → Bool} {hash : Nat → Nat} {f : Nat → Table → Option Table}
    (hf : ∀ n t t' M, f n t = some t' → Inv hash t M → ∃ L, Ways g n L ∧ Inv hash t' (M ++ L.flatMap (adds g pch))) :
    ∀ (l : List Nat) (t t' : Table) (M : Log), each f l t = some t' → Inv hash t M →
      ∃ ls : List (List Nat), ls.length = l.length ∧ (∀ (i m : Nat) (x : List Nat), l[i]? = some m → ls[i]? = some x → Ways g m x) ∧
        Inv hash t' (M ++ ls.flatten.flatMap (adds g pch))
  | [], t, t', M, h, hi => by
    simp [each] at h
    subst h
    exact ⟨[], rfl, by simp, by simpa using hi⟩
  | n :: l, t, t', M, h, hi => by
    rw [each] at h
    split at h
    · next t1 h1 =>
      obtain ⟨L, hw, hi1⟩ := hf n t t1 M h1 hi
      obtain ⟨ls, hlen, hws, hi2⟩ := each_spec hf l t1 t' _ h hi1
      refine ⟨L :: ls, by simp [hlen], ?_, by simpa using hi2⟩
      intro i m x
      cases i with
      | zero => intro a b; simp at a b; subst a; subst b; exact hw
      | succ i => intro a b; exact hws i m x (by simpa using a) (by simpa using b)
    · cases h

theorem collect_spec {g : Nat → Node} {pch : Nat → Bool} {hash : Nat → Nat} : ∀ (fuel n : Nat) (t t' : Table) (M : Log),
    collect g pch hash fuel n t = some t' → Inv hash t M → ∃ L, Ways g n L ∧ Inv hash t' (M ++ L.flatMap (adds g pch))
  | 0, _, _, _, _, h, _ => by simp [collect] at h
  | fuel + 1, n, t, t', M, h, hi => by
    rw [collect] at h
    split at h
    · next ho =>
      cases h
      exact ⟨[n], .object ho, by simpa [adds] using fold_inv (p := pch n) (g n).dynamic_ hi⟩
    · next ho =>
      split at h
      · cases h
      · next t1 h1 =>
        obtain ⟨ls, hl, hw, hi1⟩ := each_spec (fun n t t' M => collect_spec fuel n t t' M) _ _ _ M h1 hi
        obtain ⟨ms, hm, hv, hi2⟩ := each_spec (fun n t t' M => collect_spec fuel n t t' M) _ _ _ _ h hi1
        refine ⟨(ls ++ ms).flatten, .other ho (by simp [hl, hm]) ?_, by simpa using hi2⟩
        intro i m x a b
        by_cases hlt : i < ls.length
        · rw [List.getElem?_append_left (by omega)] at a b
          exact hw i m x a b
        · rw [List.getElem?_append_right (by omega)] at a b
          rw [← hl] at a
          exact hv _ m x a b

/-! ### C126 -/

theorem cnt_flatMap (g : Nat → Node) (pch : Nat → Bool) (h : Nat) : ∀ L : List Nat, cnt (L.flatMap (adds g pch)) h = times g L h
  | [] => rfl
  | o :: L => by
    have ih := cnt_flatMap g pch h L
    unfold cnt at ih ⊢
    rw [List.flatMap_cons, List.filter_append, List.length_append, ih]
    simp only [times, List.map_cons, List.sum_cons]
    congr 1
    unfold adds
    rw [List.filter_map, List.length_map, List.count_eq_countP, List.countP_eq_length_filter]
    congr 1

theorem anyp_flatMap {g : Nat → Node} {pch : Nat → Bool} {h : Nat} {L : List Nat} : anyp (L.flatMap (adds g pch)) h = true ↔ InPch g pch L h := by
  unfold anyp InPch adds
  rw [List.any_eq_true]
  constructor
  · rintro ⟨⟨a, b⟩, he, hp⟩
    obtain ⟨o, ho, hm⟩ := List.mem_flatMap.1 he
    obtain ⟨d, hd, e⟩ := List.mem_map.1 hm
    simp at hp e
    exact ⟨o, ho, e.2.trans hp.2, hp.1 ▸ e.1 ▸ hd⟩
  · rintro ⟨o, ho, hp, hh⟩
    exact ⟨(h, pch o), List.mem_flatMap.2 ⟨o, ho, List.mem_map.2 ⟨h, hh, rfl⟩⟩, by simp [hp]⟩

theorem key_lt (hash : Nat → Nat) (n : Nat) : key hash n < 65536 := by
  unfold key
  exact Nat.and_lt_two_pow _ (n := 16) (by decide)

theorem flatten_mem {hash : Nat → Nat} {t : Table} {M : Log} (h : Inv hash t M) (i : Inc) : i ∈ flatten t ↔ 0 < cnt M i.node ∧ i = item M i.node := by
  unfold flatten
  rw [List.mem_flatMap]
  constructor
  · rintro ⟨k, _, hi⟩
    exact ⟨(h.items k i hi).2.2, (h.items k i hi).2.1⟩
  · rintro ⟨hc, he⟩
    obtain ⟨j, hj, e⟩ := List.mem_map.1 (h.all _ hc)
    refine ⟨key hash i.node, List.mem_range.2 (key_lt hash _), ?_⟩
    have : j = i := by rw [(h.items _ j hj).2.1, he, e]
    exact this ▸ hj

theorem flatten_nodup {hash : Nat → Nat} {t : Table} {M : Log} (h : Inv hash t M) : ((flatten t).map (·.node)).Nodup := by
  unfold flatten List.Nodup
  rw [List.map_flatMap, List.pairwise_flatMap]
  refine ⟨fun k _ => h.nodup k, ?_⟩
  refine List.Pairwise.imp ?_ (List.nodup_range (n := 65536))
  intro a b hab x hx y hy e
  obtain ⟨i, hi, rfl⟩ := List.mem_map.1 hx
  obtain ⟨j, hj, rfl⟩ := List.mem_map.1 hy
  exact hab ((h.items a i hi).1.symm.trans ((congrArg _ e).trans (h.items b j hj).1))

/-- sorting by count, the largest first -/
structure Sorts (sort : List Inc → List Inc) : Prop where
  perm : ∀ l, (sort l).Perm l
  ordered : ∀ l, (sort l).Pairwise fun a b => b.count ≤ a.count

/-- C126: the list has each header that an object of the library depends on, once, the most used first; its number is how often it is a dependency,
over all the ways to an object, and it is marked if one of these objects makes a precompiled header. The hashes of names do not matter. -/
theorem C126_list (g : Nat → Node) (pch : Nat → Bool) (hash : Nat → Nat) (sort : List Inc → List Inc) (hs : Sorts sort) (fuel lib : Nat) (r : List Inc)
    (h : includes g pch hash sort fuel lib = some r) :
    ∃ L, Ways g lib L ∧ (r.map (·.node)).Nodup ∧ r.Pairwise (fun a b => b.count ≤ a.count) ∧
      ∀ i, i ∈ r ↔ 0 < times g L i.node ∧ i.count = times g L i.node ∧ (i.pch = true ↔ InPch g pch L i.node) := by
  unfold includes at h
  rw [Option.map_eq_some_iff] at h
  obtain ⟨t, ht, rfl⟩ := h
  obtain ⟨L, hw, hi⟩ := collect_spec fuel lib _ t [] ht (inv_nil hash)
  rw [List.nil_append] at hi
  refine ⟨L, hw, ((hs.perm _).map _).nodup_iff.2 (flatten_nodup hi), hs.ordered _, fun i => ?_⟩
  rw [(hs.perm _).mem_iff, flatten_mem hi, cnt_flatMap, ← anyp_flatMap]
  obtain ⟨n, c, p⟩ := i
  simp only [item, Inc.mk.injEq, true_and, cnt_flatMap]
  rw [Bool.eq_iff_iff (a := p)]

theorem ways_unique {g : Nat → Node} : ∀ {n : Nat} {L : List Nat}, Ways g n L → ∀ {K : List Nat}, Ways g n K → L = K := by
  intro n L h
  induction h with
  | object ho =>
    intro K hK
    cases hK with
    | object _ => rfl
    | other hn _ _ => exact absurd ho hn
  | @other n ls hn hl _ ih =>
    intro K hK
    cases hK with
    | object ho => exact absurd ho hn
    | @other _ ks _ hk hkw =>
      congr 1
      apply List.ext_getElem (hl.trans hk.symm)
      intro i h1 h2
      have hm : i < ((g n).static_ ++ (g n).dynamic_).length := by omega
      exact ih i _ _ (List.getElem?_eq_getElem hm) (List.getElem?_eq_getElem h1) (hkw i _ _ (List.getElem?_eq_getElem hm) (List.getElem?_eq_getElem h2))

theorem below_trans {g : Nat → Node} {a b c : Nat} (h : Below g a b) (h' : Below g b c) : Below g a c := by
  induction h' with
  | refl => exact h
  | step _ hd ih => exact .step ih hd

theorem below_head {g : Nat → Node} {n o : Nat} (hb : Below g n o) : o = n ∨ ∃ m, DepOf g n m ∧ Below g m o := by
  induction hb with
  | refl => exact .inl rfl
  | step hb hd ih =>
    rcases ih with rfl | ⟨m, h1, h2⟩
    · exact .inr ⟨_, hd, .refl⟩
    · exact .inr ⟨m, h1, .step h2 hd⟩

/-- the objects of the ways are the objects that can be reached -/
theorem ways_objects {g : Nat → Node} {n : Nat} {L : List Nat} (h : Ways g n L) : ∀ o, o ∈ L ↔ Below g n o ∧ (g o).kind = .object := by
  induction h with
  | @object n ho =>
    intro o
    rw [List.mem_singleton]
    constructor
    · rintro rfl; exact ⟨.refl, ho⟩
    · rintro ⟨hb, -⟩
      induction hb with
      | refl => rfl
      | step _ hd ih => subst ih; exact absurd ho hd.1
  | @other n ls hn hl hw ih =>
    intro o
    rw [List.mem_flatten]
    constructor
    · rintro ⟨l, hl', ho⟩
      obtain ⟨i, hi, e⟩ := List.getElem_of_mem hl'
      have hm : i < ((g n).static_ ++ (g n).dynamic_).length := by omega
      have := (ih i _ l (List.getElem?_eq_getElem hm) (by rw [List.getElem?_eq_getElem hi, e]) o).1 ho
      refine ⟨below_trans (.step .refl ⟨hn, ?_⟩) this.1, this.2⟩
      exact List.mem_append.1 (List.getElem_mem hm)
    · rintro ⟨hb, ho⟩
      rcases below_head hb with rfl | ⟨m, hd, hb⟩
      · exact absurd ho hn
      · obtain ⟨i, hi, e⟩ := List.getElem_of_mem (List.mem_append.2 hd.2)
        have hi' : i < ls.length := by omega
        exact ⟨ls[i], List.getElem_mem hi', (ih i m ls[i] (by rw [List.getElem?_eq_getElem hi, e]) (List.getElem?_eq_getElem hi') o).2 ⟨hb, ho⟩⟩

/-- C126: if each object can be reached in one way, and depends on a header once, the number of a header is how many objects of the library include
it, and no more than there are. -/
theorem C126_objects_partial (g : Nat → Node) (pch : Nat → Bool) (hash : Nat → Nat) (sort : List Inc → List Inc) (hs : Sorts sort) (fuel lib : Nat)
    (r : List Inc) (h : includes g pch hash sort fuel lib = some r) (L : List Nat) (hL : L.Nodup)
    (hobj : ∀ o, o ∈ L ↔ Below g lib o ∧ (g o).kind = .object) (hone : ∀ K, Ways g lib K → K.Nodup) (hdep : ∀ o ∈ L, (g o).dynamic_.Nodup) :
    ∀ i ∈ r, i.count = (L.filter fun o => i.node ∈ (g o).dynamic_).length ∧ i.count ≤ L.length := by
  obtain ⟨K, hK, _, _, hr⟩ := C126_list g pch hash sort hs fuel lib r h
  have hperm : K.Perm L := (List.perm_ext_iff_of_nodup (hone K hK) hL).2 fun o => (ways_objects hK o).trans (hobj o).symm
  intro i hi
  have hc := ((hr i).1 hi).2.1
  have ht : times g K i.node = times g L i.node := by
    unfold times
    exact (hperm.map _).sum_nat
  have hone' : ∀ l : List Nat, (∀ o ∈ l, (g o).dynamic_.Nodup) → times g l i.node = (l.filter fun o => i.node ∈ (g o).dynamic_).length := by
    intro l
    induction l with
    | nil => intro _; rfl
    | cons o l ih =>
      intro hl
      have ih := ih fun x hx => hl x (List.mem_cons_of_mem _ hx)
      have ho : (g o).dynamic_.count i.node = if i.node ∈ (g o).dynamic_ then 1 else 0 := (hl o (by simp)).count
      unfold times at ih ⊢
      rw [List.map_cons, List.sum_cons, ih, ho]
      by_cases hm : i.node ∈ (g o).dynamic_
      · simp [hm]; omega
      · simp [hm]
  have : i.count = (L.filter fun o => i.node ∈ (g o).dynamic_).length := by rw [hc, ht, hone' L hdep]
  exact ⟨this, this ▸ List.length_filter_le _ _⟩

/-- C126: with nodes ranked so that dependencies come before, as they are in a graph without cycles, there is a list. -/
theorem C126_total (g : Nat → Node) (pch : Nat → Bool) (hash : Nat → Nat) (sort : List Inc → List Inc) (rank : Nat → Nat)
    (hrank : ∀ n m, DepOf g n m → rank m < rank n) (lib fuel : Nat) (hf : rank lib < fuel) : (includes g pch hash sort fuel lib).isSome = true := by
  have heach : ∀ (f : Nat → Table → Option Table) (l : List Nat), (∀ n ∈ l, ∀ t, (f n t).isSome = true) → ∀ t, (each f l t).isSome = true := by
    intro f l
    induction l with
    | nil => intro _ _; rfl
    | cons n l ih =>
      intro hl t
      obtain ⟨t1, h1⟩ := Option.isSome_iff_exists.1 (hl n (by simp) t)
      simp only [each, h1]
      exact ih (fun x hx => hl x (List.mem_cons_of_mem _ hx)) t1
  have key : ∀ fuel n, rank n < fuel → ∀ t, (collect g pch hash fuel n t).isSome = true := by
    intro fuel
    induction fuel with
    | zero => intro n hn; omega
    | succ fuel ih =>
      intro n hn t
      rw [collect]
      split
      · rfl
      · next ho =>
        obtain ⟨t1, h1⟩ := Option.isSome_iff_exists.1 (heach (collect g pch hash fuel) (g n).static_
          (fun m hm => ih m (by have := hrank n m ⟨ho, .inl hm⟩; omega)) t)
        simp only [h1]
        exact heach _ _ (fun m hm => ih m (by have := hrank n m ⟨ho, .inr hm⟩; omega)) t1
  unfold includes
  rw [Option.isSome_map]
  exact key fuel lib hf _

/-! ### examples -/

/-- a library 0 of a list of objects 1 with the objects 3 and 4, of which 3 makes a precompiled header; headers 5 and 6 -/
def exG : Nat → Node
  | 0 => { kind := .library, static_ := [9], dynamic_ := [1] }
  | 1 => { kind := .objectList, dynamic_ := [3, 4] }
  | 3 => { kind := .object, static_ := [8], dynamic_ := [5] }
  | 4 => { kind := .object, static_ := [8], dynamic_ := [6, 5] }
  | _ => { kind := .other }

/-- a library that has the object 3 from two lists of objects -/
def exTwice : Nat → Node
  | 0 => { kind := .library, static_ := [1, 2] }
  | 1 => { kind := .objectList, dynamic_ := [3] }
  | 2 => { kind := .objectList, dynamic_ := [3] }
  | 3 => { kind := .object, dynamic_ := [5] }
  | _ => { kind := .other }

/-- the items of two entries of the table -/
def two (t : Option Table) : Option (List Inc) := t.map fun t => t 5 ++ t 6

example : two (collect exG (fun n => n = 3) id 4 0 (fun _ => [])) = some [⟨5, 2, true⟩, ⟨6, 1, false⟩] := by decide +kernel

/-- headers whose hashes agree are told apart -/
example : (collect exG (fun n => n = 3) (fun _ => 7) 4 0 (fun _ => [])).map (fun t => t 7) = some [⟨6, 1, false⟩, ⟨5, 2, true⟩] := by decide +kernel

/-- C126: an object that can be reached in two ways is counted twice: a header is included by two objects of one. -/
theorem C126_twice_false : two (collect exTwice (fun _ => false) id 4 0 (fun _ => [])) = some [⟨5, 2, false⟩] ∧
    ∀ o, Below exTwice 0 o ∧ (exTwice o).kind = .object → o = 3 := by
  refine ⟨by decide +kernel, ?_⟩
  rintro o ⟨_, ho⟩
  match o with
  | 0 | 1 | 2 => exact absurd ho (by decide)
  | 3 => rfl
  | n + 4 => exact absurd ho (by simp [exTwice])

theorem exWays : Ways exG 0 [3, 4] := by
  refine .other (ls := [[], [3, 4]]) (by decide) (by decide) ?_
  intro i m l hm hl
  match i with
  | 0 =>
    simp [exG] at hm hl
    subst hm; subst hl
    exact .other (ls := []) (by decide) (by decide) (by intro i m l h; simp [exG] at h)
  | 1 =>
    simp [exG] at hm hl
    subst hm; subst hl
    refine .other (ls := [[3], [4]]) (by decide) (by decide) ?_
    intro i m l hm hl
    match i with
    | 0 => simp [exG] at hm hl; subst hm; subst hl; exact .object rfl
    | 1 => simp [exG] at hm hl; subst hm; subst hl; exact .object rfl
    | i + 2 => simp at hl
  | i + 2 => simp at hl

/-- the hypotheses of `C126_objects_partial` -/
example : ([3, 4] : List Nat).Nodup ∧ (∀ o, o ∈ [3, 4] ↔ Below exG 0 o ∧ (exG o).kind = .object) ∧ (∀ K, Ways exG 0 K → K.Nodup) ∧
    ∀ o ∈ [3, 4], (exG o).dynamic_.Nodup :=
  ⟨by decide, ways_objects exWays, fun _ hK => ways_unique exWays hK ▸ by decide, by decide⟩

/-- ranks for `C126_total` -/
example : ∀ n m, DepOf exG n m → (fun n => if n = 0 then 2 else if n = 1 then 1 else 0) m < (fun n => if n = 0 then 2 else if n = 1 then 1 else 0) n := by
  rintro n m ⟨ho, hd⟩
  match n with
  | 0 => simp [exG] at hd; rcases hd with rfl | rfl <;> decide
  | 1 => simp [exG] at hd; rcases hd with rfl | rfl <;> decide
  | 2 => simp [exG] at hd
  | 3 => exact absurd rfl ho
  | 4 => exact absurd rfl ho
  | n + 5 => simp [exG] at hd

/-- a sorting -/
example : Sorts (fun l => l.mergeSort fun a b => decide (b.count ≤ a.count)) where
  perm l := List.mergeSort_perm l _
  ordered l := (List.pairwise_mergeSort (le := fun a b : Inc => decide (b.count ≤ a.count)) (by intro a b c; simp; omega)
    (by intro a b; simp; omega) l).imp (by simp)

end Verif.Report.Incl
