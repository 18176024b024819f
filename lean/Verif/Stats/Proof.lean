import Verif.Stats.Spec
import Verif.Compdb.Dfs
namespace Verif.Stats

def succ (g : Nat → Node) (n : Nat) : List Nat := (g n).preBuild ++ (g n).static_ ++ (g n).dynamic_

theorem all_append (f : Nat → St → Option St) (l m : List Nat) (s : St) :
    all f (l ++ m) s = match all f l s with | none => none | some s => all f m s := by
  induction l generalizing s with
  | nil => rfl
  | cons n l ih =>
    rw [List.cons_append, all, all]
    cases f n s with
    | none => rfl
    | some t => exact ih t

/-- what has been counted when these were tagged, the last first -/
def counted (g : Nat → Node) (a : Acc) (tagged : List Nat) : Acc := tagged.foldr (countNode g) a

theorem all_sim (g : Nat → Node) (a : Acc) (fuel : Nat)
    (hf : ∀ n seen out, gather g fuel n ⟨seen, counted g a seen⟩ =
      (Dfs.visit (succ g) fuel n ⟨seen, out⟩).map fun s => ⟨s.seen, counted g a s.seen⟩) (l : List Nat) :
    ∀ seen out, all (gather g fuel) l ⟨seen, counted g a seen⟩ =
      (Dfs.all (Dfs.visit (succ g) fuel) l ⟨seen, out⟩).map fun s => ⟨s.seen, counted g a s.seen⟩ := by
  induction l with
  | nil => intro seen out; rfl
  | cons n l ih =>
    intro seen out
    rw [all, Dfs.all, hf n seen out]
    cases Dfs.visit (succ g) fuel n ⟨seen, out⟩ with
    | none => rfl
    | some s => exact ih s.seen s.out

theorem gather_sim (g : Nat → Node) (a : Acc) (fuel : Nat) : ∀ n seen out, gather g fuel n ⟨seen, counted g a seen⟩ =
      (Dfs.visit (succ g) fuel n ⟨seen, out⟩).map fun s => ⟨s.seen, counted g a s.seen⟩ := by
  induction fuel with
  | zero => intro n seen out; rfl
  | succ fuel ih =>
    intro n seen out
    rw [gather, Dfs.visit]
    by_cases h : n ∈ seen
    · rw [if_pos h, if_pos h]; rfl
    · rw [if_neg h, if_neg h]
      have key := all_sim g a fuel ih (succ g n) (n :: seen) out
      rw [succ, all_append, all_append] at key
      show (match all (gather g fuel) (g n).preBuild ⟨n :: seen, counted g a (n :: seen)⟩ with
        | none => none
        | some s => match all (gather g fuel) (g n).static_ s with
          | none => none
          | some s => all (gather g fuel) (g n).dynamic_ s) = _
      rw [show succ g n = (g n).preBuild ++ (g n).static_ ++ (g n).dynamic_ from rfl]
      revert key
      cases all (gather g fuel) (g n).preBuild ⟨n :: seen, counted g a (n :: seen)⟩ with
      | none =>
        intro key
        cases hd : Dfs.all (Dfs.visit (succ g) fuel) ((g n).preBuild ++ (g n).static_ ++ (g n).dynamic_) ⟨n :: seen, out⟩ with
        | none => rfl
        | some s => rw [hd] at key; exact nomatch key
      | some s =>
        intro key
        simp only at key ⊢
        rw [key]
        cases hd : Dfs.all (Dfs.visit (succ g) fuel) ((g n).preBuild ++ (g n).static_ ++ (g n).dynamic_) ⟨n :: seen, out⟩ with
        | none => rfl
        | some s => rfl

theorem needed_iff (g : Nat → Node) (root n : Nat) : Needed g root n ↔ Dfs.Reach (succ g) root n := by
  constructor
  · intro h
    have trans : ∀ {a b c : Nat}, Dfs.Reach (succ g) a b → c ∈ succ g b → Dfs.Reach (succ g) a c := by
      intro a b c h hc
      induction h with
      | refl => exact .step hc (.refl _)
      | step h1 _ ih => exact .step h1 (ih hc)
    induction h with
    | root => exact .refl _
    | preBuild _ hm ih => exact trans ih (by simp [succ, hm])
    | static_ _ hm ih => exact trans ih (by simp [succ, hm])
    | dynamic_ _ hm ih => exact trans ih (by simp [succ, hm])
  · intro h
    have : ∀ {a b : Nat}, Dfs.Reach (succ g) a b → Needed g root a → Needed g root b := by
      intro a b h
      induction h with
      | refl => exact id
      | step h1 _ ih =>
        intro hn
        apply ih
        simp only [succ, List.mem_append] at h1
        rcases h1 with (h1 | h1) | h1
        · exact .preBuild hn h1
        · exact .static_ hn h1
        · exact .dynamic_ hn h1
    exact this h .root

/-- tags are set once -/
theorem seen_nodup (sc : Nat → List Nat) (fuel : Nat) : ∀ n (s s' : Dfs.St), Dfs.visit sc fuel n s = some s' → s.seen.Nodup → s'.seen.Nodup := by
  induction fuel with
  | zero => intro n s s' h; exact nomatch h
  | succ fuel ih =>
    intro n s s' h hn
    have hall : ∀ (l : List Nat) (s s' : Dfs.St), Dfs.all (Dfs.visit sc fuel) l s = some s' → s.seen.Nodup → s'.seen.Nodup := by
      intro l
      induction l with
      | nil => intro s s' h hn; cases h; exact hn
      | cons m l ihl =>
        intro s s' h hn
        rw [Dfs.all] at h
        cases hv : Dfs.visit sc fuel m s with
        | none => rw [hv] at h; exact nomatch h
        | some t => rw [hv] at h; exact ihl t s' h (ih m s t hv hn)
    rw [Dfs.visit] at h
    split at h
    · cases h; exact hn
    · rename_i hm
      cases hv : Dfs.all (Dfs.visit sc fuel) (sc n) ⟨n :: s.seen, s.out⟩ with
      | none => rw [hv] at h; exact nomatch h
      | some t =>
        rw [hv] at h
        cases h
        exact hall (sc n) ⟨n :: s.seen, s.out⟩ t hv (List.nodup_cons.2 ⟨hm, hn⟩)

/-- gathering ends, with every needed target counted once -/
theorem gather_spec {g : Nat → Node} {N root : Nat} (hc : Closed g N) (hr : root < N) :
    ∃ tagged, gather g (N + 1) root ⟨[], {}⟩ = some ⟨tagged, counted g {} tagged⟩ ∧ Lists g root tagged := by
  have hs : ∀ n < N, ∀ m ∈ succ g n, m < N := by
    intro n hn m hm
    apply hc n hn
    simp only [succ, List.mem_append] at hm
    rcases hm with (h | h) | h
    · exact .inl h
    · exact .inr (.inl h)
    · exact .inr (.inr h)
  obtain ⟨s', h1, _, h3, h4⟩ := Dfs.all_spec hs (roots := [root]) (by simpa using hr)
  have hv : Dfs.visit (succ g) (N + 1) root ⟨[], []⟩ = some s' := by
    rw [Dfs.all] at h1
    cases hv : Dfs.visit (succ g) (N + 1) root ⟨[], []⟩ with
    | none => rw [hv] at h1; exact nomatch h1
    | some t => rw [hv] at h1; exact h1
  refine ⟨s'.seen, ?_, seen_nodup _ _ _ _ _ hv List.nodup_nil, ?_⟩
  · have := gather_sim g {} (N + 1) root [] []
    rw [hv] at this
    exact this
  · intro n
    rw [h4, h3, needed_iff]
    simp

/-- a counter that grows by `w n` for each node -/
theorem counter (g : Nat → Node) (get : Acc → BitVec 32) (w : Nat → Nat)
    (h : ∀ n a, get (countNode g n a) = get a + BitVec.ofNat 32 (w n)) (a : Acc) (l : List Nat) :
    get (counted g a l) = get a + BitVec.ofNat 32 (l.map w).sum := by
  induction l with
  | nil => show get a = get a + 0#32; simp
  | cons n l ih =>
    show get (countNode g n (counted g a l)) = _
    rw [h, ih, List.map_cons, List.sum_cons, BitVec.add_assoc, ← BitVec.ofNat_add, Nat.add_comm]

theorem sum_ite (l : List Nat) (p : Nat → Bool) (x : Nat → Nat) :
    (l.map fun n => if p n then x n else 0).sum = ((l.filter p).map x).sum := by
  induction l with
  | nil => rfl
  | cons n l ih =>
    rw [List.map_cons, List.sum_cons, ih, List.filter_cons]
    cases p n <;> simp

theorem length_sum (l : List Nat) (p : Nat → Bool) : (l.map fun n => if p n then 1 else 0).sum = (l.filter p).length := by
  induction l with
  | nil => rfl
  | cons n l ih =>
    rw [List.map_cons, List.sum_cons, ih, List.filter_cons]
    cases p n
    · simp
    · simp only [if_true, List.length_cons]; omega

theorem lists_perm {g : Nat → Node} {root : Nat} {L M : List Nat} (h1 : Lists g root L) (h2 : Lists g root M) : L.Perm M :=
  (List.perm_ext_iff_of_nodup h1.1 h2.1).2 fun n => by rw [h1.2, h2.2]

theorem number_eq {g : Nat → Node} {root : Nat} {L M : List Nat} (h1 : Lists g root L) (h2 : Lists g root M) (p : Node → Prop)
    [DecidablePred p] : BitVec.ofNat 32 (L.map fun n => if p (g n) then 1 else 0).sum = number g M p := by
  rw [number, ← ((lists_perm h1 h2).filter _).length_eq, ← length_sum]
  simp

theorem timeOf_eq {g : Nat → Node} {root : Nat} {L M : List Nat} (h1 : Lists g root L) (h2 : Lists g root M) (p : Node → Prop)
    [DecidablePred p] (time : Node → BitVec 32) :
    BitVec.ofNat 32 (L.map fun n => if p (g n) then (time (g n)).toNat else 0).sum = timeOf g M p time := by
  have := sum_ite L (fun n => decide (p (g n))) (fun n => (time (g n)).toNat)
  simp only [decide_eq_true_eq] at this
  rw [timeOf, this, (((lists_perm h1 h2).filter _).map _).sum_nat]

/-- adding up the types -/
theorem total (f : Counts → BitVec 32) (hf : ∀ t c, f (addTotals t c) = f t + f c) (per : Fin numTypes → Counts) (k : Fin numTypes → Nat)
    (hk : ∀ i, f (per i) = BitVec.ofNat 32 (k i)) (l : List (Fin numTypes)) (t : Counts) :
    f (l.foldl (fun t i => addTotals t (per i)) t) = f t + BitVec.ofNat 32 (l.map k).sum := by
  induction l generalizing t with
  | nil => simp
  | cons i l ih =>
    rw [List.foldl_cons, ih, hf, hk, List.map_cons, List.sum_cons, BitVec.add_assoc, ← BitVec.ofNat_add]

theorem sum_swap (w : Fin numTypes → Nat → Nat) (l : List Nat) (ts : List (Fin numTypes)) :
    (ts.map fun i => (l.map (w i)).sum).sum = (l.map fun n => (ts.map fun i => w i n).sum).sum := by
  induction l with
  | nil => induction ts with
    | nil => rfl
    | cons t ts ih => simpa using ih
  | cons n l ih =>
    simp only [List.map_cons, List.sum_cons]
    rw [← ih]
    clear ih
    induction ts with
    | nil => rfl
    | cons t ts ih => simp only [List.map_cons, List.sum_cons, ih]; omega

theorem sum_one (ts : List (Fin numTypes)) (h : ts.Nodup) (t : Fin numTypes) (x : Nat) :
    (ts.map fun i => if t = i then x else 0).sum = if t ∈ ts then x else 0 := by
  induction ts with
  | nil => rfl
  | cons s ts ih =>
    obtain ⟨h1, h2⟩ := List.nodup_cons.1 h
    rw [List.map_cons, List.sum_cons, ih h2]
    by_cases e : t = s
    · subst e; simp [h1]
    · simp [e]

/-- a node is of one type -/
theorem sum_types (g : Nat → Node) (l : List Nat) (x : Nat → Nat) :
    ((List.finRange numTypes).map fun i => (l.map fun n => if (g n).type = i then x n else 0).sum).sum = (l.map x).sum := by
  rw [sum_swap (fun i n => if (g n).type = i then x n else 0)]
  refine congrArg List.sum (List.map_congr_left fun n _ => ?_)
  rw [sum_one _ (List.nodup_finRange _), if_pos (List.mem_finRange _)]

theorem byTime_spec (g : Nat → Node) (a : Acc) (l : List Nat) :
    (counted g a l).byTime = a.byTime ++ (l.reverse.filter fun n => decide ((g n).type ≠ proxyNode ∧ 0 < (g n).time ∧ (g n).type ≠ fileNode)) := by
  induction l with
  | nil => simp [counted]
  | cons n l ih =>
    show (countNode g n (counted g a l)).byTime = _
    rw [List.reverse_cons, List.filter_append, ← List.append_assoc, ← ih, countNode]
    by_cases hp : (g n).type = proxyNode
    · simp [hp]
    · simp only [if_neg hp]
      by_cases ht : 0 < (g n).time ∧ (g n).type ≠ fileNode
      · rw [if_pos ht, List.filter_cons, if_pos (decide_eq_true ⟨hp, ht.1, ht.2⟩)]; rfl
      · rw [if_neg ht, List.filter_cons, if_neg (by simp only [decide_eq_true_eq]; exact fun h => ht h.2)]; simp

end Verif.Stats
