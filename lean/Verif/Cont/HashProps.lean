import Verif.Cont.HashModel
/-! Properties C34 (hash map) and C18 (node lookup). -/
namespace Verif.Cont
open Verif.Str

/-! ## C34 -/
section
variable {K V : Type} [DecidableEq K]

/-- all insertions, oldest first -/
def insertAll (hash : K → BitVec 32) (kvs : List (K × V)) : UMap K V :=
  kvs.foldl (fun m kv => m.insert hash kv.1 kv.2) UMap.empty

/-- The specification: the value of the last pair with this key. -/
def lastValue (kvs : List (K × V)) (k : K) : Option V := ((kvs.filter fun kv => kv.1 = k).getLast?).map (·.2)

theorem UMap.find_empty (hash : K → BitVec 32) (k : K) : (UMap.empty : UMap K V).find hash k = none := rfl

theorem UMap.find_insert (hash : K → BitVec 32) (m : UMap K V) (k k' : K) (v : V) :
    (m.insert hash k v).find hash k' = if k = k' then some v else m.find hash k' := by
  unfold UMap.insert UMap.find
  dsimp only
  cases m.buckets with
  | none =>
    dsimp only [Option.getD_none]
    by_cases hk : k = k'
    · subst hk; simp [chainFind]
    · rw [if_neg hk]
      split
      · simp [chainFind, hk]
      · rfl
  | some b =>
    dsimp only [Option.getD_some]
    by_cases hk : k = k'
    · subst hk; simp [chainFind]
    · rw [if_neg hk]
      split
      · rename_i h; rw [chainFind, if_neg hk, h]
      · rfl

/-- C34. After any sequence of insertions, whatever the hash function, a lookup returns the value inserted
last for the key, or nothing if there was none, and the size is the number of insertions. -/
theorem C34_find (hash : K → BitVec 32) (kvs : List (K × V)) (k : K) :
    (insertAll hash kvs).find hash k = lastValue kvs k ∧ (insertAll hash kvs).count = kvs.length := by
  suffices ∀ n (kvs : List (K × V)), kvs.length = n →
      (insertAll hash kvs).find hash k = lastValue kvs k ∧ (insertAll hash kvs).count = kvs.length from this _ kvs rfl
  intro n
  induction n with
  | zero =>
    intro kvs h
    rw [List.length_eq_zero_iff.1 h]
    exact ⟨rfl, rfl⟩
  | succ n ih =>
    intro kvs h
    rcases List.eq_nil_or_concat kvs with rfl | ⟨l, kv, rfl⟩
    · simp at h
    · rw [List.concat_eq_append] at *
      obtain ⟨i1, i2⟩ := ih l (by simpa using h)
      have e : insertAll hash (l ++ [kv]) = (insertAll hash l).insert hash kv.1 kv.2 := by
        simp [insertAll, List.foldl_append]
      rw [e, UMap.find_insert, i1]
      refine ⟨?_, by simp [UMap.insert, i2]⟩
      unfold lastValue
      rw [List.filter_append]
      by_cases hk : kv.1 = k
      · simp [hk]
      · simp [hk]

/-- C34. The debug check fails exactly if the key was inserted before. -/
theorem C34_assert (hash : K → BitVec 32) (kvs : List (K × V)) (k : K) :
    (insertAll hash kvs).insertAssert hash k = true ↔ ∀ v, (k, v) ∉ kvs := by
  have h1 : (insertAll hash kvs).insertAssert hash k = true ↔ (insertAll hash kvs).find hash k = none := by
    unfold UMap.insertAssert UMap.find
    cases (insertAll hash kvs).buckets with
    | none => simp
    | some b =>
      dsimp only [Option.getD_some]
      generalize b (hash k &&& tableSizeMask) = l
      induction l with
      | nil => simp [chainFind]
      | cons a l ih =>
        rw [chainFind, List.all_cons]
        by_cases ha : a.1 = k
        · simp [ha]
        · simp only [ha, ne_eq, not_false_eq_true, decide_true, Bool.true_and, if_false]; exact ih
  rw [h1, (C34_find hash kvs k).1]
  unfold lastValue
  rw [Option.map_eq_none_iff, List.getLast?_eq_none_iff, List.filter_eq_nil_iff]
  constructor
  · intro h v hv; exact h _ hv (by simp)
  · rintro h ⟨a, v⟩ ha hk
    simp at hk; subst hk
    exact h v ha

example : (insertAll (fun _ : Nat => 7) [(1, 'a'), (2, 'b'), (1, 'c')]).find (fun _ => 7) 1 = some 'c' ∧
    (insertAll (fun _ : Nat => 7) [(1, 'a'), (2, 'b'), (1, 'c')]).find (fun _ => 7) 2 = some 'b' ∧
    (insertAll (fun _ : Nat => 7) [(1, 'a'), (2, 'b'), (1, 'c')]).find (fun _ => 7) 3 = none := by decide
end

/-! ## C18 -/

/-- the same name up to ASCII case -/
def SameName (a b : List Char) : Prop := a.map Char.toLower = b.map Char.toLower

theorem lower_toLower (c : Char) : lower c = c.toLower := by
  unfold lower Char.toLower
  have hA : ('A' ≤ c ∧ c ≤ 'Z') ↔ (c.val ≥ 'A'.val ∧ c.val ≤ 'Z'.val) := Iff.rfl
  by_cases h : 'A' ≤ c ∧ c ≤ 'Z'
  · rw [if_pos h]
    have h' := hA.1 h
    rw [dif_pos h']
    have h1 : 65 ≤ c.toNat := h'.1
    have h2 : c.toNat ≤ 90 := h'.2
    apply Char.ext
    apply UInt32.toNat_inj.1
    have e : (Char.ofNat ('a'.toNat + (c.toNat - 'A'.toNat))).val.toNat = 97 + (c.toNat - 65) := by
      have hv : Nat.isValidChar (97 + (c.toNat - 65)) := Or.inl (by omega)
      show (Char.ofNat (97 + (c.toNat - 65))).val.toNat = _
      unfold Char.ofNat
      rw [dif_pos hv]
      rfl
    rw [e]
    have : (c.val + ('a'.val - 'A'.val)).toNat = (c.toNat + 32) % 4294967296 := by
      rw [UInt32.toNat_add]; rfl
    rw [this]; omega
  · rw [if_neg h, dif_neg (fun h' => h (hA.2 h'))]

theorem equalsI_iff : ∀ a b : List Char, equalsI a b = true ↔ SameName a b
  | [], [] => by simp [equalsI, SameName]
  | [], b :: t => by simp [equalsI, SameName]
  | a :: s, [] => by simp [equalsI, SameName]
  | a :: s, b :: t => by
    have ih := equalsI_iff s t
    unfold SameName at ih ⊢
    rw [equalsI, Bool.and_eq_true, ih, eqNoCase, beq_iff_eq, lower_toLower, lower_toLower]
    simp

theorem toLower_same {a b : List Char} (h : SameName a b) : toLower a = toLower b := by
  unfold toLower
  have : lower = Char.toLower := funext lower_toLower
  rw [this]; exact h

/-- nodes added one after the other, with the names and hash hints given; the hint is zero or right (the
assertions at Node.cpp:791 and NodeGraph.cpp:956) -/
def addAll (xx : List Char → BitVec 64) (bits : Nat) (ns : List (Nat × List Char × BitVec 32)) : NodeTable :=
  ns.foldl (fun t n => t.add (NodeRef.make xx n.1 n.2.1 n.2.2)) (NodeTable.empty bits)

def HintOk (xx : List Char → BitVec 64) (name : List Char) (hint : BitVec 32) : Prop := hint = 0 ∨ hint = calcNameHash xx name

theorem hint_hash {xx : List Char → BitVec 64} {name : List Char} {hint : BitVec 32} (h : HintOk xx name hint) :
    (if hint ≠ 0 then hint else calcNameHash xx name) = calcNameHash xx name := by
  rcases h with rfl | rfl
  · simp
  · split <;> rfl

theorem addAll_find (xx : List Char → BitVec 64) (t : NodeTable) (n : NodeRef) (hn : n.nameHash = calcNameHash xx n.name)
    (name : List Char) (hint : BitVec 32) (hh : HintOk xx name hint) :
    (t.add n).findInternal xx name hint = if equalsI n.name name then some n else t.findInternal xx name hint := by
  unfold NodeTable.findInternal NodeTable.add
  rw [hint_hash hh]
  dsimp only
  by_cases hk : calcNameHash xx name &&& t.maxKey = n.nameHash &&& t.maxKey
  · rw [if_pos hk, nodeChainFind, hk]
    by_cases he : equalsI n.name name = true
    · have : n.nameHash = calcNameHash xx name := by
        rw [hn]; unfold calcNameHash; rw [toLower_same ((equalsI_iff _ _).1 he)]
      rw [if_pos this, if_pos he]
    · rw [if_neg he]
      simp
  · rw [if_neg hk, if_neg]
    intro he
    apply hk
    rw [hn]; unfold calcNameHash; rw [toLower_same ((equalsI_iff _ _).1 he)]

/-- C18. Whatever the hash function and table size, looking a name up gives the node added last under a
name equal up to ASCII case, and nothing if there is none; all added nodes are listed in order. -/
theorem C18_find (xx : List Char → BitVec 64) (bits : Nat) (ns : List (Nat × List Char × BitVec 32))
    (hns : ∀ n ∈ ns, HintOk xx n.2.1 n.2.2) (name : List Char) (hint : BitVec 32) (hh : HintOk xx name hint) :
    (match (addAll xx bits ns).findInternal xx name hint with
      | some n => ∃ pre post h, ns = pre ++ (n.id, n.name, h) :: post ∧ SameName n.name name ∧ ∀ m ∈ post, ¬ SameName m.2.1 name
      | none => ∀ m ∈ ns, ¬ SameName m.2.1 name) ∧
    (addAll xx bits ns).all.map (fun n => (n.id, n.name)) = ns.map (fun n => (n.1, n.2.1)) := by
  suffices ∀ k (ns : List (Nat × List Char × BitVec 32)), ns.length = k → (∀ n ∈ ns, HintOk xx n.2.1 n.2.2) →
    (match (addAll xx bits ns).findInternal xx name hint with
      | some n => ∃ pre post h, ns = pre ++ (n.id, n.name, h) :: post ∧ SameName n.name name ∧ ∀ m ∈ post, ¬ SameName m.2.1 name
      | none => ∀ m ∈ ns, ¬ SameName m.2.1 name) ∧
    (addAll xx bits ns).all.map (fun n => (n.id, n.name)) = ns.map (fun n => (n.1, n.2.1)) from this _ ns rfl hns
  intro k
  induction k with
  | zero =>
    intro ns h _
    rw [List.length_eq_zero_iff.1 h]
    refine ⟨?_, rfl⟩
    have : (addAll xx bits []).findInternal xx name hint = none := by
      simp [addAll, NodeTable.empty, NodeTable.findInternal, nodeChainFind]
    rw [this]; simp
  | succ k ih =>
    intro ns h hns
    rcases List.eq_nil_or_concat ns with rfl | ⟨l, x, rfl⟩
    · simp at h
    · rw [List.concat_eq_append] at *
      obtain ⟨i1, i2⟩ := ih l (by simpa using h) (fun n hn => hns n (by simp [hn]))
      have e : addAll xx bits (l ++ [x]) = (addAll xx bits l).add (NodeRef.make xx x.1 x.2.1 x.2.2) := by
        simp [addAll, List.foldl_append]
      refine ⟨?_, by rw [e]; simp [NodeTable.add, i2, NodeRef.make]⟩
      have hx := hns x (by simp)
      rw [e, addAll_find xx _ _ (by simp only [NodeRef.make]; exact hint_hash hx) name hint hh]
      by_cases he : equalsI (NodeRef.make xx x.1 x.2.1 x.2.2).name name = true
      · rw [if_pos he]
        exact ⟨l, [], x.2.2, by simp [NodeRef.make], (equalsI_iff _ _).1 he, by simp⟩
      · rw [if_neg he]
        have hne : ¬ SameName x.2.1 name := fun hs => he ((equalsI_iff _ _).2 hs)
        cases hf : (addAll xx bits l).findInternal xx name hint with
        | none =>
          rw [hf] at i1
          intro m hm
          rcases List.mem_append.1 hm with hm | hm
          · exact i1 m hm
          · simp at hm; subst hm; exact hne
        | some n =>
          rw [hf] at i1
          obtain ⟨pre, post, q, rfl, h2, h3⟩ := i1
          refine ⟨pre, post ++ [x], q, by simp, h2, fun m hm => ?_⟩
          rcases List.mem_append.1 hm with hm | hm
          · exact h3 m hm
          · simp at hm; subst hm; exact hne

/-- C18. If the names are pairwise different up to case (which `AddNode` asserts), every added node is found
under every spelling of its name. -/
theorem C18_unique (xx : List Char → BitVec 64) (bits : Nat) (ns : List (Nat × List Char × BitVec 32))
    (hns : ∀ n ∈ ns, HintOk xx n.2.1 n.2.2) (hu : ns.Pairwise fun a b => ¬ SameName a.2.1 b.2.1)
    (x : Nat × List Char × BitVec 32) (hx : x ∈ ns) (name : List Char) (hs : SameName x.2.1 name) (hint : BitVec 32)
    (hh : HintOk xx name hint) :
    ∃ n, (addAll xx bits ns).findInternal xx name hint = some n ∧ n.id = x.1 ∧ n.name = x.2.1 := by
  have h := (C18_find xx bits ns hns name hint hh).1
  cases hf : (addAll xx bits ns).findInternal xx name hint with
  | none => rw [hf] at h; exact absurd hs (h x hx)
  | some n =>
    rw [hf] at h
    obtain ⟨pre, post, k, rfl, h2, h3⟩ := h
    refine ⟨n, rfl, ?_⟩
    rcases List.mem_append.1 hx with hp | hp
    · have := (List.pairwise_append.1 hu).2.2 x hp _ (List.mem_cons_self ..)
      exact absurd (hs.trans h2.symm) this
    · rcases List.mem_cons.1 hp with rfl | hp
      · exact ⟨rfl, rfl⟩
      · exact absurd hs (h3 x hp)

example : ((addAll (fun _ => 5) 4 [(1, "Foo".toList, 0), (2, "bar".toList, 5)]).findInternal (fun _ => 5) "FOO".toList 0).map (·.id) = some 1 ∧
    ((addAll (fun _ => 5) 4 [(1, "Foo".toList, 0), (2, "bar".toList, 5)]).findInternal (fun _ => 5) "baz".toList 5).map (·.id) = none := by decide

example : ∀ n ∈ [(1, "Foo".toList, (0 : BitVec 32)), (2, "bar".toList, 5)], HintOk (fun _ => 5) n.2.1 n.2.2 := by
  unfold HintOk; decide

end Verif.Cont
