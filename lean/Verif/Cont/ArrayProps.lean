import Verif.Cont.ArrayModel
/-! Property C36: `Array` is a list. -/
namespace Verif.Cont
variable {T : Type}

/-- a cell with an object in it (possibly moved from) -/
def Cell.full : Cell T → Prop
  | .raw => False
  | _ => True

/-- The array holds exactly the objects `xs`: they are the first cells of the block, nothing else is
constructed, and the block is not larger than allowed. -/
def Rep (a : Arr T) (xs : List T) : Prop :=
  ∃ k, a.mem = xs.map Cell.val ++ List.replicate k Cell.raw ∧ a.size = xs.length ∧ a.mem.length ≤ capacityMask

/-! ## one cell -/

theorem getElem?_mid {α : Type} (pre : List α) (c : α) (post : List α) : (pre ++ c :: post)[pre.length]? = some c := by simp

theorem set_mid {α : Type} (pre : List α) (c d : α) (post : List α) : (pre ++ c :: post).set pre.length d = pre ++ d :: post := by
  simp

theorem construct_mid (pre post : Mem T) (x : T) : construct (pre ++ .raw :: post) pre.length x = .ok (pre ++ .val x :: post) := by
  rw [construct, getElem?_mid]; simp

theorem destroy_mid (pre post : Mem T) (c : Cell T) (h : c.full) : destroy (pre ++ c :: post) pre.length = .ok (pre ++ .raw :: post) := by
  rw [destroy, getElem?_mid]
  cases c with
  | raw => exact absurd h id
  | val x => simp
  | moved => simp

theorem moveOut_mid (pre post : Mem T) (x : T) : moveOut (pre ++ .val x :: post) pre.length = .ok (x, pre ++ .moved :: post) := by
  rw [moveOut, getElem?_mid]; simp

theorem assign_mid (pre post : Mem T) (c : Cell T) (x : T) (h : c.full) : assign (pre ++ c :: post) pre.length x = .ok (pre ++ .val x :: post) := by
  rw [assign, getElem?_mid]
  cases c with
  | raw => exact absurd h id
  | val x => simp
  | moved => simp

theorem readCell_mid (pre post : Mem T) (x : T) : readCell (pre ++ .val x :: post) pre.length = .ok x := by
  rw [readCell, getElem?_mid]

/-! ## loops -/

theorem replicate_snoc {α : Type} (n : Nat) (c : α) (l : List α) : List.replicate n c ++ c :: l = List.replicate (n + 1) c ++ l := by
  rw [List.replicate_succ']; simp

theorem transfer_spec : ∀ (rest done : List T) (tail : Mem T) (k : Nat), rest.length ≤ k →
    transfer rest.length done.length (List.replicate done.length .raw ++ rest.map .val ++ tail) (done.map .val ++ List.replicate k .raw)
      = .ok (List.replicate (done.length + rest.length) .raw ++ tail, (done ++ rest).map .val ++ List.replicate (k - rest.length) .raw)
  | [], done, tail, k, _ => by simp [transfer]
  | x :: rest, done, tail, k, h => by
    obtain ⟨k, rfl⟩ : ∃ j, k = j + 1 := ⟨k - 1, by simp at h; omega⟩
    rw [List.length_cons, transfer]
    have h1 := moveOut_mid (List.replicate done.length (Cell.raw : Cell T)) (rest.map .val ++ tail) x
    rw [List.length_replicate] at h1
    have e1 : List.replicate done.length (Cell.raw : Cell T) ++ (x :: rest).map Cell.val ++ tail =
        List.replicate done.length .raw ++ .val x :: (rest.map .val ++ tail) := by simp
    have h2 := construct_mid (done.map Cell.val) (List.replicate k .raw) x
    rw [List.length_map] at h2
    have h3 := destroy_mid (List.replicate done.length (Cell.raw : Cell T)) (rest.map .val ++ tail) .moved trivial
    rw [List.length_replicate] at h3
    have ih := transfer_spec rest (done ++ [x]) tail k (by simpa using h)
    rw [e1, h1]
    simp only [bind, Except.bind, List.replicate_succ, h2, h3]
    rw [replicate_snoc, ← List.append_assoc (List.replicate _ _)]
    have e2 : done.map Cell.val ++ Cell.val x :: List.replicate k .raw = (done ++ [x]).map .val ++ List.replicate k .raw := by simp
    rw [e2]
    simp only [List.length_append, List.length_cons, List.length_nil, Nat.zero_add] at ih
    rw [ih]
    simp [Nat.add_assoc, Nat.add_comm 1]

theorem destroyRange_spec : ∀ (cs : Mem T) (pre tail : Mem T), (∀ c ∈ cs, c.full) →
    destroyRange cs.length pre.length (pre ++ cs ++ tail) = .ok (pre ++ List.replicate cs.length .raw ++ tail)
  | [], pre, tail, _ => by simp [destroyRange]
  | c :: cs, pre, tail, h => by
    rw [List.length_cons, destroyRange]
    have h1 := destroy_mid pre (cs ++ tail) c (h c (by simp))
    have e1 : pre ++ c :: cs ++ tail = pre ++ c :: (cs ++ tail) := by simp
    have ih := destroyRange_spec cs (pre ++ [.raw]) tail (fun d hd => h d (by simp [hd]))
    simp only [List.length_append, List.length_cons, List.length_nil, Nat.zero_add] at ih
    rw [e1, h1]
    simp only [bind, Except.bind]
    have e2 : pre ++ Cell.raw :: (cs ++ tail) = pre ++ [.raw] ++ cs ++ tail := by simp
    rw [e2, ih]
    simp [List.replicate_succ]

theorem fill_spec (d : T) : ∀ (n : Nat) (pre : Mem T) (k : Nat), n ≤ k →
    fill d n pre.length (pre ++ List.replicate k .raw) = .ok (pre ++ (List.replicate n d).map .val ++ List.replicate (k - n) .raw)
  | 0, pre, k, _ => by simp [fill]
  | n + 1, pre, k, h => by
    obtain ⟨k, rfl⟩ : ∃ j, k = j + 1 := ⟨k - 1, by omega⟩
    have h1 := construct_mid pre (List.replicate k .raw) d
    have ih := fill_spec d n (pre ++ [.val d]) k (by omega)
    simp only [List.length_append, List.length_cons, List.length_nil, Nat.zero_add] at ih
    rw [fill, List.replicate_succ, h1]
    simp only [bind, Except.bind]
    have e2 : pre ++ Cell.val d :: List.replicate k .raw = pre ++ [.val d] ++ List.replicate k .raw := by simp
    rw [e2, ih]
    simp [List.replicate_succ]

theorem shiftDown_spec : ∀ (rest : List T) (pre : Mem T) (c : Cell T) (tail : Mem T), c.full →
    ∃ c', c'.full ∧ shiftDown rest.length pre.length (pre ++ c :: (rest.map .val ++ tail)) =
      .ok (pre.length + rest.length, pre ++ rest.map .val ++ c' :: tail)
  | [], pre, c, tail, h => ⟨c, h, by simp [shiftDown]⟩
  | x :: rest, pre, c, tail, h => by
    obtain ⟨c', hc', ih⟩ := shiftDown_spec rest (pre ++ [.val x]) .moved tail trivial
    refine ⟨c', hc', ?_⟩
    have h1 := moveOut_mid (pre ++ [c]) (rest.map .val ++ tail) x
    have h2 := assign_mid pre (.moved :: (rest.map .val ++ tail)) c x h
    simp only [List.length_append, List.length_cons, List.length_nil, Nat.zero_add, List.append_assoc, List.singleton_append] at h1 ih
    rw [List.length_cons, shiftDown]
    have e1 : pre ++ c :: ((x :: rest).map .val ++ tail) = pre ++ c :: Cell.val x :: (rest.map .val ++ tail) := by simp
    rw [e1, h1]
    simp only [bind, Except.bind, h2]
    rw [ih]
    simp [Nat.add_assoc, Nat.add_comm 1]

theorem copyLoop_spec : ∀ (rest done : List T) (tail : Mem T) (k : Nat), rest.length ≤ k →
    copyLoop ((done ++ rest).map .val ++ tail) rest.length done.length (done.map .val ++ List.replicate k .raw)
      = .ok ((done ++ rest).map .val ++ List.replicate (k - rest.length) .raw)
  | [], done, tail, k, _ => by simp [copyLoop]
  | x :: rest, done, tail, k, h => by
    obtain ⟨k, rfl⟩ : ∃ j, k = j + 1 := ⟨k - 1, by simp at h; omega⟩
    have h1 := readCell_mid (done.map Cell.val) (rest.map .val ++ tail) x
    have h2 := construct_mid (done.map Cell.val) (List.replicate k .raw) x
    rw [List.length_map] at h1 h2
    have ih := copyLoop_spec rest (done ++ [x]) tail k (by simpa using h)
    rw [List.length_cons, copyLoop]
    have e1 : (done ++ x :: rest).map Cell.val ++ tail = done.map Cell.val ++ .val x :: (rest.map .val ++ tail) := by simp
    rw [List.replicate_succ, e1, h1]
    simp only [bind, Except.bind, h2]
    rw [← e1]
    have e2 : done ++ x :: rest = done ++ [x] ++ rest := by simp
    have e3 : done.map Cell.val ++ Cell.val x :: List.replicate k .raw = (done ++ [x]).map .val ++ List.replicate k .raw := by simp
    simp only [List.length_append, List.length_cons, List.length_nil, Nat.zero_add] at ih
    rw [e2, e3, ih]
    simp

theorem moveLoop_spec : ∀ (rest done : List T) (tail : Mem T) (k : Nat), rest.length ≤ k →
    moveLoop rest.length done.length (List.replicate done.length .moved ++ rest.map .val ++ tail) (done.map .val ++ List.replicate k .raw)
      = .ok (List.replicate (done.length + rest.length) .moved ++ tail, (done ++ rest).map .val ++ List.replicate (k - rest.length) .raw)
  | [], done, tail, k, _ => by simp [moveLoop]
  | x :: rest, done, tail, k, h => by
    obtain ⟨k, rfl⟩ : ∃ j, k = j + 1 := ⟨k - 1, by simp at h; omega⟩
    rw [List.length_cons, moveLoop]
    have h1 := moveOut_mid (List.replicate done.length (Cell.moved : Cell T)) (rest.map .val ++ tail) x
    rw [List.length_replicate] at h1
    have e1 : List.replicate done.length (Cell.moved : Cell T) ++ (x :: rest).map Cell.val ++ tail =
        List.replicate done.length .moved ++ .val x :: (rest.map .val ++ tail) := by simp
    have h2 := construct_mid (done.map Cell.val) (List.replicate k .raw) x
    rw [List.length_map] at h2
    have ih := moveLoop_spec rest (done ++ [x]) tail k (by simpa using h)
    rw [e1, h1]
    simp only [bind, Except.bind, List.replicate_succ, h2]
    rw [replicate_snoc, ← List.append_assoc (List.replicate _ _)]
    have e2 : done.map Cell.val ++ Cell.val x :: List.replicate k .raw = (done ++ [x]).map .val ++ List.replicate k .raw := by simp
    rw [e2]
    simp only [List.length_append, List.length_cons, List.length_nil, Nat.zero_add] at ih
    rw [ih]
    simp [Nat.add_assoc, Nat.add_comm 1]

theorem findFrom_spec [DecidableEq T] (obj : T) : ∀ (rest done : List T) (tail : Mem T),
    findFrom ((done ++ rest).map .val ++ tail) obj rest.length done.length =
      .ok ((rest.findIdx? (· = obj)).map (· + done.length))
  | [], done, tail => by simp [findFrom]
  | x :: rest, done, tail => by
    have h1 := readCell_mid (done.map Cell.val) (rest.map .val ++ tail) x
    rw [List.length_map] at h1
    have e1 : (done ++ x :: rest).map Cell.val ++ tail = done.map Cell.val ++ .val x :: (rest.map .val ++ tail) := by simp
    have ih := findFrom_spec obj rest (done ++ [x]) tail
    rw [List.length_cons, findFrom]
    rw [e1, h1]
    simp only [bind, Except.bind]
    rw [List.findIdx?_cons]
    by_cases hx : x = obj
    · simp [hx]
    · rw [if_neg hx, ← e1]
      have e2 : done ++ x :: rest = done ++ [x] ++ rest := by simp
      simp only [List.length_append, List.length_cons, List.length_nil, Nat.zero_add] at ih
      rw [e2, ih]
      simp only [decide_eq_true_eq, hx, if_false]
      cases rest.findIdx? (· = obj) with
      | none => simp
      | some j => simp; omega

theorem deallocate_raw (n : Nat) : deallocate (List.replicate n (Cell.raw : Cell T)) = .ok () := by
  rw [deallocate, if_pos]
  simp

/-! ## operations -/

/-- the capacity needed is larger than the largest allowed -/
def TooBig (n : Nat) : Prop := capacityMask < n

theorem Rep.cap {a : Arr T} {xs : List T} (h : Rep a xs) : xs.length ≤ a.cap := by
  obtain ⟨k, h1, _, _⟩ := h
  unfold Arr.cap; rw [h1]; simp

theorem realloc_spec {a : Arr T} {xs : List T} (h : Rep a xs) (n : Nat) (hn : xs.length ≤ n) (hm : n ≤ capacityMask) :
    ∃ a' : Arr T, (do
      let newMem ← allocate n
      let (old, new) ← transfer a.size 0 a.mem newMem
      deallocate old
      .ok (⟨new, a.size, false⟩ : Arr T)) = .ok a' ∧ Rep a' xs ∧ a'.cap = n := by
  obtain ⟨k, h1, h2, h3⟩ := h
  have ht := transfer_spec xs [] (List.replicate k .raw) n hn
  simp only [List.length_nil, List.replicate_zero, List.nil_append, List.map_nil, Nat.zero_add] at ht
  refine ⟨⟨xs.map .val ++ List.replicate (n - xs.length) .raw, a.size, false⟩, ?_, ⟨n - xs.length, rfl, h2, ?_⟩, ?_⟩
  · rw [allocate, if_pos hm]
    simp only [bind, Except.bind, h1, h2, ht]
    rw [List.replicate_append_replicate, deallocate_raw]
  · simp; omega
  · simp [Arr.cap]; omega

theorem setCapacity_spec {a : Arr T} {xs : List T} (h : Rep a xs) (n : Nat) :
    (∃ a', a.setCapacity n = .ok a' ∧ Rep a' xs ∧ a'.cap = max a.cap n) ∨ (a.setCapacity n = .error .limit ∧ TooBig n) := by
  unfold Arr.setCapacity
  by_cases hc : n ≤ a.cap
  · rw [if_pos hc]; exact Or.inl ⟨a, rfl, h, by omega⟩
  · rw [if_neg hc]
    by_cases hm : n ≤ capacityMask
    · obtain ⟨a', e1, e2, e3⟩ := realloc_spec h n (by have := h.cap; omega) hm
      exact Or.inl ⟨a', e1, e2, by omega⟩
    · right
      refine ⟨?_, by unfold TooBig; omega⟩
      rw [allocate, if_neg hm]; rfl

theorem grow_spec {a : Arr T} {xs : List T} (h : Rep a xs) :
    (∃ a', a.grow = .ok a' ∧ Rep a' xs ∧ a.cap < a'.cap) ∨ (a.grow = .error .limit ∧ TooBig (a.cap + a.cap / 2 + 1)) := by
  unfold Arr.grow
  by_cases hm : a.cap + a.cap / 2 + 1 ≤ capacityMask
  · obtain ⟨a', e1, e2, e3⟩ := realloc_spec h (a.cap + a.cap / 2 + 1) (by have := h.cap; omega) hm
    exact Or.inl ⟨a', e1, e2, by omega⟩
  · right
    refine ⟨?_, by unfold TooBig; omega⟩
    dsimp only
    rw [allocate, if_neg hm]; rfl

theorem append_room {b : Arr T} {xs : List T} (h : Rep b xs) (hroom : b.size < b.cap) (x : T) :
    ∃ mem, construct b.mem b.size x = .ok mem ∧ Rep ⟨mem, b.size + 1, b.stack⟩ (xs ++ [x]) := by
  obtain ⟨k, h1, h2, h3⟩ := h
  have hk : 0 < k := by
    unfold Arr.cap at hroom; rw [h1] at hroom; simp at hroom; omega
  obtain ⟨k, rfl⟩ : ∃ j, k = j + 1 := ⟨k - 1, by omega⟩
  have hc := construct_mid (xs.map Cell.val) (List.replicate k .raw) x
  rw [List.length_map] at hc
  refine ⟨xs.map .val ++ .val x :: List.replicate k .raw, ?_, k, by simp, by simp [h2], ?_⟩
  · rw [h1, h2, List.replicate_succ]; exact hc
  · rw [h1] at h3; simpa using h3

theorem append_spec {a : Arr T} {xs : List T} (h : Rep a xs) (x : T) :
    (∃ a', a.append (.ext x) = .ok a' ∧ Rep a' (xs ++ [x])) ∨
    (a.append (.ext x) = .error .limit ∧ TooBig (a.cap + a.cap / 2 + 1)) := by
  have hsz : a.size = xs.length := by obtain ⟨_, _, h2, _⟩ := h; exact h2
  have hcap := h.cap
  unfold Arr.append
  by_cases hg : a.size = a.cap
  · rw [decide_eq_true hg]
    rcases grow_spec h with ⟨b, g1, g2, g3⟩ | ⟨g1, g2⟩
    · have hb : b.size = xs.length := by obtain ⟨_, _, h2, _⟩ := g2; exact h2
      obtain ⟨mem, m1, m2⟩ := append_room g2 (by omega) x
      left
      refine ⟨_, ?_, m2⟩
      simp only [if_true, bind, Except.bind, g1, m1]
    · right
      refine ⟨?_, g2⟩
      simp only [if_true, bind, Except.bind, g1]
  · rw [decide_eq_false hg]
    obtain ⟨mem, m1, m2⟩ := append_room h (by omega) x
    left
    refine ⟨_, ?_, m2⟩
    simp only [Bool.false_eq_true, if_false, bind, Except.bind, m1]

theorem clear_spec {a : Arr T} {xs : List T} (h : Rep a xs) :
    a.clear = .ok ⟨List.replicate a.cap .raw, 0, a.stack⟩ := by
  obtain ⟨k, h1, h2, h3⟩ := h
  have := destroyRange_spec (xs.map Cell.val) [] (List.replicate k .raw) (by
    intro c hc; obtain ⟨x, _, rfl⟩ := List.mem_map.1 hc; trivial)
  simp only [List.length_nil, List.nil_append, List.length_map] at this
  unfold Arr.clear
  rw [h1, h2, this]
  simp only [bind, Except.bind]
  rw [List.replicate_append_replicate]
  simp [Arr.cap, h1]

theorem rep_raw (n : Nat) (hn : n ≤ capacityMask) (st : Bool) : Rep (⟨List.replicate n .raw, 0, st⟩ : Arr T) [] :=
  ⟨n, by simp, rfl, by simpa using hn⟩

theorem pop_spec {a : Arr T} {xs : List T} (h : Rep a xs) (hne : xs ≠ []) : ∃ a', a.pop = .ok a' ∧ Rep a' xs.dropLast := by
  obtain ⟨k, h1, h2, h3⟩ := h
  rcases List.eq_nil_or_concat xs with rfl | ⟨xs, x, rfl⟩
  · exact absurd rfl hne
  · rw [List.concat_eq_append] at *
    have hd := destroy_mid (xs.map Cell.val) (List.replicate k .raw) (.val x) trivial
    rw [List.length_map] at hd
    refine ⟨⟨xs.map .val ++ .raw :: List.replicate k .raw, a.size - 1, a.stack⟩, ?_, k + 1, ?_, ?_, ?_⟩
    · have e1 : a.size - 1 = xs.length := by simp [h2]
      have e2 : a.mem = xs.map Cell.val ++ .val x :: List.replicate k .raw := by rw [h1]; simp
      unfold Arr.pop
      rw [if_neg (by simp [h2]), e1, e2, hd]
      rfl
    · simp [List.replicate_succ]
    · simp [h2]
    · rw [h1] at h3; simpa using h3

theorem erase_core {mem : Mem T} {xs : List T} {k : Nat} (hm : mem = xs.map .val ++ List.replicate k .raw) (i : Nat) (hi : i < xs.length) :
    ∃ j m, shiftDown (xs.length - 1 - i) i mem = .ok (j, m) ∧
      destroy m j = .ok ((xs.eraseIdx i).map .val ++ List.replicate (k + 1) .raw) := by
  have e1 : xs = xs.take i ++ xs[i] :: xs.drop (i + 1) := by simp
  have hlen : (xs.take i).length = i := by simp; omega
  have e2 : mem = (xs.take i).map .val ++ .val xs[i] :: ((xs.drop (i + 1)).map .val ++ List.replicate k .raw) := by
    rw [hm]; conv => lhs; rw [e1]
    rw [List.map_append, List.map_cons, List.append_assoc, List.cons_append]
  obtain ⟨c', hc', hs⟩ := shiftDown_spec (xs.drop (i + 1)) ((xs.take i).map Cell.val) (.val xs[i]) (List.replicate k .raw) trivial
  rw [← e2] at hs
  simp only [List.length_map, hlen, List.length_drop] at hs
  have e3 : xs.length - 1 - i = xs.length - (i + 1) := by omega
  have hd := destroy_mid ((xs.take i).map Cell.val ++ (xs.drop (i + 1)).map .val) (List.replicate k .raw) c' hc'
  simp only [List.length_append, List.length_map, hlen, List.length_drop] at hd
  refine ⟨_, _, by rw [e3]; exact hs, ?_⟩
  rw [hd, List.eraseIdx_eq_take_drop_succ, List.map_append, List.replicate_succ]

theorem eraseIndex_spec {a : Arr T} {xs : List T} (h : Rep a xs) (i : Nat) (hi : i < xs.length) :
    ∃ a', a.eraseIndex i = .ok a' ∧ Rep a' (xs.eraseIdx i) := by
  obtain ⟨k, h1, h2, h3⟩ := h
  obtain ⟨j, m, s1, s2⟩ := erase_core h1 i hi
  refine ⟨⟨(xs.eraseIdx i).map .val ++ List.replicate (k + 1) .raw, a.size - 1, a.stack⟩, ?_, k + 1, rfl, ?_, ?_⟩
  · unfold Arr.eraseIndex
    rw [if_pos (by omega), h2, s1]
    simp only [bind, Except.bind, s2]
  · simp only [h2, List.length_eraseIdx, hi, if_true]
  · rw [h1] at h3
    simp only [List.length_append, List.length_map, List.length_replicate, List.length_eraseIdx, hi, if_true] at h3 ⊢
    omega

theorem popFront_spec {a : Arr T} {xs : List T} (h : Rep a xs) (hne : xs ≠ []) : ∃ a', a.popFront = .ok a' ∧ Rep a' xs.tail := by
  have hi : 0 < xs.length := List.length_pos_iff.2 hne
  obtain ⟨a', e1, e2⟩ := eraseIndex_spec h 0 hi
  have hsz : a.size = xs.length := by obtain ⟨_, _, h2, _⟩ := h; exact h2
  refine ⟨a', ?_, by simpa using e2⟩
  rw [← e1]
  unfold Arr.popFront Arr.eraseIndex
  rw [if_neg (by omega), if_pos (by omega)]
  rfl

theorem setSize_spec (d : T) {a : Arr T} {xs : List T} (h : Rep a xs) (n : Nat) :
    (∃ a', a.setSize d n = .ok a' ∧ Rep a' (xs.take n ++ List.replicate (n - xs.length) d)) ∨
    (a.setSize d n = .error .limit ∧ TooBig n) := by
  have hsz : a.size = xs.length := by obtain ⟨_, _, h2, _⟩ := h; exact h2
  unfold Arr.setSize
  by_cases h1 : a.size = n
  · left
    rw [if_pos h1]
    refine ⟨a, rfl, ?_⟩
    rw [← h1, hsz]; simpa using h
  · rw [if_neg h1]
    by_cases h2 : n < a.size
    · left
      rw [if_pos h2]
      obtain ⟨k, m1, m2, m3⟩ := h
      have hd := destroyRange_spec ((xs.drop n).map Cell.val) ((xs.take n).map .val) (List.replicate k .raw) (by
        intro c hc; obtain ⟨x, _, rfl⟩ := List.mem_map.1 hc; trivial)
      rw [← List.map_append, List.take_append_drop, ← m1] at hd
      simp only [List.length_map, List.length_drop, List.length_take] at hd
      rw [Nat.min_eq_left (by omega), ← m2] at hd
      rw [hd]
      refine ⟨_, rfl, (a.size - n) + k, ?_, ?_, ?_⟩
      · rw [← List.replicate_append_replicate]
        have : n - xs.length = 0 := by omega
        simp [this]
      · simp; omega
      · rw [m1] at m3; simp at m3 ⊢; omega
    · rw [if_neg h2]
      have key : ∀ b : Arr T, Rep b xs → n ≤ b.cap →
          ∃ mem, fill d (n - b.size) b.size b.mem = .ok mem ∧ Rep ⟨mem, n, b.stack⟩ (xs.take n ++ List.replicate (n - xs.length) d) := by
        rintro b ⟨k, m1, m2, m3⟩ hc
        have hk : xs.length + k = b.cap := by unfold Arr.cap; rw [m1]; simp
        have hf := fill_spec d (n - b.size) (xs.map Cell.val) k (by omega)
        rw [List.length_map, ← m2, ← m1] at hf
        refine ⟨_, hf, k - (n - b.size), ?_, ?_, ?_⟩
        · rw [List.take_of_length_le (by omega), m2]; simp
        · simp; omega
        · rw [m1] at m3; simp at m3 ⊢; omega
      by_cases h3 : n > a.cap
      · rw [if_pos h3]
        rcases setCapacity_spec h n with ⟨b, e1, e2, e3⟩ | ⟨e1, e2⟩
        · left
          obtain ⟨mem, f1, f2⟩ := key b e2 (by omega)
          refine ⟨_, ?_, f2⟩
          simp only [bind, Except.bind, e1, f1]
        · right
          refine ⟨?_, e2⟩
          simp only [bind, Except.bind, e1]
      · rw [if_neg h3]
        left
        obtain ⟨mem, f1, f2⟩ := key a h (by omega)
        refine ⟨_, ?_, f2⟩
        simp only [bind, Except.bind, f1]

theorem appendAll_spec : ∀ (ys : List T) {a : Arr T} {xs : List T}, Rep a xs →
    (∃ a', a.appendAll ys = .ok a' ∧ Rep a' (xs ++ ys)) ∨ (a.appendAll ys = .error .limit)
  | [], a, xs, h => Or.inl ⟨a, rfl, by simpa using h⟩
  | y :: ys, a, xs, h => by
    rw [Arr.appendAll]
    rcases append_spec h y with ⟨b, e1, e2⟩ | ⟨e1, _⟩
    · rcases appendAll_spec ys e2 with ⟨c, f1, f2⟩ | f1
      · left
        refine ⟨c, ?_, by simpa using f2⟩
        simp only [bind, Except.bind, e1, f1]
      · right
        simp only [bind, Except.bind, e1, f1]
    · right
      simp only [bind, Except.bind, e1]

theorem find_spec [DecidableEq T] {a : Arr T} {xs : List T} (h : Rep a xs) (x : T) : a.find x = .ok (xs.findIdx? (· = x)) := by
  obtain ⟨k, m1, m2, _⟩ := h
  have := findFrom_spec x xs [] (List.replicate k .raw)
  simp only [List.nil_append, List.length_nil, Nat.add_zero] at this
  unfold Arr.find
  rw [m1, m2, this]
  simp

theorem findAndErase_spec [DecidableEq T] {a : Arr T} {xs : List T} (h : Rep a xs) (x : T) :
    ∃ a', a.findAndErase x = .ok (decide (x ∈ xs), a') ∧ Rep a' (xs.erase x) := by
  unfold Arr.findAndErase
  simp only [bind, Except.bind, find_spec h x]
  cases hf : xs.findIdx? (· = x) with
  | none =>
    have hn : x ∉ xs := by
      intro hm
      have := List.findIdx?_eq_none_iff.1 hf x hm
      simp at this
    refine ⟨a, by simp [hn], ?_⟩
    rw [List.erase_of_not_mem hn]; exact h
  | some i =>
    have hi := List.findIdx?_eq_some_iff_getElem.1 hf
    obtain ⟨hlt, hx, hb⟩ := hi
    have hx' : xs[i] = x := by simpa using hx
    obtain ⟨a', e1, e2⟩ := eraseIndex_spec h i hlt
    have hmem : x ∈ xs := hx' ▸ List.getElem_mem hlt
    refine ⟨a', by simp [e1, hmem], ?_⟩
    have : xs.erase x = xs.eraseIdx i := by
      rw [List.erase_eq_eraseIdx]
      have hidx : xs.idxOf? x = some i := by
        rw [List.idxOf?, ← hf]
        congr 1
      rw [hidx]
    rw [this]; exact e2

/-! ## C36 -/

/-- operations on one array -/
inductive Op (T : Type) where
  | append (x : T)
  | appendAll (xs : List T)
  | pop
  | popFront
  | eraseIndex (i : Nat)
  | findAndErase (x : T)
  | setCapacity (n : Nat)
  | setSize (n : Nat)
  | clear
  | destruct

/-- what they do to a list; `none` where the caller must not use them -/
def Op.spec [DecidableEq T] (d : T) : Op T → List T → Option (List T)
  | .append x, xs => some (xs ++ [x])
  | .appendAll ys, xs => some (xs ++ ys)
  | .pop, xs => if xs = [] then none else some xs.dropLast
  | .popFront, xs => if xs = [] then none else some xs.tail
  | .eraseIndex i, xs => if i < xs.length then some (xs.eraseIdx i) else none
  | .findAndErase x, xs => some (xs.erase x)
  | .setCapacity _, xs => some xs
  | .setSize n, xs => some (xs.take n ++ List.replicate (n - xs.length) d)
  | .clear, _ => some []
  | .destruct, _ => some []

def Op.run [DecidableEq T] (d : T) (a : Arr T) : Op T → Except Err (Arr T)
  | .append x => a.append (.ext x)
  | .appendAll ys => a.appendAll ys
  | .pop => a.pop
  | .popFront => a.popFront
  | .eraseIndex i => a.eraseIndex i
  | .findAndErase x => (a.findAndErase x).map (·.2)
  | .setCapacity n => a.setCapacity n
  | .setSize n => a.setSize d n
  | .clear => a.clear
  | .destruct => a.destruct

theorem destruct_spec {a : Arr T} {xs : List T} (h : Rep a xs) : a.destruct = .ok Arr.empty := by
  have := clear_spec h
  unfold Arr.clear at this
  unfold Arr.destruct
  cases hd : destroyRange a.size 0 a.mem with
  | error e => rw [hd] at this; simp [bind, Except.bind] at this
  | ok m =>
    rw [hd] at this
    simp only [bind, Except.bind, Except.ok.injEq, Arr.mk.injEq] at this
    simp only [bind, Except.bind, this.1, deallocate_raw]

/-- one step: the operation has the list semantics, or stops because the array would be too large, or the
caller broke a precondition -/
theorem step_spec [DecidableEq T] (d : T) {a : Arr T} {xs : List T} (h : Rep a xs) (op : Op T) :
    match op.spec d xs with
    | some ys => (∃ a', op.run d a = .ok a' ∧ Rep a' ys) ∨ op.run d a = .error .limit
    | none => op.run d a = .error .ub := by
  have hsz : a.size = xs.length := by obtain ⟨_, _, h2, _⟩ := h; exact h2
  have hmask : a.cap ≤ capacityMask := by obtain ⟨_, _, _, h3⟩ := h; exact h3
  cases op with
  | append x => rcases append_spec h x with h | h; exact Or.inl h; exact Or.inr h.1
  | appendAll ys => exact appendAll_spec ys h
  | pop =>
    by_cases hx : xs = []
    · simp [Op.spec, Op.run, hx, Arr.pop, hsz]
    · simp only [Op.spec, hx, if_false]; exact Or.inl (pop_spec h hx)
  | popFront =>
    by_cases hx : xs = []
    · simp [Op.spec, Op.run, hx, Arr.popFront, hsz]
    · simp only [Op.spec, hx, if_false]; exact Or.inl (popFront_spec h hx)
  | eraseIndex i =>
    by_cases hi : i < xs.length
    · simp only [Op.spec, hi, if_true]; exact Or.inl (eraseIndex_spec h i hi)
    · simp only [Op.spec, hi, if_false, Op.run, Arr.eraseIndex, hsz]
  | findAndErase x =>
    obtain ⟨a', e1, e2⟩ := findAndErase_spec h x
    exact Or.inl ⟨a', by simp [Op.run, e1, Except.map], e2⟩
  | setCapacity n =>
    rcases setCapacity_spec h n with ⟨b, e1, e2, _⟩ | ⟨e1, _⟩
    · exact Or.inl ⟨b, e1, e2⟩
    · exact Or.inr e1
  | setSize n => rcases setSize_spec d h n with h | h; exact Or.inl h; exact Or.inr h.1
  | clear => exact Or.inl ⟨_, clear_spec h, rep_raw _ hmask _⟩
  | destruct => exact Or.inl ⟨_, destruct_spec h, 0, rfl, rfl, Nat.zero_le _⟩

/-- several operations -/
def runAll [DecidableEq T] (d : T) : List (Op T) → Arr T → Except Err (Arr T)
  | [], a => .ok a
  | op :: ops, a => do
    let a ← op.run d a
    runAll d ops a

def specAll [DecidableEq T] (d : T) : List (Op T) → List T → Option (List T)
  | [], xs => some xs
  | op :: ops, xs => do
    let ys ← op.spec d xs
    specAll d ops ys

/-- C36. Every sequence of operations on an array that respects the preconditions (no removal from an empty
array, no removal behind the end) has exactly the list semantics: nothing outside the block and no object
that does not exist is accessed, no object is lost or destroyed twice, the size never exceeds the capacity;
the only other outcome is the assertion on the largest capacity. Holds for arrays on the heap and on the
stack. -/
theorem C36_refines [DecidableEq T] (d : T) (ops : List (Op T)) : ∀ (a : Arr T) (xs ys : List T), Rep a xs →
    specAll d ops xs = some ys →
    (∃ a', runAll d ops a = .ok a' ∧ Rep a' ys ∧ a'.size ≤ a'.cap) ∨ runAll d ops a = .error .limit := by
  induction ops with
  | nil =>
    intro a xs ys h hs
    cases hs
    have := h.cap
    obtain ⟨k, h1, h2, h3⟩ := h
    exact Or.inl ⟨a, rfl, ⟨k, h1, h2, h3⟩, by omega⟩
  | cons op ops ih =>
    intro a xs ys h hs
    rw [specAll] at hs
    have st := step_spec d h op
    cases hsp : op.spec d xs with
    | none => rw [hsp] at hs; cases hs
    | some zs =>
      rw [hsp] at hs st
      rw [runAll]
      rcases st with ⟨b, e1, e2⟩ | e1
      · have := ih b zs ys e2 hs
        simpa only [bind, Except.bind, e1] using this
      · right
        simp only [bind, Except.bind, e1]

/-- C36. Arrays start empty. -/
theorem C36_start (reserved : Nat) (h : reserved ≤ capacityMask) : Rep (Arr.empty : Arr T) [] ∧ Rep (Arr.onStack reserved : Arr T) [] :=
  ⟨⟨0, rfl, rfl, Nat.zero_le _⟩, rep_raw reserved h true⟩

/-- C36. Breaking a precondition is caught by an assertion. -/
theorem C36_precondition [DecidableEq T] (d : T) {a : Arr T} {xs : List T} (h : Rep a xs) (op : Op T) (hs : op.spec d xs = none) :
    op.run d a = .error .ub := by
  have := step_spec d h op
  rwa [hs] at this

/-- C36. The capacity assertion can only fail when more than 0x7FFFFFFF elements are asked for, or when an
array of at least 1431655764 elements grows by appending. -/
theorem C36_limit {a : Arr T} {xs : List T} (h : Rep a xs) (d x : T) (n : Nat) :
    (a.append (.ext x) = .error .limit → 1431655764 ≤ a.cap) ∧
    (a.setCapacity n = .error .limit → 0x7FFFFFFF < n) ∧ (a.setSize d n = .error .limit → 0x7FFFFFFF < n) := by
  refine ⟨fun he => ?_, fun he => ?_, fun he => ?_⟩
  · rcases append_spec h x with ⟨_, e, _⟩ | ⟨_, e⟩
    · rw [he] at e; cases e
    · unfold TooBig capacityMask at e; omega
  · rcases setCapacity_spec h n with ⟨_, e, _⟩ | ⟨_, e⟩
    · rw [he] at e; cases e
    · exact e
  · rcases setSize_spec d h n with ⟨_, e, _⟩ | ⟨_, e⟩
    · rw [he] at e; cases e
    · exact e

/-- C36. Copying, moving and swapping: the target has the source's elements; a moved-from array is empty.
Memory on the stack is never exchanged. -/
theorem C36_two {a b : Arr T} {xs ys : List T} (ha : Rep a xs) (hb : Rep b ys) :
    (∃ a', a.copyAssign b = .ok a' ∧ Rep a' ys) ∧
    (∃ a' b', a.moveAssign b = .ok (a', b') ∧ Rep a' ys ∧ Rep b' []) ∧
    (a.stack = false → b.stack = false → ∃ a' b', a.swap b = .ok (a', b') ∧ Rep a' ys ∧ Rep b' xs) ∧
    (a.stack = true ∨ b.stack = true → a.swap b = .error .ub) := by
  have hclear := clear_spec ha
  have hmask : a.cap ≤ capacityMask := by obtain ⟨_, _, _, h3⟩ := ha; exact h3
  have hempty : Rep (Arr.empty : Arr T) [] := ⟨0, rfl, rfl, Nat.zero_le _⟩
  obtain ⟨k, m1, m2, m3⟩ := hb
  have hbm : b.size ≤ capacityMask := by rw [m1] at m3; simp at m3; omega
  -- the block that receives the elements
  have room : ∃ n st, b.size ≤ n ∧ n ≤ capacityMask ∧
      (⟨List.replicate a.cap .raw, 0, a.stack⟩ : Arr T).makeRoom b.size = .ok ⟨List.replicate n .raw, 0, st⟩ := by
    by_cases hc : a.cap < b.size
    · refine ⟨b.size, false, Nat.le_refl _, hbm, ?_⟩
      rw [Arr.makeRoom, if_pos (by simpa [Arr.cap] using hc)]
      simp only [deallocate_raw, bind, Except.bind, allocate, hbm, if_true]
    · refine ⟨a.cap, a.stack, by omega, hmask, ?_⟩
      rw [Arr.makeRoom, if_neg (by simpa [Arr.cap] using hc)]
  obtain ⟨n, st, hn1, hn2, hroom⟩ := room
  refine ⟨?_, ?_, ?_, ?_⟩
  · have hcopy := copyLoop_spec ys [] (List.replicate k .raw) n (by omega)
    simp only [List.nil_append, List.length_nil, List.map_nil] at hcopy
    refine ⟨⟨ys.map .val ++ List.replicate (n - ys.length) .raw, b.size, st⟩, ?_, _, rfl, m2, by simp; omega⟩
    unfold Arr.copyAssign
    rw [hclear]
    simp only [bind, Except.bind]
    rw [hroom]
    simp only [m1, m2, hcopy]
  · unfold Arr.moveAssign
    rw [hclear]
    by_cases hst : b.stack = true
    · have hmove := moveLoop_spec ys [] (List.replicate k .raw) n (by omega)
      simp only [List.length_nil, List.replicate_zero, List.nil_append, List.map_nil, Nat.zero_add] at hmove
      have hd := destroyRange_spec (List.replicate ys.length (Cell.moved : Cell T)) [] (List.replicate k .raw) (by
        intro c hc; rw [List.eq_of_mem_replicate hc]; trivial)
      simp only [List.length_replicate, List.length_nil, List.nil_append] at hd
      refine ⟨⟨ys.map .val ++ List.replicate (n - ys.length) .raw, b.size, st⟩, Arr.empty, ?_, ⟨_, rfl, m2, by simp; omega⟩, hempty⟩
      simp only [bind, Except.bind, hst, if_true]
      rw [hroom]
      simp only [m1, m2, hmove, Arr.destruct, bind, Except.bind, hd]
      rw [List.replicate_append_replicate, deallocate_raw]
    · refine ⟨b, Arr.empty, ?_, ⟨k, m1, m2, m3⟩, hempty⟩
      simp only [bind, Except.bind, hst, Bool.false_eq_true, if_false]
      have hdes := destruct_spec (rep_raw (T := T) a.cap hmask a.stack)
      by_cases hsa : a.stack = false
      · rw [if_pos hsa, hdes]
      · rw [if_neg hsa]
  · intro h1 h2
    refine ⟨b, a, ?_, ⟨k, m1, m2, m3⟩, ha⟩
    simp [Arr.swap, h1, h2]
  · intro h
    cases h1 : a.stack <;> cases h2 : b.stack <;> simp_all [Arr.swap]

/-- Finding: appending one of the array's own elements by reference works while there is room, but reads a
destroyed element when the array has to grow. -/
theorem C36_append_own {a : Arr T} {xs : List T} (h : Rep a xs) (i : Nat) (hi : i < xs.length) :
    (a.size < a.cap → ∃ a', a.append (.own i) = .ok a' ∧ Rep a' (xs ++ [xs[i]])) ∧
    (a.size = a.cap → a.cap + a.cap / 2 + 1 ≤ capacityMask → a.append (.own i) = .error .ub) := by
  have hsz : a.size = xs.length := by obtain ⟨_, _, h2, _⟩ := h; exact h2
  constructor
  · intro hr
    have hread : readCell a.mem i = .ok xs[i] := by
      obtain ⟨k, m1, _, _⟩ := h
      rw [readCell, m1, List.getElem?_append_left (by simpa using hi)]
      simp [hi]
    obtain ⟨mem, e1, e2⟩ := append_room h hr xs[i]
    refine ⟨_, ?_, e2⟩
    unfold Arr.append
    rw [decide_eq_false (by omega)]
    simp only [Bool.false_eq_true, if_false, bind, Except.bind, hread, e1]
  · intro hr hm
    rcases grow_spec h with ⟨b, g1, _⟩ | ⟨_, g2⟩
    · unfold Arr.append
      rw [decide_eq_true hr]
      simp only [if_true, bind, Except.bind, g1]
    · unfold TooBig at g2; omega

example : specAll 0 [.append 1, .append 2, .appendAll [3, 4, 2], .eraseIndex 0, .findAndErase 2, .setSize 5, .pop, .popFront] [] = some [4, 2, 0] ∧
    (runAll 0 [.append 1, .append 2, .appendAll [3, 4, 2], .eraseIndex 0, .findAndErase 2, .setSize 5, .pop, .popFront] (Arr.onStack 2)).toOption.map
      (fun a => (a.mem.take a.size, a.size, a.stack)) = some ([.val 4, .val 2, .val 0], 3, false) := by
  decide

end Verif.Cont
