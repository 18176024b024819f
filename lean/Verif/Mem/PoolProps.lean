import Verif.Mem.PoolModel
/-! Property C33: the pool never hands out overlapping memory. -/
namespace Verif.Mem

/-! ## words in memory -/

theorem store_out (h : Heap) : ∀ (n p v a : Nat), (a < p ∨ p + n ≤ a) → store h p v n a = h a := by
  intro n
  induction n generalizing h with
  | zero => intro p v a _; rfl
  | succ n ih =>
    intro p v a ha
    rw [store, ih _ _ _ _ (by omega)]
    exact if_neg (by omega)

theorem load_congr (h h' : Heap) : ∀ (n p : Nat), (∀ a, p ≤ a → a < p + n → h a = h' a) → load h p n = load h' p n := by
  intro n
  induction n with
  | zero => intro p _; rfl
  | succ n ih =>
    intro p ha
    rw [load, load, ih (p + 1) (fun a h1 h2 => ha a (by omega) (by omega)), ha p (Nat.le_refl _) (by omega)]

theorem load_store : ∀ (n : Nat) (h : Heap) (p v : Nat), v < 256 ^ n → load (store h p v n) p n = v := by
  intro n
  induction n with
  | zero => intro h p v hv; simp at hv; simp [load, hv]
  | succ n ih =>
    intro h p v hv
    rw [load, store, ih _ _ _ (by rw [Nat.pow_succ] at hv; omega), store_out _ _ _ _ _ (by omega), if_pos rfl]
    omega

theorem getNext_setNext (h : Heap) (b v : Nat) (hv : v < 2 ^ 64) : getNext (setNext h b v) b = v :=
  load_store 8 h b v (by simpa using hv)

theorem getNext_frame (h h' : Heap) (b : Nat) (hf : ∀ a, b ≤ a → a < b + 8 → h a = h' a) : getNext h b = getNext h' b :=
  load_congr h h' 8 b hf

theorem setNext_out (h : Heap) (b v a : Nat) (ha : a < b ∨ b + 8 ≤ a) : setNext h b v a = h a := store_out h 8 b v a ha

/-! ## rounding up -/

theorem and_not_mask (x : BitVec 64) (k : Nat) : x &&& ~~~(BitVec.ofNat 64 (2 ^ k) - 1) = BitVec.ofNat 64 (x.toNat / 2 ^ k * 2 ^ k) := by
  by_cases hk : k < 64
  · have hlt : 2 ^ k < 2 ^ 64 := Nat.pow_lt_pow_right (by omega) hk
    have hpos : 0 < 2 ^ k := Nat.two_pow_pos k
    have e1 : BitVec.ofNat 64 (2 ^ k) - 1 = BitVec.ofNat 64 (2 ^ k - 1) := by
      apply BitVec.eq_of_toNat_eq
      rw [BitVec.toNat_sub, BitVec.toNat_ofNat, BitVec.toNat_ofNat, Nat.mod_eq_of_lt hlt, Nat.mod_eq_of_lt (a := 2 ^ k - 1) (by omega)]
      show (2 ^ 64 - 1 + 2 ^ k) % 2 ^ 64 = 2 ^ k - 1
      have : 2 ^ 64 - 1 + 2 ^ k = 2 ^ 64 + (2 ^ k - 1) := by omega
      rw [this, Nat.add_mod_left, Nat.mod_eq_of_lt (by omega)]
    rw [e1]
    apply BitVec.eq_of_getLsbD_eq
    intro i hi
    rw [BitVec.getLsbD_and, BitVec.getLsbD_not, BitVec.getLsbD_ofNat, BitVec.getLsbD_ofNat, Nat.testBit_two_pow_sub_one]
    rw [← Nat.shiftRight_eq_div_pow, ← Nat.shiftLeft_eq, Nat.testBit_shiftLeft, Nat.testBit_shiftRight]
    by_cases h1 : i < k
    · have : ¬ k ≤ i := by omega
      simp [h1, hi, this]
    · have h2 : k ≤ i := by omega
      have h3 : k + (i - k) = i := by omega
      simp [h1, hi, h2, h3, BitVec.getLsbD]
  · have h0 : BitVec.ofNat 64 (2 ^ k) = 0 := by
      apply BitVec.eq_of_toNat_eq
      rw [BitVec.toNat_ofNat]
      have : 2 ^ k = 2 ^ 64 * 2 ^ (k - 64) := by rw [← Nat.pow_add]; congr 1; omega
      rw [this, Nat.mul_mod_right]; rfl
    have hx : x.toNat / 2 ^ k = 0 := by
      apply Nat.div_eq_of_lt
      exact Nat.lt_of_lt_of_le x.isLt (Nat.pow_le_pow_right (by omega) (by omega))
    rw [h0, hx]
    simp

/-- the smallest multiple of `al` that is not smaller than `v` -/
theorem roundUp_spec (v k : Nat) (hk : k ≤ 16) (hv : v ≤ 65536) :
    ∃ r, (roundUp (BitVec.ofNat 64 v) (BitVec.ofNat 64 (2 ^ k))).toNat = r * 2 ^ k ∧ v ≤ r * 2 ^ k ∧ r * 2 ^ k < v + 2 ^ k := by
  have hp : 2 ^ k ≤ 2 ^ 16 := Nat.pow_le_pow_right (by omega) hk
  have hpos : 0 < 2 ^ k := Nat.two_pow_pos k
  generalize hal : 2 ^ k = al at *
  have e1 : (BitVec.ofNat 64 v + BitVec.ofNat 64 al - 1).toNat = v + al - 1 := by
    rw [BitVec.toNat_sub, BitVec.toNat_add, BitVec.toNat_ofNat, BitVec.toNat_ofNat]
    rw [Nat.mod_eq_of_lt (a := v) (by omega), Nat.mod_eq_of_lt (a := al) (by omega), Nat.mod_eq_of_lt (a := v + al) (by omega)]
    show (2 ^ 64 - 1 + (v + al)) % 2 ^ 64 = v + al - 1
    omega
  refine ⟨(v + al - 1) / al, ?_, ?_, ?_⟩
  · rw [roundUp, ← hal, and_not_mask, hal, e1, BitVec.toNat_ofNat]
    apply Nat.mod_eq_of_lt
    have := Nat.div_mul_le_self (v + al - 1) al
    omega
  · have := Nat.div_add_mod (v + al - 1) al
    have := Nat.mod_lt (v + al - 1) hpos
    have := Nat.mul_comm al ((v + al - 1) / al)
    omega
  · have := Nat.div_mul_le_self (v + al - 1) al
    omega

/-! ## specification -/

/-- a configuration for which the constructor's assertions hold; alignments are powers of two -/
structure Config.Ok (c : Config) : Prop where
  check : c.check = true
  pow : ∃ k, c.alignment = 2 ^ k

theorem Config.Ok.sizes {c : Config} (h : c.Ok) : 8 ≤ c.blockSize ∧ c.blockSize ≤ c.alignedSize ∧ c.alignedSize ≤ 65536 ∧
    c.alignedSize % c.alignment = 0 ∧ 1 ≤ c.numBlocks ∧ c.numBlocks * c.alignedSize ≤ 65536 := by
  obtain ⟨h1, k, h2⟩ := h
  simp only [Config.check, Bool.and_eq_true, decide_eq_true_eq] at h1
  obtain ⟨⟨⟨a1, a2⟩, a3⟩, a4⟩ := h1
  have hps : pageSize = 65536 := rfl
  rw [hps] at a2 a4
  have hk : k ≤ 16 := by
    apply Nat.le_of_not_lt
    intro hlt
    have : 2 ^ 17 ≤ 2 ^ k := Nat.pow_le_pow_right (by omega) hlt
    omega
  obtain ⟨r, r1, r2, r3⟩ := roundUp_spec c.blockSize k hk (by omega)
  have e : c.alignedSize = r * c.alignment := by rw [Config.alignedSize, h2, r1]
  rw [← h2] at r2 r3
  have hdvd : c.alignment ∣ 65536 := by
    have e16 : k + (16 - k) = 16 := by omega
    have e17 : 2 ^ k * 2 ^ (16 - k) = 65536 := by rw [← Nat.pow_add, e16]
    rw [h2]; exact ⟨2 ^ (16 - k), e17.symm⟩
  have hle : r * c.alignment ≤ 65536 := by
    obtain ⟨m, hm⟩ := hdvd
    rw [Nat.mul_comm r]
    rw [hm] at a2 ⊢
    apply Nat.mul_le_mul_left
    apply Nat.le_of_not_lt
    intro hlt
    have h5 : c.alignment * (m + 1) ≤ c.alignment * r := Nat.mul_le_mul_left _ hlt
    rw [Nat.mul_succ] at h5
    rw [Nat.mul_comm] at r3
    omega
  refine ⟨a1, by omega, by omega, by rw [e]; exact Nat.mul_mod_left _ _, ?_, ?_⟩
  · rw [Config.numBlocks]
    exact Nat.div_pos (by show c.alignedSize ≤ pageSize; unfold pageSize; omega) (by omega)
  · rw [Config.numBlocks]; exact Nat.div_mul_le_self pageSize _

/-- all blocks of a page -/
def blocksOf (c : Config) (page : Nat) : List Nat := (List.range c.numBlocks).map fun i => page + i * c.alignedSize

/-- all blocks of some pages -/
def allBlocks (c : Config) (pages : List Nat) : List Nat := pages.flatMap (blocksOf c)

/-- memory ranges of the given size do not overlap -/
def Apart (n x y : Nat) : Prop := x + n ≤ y ∨ y + n ≤ x

/-- pages as the system hands them out -/
structure PagesOk (c : Config) (pages : List Nat) : Prop where
  apart : pages.Pairwise (Apart pageSize)
  valid : ∀ p ∈ pages, p % c.alignment = 0 ∧ 0 < p ∧ p + pageSize ≤ 2 ^ 64

/-- the free list stored in memory -/
def Chain (h : Heap) : Nat → List Nat → Prop
  | p, [] => p = 0
  | p, b :: bs => p = b ∧ b ≠ 0 ∧ Chain h (getNext h b) bs

/-- the pool state: `live` blocks are handed out, everything else on the pages is on the free list -/
structure Inv (c : Config) (pages live : List Nat) (h : Heap) (s : Pool) : Prop where
  pagesOk : PagesOk c pages
  chain : ∃ free, Chain h s.chain free ∧ (live ++ free).Perm (allBlocks c pages)
  active : s.active = live.length

/-! ## blocks of pages -/

theorem mem_blocksOf {c : Config} {page b : Nat} : b ∈ blocksOf c page ↔ ∃ i, i < c.numBlocks ∧ b = page + i * c.alignedSize := by
  simp only [blocksOf, List.mem_map, List.mem_range]
  constructor
  · rintro ⟨i, h1, rfl⟩; exact ⟨i, h1, rfl⟩
  · rintro ⟨i, h1, rfl⟩; exact ⟨i, h1, rfl⟩

theorem mem_block_range {c : Config} (hc : c.Ok) {page b : Nat} (hb : b ∈ blocksOf c page) :
    page ≤ b ∧ b + c.alignedSize ≤ page + pageSize := by
  obtain ⟨i, hi, rfl⟩ := mem_blocksOf.1 hb
  have := hc.sizes
  have h1 : (i + 1) * c.alignedSize ≤ c.numBlocks * c.alignedSize := Nat.mul_le_mul_right _ hi
  rw [Nat.succ_mul] at h1
  unfold pageSize
  omega

theorem blocksOf_apart {c : Config} (page : Nat) : (blocksOf c page).Pairwise (Apart c.alignedSize) := by
  rw [blocksOf, List.pairwise_map]
  apply List.Pairwise.imp (R := (· < ·)) _ (List.pairwise_lt_range)
  intro i j hij
  left
  have h1 : (i + 1) * c.alignedSize ≤ j * c.alignedSize := Nat.mul_le_mul_right _ hij
  rw [Nat.succ_mul] at h1
  omega

theorem allBlocks_apart {c : Config} (hc : c.Ok) {pages : List Nat} (hp : pages.Pairwise (Apart pageSize)) :
    (allBlocks c pages).Pairwise (Apart c.alignedSize) := by
  unfold allBlocks
  induction pages with
  | nil => simp
  | cons p ps ih =>
    rw [List.flatMap_cons, List.pairwise_append]
    rw [List.pairwise_cons] at hp
    refine ⟨blocksOf_apart p, ih hp.2, ?_⟩
    intro x hx y hy
    obtain ⟨q, hq, hy⟩ := List.mem_flatMap.1 hy
    have h1 := mem_block_range hc hx
    have h2 := mem_block_range hc hy
    rcases hp.1 q hq with h | h
    · left; omega
    · right; omega

theorem allBlocks_mem {c : Config} (hc : c.Ok) {pages : List Nat} (hp : PagesOk c pages) {b : Nat} (hb : b ∈ allBlocks c pages) :
    b ≠ 0 ∧ b + c.alignedSize ≤ 2 ^ 64 ∧ b % c.alignment = 0 ∧ ∃ p ∈ pages, p ≤ b ∧ b + c.alignedSize ≤ p + pageSize := by
  obtain ⟨p, hp1, hb⟩ := List.mem_flatMap.1 hb
  have h1 := mem_block_range hc hb
  have h2 := hp.valid p hp1
  obtain ⟨i, hi, rfl⟩ := mem_blocksOf.1 hb
  refine ⟨by omega, by omega, ?_, p, hp1, h1⟩
  rw [Nat.add_mod, h2.1, Nat.mul_mod, hc.sizes.2.2.2.1]
  simp

theorem apart_symm (n : Nat) : ∀ {x y : Nat}, Apart n x y → Apart n y x := fun h => h.elim Or.inr Or.inl

theorem Inv.apart {c : Config} (hc : c.Ok) {pages live : List Nat} {free : List Nat} (hp : PagesOk c pages)
    (hperm : (live ++ free).Perm (allBlocks c pages)) : (live ++ free).Pairwise (Apart c.alignedSize) :=
  (hperm.pairwise_iff (apart_symm _)).2 (allBlocks_apart hc hp.apart)

/-! ## the chain -/

theorem Chain.frame {h h' : Heap} : ∀ {p : Nat} {l : List Nat}, Chain h p l → (∀ b ∈ l, getNext h b = getNext h' b) → Chain h' p l
  | _, [], hc, _ => hc
  | p, b :: bs, hc, hf => by
    obtain ⟨h1, h2, h3⟩ := hc
    refine ⟨h1, h2, ?_⟩
    rw [hf b (by simp)] at h3
    exact Chain.frame h3 (fun x hx => hf x (by simp [hx]))

theorem buildChain_spec (sz : Nat) (hsz : 8 ≤ sz) : ∀ (n : Nat) (h : Heap) (b : Nat), b + (n + 1) * sz ≤ 2 ^ 64 →
    (buildChain sz n h b).2 = b + n * sz ∧
    (∀ i, i < n → getNext (buildChain sz n h b).1 (b + i * sz) = b + (i + 1) * sz) ∧
    (∀ a, (a < b ∨ b + n * sz ≤ a) → (buildChain sz n h b).1 a = h a) := by
  intro n
  induction n with
  | zero => intro h b _; exact ⟨by simp [buildChain], fun i hi => absurd hi (by omega), fun a _ => rfl⟩
  | succ n ih =>
    intro h b hb
    rw [buildChain]
    have e : (n + 1 + 1) * sz = sz + (n + 1) * sz := by rw [Nat.succ_mul (n + 1)]; omega
    have e' : (n + 1) * sz = sz + n * sz := by rw [Nat.succ_mul]; omega
    obtain ⟨h1, h2, h3⟩ := ih (setNext h b (b + sz)) (b + sz) (by omega)
    refine ⟨by rw [h1]; omega, ?_, ?_⟩
    · intro i hi
      cases i with
      | zero =>
        rw [getNext_frame _ (setNext h b (b + sz)) _ (fun a ha1 ha2 => h3 a (by omega))]
        rw [Nat.zero_mul, Nat.add_zero, getNext_setNext _ _ _ (by omega)]
        omega
      | succ j =>
        have h4 := h2 j (by omega)
        have e2 : b + (j + 1) * sz = b + sz + j * sz := by rw [Nat.succ_mul]; omega
        have e3 : b + (j + 1 + 1) * sz = b + sz + (j + 1) * sz := by rw [Nat.succ_mul (j + 1)]; omega
        rw [e2, e3]; exact h4
    · intro a ha
      rw [h3 a (by omega), setNext_out _ _ _ _ (by omega)]

theorem chain_of_links (sz : Nat) (h : Heap) (last : Nat) (rest : List Nat) : ∀ (n b : Nat), 0 < b →
    (∀ i, i < n → getNext h (b + i * sz) = b + (i + 1) * sz) → getNext h (b + n * sz) = last → Chain h last rest →
    Chain h b ((List.range (n + 1)).map (fun i => b + i * sz) ++ rest) := by
  intro n
  induction n with
  | zero =>
    intro b hb _ h2 h3
    simp only [Nat.zero_mul, Nat.add_zero] at h2
    simp only [Nat.zero_add, List.range_one, List.map_cons, List.map_nil, Nat.zero_mul, Nat.add_zero, List.singleton_append]
    exact ⟨rfl, by omega, by rw [h2]; exact h3⟩
  | succ n ih =>
    intro b hb h1 h2 h3
    have e : ∀ i, b + sz + i * sz = b + (i + 1) * sz := by intro i; rw [Nat.succ_mul]; omega
    have := ih (b + sz) (by omega) (fun i hi => by rw [e, e]; exact h1 (i + 1) (by omega)) (by rw [e]; exact h2) h3
    rw [List.range_succ_eq_map, List.map_cons, List.map_map, List.cons_append]
    refine ⟨by omega, by omega, ?_⟩
    have h0 := h1 0 (by omega)
    simp only [Nat.zero_mul, Nat.add_zero, Nat.zero_add, Nat.one_mul] at h0
    simp only [Nat.zero_mul, Nat.add_zero]
    rw [h0]
    have e4 : (fun i => b + sz + i * sz) = (fun i => b + i * sz) ∘ Nat.succ := by
      funext i; exact e i
    rw [← e4]
    exact this

/-! ## operations -/

theorem allocPage_spec {c : Config} (hc : c.Ok) {pages live : List Nat} {h : Heap} {s : Pool} (hi : Inv c pages live h s)
    (h0 : s.chain = 0) (p : Nat) (hp : PagesOk c (pages ++ [p])) :
    ∃ h', s.allocPage c h (some p) = .ok (h', ⟨p, s.active⟩, true) ∧ Inv c (pages ++ [p]) live h' ⟨p, s.active⟩ ∧
      (∀ a, (a < p ∨ p + pageSize ≤ a) → h' a = h a) ∧ live.Perm (allBlocks c pages) := by
  obtain ⟨hpages, ⟨free, hch, hperm⟩, hact⟩ := hi
  obtain ⟨z1, z2, z3, z4, z5, z6⟩ := hc.sizes
  have hpv := hp.valid p (by simp)
  have hfree : free = [] := by
    cases free with
    | nil => rfl
    | cons b bs => exact absurd (hch.1.symm.trans h0) hch.2.1
  subst hfree
  rw [List.append_nil] at hperm
  obtain ⟨m, hm⟩ : ∃ m, c.numBlocks = m + 1 := ⟨c.numBlocks - 1, by omega⟩
  have hsz : (m + 1) * c.alignedSize ≤ 65536 := by rw [← hm]; exact z6
  have hps : pageSize = 65536 := rfl
  obtain ⟨b1, b2, b3⟩ := buildChain_spec c.alignedSize (by omega) m h p (by omega)
  have hsz2 : (m + 1) * c.alignedSize = m * c.alignedSize + c.alignedSize := Nat.succ_mul _ _
  refine ⟨setNext (buildChain c.alignedSize m h p).1 (p + m * c.alignedSize) s.chain, ?_, ⟨hp, ⟨blocksOf c p, ?_, ?_⟩, hact⟩, ?_, hperm⟩
  · rw [Pool.allocPage]
    rw [if_neg (by simp [hpv.1])]
    simp only [hm, Nat.add_sub_cancel, b1]
  · have := chain_of_links c.alignedSize (setNext (buildChain c.alignedSize m h p).1 (p + m * c.alignedSize) s.chain) 0 [] m p (by omega)
      (fun i hi => by
        rw [← b2 i hi]
        apply getNext_frame
        intro a ha1 ha2
        apply setNext_out
        left
        have h9 : (i + 1) * c.alignedSize ≤ m * c.alignedSize := Nat.mul_le_mul_right _ hi
        rw [Nat.succ_mul] at h9
        omega)
      (by rw [getNext_setNext _ _ _ (by omega)]; exact h0) rfl
    rw [List.append_nil] at this
    rw [blocksOf, hm]
    exact this
  · simp only [allBlocks, List.flatMap_append, List.flatMap_cons, List.flatMap_nil, List.append_nil]
    exact List.Perm.append_right _ hperm
  · intro a ha
    rw [setNext_out _ _ _ _ (by omega), b3 a (by omega)]

theorem take_spec {c : Config} (hc : c.Ok) {pages live : List Nat} {h : Heap} {s : Pool} (hi : Inv c pages live h s)
    (h0 : s.chain ≠ 0) : s.chain ∉ live ∧ Inv c pages (s.chain :: live) h (s.take h).1 := by
  obtain ⟨hpages, ⟨free, hch, hperm⟩, hact⟩ := hi
  cases free with
  | nil => exact absurd hch h0
  | cons b bs =>
    obtain ⟨h1, h2, h3⟩ := hch
    have hap := Inv.apart hc hpages hperm
    rw [h1]
    refine ⟨?_, hpages, ⟨bs, ?_, ?_⟩, ?_⟩
    · intro hm
      have := (List.pairwise_append.1 hap).2.2 b hm b (by simp)
      obtain ⟨z1, z2, _⟩ := hc.sizes
      rcases this with h | h <;> omega
    · simp only [Pool.take, h1]; exact h3
    · exact List.Perm.trans List.perm_middle.symm hperm
    · simp [Pool.take, hact]

/-- `Alloc`: succeeds with a new block unless there is no memory for a page; a page is only requested when
every block is in use; nothing outside the free blocks and the new page is changed. -/
theorem alloc_spec {c : Config} (hc : c.Ok) {pages live : List Nat} {h : Heap} {s : Pool} (hi : Inv c pages live h s)
    (page : Option Nat) (hp : ∀ p, page = some p → PagesOk c (pages ++ [p])) :
    (s.chain ≠ 0 → ∃ s' b, s.alloc c h page = .ok (h, s', b) ∧ b ∉ live ∧ b ≠ 0 ∧ Inv c pages (b :: live) h s') ∧
    (s.chain = 0 → live.Perm (allBlocks c pages)) ∧
    (s.chain = 0 → page = none → s.alloc c h page = .ok (h, s, 0)) ∧
    (s.chain = 0 → ∀ p, page = some p → ∃ h' s', s.alloc c h page = .ok (h', s', p) ∧ p ∉ live ∧ p ≠ 0 ∧
      Inv c (pages ++ [p]) (p :: live) h' s' ∧ (∀ a, (a < p ∨ p + pageSize ≤ a) → h' a = h a)) := by
  refine ⟨?_, ?_, ?_, ?_⟩
  · intro h0
    obtain ⟨h1, h2⟩ := take_spec hc hi h0
    refine ⟨_, _, ?_, h1, h0, h2⟩
    rw [Pool.alloc, if_neg h0]; rfl
  · intro h0
    obtain ⟨hpages, ⟨free, hch, hperm⟩, hact⟩ := hi
    cases free with
    | nil => rwa [List.append_nil] at hperm
    | cons b bs => exact absurd (hch.1.symm.trans h0) hch.2.1
  · intro h0 hn
    subst hn
    rw [Pool.alloc, if_pos h0]; rfl
  · intro h0 p hpp
    subst hpp
    obtain ⟨h', e1, e2, e3, e4⟩ := allocPage_spec hc hi h0 p (hp p rfl)
    have hpne : p ≠ 0 := by have := (hp p rfl).valid p (by simp); omega
    obtain ⟨h1, h2⟩ := take_spec hc e2 hpne
    refine ⟨h', _, ?_, h1, hpne, h2, e3⟩
    rw [Pool.alloc, if_pos h0, e1]
    simp only [hpne, if_false]
    rfl

theorem live_block {c : Config} (hc : c.Ok) {pages live : List Nat} {h : Heap} {s : Pool} (hi : Inv c pages live h s) {b : Nat} (hb : b ∈ live) :
    b ∈ allBlocks c pages := by
  obtain ⟨hpages, ⟨free, hch, hperm⟩, hact⟩ := hi
  exact hperm.subset (List.mem_append_left _ hb)

theorem free_spec {c : Config} (hc : c.Ok) {pages live : List Nat} {h : Heap} {s : Pool} (hi : Inv c pages live h s)
    {b : Nat} (hb : b ∈ live) : ∃ h' s', s.free h b = .ok (h', s') ∧ Inv c pages (live.erase b) h' s' ∧
      (∀ a, (a < b ∨ b + c.blockSize ≤ a) → h' a = h a) := by
  have hblk := live_block hc hi hb
  obtain ⟨hpages, ⟨free, hch, hperm⟩, hact⟩ := hi
  have hap := Inv.apart hc hpages hperm
  obtain ⟨z1, z2, z3, z4, z5, z6⟩ := hc.sizes
  have hbv := allBlocks_mem hc hpages hblk
  have hpos := List.length_pos_of_mem hb
  have hchain : s.chain < 2 ^ 64 := by
    cases free with
    | nil => rw [hch]; omega
    | cons x xs =>
      have := allBlocks_mem hc hpages (hperm.subset (List.mem_append_right _ (List.mem_cons_self ..)) : x ∈ _)
      rw [hch.1]; omega
  refine ⟨setNext h b s.chain, ⟨b, s.active - 1⟩, ?_, ⟨hpages, ⟨b :: free, ⟨rfl, hbv.1, ?_⟩, ?_⟩, ?_⟩, ?_⟩
  · rw [Pool.free, if_neg (by omega)]
  · rw [getNext_setNext _ _ _ hchain]
    apply Chain.frame hch
    intro x hx
    apply getNext_frame
    intro a ha1 ha2
    rw [setNext_out]
    have := (List.pairwise_append.1 hap).2.2 b hb x hx
    rcases this with h | h <;> omega
  · refine List.Perm.trans List.perm_middle ?_
    rw [← List.cons_append]
    exact (List.Perm.append_right _ (List.perm_cons_erase hb).symm).trans hperm
  · simp [List.length_erase_of_mem hb, hact]
  · intro a ha
    exact setNext_out _ _ _ _ (by omega)

/-- user code may write to its blocks and to memory that is not the pool's -/
theorem write_spec {c : Config} (hc : c.Ok) {pages live : List Nat} {h h' : Heap} {s : Pool} (hi : Inv c pages live h s)
    (hw : ∀ p ∈ pages, ∀ a, p ≤ a → a < p + pageSize → (∀ b ∈ live, a < b ∨ b + c.blockSize ≤ a) → h' a = h a) : Inv c pages live h' s := by
  obtain ⟨hpages, ⟨free, hch, hperm⟩, hact⟩ := hi
  have hap := Inv.apart hc hpages hperm
  obtain ⟨z1, z2, z3, z4, z5, z6⟩ := hc.sizes
  refine ⟨hpages, ⟨free, ?_, hperm⟩, hact⟩
  apply Chain.frame hch
  intro x hx
  apply getNext_frame
  intro a ha1 ha2
  obtain ⟨_, _, _, p, hp1, hp2, hp3⟩ := allBlocks_mem hc hpages (hperm.subset (List.mem_append_right _ hx))
  refine (hw p hp1 a (by omega) (by omega) ?_).symm
  intro b hb
  have := (List.pairwise_append.1 hap).2.2 b hb x hx
  rcases this with h | h
  · right; omega
  · left; omega

/-! ## C33 -/

/-- the world: memory, pool, pages obtained so far, blocks handed out -/
structure World where
  heap : Heap
  pool : Pool
  pages : List Nat
  live : List Nat

def World.init (h : Heap) : World := ⟨h, Pool.init, [], []⟩

/-- What may happen: allocation (the system supplies `page` if asked; pages are fresh), release of a block that
is handed out, and writes of user code to the blocks it owns or to foreign memory. -/
inductive Step (c : Config) : World → World → Prop where
  | alloc (w : World) (page : Option Nat) (h' : Heap) (s' : Pool) (b : Nat)
      (fresh : ∀ p, page = some p → PagesOk c (w.pages ++ [p]))
      (run : w.pool.alloc c w.heap page = .ok (h', s', b)) :
      Step c w ⟨h', s', if w.pool.chain = 0 then w.pages ++ page.toList else w.pages, if b = 0 then w.live else b :: w.live⟩
  | free (w : World) (b : Nat) (h' : Heap) (s' : Pool) (mem : b ∈ w.live) (run : w.pool.free w.heap b = .ok (h', s')) :
      Step c w ⟨h', s', w.pages, w.live.erase b⟩
  | write (w : World) (h' : Heap)
      (own : ∀ p ∈ w.pages, ∀ a, p ≤ a → a < p + pageSize → (∀ b ∈ w.live, a < b ∨ b + c.blockSize ≤ a) → h' a = w.heap a) :
      Step c w ⟨h', w.pool, w.pages, w.live⟩

inductive Reach (c : Config) (h : Heap) : World → Prop where
  | init : Reach c h (World.init h)
  | step {w w'} : Reach c h w → Step c w w' → Reach c h w'

theorem Reach.inv {c : Config} (hc : c.Ok) {h : Heap} {w : World} (hr : Reach c h w) : Inv c w.pages w.live w.heap w.pool := by
  induction hr with
  | init => exact ⟨⟨List.Pairwise.nil, fun p hp => absurd hp (by simp [World.init])⟩, ⟨[], rfl, List.Perm.refl _⟩, rfl⟩
  | @step w w' _ hs ih =>
    cases hs with
    | alloc page h' s' b fresh run =>
      obtain ⟨a1, a2, a3, a4⟩ := alloc_spec hc ih page fresh
      by_cases h0 : w.pool.chain = 0
      · simp only [h0, if_true]
        cases page with
        | none =>
          rw [a3 h0 rfl] at run
          cases run
          simpa using ih
        | some p =>
          obtain ⟨h2, s2, e1, e2, e3, e4, e5⟩ := a4 h0 p rfl
          rw [e1] at run
          cases run
          simpa [e3] using e4
      · simp only [h0, if_false]
        obtain ⟨s2, b2, e1, e2, e3, e4⟩ := a1 h0
        rw [e1] at run
        cases run
        simpa [e3] using e4
    | free b h' s' mem run =>
      obtain ⟨h2, s2, e1, e2, e3⟩ := free_spec hc ih mem
      rw [e1] at run
      cases run
      exact e2
    | write h' own => exact write_spec hc ih own

/-- C33. At every moment the blocks handed out and not yet released do not overlap, are aligned, are not null,
and each lies inside one of the pool's pages. -/
theorem C33_disjoint {c : Config} (hc : c.Ok) {h : Heap} {w : World} (hr : Reach c h w) :
    w.live.Pairwise (Apart c.blockSize) ∧
    ∀ b ∈ w.live, b ≠ 0 ∧ b % c.alignment = 0 ∧ ∃ p ∈ w.pages, p ≤ b ∧ b + c.blockSize ≤ p + pageSize := by
  have hi := hr.inv hc
  obtain ⟨z1, z2, z3, z4, z5, z6⟩ := hc.sizes
  constructor
  · obtain ⟨hpages, ⟨free, hch, hperm⟩, hact⟩ := hi
    have := (List.pairwise_append.1 (Inv.apart hc hpages hperm)).1
    exact this.imp (fun h => h.elim (fun h => Or.inl (by omega)) (fun h => Or.inr (by omega)))
  · intro b hb
    obtain ⟨h1, h2, h3, p, h4, h5, h6⟩ := allBlocks_mem hc hi.pagesOk (live_block hc hi hb)
    exact ⟨h1, h3, p, h4, h5, by omega⟩

/-- C33. Allocation always works: no assertion fails, the block is new and not null; it only fails (null) if the
system refuses a page, and a page is only asked for when every block of every page is in use. Memory of
blocks in use is never touched. -/
theorem C33_alloc {c : Config} (hc : c.Ok) {h : Heap} {w : World} (hr : Reach c h w) (page : Option Nat)
    (fresh : ∀ p, page = some p → PagesOk c (w.pages ++ [p])) :
    ∃ h' s' b, w.pool.alloc c w.heap page = .ok (h', s', b) ∧
      (b = 0 → page = none ∧ w.live.length = w.pages.length * c.numBlocks) ∧
      (b ≠ 0 → ∀ x ∈ w.live, Apart c.blockSize b x) ∧
      (w.live.length < w.pages.length * c.numBlocks → b ∈ allBlocks c w.pages) ∧
      ∀ x ∈ w.live, ∀ a, x ≤ a → a < x + c.blockSize → h' a = w.heap a := by
  have hi := hr.inv hc
  obtain ⟨z1, z2, z3, z4, z5, z6⟩ := hc.sizes
  obtain ⟨a1, a2, a3, a4⟩ := alloc_spec hc hi page fresh
  have hlen : (allBlocks c w.pages).length = w.pages.length * c.numBlocks := by
    unfold allBlocks
    generalize w.pages = ps
    induction ps with
    | nil => simp
    | cons p ps ih => simp only [List.flatMap_cons, List.length_append, ih, blocksOf, List.length_map, List.length_range, List.length_cons, Nat.succ_mul]; omega
  have apart : ∀ {pages b h' s'}, Inv c pages (b :: w.live) h' s' → ∀ x ∈ w.live, Apart c.blockSize b x := by
    rintro pages b h' s' ⟨hpages, ⟨free, hch, hperm⟩, hact⟩ x hx
    have := (List.pairwise_cons.1 (Inv.apart hc hpages hperm)).1 x (List.mem_append_left _ hx)
    rcases this with h | h
    · left; omega
    · right; omega
  by_cases h0 : w.pool.chain = 0
  · have hfull := (a2 h0).length_eq
    cases page with
    | none =>
      refine ⟨_, _, _, a3 h0 rfl, fun _ => ⟨rfl, by omega⟩, fun hb => absurd rfl hb, fun hlt => by omega, fun _ _ _ _ _ => rfl⟩
    | some p =>
      obtain ⟨h', s', e1, e2, e3, e4, e5⟩ := a4 h0 p rfl
      refine ⟨h', s', p, e1, fun hb => absurd hb e3, fun _ => apart e4, fun hlt => by omega, ?_⟩
      intro x hx a ha1 ha2
      apply e5
      obtain ⟨_, _, _, q, q1, q2, q3⟩ := allBlocks_mem hc hi.pagesOk (live_block hc hi hx)
      have hpq := (List.pairwise_append.1 (fresh p rfl).apart).2.2 q q1 p (by simp)
      rcases hpq with h | h
      · left; omega
      · right; omega
  · obtain ⟨s', b, e1, e2, e3, e4⟩ := a1 h0
    refine ⟨_, s', b, e1, fun hb => absurd hb e3, fun _ => apart e4, fun _ => ?_, fun _ _ _ _ _ => rfl⟩
    exact live_block hc e4 (List.mem_cons_self ..)

/-- C33. Releasing a block in use always works and does not touch the memory of the others. -/
theorem C33_free {c : Config} (hc : c.Ok) {h : Heap} {w : World} (hr : Reach c h w) (b : Nat) (hb : b ∈ w.live) :
    ∃ h' s', w.pool.free w.heap b = .ok (h', s') ∧
      ∀ x ∈ w.live, x ≠ b → ∀ a, x ≤ a → a < x + c.blockSize → h' a = w.heap a := by
  have hi := hr.inv hc
  obtain ⟨h', s', e1, e2, e3⟩ := free_spec hc hi hb
  refine ⟨h', s', e1, ?_⟩
  intro x hx hne a ha1 ha2
  apply e3
  have hd := (C33_disjoint hc hr).1
  have : Apart c.blockSize x b := by
    have h1 : w.live.Pairwise (fun x y => x ≠ y → Apart c.blockSize x y) := List.Pairwise.imp (S := fun x y => x ≠ y → Apart c.blockSize x y) (fun h _ => h) hd
    have h2 : w.live.Pairwise (flip (fun x y => x ≠ y → Apart c.blockSize x y)) :=
      List.Pairwise.imp (S := flip (fun x y => x ≠ y → Apart c.blockSize x y)) (fun h _ => apart_symm _ h) hd
    exact List.Pairwise.forall_of_forall_of_flip (fun x _ h => absurd rfl h) h1 h2 hx hb hne
  rcases this with h | h
  · left; omega
  · right; omega

/-- a pool of 24 byte blocks on 16 byte boundaries: 2048 blocks per page of 32 bytes each -/
example : (⟨24, 16⟩ : Config).Ok ∧ (⟨24, 16⟩ : Config).alignedSize = 32 ∧ (⟨24, 16⟩ : Config).numBlocks = 2048 :=
  ⟨⟨by decide, 4, rfl⟩, by decide, by decide⟩

/-- blocks of half a page: two allocations, one release, reuse of the block released, second page -/
example : PagesOk ⟨32768, 16⟩ [65536, 262144] ∧
    (do
      let (h, s, a) ← Pool.init.alloc ⟨32768, 16⟩ (fun _ => 7) (some 65536)
      let (h, s, b) ← s.alloc ⟨32768, 16⟩ h none
      let (h, s) ← s.free h a
      let (h, s, d) ← s.alloc ⟨32768, 16⟩ h none
      let (_, s, e) ← s.alloc ⟨32768, 16⟩ h (some 262144)
      return (a, b, d, e, s.active) : Except Err _).toOption = some (65536, 98304, 65536, 262144, 3) := by
  refine ⟨⟨by simp [Apart, pageSize], by simp [pageSize]⟩, by decide⟩

end Verif.Mem
