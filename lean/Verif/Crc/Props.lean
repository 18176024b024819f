import Verif.Crc.Model
/-! Property C28: the CRC is the bit by bit one, for every alignment and split. -/
namespace Verif.Crc

/-- Bit by bit definition (reflected, polynomial 0xEDB88320): one message bit. -/
def bitStep (crc : BitVec 32) (b : Bool) : BitVec 32 :=
  if crc.getLsbD 0 != b then (crc >>> 1) ^^^ 0xEDB88320 else crc >>> 1

/-- the bits of a byte, lowest first -/
def bits (b : BitVec 8) : List Bool := (List.range 8).map b.getLsbD

/-- CRC-32 of a byte string, bit by bit -/
def crc32 (buf : List (BitVec 8)) : BitVec 32 := ((buf.flatMap bits).foldl bitStep 0xFFFFFFFF) ^^^ 0xFFFFFFFF

theorem shiftStep_eq (x : BitVec 32) : shiftStep x = if x.getLsbD 0 then (x >>> 1) ^^^ poly else x >>> 1 := by
  unfold shiftStep
  have h : x &&& 1 = if x.getLsbD 0 then 1 else 0 := by
    apply BitVec.eq_of_getLsbD_eq
    intro i hi
    cases i with
    | zero =>
      rw [BitVec.getLsbD_and]
      cases hx : x.getLsbD 0 <;> rfl
    | succ i =>
      rw [BitVec.getLsbD_and]
      have h1 : (1 : BitVec 32).getLsbD (i + 1) = false := by simp
      cases hx : x.getLsbD 0
      · rw [h1]; simp
      · simp
  rw [h]
  cases hx : x.getLsbD 0
  · simp
  · simp only [if_true]
    congr 1

theorem shiftStep_xor (x y : BitVec 32) : shiftStep (x ^^^ y) = shiftStep x ^^^ shiftStep y := by
  rw [shiftStep_eq, shiftStep_eq, shiftStep_eq, BitVec.getLsbD_xor, BitVec.ushiftRight_xor_distrib]
  cases x.getLsbD 0 <;> cases y.getLsbD 0 <;> simp
  · ac_rfl
  · ac_rfl
  · have : ∀ a b p : BitVec 32, a ^^^ b = (a ^^^ p) ^^^ (b ^^^ p) := by
      intro a b p
      have : (a ^^^ p) ^^^ (b ^^^ p) = a ^^^ b ^^^ (p ^^^ p) := by ac_rfl
      rw [this]; simp
    exact this _ _ _

theorem shiftSteps_xor : ∀ (n : Nat) (x y : BitVec 32), shiftSteps n (x ^^^ y) = shiftSteps n x ^^^ shiftSteps n y
  | 0, _, _ => rfl
  | n + 1, x, y => by rw [shiftSteps, shiftStep_xor, shiftSteps_xor n]; rfl

/-- low bits zero: a plain shift -/
theorem shiftSteps_shift : ∀ (n : Nat) (x : BitVec 32), (∀ i, i < n → x.getLsbD i = false) → shiftSteps n x = x >>> n
  | 0, x, _ => by simp [shiftSteps]
  | n + 1, x, h => by
    rw [shiftSteps, shiftStep_eq, h 0 (by omega)]
    simp only [Bool.false_eq_true, if_false]
    rw [shiftSteps_shift n _ (fun i hi => by rw [BitVec.getLsbD_ushiftRight]; exact h _ (by omega)),
      ← BitVec.shiftRight_add, Nat.add_comm]

theorem shiftSteps_add : ∀ (n m : Nat) (x : BitVec 32), shiftSteps (n + m) x = shiftSteps m (shiftSteps n x)
  | 0, m, x => by rw [Nat.zero_add]; rfl
  | n + 1, m, x => by rw [Nat.add_right_comm, shiftSteps, shiftSteps_add n m]; rfl

theorem split_low (x : BitVec 32) : x = (x &&& (0xFF : BitVec 32)) ^^^ ((x >>> 8) <<< 8) := by
  apply BitVec.eq_of_getLsbD_eq
  intro i hi
  have h255 : (0xFF : BitVec 32).getLsbD i = decide (i < 8) := by
    revert i; decide
  rw [BitVec.getLsbD_xor, BitVec.getLsbD_and, h255, BitVec.getLsbD_shiftLeft, BitVec.getLsbD_ushiftRight]
  by_cases h8 : i < 8
  · simp [h8]
  · simp [h8, hi]; congr 1; omega

theorem shift8 (y : BitVec 32) (hy : y.toNat < 2 ^ 24) : shiftSteps 8 (y <<< 8) = y := by
  rw [shiftSteps_shift 8 _ (fun i hi => by rw [BitVec.getLsbD_shiftLeft]; simp [hi])]
  apply BitVec.eq_of_toNat_eq
  rw [BitVec.toNat_ushiftRight, BitVec.toNat_shiftLeft, Nat.shiftLeft_eq, Nat.shiftRight_eq_div_pow]
  omega

theorem lt_shift (x : BitVec 32) : (x >>> 8).toNat < 2 ^ 24 := by
  rw [BitVec.toNat_ushiftRight, Nat.shiftRight_eq_div_pow]
  have := x.isLt
  omega

/-- the table step is eight shift steps -/
theorem step8 (c : BitVec 32) : shiftSteps 8 (c &&& 0xFF) ^^^ (c >>> 8) = shiftSteps 8 c := by
  conv => rhs; rw [split_low c, shiftSteps_xor, shift8 _ (lt_shift c)]

theorem slicing_eq : ∀ (j : Nat) (i : BitVec 32), slicing j i = shiftSteps (8 * (j + 1)) i
  | 0, i => rfl
  | j + 1, i => by
    rw [slicing, step8, slicing_eq j i, ← shiftSteps_add]; rfl

theorem ext_lt (b : BitVec 8) : (ext b).toNat < 256 := by
  unfold ext
  rw [BitVec.toNat_setWidth]
  have := b.isLt
  omega

theorem ext_shift (b : BitVec 8) : ext b >>> 8 = 0 := by
  apply BitVec.eq_of_toNat_eq
  rw [BitVec.toNat_ushiftRight, Nat.shiftRight_eq_div_pow]
  have := ext_lt b
  show _ = 0
  omega

theorem byteStep_eq (crc : BitVec 32) (b : BitVec 8) : byteStep crc b = shiftSteps 8 (crc ^^^ ext b) := by
  have h := step8 (crc ^^^ ext b)
  rw [BitVec.ushiftRight_xor_distrib, ext_shift, show (0 : BitVec 32) = 0#32 from rfl, BitVec.xor_zero] at h
  exact h

/-- shifting `n` bits of `m` in -/
theorem bits_fold : ∀ (n : Nat) (crc m : BitVec 32), m.toNat < 2 ^ n → n ≤ 32 →
    shiftSteps n (crc ^^^ m) = ((List.range n).map m.getLsbD).foldl bitStep crc
  | 0, crc, m, h, _ => by
    have : m = 0 := BitVec.eq_of_toNat_eq (by simpa using h)
    rw [this]; simp [shiftSteps]
  | n + 1, crc, m, h, hn => by
    have hm : shiftStep (crc ^^^ m) = bitStep crc (m.getLsbD 0) ^^^ (m >>> 1) := by
      rw [shiftStep_eq, bitStep, BitVec.getLsbD_xor, BitVec.ushiftRight_xor_distrib]
      cases crc.getLsbD 0 <;> cases m.getLsbD 0 <;> simp [poly] <;> ac_rfl
    rw [shiftSteps, hm, bits_fold n _ _ (by
      rw [BitVec.toNat_ushiftRight, Nat.shiftRight_eq_div_pow]
      rw [Nat.pow_succ] at h
      omega) (by omega)]
    rw [List.range_succ_eq_map, List.map_cons, List.foldl_cons, List.map_map]
    congr 1
    apply List.map_congr_left
    intro i _
    rw [BitVec.getLsbD_ushiftRight, Function.comp, Nat.add_comm]

theorem byteStep_bits (crc : BitVec 32) (b : BitVec 8) : byteStep crc b = (bits b).foldl bitStep crc := by
  rw [byteStep_eq, bits_fold 8 crc (ext b) (ext_lt b) (by omega)]
  congr 1

theorem foldl_bits (buf : List (BitVec 8)) : ∀ crc, buf.foldl byteStep crc = (buf.flatMap bits).foldl bitStep crc := by
  induction buf with
  | nil => intro crc; rfl
  | cons b buf ih => intro crc; rw [List.foldl_cons, List.flatMap_cons, List.foldl_append, byteStep_bits, ih]

/-! eight bytes at once -/

/-- bytes `lo` and above of a word -/
theorem word_xor (b0 b1 b2 b3 : BitVec 8) :
    word b0 b1 b2 b3 = ext b0 ^^^ ext b1 <<< 8 ^^^ ext b2 <<< 16 ^^^ ext b3 <<< 24 := by
  unfold word ext
  apply BitVec.eq_of_getLsbD_eq
  intro i hi
  simp only [BitVec.getLsbD_xor, BitVec.getLsbD_or, BitVec.getLsbD_shiftLeft, BitVec.getLsbD_setWidth, BitVec.zeroExtend]
  by_cases h0 : i < 8
  · simp [h0, show i < 16 by omega, show i < 24 by omega]
  · by_cases h1 : i < 16
    · simp [h0, h1, show i < 24 by omega, BitVec.getLsbD_of_ge b0 i (by omega)]
    · by_cases h2 : i < 24
      · simp [h0, h1, h2, BitVec.getLsbD_of_ge b0 i (by omega), BitVec.getLsbD_of_ge b1 (i - 8) (by omega)]
      · simp [h0, h1, h2, BitVec.getLsbD_of_ge b0 i (by omega), BitVec.getLsbD_of_ge b1 (i - 8) (by omega),
          BitVec.getLsbD_of_ge b2 (i - 16) (by omega)]

/-- the four bytes of a word, each shifted in separately -/
theorem four (n : Nat) (c : BitVec 32) :
    shiftSteps (n + 32) (c &&& 0xFF) ^^^ shiftSteps (n + 24) ((c >>> 8) &&& 0xFF) ^^^
      shiftSteps (n + 16) ((c >>> 16) &&& 0xFF) ^^^ shiftSteps (n + 8) (c >>> 24) = shiftSteps (n + 32) c := by
  have h1 : ∀ (k : Nat) (d : BitVec 32), shiftSteps (k + 8) d = shiftSteps (k + 8) (d &&& 0xFF) ^^^ shiftSteps k (d >>> 8) := by
    intro k d
    rw [Nat.add_comm k 8, shiftSteps_add, shiftSteps_add, ← shiftSteps_xor, step8]
  rw [h1 (n + 24) c, h1 (n + 16) (c >>> 8), h1 (n + 8) ((c >>> 8) >>> 8),
    ← BitVec.shiftRight_add, ← BitVec.shiftRight_add]
  ac_rfl

theorem foldl_word (c : BitVec 32) (b0 b1 b2 b3 : BitVec 8) :
    byteStep (byteStep (byteStep (byteStep c b0) b1) b2) b3 = shiftSteps 32 (c ^^^ word b0 b1 b2 b3) := by
  have hs : ∀ (k : Nat) (b : BitVec 8), k ≤ 24 → k % 8 = 0 → shiftSteps k (ext b <<< k) = ext b := by
    intro k b hk _
    rw [shiftSteps_shift k _ (fun i hi => by rw [BitVec.getLsbD_shiftLeft]; simp [hi])]
    apply BitVec.eq_of_toNat_eq
    rw [BitVec.toNat_ushiftRight, BitVec.toNat_shiftLeft, Nat.shiftLeft_eq, Nat.shiftRight_eq_div_pow]
    have hb := ext_lt b
    have hp : 2 ^ k ≤ 2 ^ 24 := Nat.pow_le_pow_right (by omega) hk
    have : (ext b).toNat * 2 ^ k < 2 ^ 32 := by
      calc (ext b).toNat * 2 ^ k ≤ 255 * 2 ^ 24 := Nat.mul_le_mul (by omega) hp
        _ < 2 ^ 32 := by decide
    rw [Nat.mod_eq_of_lt this, Nat.mul_div_cancel _ (Nat.two_pow_pos k)]
  rw [byteStep_eq, byteStep_eq, byteStep_eq, byteStep_eq, word_xor]
  simp only [shiftSteps_xor, ← shiftSteps_add]
  have e1 : shiftSteps 32 (ext b1 <<< 8) = shiftSteps 24 (ext b1) := by
    have := shiftSteps_add 8 24 (ext b1 <<< 8)
    rw [hs 8 b1 (by omega) rfl] at this; exact this
  have e2 : shiftSteps 32 (ext b2 <<< 16) = shiftSteps 16 (ext b2) := by
    have := shiftSteps_add 16 16 (ext b2 <<< 16)
    rw [hs 16 b2 (by omega) rfl] at this; exact this
  have e3 : shiftSteps 32 (ext b3 <<< 24) = shiftSteps 8 (ext b3) := by
    have := shiftSteps_add 24 8 (ext b3 <<< 24)
    rw [hs 24 b3 (by omega) rfl] at this; exact this
  rw [e1, e2, e3]
  simp only [Nat.reduceAdd]
  ac_rfl

theorem qwordStep_eq (c : BitVec 32) (b0 b1 b2 b3 b4 b5 b6 b7 : BitVec 8) :
    qwordStep c (word b0 b1 b2 b3) (word b4 b5 b6 b7) = [b0, b1, b2, b3, b4, b5, b6, b7].foldl byteStep c := by
  simp only [List.foldl_cons, List.foldl_nil]
  rw [foldl_word, foldl_word, shiftSteps_xor, ← shiftSteps_add]
  have e1 := four 32 (c ^^^ word b0 b1 b2 b3)
  have e2 := four 0 (word b4 b5 b6 b7)
  rw [← e1]
  simp only [Nat.zero_add] at e2
  rw [← e2]
  unfold qwordStep
  dsimp only
  simp only [slicing_eq, Nat.reduceAdd, Nat.reduceMul]
  ac_rfl

theorem qwordLoop_spec : ∀ (n : Nat) (crc : BitVec 32) (buf : List (BitVec 8)), 8 * n ≤ buf.length →
    (qwordLoop n crc buf).2.foldl byteStep (qwordLoop n crc buf).1 = buf.foldl byteStep crc
  | 0, crc, buf, _ => by
    rw [qwordLoop]; simp
  | n + 1, crc, buf, h => by
    match buf, h with
    | b0 :: b1 :: b2 :: b3 :: b4 :: b5 :: b6 :: b7 :: buf, h =>
      rw [qwordLoop, qwordLoop_spec n _ buf (by simp at h; omega), qwordStep_eq]
      simp only [List.foldl_cons, List.foldl_nil]

/-- C28. For every buffer at every address, `Calc` is the bit by bit CRC-32. -/
theorem C28_calc (addr : BitVec 64) (buf : List (BitVec 8)) : crcCalc addr buf = crc32 buf := by
  unfold crcCalc slicingBy8
  dsimp only
  rw [qwordLoop_spec _ _ _ (by omega), ← List.foldl_append, List.take_append_drop, foldl_bits]
  unfold crc32
  rw [← BitVec.xor_allOnes]
  rfl

/-- C28. The result does not depend on the alignment. -/
theorem C28_alignment (a b : BitVec 64) (buf : List (BitVec 8)) : crcCalc a buf = crcCalc b buf := by
  rw [C28_calc, C28_calc]

/-- The constant table is the generated one. -/
theorem table_eq : ∀ i : Fin 256, table.getD i.val 0 = shiftSteps 8 (BitVec.ofNat 32 i.val) := by
  decide +kernel

theorem updateStep_eq (crc : BitVec 32) (b : BitVec 8) : updateStep crc b = byteStep crc b := by
  unfold updateStep byteStep
  have hlt : ((crc ^^^ ext b) &&& 0xFF).toNat < 256 := by
    rw [BitVec.toNat_and]
    exact Nat.lt_succ_of_le Nat.and_le_right
  have := table_eq ⟨_, hlt⟩
  dsimp only at this
  rw [this, BitVec.ofNat_toNat, BitVec.setWidth_eq, BitVec.xor_comm]
  rfl

theorem update_eq (crc : BitVec 32) (buf : List (BitVec 8)) : update crc buf = buf.foldl byteStep crc := by
  have : updateStep = byteStep := by funext c b; exact updateStep_eq c b
  unfold update; rw [this]

/-- C28. The incremental interface gives the same result for every way of splitting the data. -/
theorem C28_incremental (chunks : List (List (BitVec 8))) (addr : BitVec 64) :
    stop (chunks.foldl update start) = crcCalc addr chunks.flatten := by
  have : ∀ crc, chunks.foldl update crc = update crc chunks.flatten := by
    induction chunks with
    | nil => intro crc; rfl
    | cons c cs ih =>
      intro crc
      rw [List.foldl_cons, ih, List.flatten_cons]
      unfold update
      rw [List.foldl_append]
  rw [this, update_eq, foldl_bits, C28_calc]
  rfl

/-- the letter in lower case: `A` to `Z` are 65 to 90, `a` to `z` are 97 to 122 -/
def letterLower (b : BitVec 8) : BitVec 8 := BitVec.ofNat 8 (Char.ofNat b.toNat).toLower.toNat

theorem lowerByte_eq (b : BitVec 8) : lowerByte b = letterLower b := by
  have h : ∀ n : Fin 256, lowerByte (BitVec.ofFin n) = letterLower (BitVec.ofFin n) := by decide +kernel
  exact h b.toFin

/-- C28. The lower case variants are the CRC of the lower case text. -/
theorem C28_lower (buf : List (BitVec 8)) : calcLower buf = crc32 (buf.map letterLower) := by
  rw [← funext lowerByte_eq]
  have : updateLower start buf = update start (buf.map lowerByte) := by
    unfold updateLower update
    rw [List.foldl_map]
  rw [calcLower, this, update_eq, foldl_bits]
  rfl

/-- every shift step can be undone -/
theorem shiftStep_inj {x y : BitVec 32} (h : shiftStep x = shiftStep y) : x = y := by
  have h0 : shiftStep (x ^^^ y) = 0 := by rw [shiftStep_xor, h]; simp
  have key : ∀ z, shiftStep z = 0 → z = 0 := by
    intro z hz
    rw [shiftStep_eq] at hz
    by_cases hb : z.getLsbD 0
    · rw [if_pos hb] at hz
      have := congrArg (BitVec.getLsbD · 31) hz
      simp [BitVec.getLsbD_ushiftRight, poly] at this
    · rw [if_neg hb] at hz
      apply BitVec.eq_of_getLsbD_eq
      intro i hi
      cases i with
      | zero => simpa using hb
      | succ i =>
        have := congrArg (BitVec.getLsbD · i) hz
        simp only [BitVec.getLsbD_ushiftRight] at this
        rw [Nat.add_comm] at this
        simpa using this
  have := key _ h0
  exact BitVec.xor_eq_zero_iff.1 this

theorem shiftSteps_inj : ∀ (n : Nat) {x y : BitVec 32}, shiftSteps n x = shiftSteps n y → x = y
  | 0, _, _, h => h
  | n + 1, _, _, h => shiftStep_inj (shiftSteps_inj n h)

theorem foldl_inj (buf : List (BitVec 8)) : ∀ {x y : BitVec 32}, buf.foldl byteStep x = buf.foldl byteStep y → x = y := by
  induction buf with
  | nil => intro x y h; exact h
  | cons b buf ih =>
    intro x y h
    have := ih h
    rw [byteStep_eq, byteStep_eq] at this
    have := shiftSteps_inj 8 this
    have := congrArg (· ^^^ ext b) this
    simpa [BitVec.xor_assoc] using this

/-- C28. Any change within four consecutive bytes changes the CRC. -/
theorem C28_detects_burst (a b : BitVec 64) (pre suf : List (BitVec 8)) (x y : BitVec 8 × BitVec 8 × BitVec 8 × BitVec 8)
    (h : crcCalc a (pre ++ [x.1, x.2.1, x.2.2.1, x.2.2.2] ++ suf) = crcCalc b (pre ++ [y.1, y.2.1, y.2.2.1, y.2.2.2] ++ suf)) :
    x = y := by
  rw [C28_calc, C28_calc] at h
  unfold crc32 at h
  rw [← foldl_bits, ← foldl_bits] at h
  have h1 := congrArg (· ^^^ (0xFFFFFFFF : BitVec 32)) h
  simp only [BitVec.xor_assoc, BitVec.xor_self, BitVec.xor_zero] at h1
  rw [List.foldl_append, List.foldl_append, List.foldl_append, List.foldl_append] at h1
  have h2 := foldl_inj suf h1
  simp only [List.foldl_cons, List.foldl_nil] at h2
  rw [foldl_word, foldl_word] at h2
  have h3 := shiftSteps_inj 32 h2
  have h4 : word x.1 x.2.1 x.2.2.1 x.2.2.2 = word y.1 y.2.1 y.2.2.1 y.2.2.2 := by
    have := congrArg (List.foldl byteStep (0xFFFFFFFF : BitVec 32) pre ^^^ ·) h3
    simpa [← BitVec.xor_assoc] using this
  obtain ⟨x0, x1, x2, x3⟩ := x
  obtain ⟨y0, y1, y2, y3⟩ := y
  dsimp only at h4
  have hb : ∀ i, i < 32 → (word x0 x1 x2 x3).getLsbD i = (word y0 y1 y2 y3).getLsbD i := fun i _ => by rw [h4]
  have hw : ∀ (b0 b1 b2 b3 : BitVec 8) (i : Nat), i < 8 → (word b0 b1 b2 b3).getLsbD i = b0.getLsbD i ∧
      (word b0 b1 b2 b3).getLsbD (i + 8) = b1.getLsbD i ∧ (word b0 b1 b2 b3).getLsbD (i + 16) = b2.getLsbD i ∧
      (word b0 b1 b2 b3).getLsbD (i + 24) = b3.getLsbD i := by
    intro b0 b1 b2 b3 i hi
    unfold word ext
    simp only [BitVec.getLsbD_or, BitVec.getLsbD_shiftLeft, BitVec.getLsbD_setWidth, BitVec.zeroExtend]
    refine ⟨?_, ?_, ?_, ?_⟩
    · simp [hi, show i < 16 by omega, show i < 24 by omega, show i < 32 by omega]
    · simp [BitVec.getLsbD_of_ge b0 (i + 8) (by omega), show i + 8 < 16 by omega, show i + 8 < 24 by omega, show i + 8 < 32 by omega, show i < 32 by omega]
    · simp [BitVec.getLsbD_of_ge b0 (i + 16) (by omega), BitVec.getLsbD_of_ge b1 (i + 16 - 8) (by omega), show i + 16 < 24 by omega, show i + 16 < 32 by omega, show i < 32 by omega]
    · simp [BitVec.getLsbD_of_ge b0 (i + 24) (by omega), BitVec.getLsbD_of_ge b1 (i + 24 - 8) (by omega),
        BitVec.getLsbD_of_ge b2 (i + 24 - 16) (by omega), show i + 24 < 32 by omega, show i < 32 by omega]
  have e0 : x0 = y0 := BitVec.eq_of_getLsbD_eq fun i hi => by
    rw [← (hw x0 x1 x2 x3 i hi).1, ← (hw y0 y1 y2 y3 i hi).1, hb i (by omega)]
  have e1 : x1 = y1 := BitVec.eq_of_getLsbD_eq fun i hi => by
    rw [← (hw x0 x1 x2 x3 i hi).2.1, ← (hw y0 y1 y2 y3 i hi).2.1, hb _ (by omega)]
  have e2 : x2 = y2 := BitVec.eq_of_getLsbD_eq fun i hi => by
    rw [← (hw x0 x1 x2 x3 i hi).2.2.1, ← (hw y0 y1 y2 y3 i hi).2.2.1, hb _ (by omega)]
  have e3 : x3 = y3 := BitVec.eq_of_getLsbD_eq fun i hi => by
    rw [← (hw x0 x1 x2 x3 i hi).2.2.2, ← (hw y0 y1 y2 y3 i hi).2.2.2, hb _ (by omega)]
  rw [e0, e1, e2, e3]

/-- the standard check value of "123456789" -/
example : crcCalc 1 [0x31, 0x32, 0x33, 0x34, 0x35, 0x36, 0x37, 0x38, 0x39] = 0xCBF43926 ∧
    crc32 [0x31, 0x32, 0x33, 0x34, 0x35, 0x36, 0x37, 0x38, 0x39] = 0xCBF43926 := by decide +kernel

end Verif.Crc
