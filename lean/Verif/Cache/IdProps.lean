import Verif.Cache.IdModel
/-! C63: distinct cache keys never share a file. -/
namespace Verif.Cache

theorem hexDigit_inj {a b : Nat} (ha : a < 16) (hb : b < 16) (h : hexDigit a = hexDigit b) : a = b := by
  have : ∀ a : Fin 16, ∀ b : Fin 16, hexDigit a.val = hexDigit b.val → a = b := by decide
  exact congrArg Fin.val (this ⟨a, ha⟩ ⟨b, hb⟩ h)

theorem hexPad_length : ∀ w n, (hexPad w n).length = w
  | 0, _ => rfl
  | w + 1, n => by simp [hexPad, hexPad_length w]

theorem hexPad_inj : ∀ (w : Nat) {a b : Nat}, a < 16 ^ w → b < 16 ^ w → hexPad w a = hexPad w b → a = b
  | 0, a, b, ha, hb, _ => by simp at ha hb; omega
  | w + 1, a, b, ha, hb, h => by
    simp only [hexPad] at h
    obtain ⟨h1, h2⟩ := List.append_inj h (by rw [hexPad_length, hexPad_length])
    have e1 := hexPad_inj w (a := a / 16) (b := b / 16)
      (by rw [Nat.pow_succ] at ha; omega) (by rw [Nat.pow_succ] at hb; omega) h1
    have e2 := hexDigit_inj (Nat.mod_lt a (by decide)) (Nat.mod_lt b (by decide)) (List.singleton_inj.mp h2)
    omega

/-- the characters of identifiers -/
theorem hexDigit_mem (n : Nat) : hexDigit n ∈ "0123456789ABCDEF".toList := by
  unfold hexDigit
  split <;> decide

theorem hexPad_mem : ∀ w n c, c ∈ hexPad w n → c ∈ "0123456789ABCDEF".toList
  | 0, _, c, h => by cases h
  | w + 1, n, c, h => by
    simp only [hexPad, List.mem_append, List.mem_singleton] at h
    rcases h with h | rfl
    · exact hexPad_mem w _ c h
    · exact hexDigit_mem _

theorem bv64 (x : BitVec 64) : x.toNat < 16 ^ 16 := x.isLt
theorem bv32 (x : BitVec 32) : x.toNat < 16 ^ 8 := x.isLt

/-- C63. The identifier of a cache entry determines all four keys. -/
theorem C63_id_injective {s s' t t' p p' : BitVec 64} {c c' : BitVec 32}
    (h : cacheId s c t p = cacheId s' c' t' p') : s = s' ∧ c = c' ∧ t = t' ∧ p = p' := by
  unfold cacheId at h
  obtain ⟨h1, h⟩ := List.append_inj h (by simp only [hexPad_length])
  obtain ⟨h2, h⟩ := List.append_inj (List.cons.inj h).2 (by simp only [hexPad_length])
  obtain ⟨h3, h⟩ := List.append_inj (List.cons.inj h).2 (by simp only [hexPad_length])
  obtain ⟨h4, -⟩ := List.append_inj (List.cons.inj h).2 (by simp only [hexPad_length])
  exact ⟨BitVec.eq_of_toNat_eq (hexPad_inj 16 (bv64 _) (bv64 _) h1),
    BitVec.eq_of_toNat_eq (hexPad_inj 8 (bv32 _) (bv32 _) h2),
    BitVec.eq_of_toNat_eq (hexPad_inj 16 (bv64 _) (bv64 _) h3),
    BitVec.eq_of_toNat_eq (hexPad_inj 16 (bv64 _) (bv64 _) h4)⟩

/-- the identifier given as an example in ICache.cpp:21 (with the current version letter) -/
example : String.ofList (cacheId 0x2377DE32AB045A2D 0xFED872A1 0xAB62FEAA23498AAC 0x32A2B04375A2D7DE) =
    "2377DE32AB045A2D_FED872A1_AB62FEAA23498AAC-32A2B04375A2D7DE.I" := by decide +kernel

theorem cacheId_length (s : BitVec 64) (c : BitVec 32) (t p : BitVec 64) : (cacheId s c t p).length = 61 := by
  simp [cacheId, hexPad_length]

theorem cacheId_no_slash (s : BitVec 64) (c : BitVec 32) (t p : BitVec 64) : '/' ∉ cacheId s c t p := by
  intro h
  have aux : ∀ w n, '/' ∉ hexPad w n := fun w n h => absurd (hexPad_mem w n _ h) (by decide)
  simp only [cacheId, List.mem_append, List.mem_cons, List.not_mem_nil, or_false] at h
  rcases h with h | h | h | h | h | h | h | h | h
  all_goals first | exact aux _ _ h | exact absurd h (by decide)

/-- the first four digits -/
theorem hexPad_split : ∀ (k w n : Nat), ∃ m, hexPad (k + w) n = hexPad k m ++ hexPad w n
  | k, 0, n => ⟨n, by simp [hexPad]⟩
  | k, w + 1, n => by
    obtain ⟨m, hm⟩ := hexPad_split k w (n / 16)
    exact ⟨m, by rw [← Nat.add_assoc]; simp only [hexPad]; rw [hm, List.append_assoc]⟩

theorem hexPad_mod : ∀ (w n : Nat), hexPad w n = hexPad w (n % 16 ^ w)
  | 0, _ => rfl
  | w + 1, n => by
    simp only [hexPad]
    rw [hexPad_mod w (n / 16), hexPad_mod w (n % 16 ^ (w + 1) / 16)]
    have e1 : n % 16 ^ (w + 1) / 16 = n / 16 % 16 ^ w := by
      rw [Nat.pow_succ, Nat.mul_comm, Nat.mod_mul_right_div_self]
    have e2 : n % 16 ^ (w + 1) % 16 = n % 16 := by
      rw [Nat.pow_succ]; exact Nat.mod_mul_left_mod n (16 ^ w) 16
    rw [e1, e2, Nat.mod_mod]

theorem id_start (s : BitVec 64) (c : BitVec 32) (t p : BitVec 64) :
    ∃ i j r, i < 256 ∧ j < 256 ∧ cacheId s c t p = hexPad 2 i ++ (hexPad 2 j ++ r) := by
  obtain ⟨m, hm⟩ := hexPad_split 4 12 s.toNat
  obtain ⟨m2, hm2⟩ := hexPad_split 2 2 m
  refine ⟨m2 % 256, m % 256, hexPad 12 s.toNat ++ '_' :: (hexPad 8 c.toNat ++ '_' :: (hexPad 16 t.toNat ++ '-' ::
    (hexPad 16 p.toNat ++ ['.', 'I']))), Nat.mod_lt _ (by decide), Nat.mod_lt _ (by decide), ?_⟩
  unfold cacheId
  rw [show (16 : Nat) = 4 + 12 from rfl, hm, show (4 : Nat) = 2 + 2 from rfl, hm2, hexPad_mod 2 m2, hexPad_mod 2 m]
  simp only [List.append_assoc]

/-- C63. Every entry is a file directly in one of the 65536 directories that the clean-up and the statistics look at,
and its name there is the identifier. -/
theorem C63_found_by_scan (root : List Char) (s : BitVec 64) (c : BitVec 32) (t p : BitVec 64) :
    ∃ i j, i < 256 ∧ j < 256 ∧ fullPath root (cacheId s c t p) = some (scanDir root i j ++ cacheId s c t p) ∧
      '/' ∉ cacheId s c t p := by
  obtain ⟨i, j, r, hi, hj, e⟩ := id_start s c t p
  refine ⟨i, j, hi, hj, ?_, cacheId_no_slash s c t p⟩
  rw [e]
  simp only [hexPad, List.nil_append, List.cons_append, fullPath, scanDir, List.append_assoc]

example : fullPath "/c/".toList (cacheId 0xAB34000000000001 2 3 4) =
    some (scanDir "/c/".toList 0xAB 0x34 ++ cacheId 0xAB34000000000001 2 3 4) := by decide +kernel

theorem fullPath_drop {root : List Char} {s : BitVec 64} {c : BitVec 32} {t p : BitVec 64} {x : List Char}
    (h : fullPath root (cacheId s c t p) = some x) : x.drop (root.length + 6) = cacheId s c t p := by
  obtain ⟨i, j, -, -, e, -⟩ := C63_found_by_scan root s c t p
  rw [e] at h
  rw [← Option.some.inj h]
  apply List.drop_left'
  simp [scanDir, hexPad_length]

/-- C63. Different keys are different files. -/
theorem C63_path_injective {root : List Char} {s s' t t' p p' : BitVec 64} {c c' : BitVec 32}
    (h : fullPath root (cacheId s c t p) = fullPath root (cacheId s' c' t' p')) :
    s = s' ∧ c = c' ∧ t = t' ∧ p = p' := by
  obtain ⟨i, j, -, -, e, -⟩ := C63_found_by_scan root s c t p
  have h1 := fullPath_drop e
  have h2 := fullPath_drop (h ▸ e)
  exact C63_id_injective (h1.symm.trans h2)

/-- C63. The temporary file of one entry is never an entry, nor the temporary file of another one. -/
theorem C63_tmp_distinct {root : List Char} {s s' t t' p p' : BitVec 64} {c c' : BitVec 32} {x y : List Char}
    (hx : fullPath root (cacheId s c t p) = some x) (hy : fullPath root (cacheId s' c' t' p') = some y) :
    tmpPath x ≠ y ∧ (tmpPath x = tmpPath y → s = s' ∧ c = c' ∧ t = t' ∧ p = p') := by
  have lx : x.length = root.length + 67 := by
    obtain ⟨i, j, -, -, e, -⟩ := C63_found_by_scan root s c t p
    rw [e] at hx
    rw [← Option.some.inj hx]
    simp [scanDir, hexPad_length, cacheId_length]
  have ly : y.length = root.length + 67 := by
    obtain ⟨i, j, -, -, e, -⟩ := C63_found_by_scan root s' c' t' p'
    rw [e] at hy
    rw [← Option.some.inj hy]
    simp [scanDir, hexPad_length, cacheId_length]
  constructor
  · intro h
    have := congrArg List.length h
    simp [tmpPath] at this
    omega
  · intro h
    have : x = y := (List.append_inj h (by omega)).1
    exact C63_path_injective (root := root) (by rw [hx, hy, this])

end Verif.Cache
