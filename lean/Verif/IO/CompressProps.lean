import Verif.IO.CompressModel
import Verif.IO.CodecProps
/-! C22 compression and C23 multi-file buffers. -/
namespace Verif.IO

/-- The libraries restore what they compressed. -/
structure Codecs.Good (c : Codecs) : Prop where
  fast : ∀ l d, c.lz4Dec (c.lz4Fast l d) d.length = some d
  hc : ∀ l d, c.lz4Dec (c.lz4HC l d) d.length = some d
  zstd : ∀ l d o, c.zstd l d = some o → c.zstdDec o d.length = some d

theorem wrHeader_length (t u k : Nat) : (wrHeader t u k).length = 12 := by
  simp [wrHeader, wrU32, wrWord, leBytes_length]

theorem ofLE_u32 (n : Nat) (h : n < 2 ^ 32) : ofLE (wrU32 (BitVec.ofNat 32 n)) = n := by
  rw [wrU32, wrWord, ofLE_leBytes, BitVec.toNat_ofNat]
  omega

theorem u32_length (x : BitVec 32) : (wrU32 x).length = 4 := leBytes_length _ _
theorem u64_length (x : BitVec 64) : (wrU64 x).length = 8 := leBytes_length _ _

theorem hdr_fields (t u k : Nat) (b : List Byte) (ht : t < 2 ^ 32) (hu : u < 2 ^ 32) (hk : k < 2 ^ 32) :
    hdrType (wrHeader t u k ++ b) = t ∧ hdrUncompressed (wrHeader t u k ++ b) = u ∧ hdrCompressed (wrHeader t u k ++ b) = k := by
  have l1 := u32_length (BitVec.ofNat 32 t)
  have l2 := u32_length (BitVec.ofNat 32 u)
  have l3 := u32_length (BitVec.ofNat 32 k)
  refine ⟨?_, ?_, ?_⟩
  · rw [hdrType, wrHeader, List.append_assoc, List.take_left' l1, ofLE_u32 t ht]
  · rw [hdrUncompressed, wrHeader, List.append_assoc, List.drop_left' l1, List.append_assoc, List.take_left' l2, ofLE_u32 u hu]
  · rw [hdrCompressed, wrHeader, ← List.append_assoc, List.append_assoc, List.drop_left' (by rw [List.length_append, l1, l2]),
      List.take_left' l3, ofLE_u32 k hk]

/-- what is assembled is valid and decompresses to the data -/
theorem assemble_ok (c : Codecs) (t : Nat) (ht : t = 1 ∨ t = 2) (data : List Byte) (hl : data.length < 2 ^ 32) (h31 : t = 1 → data.length < 2 ^ 31)
    (out : Option (List Byte)) (h1 : t = 1 → ∀ o, out = some o → c.lz4Dec o data.length = some data)
    (h2 : t = 2 → ∀ o, out = some o → c.zstdDec o data.length = some data) :
    isValidData (assemble t data out).2 = true ∧ decompress c (assemble t data out).2 = .ok data := by
  have plain : isValidData (wrHeader 0 data.length data.length ++ data) = true ∧
      decompress c (wrHeader 0 data.length data.length ++ data) = .ok data := by
    obtain ⟨e1, e2, e3⟩ := hdr_fields 0 data.length data.length data (by decide) hl hl
    have hlen : (wrHeader 0 data.length data.length ++ data).length = 12 + data.length := by rw [List.length_append, wrHeader_length]
    constructor
    · rw [isValidData, e1, e2, e3, hlen, if_neg (by omega), if_neg (by omega), if_neg (by omega), if_neg (by omega)]
    · rw [decompress, e1, e2, hlen, if_neg (by omega), if_pos rfl, if_pos (by omega), List.drop_left' (wrHeader_length _ _ _),
        List.take_of_length_le (Nat.le_refl _)]
  cases out with
  | none => exact plain
  | some o =>
    rw [assemble]
    by_cases ho : o.length < data.length
    · rw [if_pos ho]
      obtain ⟨e1, e2, e3⟩ := hdr_fields t data.length o.length o (by omega) hl (by omega)
      have hlen : (wrHeader t data.length o.length ++ o).length = 12 + o.length := by rw [List.length_append, wrHeader_length]
      have hb : ((wrHeader t data.length o.length ++ o).drop 12).take o.length = o := by
        rw [List.drop_left' (wrHeader_length _ _ _), List.take_of_length_le (Nat.le_refl _)]
      constructor
      · dsimp only
        rw [isValidData, e1, e2, e3, hlen, if_neg (by omega), if_neg (by omega), if_neg (by omega), if_neg (by omega)]
      · dsimp only
        rw [decompress, e1, e2, e3, hlen, if_neg (by omega), if_neg (by omega), hb]
        rcases ht with rfl | rfl
        · have := h31 rfl
          rw [if_pos rfl, if_neg (by omega), if_pos (by omega), h1 rfl o rfl]
          dsimp only
          rw [if_pos rfl]
        · rw [if_neg (by decide), if_pos rfl, if_pos (by omega), h2 rfl o rfl]
          dsimp only
          rw [if_pos rfl]
    · rw [if_neg ho]
      exact plain

/-- C22. For every data LZ4 accepts (0x7E000000 bytes) and every level, positive, zero or negative, the compressed
form is accepted as valid and decompresses to the data, whether or not compression made it smaller. -/
theorem C22_roundtrip_lz4 (c : Codecs) (h : c.Good) (data : List Byte) (level : Int) (hl : data.length ≤ 0x7E000000) :
    ∃ r b, compress c data level = some (r, b) ∧ isValidData b = true ∧ decompress c b = .ok data ∧ b.length ≤ 12 + data.length := by
  have key : ∀ out : Option (List Byte), (∀ o, out = some o → c.lz4Dec o data.length = some data) →
      isValidData (assemble 1 data out).2 = true ∧ decompress c (assemble 1 data out).2 = .ok data ∧ (assemble 1 data out).2.length ≤ 12 + data.length := by
    intro out ho
    have := assemble_ok c 1 (Or.inl rfl) data (by omega) (by omega) out (fun _ => ho) (fun c => by cases c)
    refine ⟨this.1, this.2, ?_⟩
    cases out with
    | none => simp [assemble, wrHeader_length]
    | some o =>
      simp only [assemble]
      split
      · simp [wrHeader_length]; omega
      · simp [wrHeader_length]
  rw [compress, if_neg (by omega)]
  split
  · exact ⟨(assemble 1 data (some (c.lz4HC level data))).1, (assemble 1 data (some (c.lz4HC level data))).2, rfl,
      key (some (c.lz4HC level data)) (by rintro o e; rw [← Option.some.inj e]; exact h.hc _ _)⟩
  · split
    · exact ⟨(assemble 1 data (some (c.lz4Fast (0 - level) data))).1, (assemble 1 data (some (c.lz4Fast (0 - level) data))).2, rfl,
        key (some (c.lz4Fast (0 - level) data)) (by rintro o e; rw [← Option.some.inj e]; exact h.fast _ _)⟩
    · exact ⟨(assemble 1 data none).1, (assemble 1 data none).2, rfl, key none (by rintro o e; cases e)⟩

/-- C22. The same for zstd and data below 4 GiB. -/
theorem C22_roundtrip_zstd (c : Codecs) (h : c.Good) (data : List Byte) (level : Int) (hl : data.length < 2 ^ 32) :
    isValidData (compressZstd c data level).2 = true ∧ decompress c (compressZstd c data level).2 = .ok data := by
  rw [compressZstd]
  split
  · exact assemble_ok c 2 (Or.inr rfl) data hl (by intro c; cases c) _ (by intro c; cases c) (fun _ o ho => h.zstd _ _ _ ho)
  · exact assemble_ok c 2 (Or.inr rfl) data hl (by intro c; cases c) _ (by intro c; cases c) (fun _ o ho => by cases ho)

/-- C22. A buffer accepted as valid is decompressed without reading outside it, if it isn't marked as stored
uncompressed, or if the two sizes in the header agree. Missing from the full claim: uncompressed buffers whose
sizes differ, for which it is false (`C22_stored_out_of_bounds`). -/
theorem C22_in_bounds_partial (c : Codecs) (b : List Byte) (hv : isValidData b = true)
    (hs : hdrType b ≠ 0 ∨ hdrUncompressed b = hdrCompressed b) :
    decompress c b = .corrupt ∨ ∃ d, decompress c b = .ok d ∧ d.length = hdrUncompressed b := by
  rw [isValidData] at hv
  split at hv; · cases hv
  rename_i h1
  split at hv; · cases hv
  rename_i h2
  split at hv; · cases hv
  rename_i h3
  split at hv; · cases hv
  rename_i h4
  have h3' : hdrCompressed b + 12 = b.length := Decidable.not_not.1 h3
  rw [decompress, if_neg h1]
  by_cases t0 : hdrType b = 0
  · have hs' : hdrUncompressed b = hdrCompressed b := by
      rcases hs with c | c
      · exact absurd t0 c
      · exact c
    rw [if_pos t0, if_pos (by omega)]
    right
    refine ⟨_, rfl, ?_⟩
    rw [List.length_take, List.length_drop]; omega
  · rw [if_neg t0]
    by_cases t1 : hdrType b = 1
    · rw [if_pos t1]
      split
      · exact Or.inl rfl
      · rw [if_pos (by omega)]
        split
        · split
          · rename_i hd
            exact Or.inr ⟨_, rfl, hd⟩
          · exact Or.inl rfl
        · exact Or.inl rfl
    · rw [if_neg t1, if_pos (by omega), if_pos (by omega)]
      split
      · split
        · rename_i hd
          exact Or.inr ⟨_, rfl, hd⟩
        · exact Or.inl rfl
      · exact Or.inl rfl

/-- Finding: a buffer marked as uncompressed is accepted with any uncompressed size larger than its content, and
decompressing it reads outside the buffer. -/
theorem C22_stored_out_of_bounds (c : Codecs) (content : List Byte) (n : Nat) (h1 : content.length < n) (h2 : n < 2 ^ 32) :
    isValidData (wrHeader 0 n content.length ++ content) = true ∧
    decompress c (wrHeader 0 n content.length ++ content) = .outOfBounds := by
  obtain ⟨e1, e2, e3⟩ := hdr_fields 0 n content.length content (by decide) h2 (by omega)
  have hlen : (wrHeader 0 n content.length ++ content).length = 12 + content.length := by rw [List.length_append, wrHeader_length]
  constructor
  · rw [isValidData, e1, e2, e3, hlen, if_neg (by omega), if_neg (by omega), if_neg (by omega), if_neg (by omega)]
  · rw [decompress, e1, e2, hlen, if_neg (by omega), if_pos rfl, if_neg (by omega)]

/-- Finding: data of 4 GiB or more does not survive: the sizes in the header are reduced modulo 2^32 (here data of
exactly 4 GiB, uncompressed, comes back as nothing, and isn't even valid). -/
theorem C22_four_gib (c : Codecs) (data : List Byte) (h : data.length = 2 ^ 32) :
    isValidData (compressZstd c data 0).2 = false ∧ decompress c (compressZstd c data 0).2 = .ok [] := by
  have e : (compressZstd c data 0).2 = wrHeader 0 0 0 ++ data := by
    show wrHeader 0 data.length data.length ++ data = _
    rw [h, wrHeader, wrHeader]; rfl
  obtain ⟨e1, e2, e3⟩ := hdr_fields 0 0 0 data (by decide) (by decide) (by decide)
  have hlen : (wrHeader 0 0 0 ++ data).length = 12 + data.length := by rw [List.length_append, wrHeader_length]
  rw [e]
  constructor
  · rw [isValidData, e1, e3, hlen, h]; rfl
  · rw [decompress, e1, e2, hlen, h]
    simp

/-- run-length codec of the examples: [n, x] for n times x -/
def exCodecs : Codecs where
  lz4Fast := fun _ d => if d = List.replicate 20 7 then [20, 7] else 0 :: d
  lz4HC := fun _ d => if d = List.replicate 20 7 then [20, 7] else 0 :: d
  lz4Dec := fun b _ => match b with
    | 0 :: d => some d
    | [20, 7] => some (List.replicate 20 7)
    | _ => none
  zstd := fun _ _ => none
  zstdDec := fun _ _ => none

theorem exCodecs_good : exCodecs.Good where
  fast := by
    intro l d
    by_cases h : d = List.replicate 20 7
    · subst h; rfl
    · simp only [exCodecs, if_neg h]; rfl
  hc := by
    intro l d
    by_cases h : d = List.replicate 20 7
    · subst h; rfl
    · simp only [exCodecs, if_neg h]; rfl
  zstd := by intro l d o h; cases h

example : compress exCodecs (List.replicate 20 7) 3 = some (true, [1, 0, 0, 0, 20, 0, 0, 0, 2, 0, 0, 0, 20, 7]) ∧
    compress exCodecs [1, 2] (-1) = some (false, [0, 0, 0, 0, 2, 0, 0, 0, 2, 0, 0, 0, 1, 2]) ∧
    compress exCodecs [] 0 = some (false, [0, 0, 0, 0, 0, 0, 0, 0, 0, 0, 0, 0]) := by decide
example : isValidData [0, 0, 0, 0, 9, 0, 0, 0, 2, 0, 0, 0, 1, 2] = true ∧
    decompress exCodecs [0, 0, 0, 0, 9, 0, 0, 0, 2, 0, 0, 0, 1, 2] = .outOfBounds := by decide

/-! ## C23 -/

/-- the buffer made of some files -/
def packed (fs : List (List Byte)) : List Byte :=
  wrU32 (BitVec.ofNat 32 fs.length) ++ (fs.flatMap (fun f => wrU64 (BitVec.ofNat 64 f.length)) ++ fs.flatten)

theorem openAll_some (fs : List (List Byte)) (i : Nat) : openAll (fs.map (fun f => some (f.length, f))) i = .ok (fs.map (fun f => (f.length, f))) := by
  induction fs generalizing i with
  | nil => rfl
  | cons f fs ih => rw [List.map_cons, openAll, ih]; rfl

theorem readAll_all (fs : List (List Byte)) (i : Nat) : readAll (fs.map (fun f => (f.length, f))) i = .ok fs.flatten := by
  induction fs generalizing i with
  | nil => rfl
  | cons f fs ih =>
    rw [List.map_cons, readAll, if_neg (by simp), ih, List.take_of_length_le (Nat.le_refl _), List.flatten_cons]

theorem create_packed (fs : List (List Byte)) (h : fs.length ≤ 4) : createFromFiles (fs.map (fun f => some (f.length, f))) = some (.ok (packed fs)) := by
  rw [createFromFiles, if_neg (by rw [List.length_map]; omega), openAll_some]
  dsimp only
  rw [readAll_all]
  dsimp only
  rw [List.length_map, List.flatMap_map]; rfl

theorem sizes_length (fs : List (List Byte)) : (fs.flatMap (fun f => wrU64 (BitVec.ofNat 64 f.length))).length = 8 * fs.length := by
  induction fs with
  | nil => rfl
  | cons f fs ih => rw [List.flatMap_cons, List.length_append, ih, u64_length, List.length_cons]; omega

theorem sumSizes_spec : ∀ (fs : List (List Byte)) (pre post : List Byte) (offset : Nat), offset + fs.flatten.length < 2 ^ 64 →
    sumSizes fs.length offset ⟨pre ++ fs.flatMap (fun f => wrU64 (BitVec.ofNat 64 f.length)) ++ post, pre.length⟩ =
      some (offset + fs.flatten.length, ⟨pre ++ fs.flatMap (fun f => wrU64 (BitVec.ofNat 64 f.length)) ++ post,
        (pre ++ fs.flatMap (fun f => wrU64 (BitVec.ofNat 64 f.length))).length⟩)
  | [], pre, post, offset, _ => by simp [sumSizes]
  | f :: fs, pre, post, offset, h => by
    rw [List.flatten_cons, List.length_append] at h
    rw [List.length_cons, sumSizes, List.flatMap_cons]
    have e : pre ++ (wrU64 (BitVec.ofNat 64 f.length) ++ fs.flatMap (fun f => wrU64 (BitVec.ofNat 64 f.length))) ++ post =
        pre ++ wrU64 (BitVec.ofNat 64 f.length) ++ (fs.flatMap (fun f => wrU64 (BitVec.ofNat 64 f.length)) ++ post) := by simp
    have e2 : pre ++ (wrU64 (BitVec.ofNat 64 f.length) ++ fs.flatMap (fun f => wrU64 (BitVec.ofNat 64 f.length))) ++ post =
        (pre ++ wrU64 (BitVec.ofNat 64 f.length)) ++ fs.flatMap (fun f => wrU64 (BitVec.ofNat 64 f.length)) ++ post := by simp
    have r := (codec_u64 (BitVec.ofNat 64 f.length)).full pre (fs.flatMap (fun f => wrU64 (BitVec.ofNat 64 f.length)) ++ post)
    rw [← e] at r
    rw [r]
    dsimp only
    rw [e2, BitVec.toNat_ofNat, Nat.mod_eq_of_lt (a := f.length) (by omega), Nat.mod_eq_of_lt (by omega), sumSizes_spec fs _ _ _ (by omega)]
    simp
    omega

/-- extracting from a packed buffer -/
theorem extract_packed (fs : List (List Byte)) (h : (packed fs).length < 2 ^ 64) (hn : fs.length < 2 ^ 32) (i : Nat) :
    extractFile (packed fs) i = match fs[i]? with | some f => .wrote f | none => .failed := by
  have hl : (packed fs).length = 4 + 8 * fs.length + fs.flatten.length := by
    rw [packed, List.length_append, List.length_append, sizes_length, u32_length]; omega
  rw [extractFile]
  have r := (codec_u32 (BitVec.ofNat 32 fs.length)).full [] (fs.flatMap (fun f => wrU64 (BitVec.ofNat 64 f.length)) ++ fs.flatten)
  rw [List.nil_append] at r
  have r' : rdU32 ⟨packed fs, 0⟩ = some (BitVec.ofNat 32 fs.length, ⟨packed fs, 4⟩) := by
    rw [u32_length] at r; exact r
  rw [r']
  dsimp only
  rw [BitVec.toNat_ofNat, Nat.mod_eq_of_lt hn]
  by_cases hi : fs.length ≤ i
  · rw [if_pos hi, List.getElem?_eq_none hi]
  · rw [if_neg hi]
    have hi' : i < fs.length := by omega
    rw [List.getElem?_eq_getElem hi']
    obtain ⟨a, b, c, hf, ha⟩ : ∃ a b c, fs = a ++ b :: c ∧ a.length = i :=
      ⟨fs.take i, fs[i], fs.drop (i + 1), by rw [← List.drop_eq_getElem_cons hi', List.take_append_drop], by rw [List.length_take]; omega⟩
    have hb : fs[i] = b := by
      have : fs[i]? = some b := by rw [hf, ← ha, List.getElem?_append_right (Nat.le_refl _)]; simp
      rw [List.getElem?_eq_getElem hi'] at this
      exact Option.some.inj this
    rw [hb]
    dsimp only
    have hfl : fs.flatten.length = a.flatten.length + b.length + c.flatten.length := by rw [hf]; simp; omega
    have hp : packed fs = wrU32 (BitVec.ofNat 32 fs.length) ++ a.flatMap (fun f => wrU64 (BitVec.ofNat 64 f.length)) ++
        (wrU64 (BitVec.ofNat 64 b.length) ++ (c.flatMap (fun f => wrU64 (BitVec.ofNat 64 f.length)) ++ fs.flatten)) := by
      rw [packed, hf]; simp
    have s := sumSizes_spec a (wrU32 (BitVec.ofNat 32 fs.length))
      (wrU64 (BitVec.ofNat 64 b.length) ++ (c.flatMap (fun f => wrU64 (BitVec.ofNat 64 f.length)) ++ fs.flatten)) (4 + 8 * fs.length) (by omega)
    rw [← hp, u32_length, ha] at s
    rw [s]
    dsimp only
    have t := (codec_u64 (BitVec.ofNat 64 b.length)).full (wrU32 (BitVec.ofNat 32 fs.length) ++ a.flatMap (fun f => wrU64 (BitVec.ofNat 64 f.length)))
      (c.flatMap (fun f => wrU64 (BitVec.ofNat 64 f.length)) ++ fs.flatten)
    rw [List.append_assoc _ (wrU64 _), ← hp] at t
    rw [t]
    have hsz : (BitVec.ofNat 64 b.length).toNat = b.length := by rw [BitVec.toNat_ofNat, Nat.mod_eq_of_lt (by omega)]
    show (if 4 + 8 * fs.length + a.flatten.length + (BitVec.ofNat 64 b.length).toNat ≤ (packed fs).length then
        Extract.wrote (((packed fs).drop (4 + 8 * fs.length + a.flatten.length)).take (BitVec.ofNat 64 b.length).toNat)
      else Extract.outOfBounds) = _
    rw [hsz, if_pos (by omega)]
    have hd : (packed fs).drop (4 + 8 * fs.length + a.flatten.length) = b ++ c.flatten := by
      have e1 : (wrU32 (BitVec.ofNat 32 fs.length) ++ fs.flatMap (fun f => wrU64 (BitVec.ofNat 64 f.length))).length = 4 + 8 * fs.length := by
        rw [List.length_append, sizes_length, u32_length]
      have e2 : packed fs = (wrU32 (BitVec.ofNat 32 fs.length) ++ fs.flatMap (fun f => wrU64 (BitVec.ofNat 64 f.length)) ++ a.flatten) ++ (b ++ c.flatten) := by
        rw [packed]
        conv => lhs; rw [show fs.flatten = a.flatten ++ (b ++ c.flatten) by rw [hf]; simp]
        simp
      rw [e2, List.drop_left' (by rw [List.length_append, e1])]
    rw [hd, List.take_left]

/-- C23. Packing at most four files whose size doesn't change meanwhile, and extracting the i-th, gives exactly its
bytes; an index out of range fails. -/
theorem C23_roundtrip (fs : List (List Byte)) (h4 : fs.length ≤ 4) (hsize : 100 + fs.flatten.length < 2 ^ 64) :
    ∃ b, createFromFiles (fs.map (fun f => some (f.length, f))) = some (.ok b) ∧
      (∀ i f, fs[i]? = some f → extractFile b i = .wrote f) ∧ (∀ i, fs.length ≤ i → extractFile b i = .failed) := by
  have hl : (packed fs).length = 4 + 8 * fs.length + fs.flatten.length := by
    rw [packed, List.length_append, List.length_append, sizes_length, u32_length]; omega
  refine ⟨packed fs, create_packed fs h4, ?_, ?_⟩
  · intro i f hf
    rw [extract_packed fs (by omega) (by omega), hf]
  · intro i hi
    rw [extract_packed fs (by omega) (by omega), List.getElem?_eq_none hi]

example : (createFromFiles [some (2, [1, 2]), some (0, []), some (3, [3, 4, 5])]).map
    (fun r => match r with | .ok b => (extractFile b 0, extractFile b 1, extractFile b 2, extractFile b 3) | .error _ => (.failed, .failed, .failed, .failed)) =
    some (.wrote [1, 2], .wrote [], .wrote [3, 4, 5], .failed) := by decide

/-- C23. If a file can't be opened, or yields fewer bytes than its size, packing fails and names a file for which
this is so; otherwise it succeeds. -/
theorem C23_problem (files : List FileView) (h4 : files.length ≤ 4) :
    ∃ r, createFromFiles files = some r ∧
      (∀ i, r = .error i → files[i]? = some none ∨ ∃ (s : Nat) (d : List Byte), files[i]? = some (some (s, d)) ∧ d.length < s) ∧
      (∀ b, r = .ok b → ∀ (i : Nat) v, files[i]? = some v → ∃ (s : Nat) (d : List Byte), v = some (s, d) ∧ s ≤ d.length) := by
  have ho : ∀ (fs : List FileView) (i0 : Nat), (∀ i, openAll fs i0 = .error i → ∃ j : Nat, i = i0 + j ∧ fs[j]? = some none) ∧
      (∀ r, openAll fs i0 = .ok r → fs = r.map some) := by
    intro fs
    induction fs with
    | nil => exact fun i0 => ⟨fun i h => (by cases h), fun r h => by cases h; rfl⟩
    | cons f fs ih =>
      intro i0
      cases f with
      | none => exact ⟨fun i h => by cases h; exact ⟨0, rfl, rfl⟩, fun r h => by cases h⟩
      | some f =>
        rw [openAll]
        obtain ⟨ih1, ih2⟩ := ih (i0 + 1)
        cases ho : openAll fs (i0 + 1) with
        | error j =>
          refine ⟨fun i h => ?_, fun r h => by cases h⟩
          cases h
          obtain ⟨k, e1, e2⟩ := ih1 j ho
          exact ⟨k + 1, by omega, by simpa using e2⟩
        | ok r =>
          refine ⟨fun i h => (by cases h), fun r' h => ?_⟩
          cases h
          rw [List.map_cons, ← ih2 r ho]
  have hr : ∀ (fs : List (Nat × List Byte)) (i0 : Nat), (∀ i, readAll fs i0 = .error i → ∃ (j s : Nat) (d : List Byte), i = i0 + j ∧ fs[j]? = some (s, d) ∧ d.length < s) ∧
      (∀ b, readAll fs i0 = .ok b → ∀ (i s : Nat) (d : List Byte), fs[i]? = some (s, d) → s ≤ d.length) := by
    intro fs
    induction fs with
    | nil => exact fun i0 => ⟨fun i h => (by cases h), fun b h i s d hi => by cases hi⟩
    | cons f fs ih =>
      intro i0
      obtain ⟨s, d⟩ := f
      rw [readAll]
      obtain ⟨ih1, ih2⟩ := ih (i0 + 1)
      by_cases hs : (d.take s).length ≠ s
      · rw [if_pos hs]
        refine ⟨fun i h => ?_, fun b h => by cases h⟩
        cases h
        exact ⟨0, s, d, rfl, rfl, by rw [List.length_take] at hs; omega⟩
      · rw [if_neg hs]
        cases hrd : readAll fs (i0 + 1) with
        | error j =>
          refine ⟨fun i h => ?_, fun b h => by cases h⟩
          cases h
          obtain ⟨k, s', d', e1, e2, e3⟩ := ih1 j hrd
          exact ⟨k + 1, s', d', by omega, by simpa using e2, e3⟩
        | ok r =>
          refine ⟨fun i h => (by cases h), fun b h => ?_⟩
          intro i s' d' hi
          cases i with
          | zero =>
            have e := Option.some.inj hi
            cases e
            rw [List.length_take] at hs; omega
          | succ i => exact ih2 r hrd i s' d' (by simpa using hi)
  rw [createFromFiles, if_neg (by omega)]
  obtain ⟨o1, o2⟩ := ho files 0
  cases hop : openAll files 0 with
  | error j =>
    refine ⟨_, rfl, fun i h => ?_, fun b h => by cases h⟩
    cases h
    obtain ⟨k, e1, e2⟩ := o1 j hop
    rw [Nat.zero_add] at e1
    exact Or.inl (e1 ▸ e2)
  | ok fs =>
    obtain ⟨r1, r2⟩ := hr fs 0
    have hm := o2 fs hop
    dsimp only
    cases hrd : readAll fs 0 with
    | error j =>
      refine ⟨_, rfl, fun i h => ?_, fun b h => by cases h⟩
      cases h
      obtain ⟨k, s, d, e1, e2, e3⟩ := r1 j hrd
      rw [Nat.zero_add] at e1
      right
      refine ⟨s, d, ?_, e3⟩
      rw [e1, hm, List.getElem?_map, e2]; rfl
    | ok body =>
      refine ⟨_, rfl, fun i h => (by cases h), fun b _ => ?_⟩
      intro i v hv
      rw [hm, List.getElem?_map] at hv
      cases hf : fs[i]? with
      | none => rw [hf] at hv; cases hv
      | some x =>
        rw [hf] at hv
        obtain rfl := Option.some.inj hv
        exact ⟨x.1, x.2, rfl, r2 body hrd i x.1 x.2 hf⟩

/-- C22, C23. Results travel compressed between machines: packing, compressing, decompressing and extracting gives
the files back. -/
theorem C23_transfer (c : Codecs) (hc : c.Good) (fs : List (List Byte)) (h4 : fs.length ≤ 4) (hsize : 100 + fs.flatten.length ≤ 0x7E000000)
    (level : Int) (allowZstd : Bool) :
    ∃ b z, createFromFiles (fs.map (fun f => some (f.length, f))) = some (.ok b) ∧ mbCompress c b level allowZstd = some z ∧
      mbDecompress c z = .ok b ∧ ∀ i f, fs[i]? = some f → extractFile b i = .wrote f := by
  have hl : (packed fs).length = 4 + 8 * fs.length + fs.flatten.length := by
    rw [packed, List.length_append, List.length_append, sizes_length, u32_length]; omega
  obtain ⟨b, e1, e2, _⟩ := C23_roundtrip fs h4 (by omega)
  have eb : b = packed fs := by
    rw [create_packed fs h4] at e1
    exact (Except.ok.inj (Option.some.inj e1)).symm
  subst eb
  cases allowZstd with
  | true =>
    obtain ⟨v, d⟩ := C22_roundtrip_zstd c hc (packed fs) level (by omega)
    exact ⟨_, _, e1, rfl, by rw [mbDecompress, v, d]; rfl, e2⟩
  | false =>
    obtain ⟨r, z, f1, f2, f3, _⟩ := C22_roundtrip_lz4 c hc (packed fs) level (by omega)
    refine ⟨_, z, e1, ?_, by rw [mbDecompress, f2, f3]; rfl, e2⟩
    rw [mbCompress, f1]; rfl

/-- Finding: extraction trusts the sizes in the buffer, which may come from the network or from a cache: a buffer
claiming one file of 100 bytes makes it read outside. -/
theorem C23_untrusted_out_of_bounds : extractFile [1, 0, 0, 0, 100, 0, 0, 0, 0, 0, 0, 0] 0 = .outOfBounds := by decide

end Verif.IO
