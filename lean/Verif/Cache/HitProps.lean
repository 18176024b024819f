import Verif.Cache.IdProps
import Verif.Cache.StoreProps
import Verif.Cache.FlagsProps
/-!
C68: a cache hit gives what compiling would have given.

Sources: /repo/Code/Tools/FBuild/FBuildCore/Graph/ObjectNode.cpp GetCacheName (1346), GetCommandLineKey (1388),
RetrieveFromCache (1411), WriteToCache_FromDisk (1536), WriteToCache_FromUncompressedData (1570),
WriteToCache_FromCompressedData (1605)
-/
namespace Verif.Cache
open Verif.IO

/-- What a compilation depends on. -/
structure Inputs where
  /-- the preprocessed source -/
  source : List IO.Byte
  /-- the command line for preprocessed input, with the source mapping -/
  commandLine : List Char
  /-- the identification of all files of the compiler -/
  toolChain : BitVec 64
  /-- the cache entry of the precompiled header, if one is used with the Microsoft compiler -/
  pch : Option (List IO.Byte)

/-- xxHash3 and xxHash. -/
structure Hashes where
  h64 : List IO.Byte → BitVec 64
  h32 : List Char → BitVec 32

/-- `pchKey` in `GetCacheName`, ObjectNode.cpp:1373-1378; the key of a header is the hash of its entry, both after
storing (1626) and after retrieving (1436) it. -/
def pchKey (h : Hashes) : Option (List IO.Byte) → BitVec 64
  | none => 0
  | some b => h.h64 b

/-- `GetCacheName`, ObjectNode.cpp:1346-1384. -/
def cacheName (h : Hashes) (i : Inputs) : Key :=
  cacheId (h.h64 i.source) (h.h32 i.commandLine) i.toolChain (pchKey h i.pch)

/-- Compression as in `WriteToCache_FromUncompressedData`, ObjectNode.cpp:1583-1596. -/
def cacheCompress (c : Codecs) (b : List IO.Byte) (level : Int) : Option (List IO.Byte) :=
  if level ≤ 0 then (compress c b level).map (·.2) else some (compressZstd c b level).2

/-- `WriteToCache_FromDisk`, ObjectNode.cpp:1536-1566: the data given to `Publish`; `none` if the files cannot be
read (or an assertion fails). -/
def storeData (c : Codecs) (files : List (List IO.Byte)) (level : Int) : Option (List IO.Byte) :=
  match createFromFiles (files.map fun f => some (f.length, f)) with
  | some (.ok b) => cacheCompress c b level
  | _ => none

/-- The part of `RetrieveFromCache` after `Retrieve`, ObjectNode.cpp:1441-1490: the files written, if all can be;
`n` is the number of files of the object. -/
def extractAll (c : Codecs) (z : List IO.Byte) (n : Nat) : Option (List Extract) :=
  match mbDecompress c z with
  | .ok b => some ((List.range n).map (extractFile b))
  | _ => none

/-- bytes in the store are those of the streams -/
def toByte (b : List IO.Byte) : Data := b.map BitVec.toNat

theorem toByte_inj {a b : List IO.Byte} (h : toByte a = toByte b) : a = b := by
  induction a generalizing b with
  | nil => cases b with
    | nil => rfl
    | cons y b => simp [toByte] at h
  | cons x a ih => cases b with
    | nil => simp [toByte] at h
    | cons y b =>
      simp only [toByte, List.map_cons, List.cons.injEq] at h
      rw [BitVec.eq_of_toNat_eq h.1, ih h.2]

/-- What is stored decompresses to the files. -/
theorem store_extract (c : Codecs) (hc : c.Good) {files : List (List IO.Byte)} {level : Int} {z : List IO.Byte}
    (hsize : 100 + files.flatten.length ≤ 0x7E000000) (h : storeData c files level = some z) :
    extractAll c z files.length = some (files.map .wrote) := by
  have h4 : files.length ≤ 4 := by
    apply Decidable.byContradiction
    intro hn
    have : createFromFiles (files.map fun f => some (f.length, f)) = none := by
      unfold createFromFiles
      rw [if_pos (by simp; omega)]
    rw [storeData, this] at h
    cases h
  obtain ⟨b, e1, e2, -⟩ := C23_roundtrip files h4 (by omega)
  have eb : b = packed files := by
    rw [create_packed files h4] at e1
    exact (Except.ok.inj (Option.some.inj e1)).symm
  have hl : b.length ≤ 0x7E000000 := by
    rw [eb, packed, List.length_append, List.length_append, sizes_length, u32_length]; omega
  rw [storeData, e1] at h
  simp only [cacheCompress] at h
  have hd : mbDecompress c z = .ok b := by
    split at h
    · obtain ⟨r, z', f1, f2, f3, -⟩ := C22_roundtrip_lz4 c hc b level hl
      rw [f1] at h
      cases h
      rw [mbDecompress, f2]
      exact f3
    · obtain ⟨v, d⟩ := C22_roundtrip_zstd c hc b level (by omega)
      cases h
      rw [mbDecompress, v]
      exact d
  rw [extractAll, hd]
  simp only [Option.some.injEq]
  apply List.ext_getElem?
  intro n
  rw [List.getElem?_map, List.getElem?_map]
  by_cases hn : n < files.length
  · rw [List.getElem?_range hn, List.getElem?_eq_getElem hn]
    simp only [Option.map_some, Option.some.injEq]
    exact e2 n _ (List.getElem?_eq_getElem hn)
  · rw [List.getElem?_eq_none (by simpa using hn), List.getElem?_eq_none (by omega)]
    rfl

/-- The hashes tell the inputs `i` and `j` apart: no collision between these two. -/
structure NoCollision (h : Hashes) (i j : Inputs) : Prop where
  source : h.h64 i.source = h.h64 j.source → i.source = j.source
  commandLine : h.h32 i.commandLine = h.h32 j.commandLine → i.commandLine = j.commandLine
  pch : pchKey h i.pch = pchKey h j.pch → i.pch = j.pch

/-- C68 (partial: like C64, publishers of one identifier must not overlap in time). Let every process store only
what its compiler gave (`compile`, a function of preprocessed source, command line, compiler and precompiled header),
with any compression. Then whenever an object is retrieved, all its files are written exactly as compiling would
have written them, provided the hashes of its inputs do not collide with those of the inputs `compiled` that results
were stored for. -/
theorem C68_hit_partial (c : Codecs) (hc : c.Good) (h : Hashes) (compile : Inputs → List (List IO.Byte))
    {l : List Act} {s : Sys} (hx : ExclExec init l s)
    (compiled : Inputs → Prop)
    (honest : ∀ p k d, Act.publish p k d ∈ l → ∃ i level z, compiled i ∧ k = cacheName h i ∧ d = toByte z ∧
      storeData c (compile i) level = some z ∧ 100 + (compile i).flatten.length ≤ 0x7E000000)
    (me : Inputs) (hnc : ∀ i, compiled i → NoCollision h i me)
    {z : List IO.Byte} (hg : Ev.got (cacheName h me) (toByte z) ∈ s.log) :
    extractAll c z (compile me).length = some ((compile me).map .wrote) := by
  obtain ⟨p, hp⟩ := C64_retrieve_partial hx hg
  obtain ⟨i, level, z', hi, e1, e2, e3, e4⟩ := honest p _ _ hp
  have nc := hnc i hi
  obtain ⟨k1, k2, k3, k4⟩ := C63_id_injective e1
  have : i = me := by
    have a := nc.source k1.symm
    have b := nc.commandLine k2.symm
    have d := nc.pch k4.symm
    cases i; cases me
    simp_all
  subst this
  rw [toByte_inj e2]
  exact store_extract c hc e4 e3

/-- One process compiles and stores two files, another one retrieves them. -/
def exHashes : Hashes where
  h64 b := BitVec.ofNat 64 (b.length + 1)
  h32 b := BitVec.ofNat 32 (b.length + 1)
def exCompile (i : Inputs) : List (List IO.Byte) := [i.source ++ [1], [2, 3]]
def exInputs : Inputs := ⟨[7, 8], "-c".toList, 5, none⟩
def exEntry : List IO.Byte := (storeData exCodecs (exCompile exInputs) 0).getD []
def exHit : List Act :=
  let k := cacheName exHashes exInputs
  [.publish 0 k (toByte exEntry), .step 0 .ok, .step 0 (.some exEntry.length), .step 0 .ok, .step 0 .ok,
   .retrieve 1 k, .step 1 .ok, .step 1 .ok, .step 1 (.some 100), .step 1 .ok]

example : (run init exHit).map (fun s => decide (Ev.got (cacheName exHashes exInputs) (toByte exEntry) ∈ s.log)) = some true ∧
    storeData exCodecs (exCompile exInputs) 0 = some exEntry ∧
    extractAll exCodecs exEntry 2 = some [.wrote [7, 8, 1], .wrote [2, 3]] := by
  refine ⟨by decide +kernel, by decide +kernel, by decide +kernel⟩

/-- The hypotheses of `C68_hit_partial` are met by this execution. -/
example : ∃ s, ExclExec init exHit s ∧ Ev.got (cacheName exHashes exInputs) (toByte exEntry) ∈ s.log ∧
    (∀ p k d, Act.publish p k d ∈ exHit → ∃ i level z, i = exInputs ∧ k = cacheName exHashes i ∧ d = toByte z ∧
      storeData exCodecs (exCompile i) level = some z ∧ 100 + (exCompile i).flatten.length ≤ 0x7E000000) ∧
    ∀ i, i = exInputs → NoCollision exHashes i exInputs := by
  have e : (run init exHit).map (fun s => decide (Ev.got (cacheName exHashes exInputs) (toByte exEntry) ∈ s.log)) =
    some true := by decide +kernel
  simp only [Option.map_eq_some_iff] at e
  obtain ⟨s, hs, he⟩ := e
  have pub : ∀ p k d, Act.publish p k d ∈ exHit → p = 0 ∧ k = cacheName exHashes exInputs ∧ d = toByte exEntry := by
    intro p k d h
    simpa [exHit] using h
  refine ⟨s, (exec_excl (fun _ => 0) (run_exec hs) (fun p k d h => (pub p k d h).1)).1, of_decide_eq_true he, ?_, ?_⟩
  · intro p k d h
    exact ⟨exInputs, 0, exEntry, rfl, (pub p k d h).2.1, (pub p k d h).2.2, by decide +kernel, by decide +kernel⟩
  · rintro i rfl
    exact ⟨fun _ => rfl, fun _ => rfl, fun _ => rfl⟩

end Verif.Cache
