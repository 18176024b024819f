import Verif.IO.StreamModel
/-
Code/Tools/FBuild/FBuildCore/Helpers/Compressor.cpp and MultiBuffer.cpp. The compression libraries are
parameters. Reading outside a buffer is an outcome of its own.
-/
namespace Verif.IO

/-- LZ4 and zstd. Compression of zstd may fail (`none`, an error code larger than any size); the decompressors are
given the destination capacity and return `none` on malformed data. -/
structure Codecs where
  /-- `LZ4_compress_fast` with an acceleration -/
  lz4Fast : Int → List Byte → List Byte
  /-- `LZ4_compress_HC` with a level -/
  lz4HC : Int → List Byte → List Byte
  /-- `LZ4_decompress_safe` -/
  lz4Dec : List Byte → Nat → Option (List Byte)
  /-- `ZSTD_compress` with a level -/
  zstd : Int → List Byte → Option (List Byte)
  /-- `ZSTD_decompress` -/
  zstdDec : List Byte → Nat → Option (List Byte)

/-- the header, Compressor.h:46-51, each field reduced to 32 bits -/
def wrHeader (type uncompressed compressed : Nat) : List Byte :=
  wrU32 (BitVec.ofNat 32 type) ++ (wrU32 (BitVec.ofNat 32 uncompressed) ++ wrU32 (BitVec.ofNat 32 compressed))

/-- the three header fields at the start of a buffer of at least 12 bytes -/
def hdrType (b : List Byte) : Nat := ofLE (b.take 4)
def hdrUncompressed (b : List Byte) : Nat := ofLE ((b.drop 4).take 4)
def hdrCompressed (b : List Byte) : Nat := ofLE ((b.drop 8).take 4)

/-- `IsValidData`, Compressor.cpp:42-67 -/
def isValidData (b : List Byte) : Bool :=
  if b.length < 12 then false
  else if hdrType b > 2 then false
  else if hdrCompressed b + 12 ≠ b.length then false
  else if hdrCompressed b > hdrUncompressed b then false
  else true

/-- lines 115-141 of `Compress` and 241-263 of `CompressZstd`: the result buffer. `out` is the compressor's output,
`none` if compression is disabled or failed. -/
def assemble (type : Nat) (data : List Byte) (out : Option (List Byte)) : Bool × List Byte :=
  match out with
  | none => (false, wrHeader 0 data.length data.length ++ data)
  | some o =>
    if o.length < data.length then (true, wrHeader type data.length o.length ++ o)
    else (false, wrHeader 0 data.length data.length ++ data)

/-- `Compress`, Compressor.cpp:83-144. `LZ4_compressBound` is positive up to 0x7E000000 bytes; otherwise the
assertion fails (`none`). -/
def compress (c : Codecs) (data : List Byte) (level : Int) : Option (Bool × List Byte) :=
  if data.length > 0x7E000000 then none
  else if level > 0 then some (assemble 1 data (some (c.lz4HC level data)))
  else if level < 0 then some (assemble 1 data (some (c.lz4Fast (0 - level) data)))
  else some (assemble 1 data none)

/-- `CompressZstd`, Compressor.cpp:207-266 -/
def compressZstd (c : Codecs) (data : List Byte) (level : Int) : Bool × List Byte :=
  if level > 0 then assemble 2 data (c.zstd level data) else assemble 2 data none

inductive Dec where
  /-- a read outside the buffer -/
  | outOfBounds
  | assert
  | corrupt
  | ok (data : List Byte)
deriving DecidableEq

/-- `Decompress`, Compressor.cpp:148-203; the buffer is all there is to read. Sizes of 2^31 or more are negative
for LZ4, which is taken to fail. -/
def decompress (c : Codecs) (b : List Byte) : Dec :=
  if b.length < 12 then .outOfBounds
  else if hdrType b = 0 then
    if 12 + hdrUncompressed b ≤ b.length then .ok ((b.drop 12).take (hdrUncompressed b)) else .outOfBounds
  else if hdrType b = 1 then
    if hdrCompressed b ≥ 2 ^ 31 ∨ hdrUncompressed b ≥ 2 ^ 31 then .corrupt
    else if 12 + hdrCompressed b ≤ b.length then
      match c.lz4Dec ((b.drop 12).take (hdrCompressed b)) (hdrUncompressed b) with
      | some d => if d.length = hdrUncompressed b then .ok d else .corrupt
      | none => .corrupt
    else .outOfBounds
  else if hdrType b = 2 then
    if 12 + hdrCompressed b ≤ b.length then
      match c.zstdDec ((b.drop 12).take (hdrCompressed b)) (hdrUncompressed b) with
      | some d => if d.length = hdrUncompressed b then .ok d else .corrupt
      | none => .corrupt
    else .outOfBounds
  else .assert

/-! ## MultiBuffer -/

/-- a file as seen by `CreateFromFiles`: `none` if it can't be opened, otherwise its size when opened and the
bytes then available for reading -/
abbrev FileView := Option (Nat × List Byte)

/-- opening all files, MultiBuffer.cpp:54-70: the sizes and contents, or the index of the file that can't be opened -/
def openAll : List FileView → Nat → Except Nat (List (Nat × List Byte))
  | [], _ => .ok []
  | none :: _, i => .error i
  | some f :: fs, i =>
    match openAll fs (i + 1) with
    | .error j => .error j
    | .ok r => .ok (f :: r)

/-- reading all files, MultiBuffer.cpp:84-96: a file with fewer bytes than its size is a problem -/
def readAll : List (Nat × List Byte) → Nat → Except Nat (List Byte)
  | [], _ => .ok []
  | (size, data) :: fs, i =>
    if (data.take size).length ≠ size then .error i
    else
      match readAll fs (i + 1) with
      | .error j => .error j
      | .ok r => .ok (data.take size ++ r)

/-- `CreateFromFiles`, MultiBuffer.cpp:44-101: the buffer or the problem file's index. More than 4 files fail an
assertion (`none`). -/
def createFromFiles (files : List FileView) : Option (Except Nat (List Byte)) :=
  if files.length > 4 then none
  else
    match openAll files 0 with
    | .error i => some (.error i)
    | .ok fs =>
      match readAll fs 0 with
      | .error i => some (.error i)
      | .ok body => some (.ok (wrU32 (BitVec.ofNat 32 fs.length) ++ (fs.flatMap (fun f => wrU64 (BitVec.ofNat 64 f.1)) ++ body)))

inductive Extract where
  /-- an uninitialised variable is used -/
  | uninitialised
  /-- a read outside the buffer -/
  | outOfBounds
  /-- returns false -/
  | failed
  | wrote (data : List Byte)
deriving DecidableEq

/-- the loop over the sizes of the files before, MultiBuffer.cpp:120-126: the offset, modulo 2^64 -/
def sumSizes : Nat → Nat → Reader → Option (Nat × Reader)
  | 0, offset, r => some (offset, r)
  | i + 1, offset, r =>
    match rdU64 r with
    | none => none
    | some (size, r) => sumSizes i ((offset + size.toNat) % 2 ^ 64) r

/-- `ExtractFile`, MultiBuffer.cpp:105-160, when the target can be opened and written. The results of `Read` and
`Seek` are ignored; only the last size is initialised (to 0) before reading. -/
def extractFile (b : List Byte) (index : Nat) : Extract :=
  match rdU32 ⟨b, 0⟩ with
  | none => .uninitialised
  | some (numFiles, r) =>
    if index ≥ numFiles.toNat then .failed
    else
      match sumSizes index (4 + 8 * numFiles.toNat) r with
      | none => .uninitialised
      | some (offset, r) =>
        let size := match rdU64 r with | none => 0 | some (s, _) => s.toNat
        if offset + size ≤ b.length then .wrote ((b.drop offset).take size) else .outOfBounds

/-- `MultiBuffer::Compress`, MultiBuffer.cpp:164-182 -/
def mbCompress (c : Codecs) (b : List Byte) (level : Int) (allowZstd : Bool) : Option (List Byte) :=
  if allowZstd then some (compressZstd c b level).2 else (compress c b level).map (·.2)

/-- `MultiBuffer::Decompress`, MultiBuffer.cpp:186-206: `corrupt` if it returns false -/
def mbDecompress (c : Codecs) (b : List Byte) : Dec :=
  if isValidData b = false then .corrupt else decompress c b

end Verif.IO
