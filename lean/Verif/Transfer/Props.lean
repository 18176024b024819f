import Verif.Transfer.Proof
import Verif.Cache.FlagsProps
/-! C112: jobs sent to workers and what comes back. -/
namespace Verif.Transfer
open Verif.IO

/-- C112. A job arrives on the worker as it was sent: its number, its name, the directory of the client, the source, the
options, the arguments and the data, whatever follows in the message. -/
theorem C112_job (j : Job) (wd : Name) (post : List Byte) (h1 : j.obj.name.length < 2 ^ 32) (h2 : j.source.length < 2 ^ 32)
    (h3 : j.args.length < 2 ^ 32) (h4 : wd.length < 2 ^ 32) (h5 : j.data.length < 2 ^ 32) :
    ∃ rj r, rdJob ⟨wrJob j wd ++ post, 0⟩ = some (rj, r) ∧ rj.id = j.id ∧ rj.remoteName = j.obj.name ∧ rj.remoteRoot = wd ∧
      rj.obj.name = j.obj.name ∧ rj.obj.flags = j.obj.flags ∧ rj.obj.pchObj = [] ∧ rj.source = j.source ∧ rj.args = j.args ∧
      rj.compressed = j.compressed ∧ rj.data = j.data := by
  obtain ⟨r, hr⟩ := Codec.at_start (codec_job j wd h1 h2 h3 h4 h5) post
  exact ⟨_, r, hr, rfl, rfl, rfl, rfl, rfl, rfl, rfl, rfl, rfl, rfl⟩

/-- C112. The preprocessed source written on the worker is the one the client made, whatever the compression level. -/
theorem C112_source (c : Codecs) (hc : c.Good) (level : Int) (source : List Byte) (h : source.length ≤ 0x7E000000) :
    ∃ f d, packSource c level source = some (f, d) ∧ writeTmp c f d = .wrote source ∧ d.length ≤ 12 + source.length := by
  obtain ⟨r, b, e1, e2, e3, e4⟩ := C22_roundtrip_lz4 c hc source level h
  refine ⟨true, b, by rw [packSource, e1]; rfl, ?_, e4⟩
  have hb : b ≠ [] := by
    rintro rfl
    rw [isValidData] at e2
    simp at e2
  rw [writeTmp, if_neg hb, if_pos rfl, e3]

/-- C112. A source that isn't compressed (not preprocessed at all in the simple mode of distribution, then compressed
as any other, or built locally) is written as it is, unless it is empty. -/
theorem C112_source_plain (c : Codecs) (d : List Byte) :
    (writeTmp c false d = .wrote d ↔ d ≠ []) ∧ (writeTmp c false d = .assert ↔ d = []) := by
  rw [writeTmp]
  by_cases h : d = [] <;> simp [h]

/-- C112. GCC sees the file on the worker as a preprocessed file of the language of the source. -/
theorem C112_language (name : Name) (l : Lang) (p : Bool) (h : SeenAs name l p) : SeenAs (tmpName true name) l false := by
  obtain ⟨s, e, rfl, hd, hm⟩ := h
  have hne : lit e ≠ [] := by
    intro he
    have : ∀ x ∈ languages, lit x.1 ≠ [] := by decide
    exact this _ hm he
  rw [tmpName, if_pos rfl, afterLast_some hd]
  simp only [ne_eq, hne, not_false_eq_true, if_true]
  have key : ∀ x ∈ languages, (x.2.2 = false ∧ addedExt (lit x.1) = []) ∨
      ∃ y ∈ languages, addedExt (lit x.1) = dot :: lit y.1 ∧ dot ∉ lit y.1 ∧ y.2.1 = x.2.1 ∧ y.2.2 = false := by
    decide +kernel
  rcases key _ hm with ⟨h1, h2⟩ | ⟨y, hy, h1, h2, h3, h4⟩
  · rw [h2, List.append_nil]
    dsimp only at h1
    exact ⟨s, e, rfl, hd, h1 ▸ hm⟩
  · rw [h1]
    refine ⟨s ++ dot :: lit e, y.1, rfl, h2, ?_⟩
    obtain ⟨y1, y2, y3⟩ := y
    dsimp only at h3 h4 ⊢
    subst h3 h4
    exact hy

theorem addedExt_nil (e : Name) (n : ∀ t l, (t, l, true) ∈ languages → e ≠ lit t) : addedExt e = [] := by
  rw [addedExt, if_neg (n "c" .c (by decide)),
    if_neg (by
      rintro (a | a | a | a | a | a | a)
      · exact n "cpp" .cpp (by decide) a
      · exact n "cc" .cpp (by decide) a
      · exact n "cxx" .cpp (by decide) a
      · exact n "c++" .cpp (by decide) a
      · exact n "cp" .cpp (by decide) a
      · exact n "CPP" .cpp (by decide) a
      · exact n "C" .cpp (by decide) a),
    if_neg (n "m" .objC (by decide)),
    if_neg (by
      rintro (a | a)
      · exact n "mm" .objCpp (by decide) a
      · exact n "M" .objCpp (by decide) a),
    if_neg (by
      rintro (a | a | a)
      · exact n "F" .fortranFixed (by decide) a
      · exact n "fpp" .fortranFixed (by decide) a
      · exact n "FPP" .fortranFixed (by decide) a),
    if_neg (n "FOR" .fortranFixed (by decide)), if_neg (n "FTN" .fortranFixed (by decide)),
    if_neg (n "F90" .fortranFree (by decide)), if_neg (n "F95" .fortranFree (by decide)),
    if_neg (n "F03" .fortranFree (by decide)), if_neg (n "F08" .fortranFree (by decide)),
    if_neg (by
      rintro (a | a)
      · exact n "S" .assembler (by decide) a
      · exact n "sx" .assembler (by decide) a)]

/-- C112. With other compilers, and for extensions that GCC doesn't preprocess, the file keeps the name of the source. -/
theorem C112_same_name (name : Name) : tmpName false name = name ∧
    ((∀ s e l, name = s ++ dot :: lit e → (e, l, true) ∉ languages) → tmpName true name = name) := by
  refine ⟨rfl, fun h => ?_⟩
  rw [tmpName, if_pos rfl]
  rcases split_last dot name with ⟨s, e, rfl, hd⟩ | hd
  · rw [afterLast_some hd]
    dsimp only
    split
    · rw [addedExt_nil e (fun t l hm he => h s t l (by rw [he]) hm), List.append_nil]
    · rfl
  · rw [afterLast_none hd]

/-- C112. A result arrives as it was sent. -/
theorem C112_result (id : BitVec 32) (name : Name) (d : Done) (t : BitVec 32) (th : BitVec 16) (post : List Byte)
    (h1 : name.length < 2 ^ 32) (h2 : d.messages.length < 2 ^ 32) (h3 : ∀ m ∈ d.messages, m.length < 2 ^ 32) (h4 : d.data.length < 2 ^ 32) :
    ∃ res r, rdResult ⟨wrResult id name d t th ++ post, 0⟩ = some (res, r) ∧ res.id = id ∧ res.name = name ∧
      (res.ok = true ↔ d.result = .ok) ∧ (res.systemError = true ↔ d.systemErrors ≠ 0) ∧ res.messages = d.messages ∧
      res.buildTime = t ∧ res.thread = th ∧ res.data = d.data := by
  obtain ⟨r, hr⟩ := Codec.at_start (codec_result id name d t th h1 h2 h3 h4) post
  refine ⟨_, r, hr, rfl, rfl, by simp, ?_, rfl, rfl, rfl, rfl⟩
  simp; omega

/-- C112. From the client to the worker and back: if the worker's compiler made the files asked for by the options, with
the object in the worker's temporary directory, then the client writes exactly those files, with the same contents, next to the object in its own
directory, and the job is done. This holds for every combination of files, every level of compression and both
compressors. Missing from the full claim: objects of lists with a precompiled header (`C112_pch_false`). -/
theorem C112_files_partial (c : Codecs) (hc : c.Good) (j : Job) (wd tmpDir dir file : Name) (slash : Byte) (x : Kind → List Byte)
    (files : Name → FileView) (level : Int) (allowZstd : Bool) (messages : List (List Byte)) (unread : Name → List Byte)
    (t : BitVec 32) (th : BitVec 16) (errors : Nat)
    (h1 : j.obj.name.length < 2 ^ 32) (h2 : j.source.length < 2 ^ 32) (h3 : j.args.length < 2 ^ 32) (h4 : wd.length < 2 ^ 32)
    (h5 : j.data.length < 2 ^ 32) (h6 : (tmpDir ++ file).length < 2 ^ 32)
    (h7 : messages.length < 2 ^ 32) (h8 : ∀ m ∈ messages, m.length < 2 ^ 32)
    (hname : j.obj.name = dir ++ slash :: file) (hfile : slash ∉ file) (hpch : j.obj.pchObj = [])
    (hmade : ∀ k, Asked j.obj.flags k → ∀ n, Made (tmpDir ++ file) k n → files n = some ((x k).length, x k))
    (hsize : (x .obj).length + (x .pdb).length + (x .xml).length + (x .alt).length ≤ 0x7D000000) :
    ∃ rj r1 o d res r2 w, rdJob ⟨wrJob j wd, 0⟩ = some (rj, r1) ∧ workerObj slash tmpDir rj = some o ∧ o.name = tmpDir ++ file ∧
      readResults c files o level allowZstd messages unread = some d ∧
      rdResult ⟨wrResult rj.id o.name d t th, 0⟩ = some (res, r2) ∧ res.id = j.id ∧ res.messages = messages ∧
      receive c j.obj (decide (level ≠ 0)) res errors = some (w, .done) ∧
      ∀ n y, (n, y) ∈ w ↔ ∃ k, Asked j.obj.flags k ∧ Made j.obj.name k n ∧ y = x k := by
  obtain ⟨r1, e1⟩ := Codec.at_start (codec_job j wd h1 h2 h3 h4 h5) []
  rw [List.append_nil] at e1
  let rj : RemoteJob := ⟨j.id, j.obj.name, wd, ⟨j.obj.name, [], j.obj.flags⟩, j.source, j.args, j.compressed, j.data⟩
  let o : Obj := ⟨tmpDir ++ file, [], j.obj.flags⟩
  have e2 : workerObj slash tmpDir rj = some o := by
    show (afterLast slash j.obj.name).map _ = _
    rw [hname, afterLast_some hfile]
    rfl
  have hk : kinds o = kinds j.obj := kinds_flags o j.obj rfl
  have hv : (resultFiles o).map files = ((kinds o).map x).map (fun f => some (f.length, f)) := by
    rw [resultFiles_eq, List.map_map, List.map_map]
    refine List.map_congr_left fun k hk' => ?_
    exact hmade k ((mem_kinds o k).1 hk') _ ((made_iff o rfl k _).2 rfl)
  have hl4 : ((kinds o).map x).length ≤ 4 := by rw [List.length_map]; exact kinds_length o
  have hfl : ((kinds o).map x).flatten.length ≤ 0x7D000000 := by
    have : ((kinds o).map x).flatten.length ≤ (x .obj).length + (x .pdb).length + (x .xml).length + (x .alt).length := by
      rw [kinds]
      cases o.pdb <;> cases o.analysis <;> cases o.deopt <;> simp <;> omega
    omega
  -- the data sent and what it's unpacked to
  obtain ⟨b, z, f1, f2, f3, f4⟩ := C23_transfer c hc ((kinds o).map x) hl4 (by omega) level allowZstd
  have hbl : b.length ≤ 36 + 0x7D000000 := by
    have := create_packed ((kinds o).map x) hl4
    rw [f1] at this
    cases this
    have : (packed ((kinds o).map x)).length = 4 + 8 * ((kinds o).map x).length + ((kinds o).map x).flatten.length := by
      rw [packed, List.length_append, List.length_append, sizes_length, u32_length]; omega
    omega
  have hzl : z.length ≤ 12 + b.length := mbCompress_length c b level allowZstd z f2
  let data := if level ≠ 0 then z else b
  have e3 : readResults c files o level allowZstd messages unread = some ⟨.ok, 0, messages, data⟩ := by
    rw [readResults, hv, f1]
    dsimp only
    by_cases hlev : level ≠ 0
    · rw [if_pos hlev, f2]
      simp [data, hlev]
    · rw [if_neg hlev]
      simp [data, hlev]
  have hdata : data.length < 2 ^ 32 := by
    show (if level ≠ 0 then z else b).length < 2 ^ 32
    split <;> omega
  obtain ⟨r2, e4⟩ := Codec.at_start (codec_result j.id (tmpDir ++ file) ⟨.ok, 0, messages, data⟩ t th h6 h7 h8 hdata) []
  rw [List.append_nil] at e4
  have e5 : unpack c (decide (level ≠ 0)) data = some b := by
    by_cases hlev : level ≠ 0
    · have hz : data = z := if_pos hlev
      rw [hz, unpack, if_pos (by simpa using hlev), f3]
    · have hz : data = b := if_neg hlev
      rw [hz, unpack, if_neg (by simpa using hlev)]
  obtain ⟨n, e6⟩ := writeFiles_all b j.obj x (by rw [← hk]; exact f4)
  refine ⟨rj, r1, o, _, _, r2, (kinds j.obj).map (fun k => (nameOf j.obj k, x k)), e1, e2, rfl, e3, e4, rfl, rfl, ?_, ?_⟩
  · rw [receive]
    simp only [beq_self_eq_true, if_true]
    rw [e5]
    dsimp only
    rw [e6]
    rfl
  · intro n y
    rw [List.mem_map]
    constructor
    · rintro ⟨k, hk', e⟩
      cases e
      exact ⟨k, (mem_kinds _ k).1 hk', (made_iff _ hpch k _).2 rfl, rfl⟩
    · rintro ⟨k, hk', hm, rfl⟩
      rw [made_iff _ hpch] at hm
      exact ⟨k, (mem_kinds _ k).2 hk', by rw [hm]⟩

/-- C112. What becomes of a job whose compilation failed: it's tried again on another worker only after a system error,
and only up to the third. Nothing is written. -/
theorem C112_failed (c : Codecs) (o : Obj) (k : Bool) (r : Result) (errors : Nat) (h : r.ok = false) :
    ∃ fate, receive c o k r errors = some ([], fate) ∧ fate ≠ .done ∧ (fate = .retried ↔ r.systemError = true ∧ errors < 3) := by
  rw [receive, h]
  cases hs : r.systemError
  · exact ⟨.fails, rfl, by decide, by simp⟩
  · by_cases he : errors < 3
    · exact ⟨.retried, by simp [he], by decide, by simp [he]⟩
    · exact ⟨.fails, by simp [he], by decide, by simp [he]⟩

theorem gcLoop_pdb : ∀ (l : List Cache.Tok) (s : Cache.Gc), (Cache.gcLoop l s).flags.pdb = s.flags.pdb
  | [], _ => rfl
  | t :: l, s => by
    rw [Cache.gcLoop, gcLoop_pdb l, Cache.gcTok]
    repeat' split
    all_goals rfl

/-- C112. For an object that may be both distributed and cached, the worker sends the files the cache keeps, in the same
order: the object, and the alternative object if there is one. So the data can be stored as it arrives. -/
theorem C112_cache (c : Cache.Compiler) (args : List Char) (creating using_ : Bool) :
    let f := Cache.determineFlags c args creating using_
    f.distributed = true → f.cached = true →
    f.pdb = false ∧ f.analysis = false ∧ Cache.extraFiles f = if f.deopt then [.altObj] else [] := by
  intro f h1 h2
  cases hf : c.family
  case msvc | clangCl =>
    have key : f = Cache.msFinish c ((Str.tokenize ' ' args).foldl Cache.msTok
        { flags := { family := c.family, creatingPCH := creating, usingPCH := using_ } }) := by
      simp only [f, Cache.determineFlags, hf]
    obtain ⟨b1, b2, b3, b4, b5, b6, b7, b8, b9, b10, b11, b12⟩ := Cache.msFold (Str.tokenize ' ' args)
      { flags := { family := c.family, creatingPCH := creating, usingPCH := using_ } }
    rw [key] at h1 h2 ⊢
    generalize (Str.tokenize ' ' args).foldl Cache.msTok _ = s at *
    rw [Cache.msFinish] at h1 h2 ⊢
    split at h1
    · rename_i hs
      rw [if_pos hs] at h2 ⊢
      simp only [Bool.and_eq_true, Bool.not_eq_true'] at h1 h2
      obtain ⟨⟨⟨⟨_, _⟩, k1⟩, k2⟩, _⟩ := h1
      refine ⟨h2.2, k2, ?_⟩
      simp [Cache.extraFiles, k1, k2, b4]
    · rw [b6] at h1; exact absurd h1 (by simp)
  case gcc | clang =>
    have key : ∃ b, f = Cache.otherFinish c (Cache.gcFinish (Cache.gcLoop (Str.tokenize ' ' args)
        { flags := { family := c.family, creatingPCH := creating, usingPCH := using_, colorAuto := b } })) := by
      simp only [f, Cache.determineFlags, hf]
      exact ⟨_, rfl⟩
    obtain ⟨b, key⟩ := key
    obtain ⟨b1, b2, b3, b4, -⟩ := Cache.gcLoop_spec (Str.tokenize ' ' args)
      { flags := { family := c.family, creatingPCH := creating, usingPCH := using_, colorAuto := b } }
    have b5 := gcLoop_pdb (Str.tokenize ' ' args)
      { flags := { family := c.family, creatingPCH := creating, usingPCH := using_, colorAuto := b } }
    rw [key] at h1 h2 ⊢
    generalize Cache.gcLoop (Str.tokenize ' ' args) _ = s at *
    have hg : ∀ s' : Cache.Gc, s'.flags.pdb = s.flags.pdb → s'.flags.analysis = s.flags.analysis →
        (Cache.otherFinish c s').distributed = true →
        (Cache.otherFinish c s').pdb = false ∧ (Cache.otherFinish c s').analysis = false ∧
        Cache.extraFiles (Cache.otherFinish c s') = if (Cache.otherFinish c s').deopt then [.altObj] else [] := by
      intro s' p1 p2 q
      simp only [Cache.otherFinish, Bool.and_eq_true, Bool.not_eq_true'] at q ⊢
      obtain ⟨⟨⟨⟨k1, _⟩, _⟩, k2⟩, _⟩ := q
      refine ⟨p1.trans b5, p2.trans b3, ?_⟩
      have : s'.flags.analysis = false := p2.trans b3
      by_cases hd : s'.flags.deopt = true <;> simp [Cache.extraFiles, k1, k2, this, hd]
    refine hg (Cache.gcFinish s) ?_ ?_ h1
    · rw [Cache.gcFinish]; split <;> rfl
    · rw [Cache.gcFinish]; split <;> rfl
  all_goals
    simp [f, Cache.determineFlags, hf, Cache.otherFinish, Cache.extraFiles] at h1 h2 ⊢

/-- C112, finding. All objects of a list with a precompiled header of the Microsoft compiler share one alternative
object and one file of analysis results: the precompiled header's. -/
theorem C112_pch_false (a b : Obj) (h : a.pchObj = b.pchObj) (hp : a.pchObj ≠ []) :
    a.altName = b.altName ∧ a.xmlName = b.xmlName := by
  have hb : b.pchObj ≠ [] := h ▸ hp
  rw [Obj.altName, Obj.altName, Obj.xmlName, Obj.xmlName, Obj.stem, Obj.stem, if_neg hp, if_neg hb, h]
  exact ⟨rfl, rfl⟩

/-- C112, finding. So the alternative objects of two objects built by workers are written to the same file; the second
overwrites the first, and neither is where the linker looks for it. -/
theorem C112_pch_overwritten_false (c : Codecs) :
    let a : Obj := ⟨lit "T:\\a.obj", lit "T:\\p.pch.obj", 0x8000000#32⟩
    let b : Obj := ⟨lit "T:\\b.obj", lit "T:\\p.pch.obj", 0x8000000#32⟩
    let sent (d : List Byte) : Result := ⟨1, lit "x", true, false, [], 0, 0,
      wrU32 2 ++ (wrU64 1 ++ wrU64 1) ++ d⟩
    receive c a false (sent [1, 2]) 0 = some ([(lit "T:\\a.obj", [1]), (lit "T:\\p.pch.alt.obj", [2])], .done) ∧
    receive c b false (sent [3, 4]) 0 = some ([(lit "T:\\b.obj", [3]), (lit "T:\\p.pch.alt.obj", [4])], .done) := by
  constructor <;> rfl

/-- C112, finding. If a worker can't read a file it should send, that isn't a system error: the job isn't tried again,
the build fails. -/
theorem C112_unread_false (c : Codecs) (o : Obj) (files : Name → FileView) (level : Int) (z : Bool) (ms : List (List Byte))
    (un : Name → List Byte) (h : files o.name = none) :
    ∃ d, readResults c files o level z ms un = some d ∧ d.result = .failed ∧ d.systemErrors = 0 := by
  have : ∃ l, resultFiles o = o.name :: l ∧ l.length ≤ 3 := by
    refine ⟨_, rfl, ?_⟩
    cases o.pdb <;> cases o.analysis <;> cases o.deopt <;> simp
  obtain ⟨l, e, hl⟩ := this
  refine ⟨⟨.failed, 0, ms ++ [un o.name], []⟩, ?_, rfl, rfl⟩
  · rw [readResults, e, List.map_cons, h, createFromFiles, if_neg (by simp; omega)]
    rfl

/-- C112, finding. The client ignores that data can't be decompressed, and takes it for the files: it reads outside
of the message. -/
theorem C112_corrupt_false (c : Codecs) (o : Obj) (hd : c.lz4Dec [0, 0] 5 = none) :
    receive c o true ⟨1, [], true, false, [], 0, 0, wrHeader 1 5 2 ++ [0, 0]⟩ 0 = none := by
  have e : unpack c true (wrHeader 1 5 2 ++ [0, 0]) = some (wrHeader 1 5 2 ++ [0, 0]) := by
    have : mbDecompress c (wrHeader 1 5 2 ++ [0, 0]) = .corrupt := by
      rw [mbDecompress]
      rw [if_neg (by decide), decompress, if_neg (by decide), if_neg (by decide), if_pos (by decide), if_neg (by decide),
        if_pos (by decide)]
      have : ((wrHeader 1 5 2 ++ [0, 0]).drop 12).take (hdrCompressed (wrHeader 1 5 2 ++ [0, 0])) = [0, 0] := by decide
      rw [this, show hdrUncompressed (wrHeader 1 5 2 ++ [0, 0]) = 5 by decide, hd]
    rw [unpack, if_pos rfl, this]
  rw [receive]
  simp only [if_true]
  rw [e]
  have : extractFile (wrHeader 1 5 2 ++ [0, 0]) 0 = .outOfBounds := by decide +kernel
  have : writeFiles (wrHeader 1 5 2 ++ [0, 0]) o = none := by
    rw [writeFiles]
    have : writeNext (wrHeader 1 5 2 ++ [0, 0]) true o.name (some ([], 0, true)) = none := by
      rw [writeNext]
      simp only [Bool.and_self, if_true]
      rw [this]
    rw [this]
    rfl
  dsimp only
  rw [this]
  rfl

end Verif.Transfer
