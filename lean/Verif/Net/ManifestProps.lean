import Verif.IO.CodecProps
import Verif.Net.ManifestSpec
/-! C39, C40, C46: tool manifests. -/
namespace Verif.Net
open Verif.IO Spec

/-! ## C40 -/

theorem conflictsLater_false {p : Plat} {root a : List Byte} : ∀ {l : List (List Byte)}, conflictsLater p root a l = false ↔
    ∀ b ∈ l, pathsEqual p a (relPath p root b) = false
  | [] => by simp [conflictsLater]
  | b :: bs => by
    rw [conflictsLater]
    cases h : pathsEqual p a (relPath p root b) with
    | true => simp [h]
    | false => simp [h, conflictsLater_false (l := bs)]

theorem pathsEqual_comm (p : Plat) (a b : List Byte) : pathsEqual p a b = pathsEqual p b a := by
  unfold pathsEqual
  split
  · exact Bool.beq_comm
  · exact Bool.beq_comm

theorem conflicts_false {p : Plat} {root e : List Byte} : ∀ {l : List (List Byte)}, conflicts p root e l = false ↔
    (∀ b ∈ l, pathsEqual p e (relPath p root b) = false) ∧
    l.Pairwise (fun a b => pathsEqual p (relPath p root a) (relPath p root b) = false)
  | [] => by simp [conflicts]
  | f :: fs => by
    rw [conflicts, pathsEqual_comm p _ e, List.pairwise_cons]
    cases h : pathsEqual p e (relPath p root f) with
    | true => simp [h]
    | false =>
      cases h2 : conflictsLater p root (relPath p root f) fs with
      | true =>
        have : ¬ ∀ b ∈ fs, pathsEqual p (relPath p root f) (relPath p root b) = false := by
          rw [← conflictsLater_false, h2]; simp
        simp [this]
      | false =>
        have h3 := conflictsLater_false.1 h2
        simp only [Bool.false_eq_true, if_false]
        rw [conflicts_false]
        constructor
        · rintro ⟨a, b⟩
          exact ⟨fun x hx => (List.mem_cons.1 hx).elim (fun e => e ▸ h) (a x), h3, b⟩
        · rintro ⟨a, _, b⟩
          exact ⟨fun x hx => a x (List.mem_cons_of_mem _ hx), b⟩

theorem pathsEqual_false {p : Plat} {a b : List Byte} (h : pathsEqual p a b = false) :
    a ≠ b ∧ (p.caseless = true → ¬ sameLetters a b) := by
  unfold pathsEqual at h
  constructor
  · rintro rfl; split at h <;> simp at h
  · intro hc e
    rw [if_pos hc] at h
    unfold sameLetters at e
    simp [e] at h

/-- C40: no two entries of an accepted toolchain are stored under the same remote path; where file names
ignore case they also differ in more than case -/
theorem C40_distinct (p : Plat) (given exe : List Byte) (extra : List (List Byte)) (root : List Byte) (files : List (List Byte))
    (h : compilerFiles p given exe extra = some (root, files)) (base : List Byte) (i j : Nat) (a b : List Byte) (hij : i ≠ j)
    (ha : files[i]? = some a) (hb : files[j]? = some b) :
    remotePath p base root a ≠ remotePath p base root b ∧
    (p.caseless = true → ¬ sameLetters (remotePath p base root a) (remotePath p base root b)) := by
  unfold compilerFiles at h
  dsimp only at h
  split at h
  · cases h
  · rename_i hc
    injection h with h
    injection h with h1 h2
    subst h1 h2
    have hc : conflicts p (rootOf p given exe) (relPath p (rootOf p given exe) exe) extra = false := by simpa using hc
    obtain ⟨c1, c2⟩ := conflicts_false.1 hc
    have hp : (exe :: extra).Pairwise (fun a b => pathsEqual p (relPath p (rootOf p given exe) a) (relPath p (rootOf p given exe) b) = false) :=
      List.pairwise_cons.2 ⟨c1, c2⟩
    have key : pathsEqual p (relPath p (rootOf p given exe) a) (relPath p (rootOf p given exe) b) = false := by
      rw [List.pairwise_iff_getElem] at hp
      obtain ⟨hi, rfl⟩ := List.getElem?_eq_some_iff.1 ha
      obtain ⟨hj, rfl⟩ := List.getElem?_eq_some_iff.1 hb
      rcases Nat.lt_or_gt_of_ne hij with hlt | hlt
      · exact hp i j hi hj hlt
      · rw [pathsEqual_comm]; exact hp j i hj hi hlt
    obtain ⟨k1, k2⟩ := pathsEqual_false key
    refine ⟨fun e => k1 (List.append_cancel_left e), fun hcl e => k2 hcl ?_⟩
    unfold sameLetters remotePath at e
    rw [List.map_append, List.map_append] at e
    exact List.append_cancel_left e

/-- C40: a toolchain is refused only if two of its entries would share a remote path -/
theorem C40_refused (p : Plat) (given exe : List Byte) (extra : List (List Byte)) (h : compilerFiles p given exe extra = none) :
    ∃ (i j : Nat) (a b : List Byte), i ≠ j ∧ (exe :: extra)[i]? = some a ∧ (exe :: extra)[j]? = some b ∧ ∀ base,
      sameLetters (remotePath p base (rootOf p given exe) a) (remotePath p base (rootOf p given exe) b) ∧
      (p.caseless = false → remotePath p base (rootOf p given exe) a = remotePath p base (rootOf p given exe) b) := by
  have hc : ¬ conflicts p (rootOf p given exe) (relPath p (rootOf p given exe) exe) extra = false := by
    intro hc
    unfold compilerFiles at h
    simp [hc] at h
  have hp : ¬ (exe :: extra).Pairwise (fun a b => pathsEqual p (relPath p (rootOf p given exe) a) (relPath p (rootOf p given exe) b) = false) := by
    intro hp
    exact hc (conflicts_false.2 (List.pairwise_cons.1 hp))
  rw [List.pairwise_iff_getElem] at hp
  have hp : ∃ (i j : Nat) (hi : i < (exe :: extra).length) (hj : j < (exe :: extra).length), i < j ∧
      pathsEqual p (relPath p (rootOf p given exe) (exe :: extra)[i]) (relPath p (rootOf p given exe) (exe :: extra)[j]) = true := by
    apply Classical.byContradiction
    intro hn
    apply hp
    intro i j hi hj hij
    cases e : pathsEqual p (relPath p (rootOf p given exe) (exe :: extra)[i]) (relPath p (rootOf p given exe) (exe :: extra)[j]) with
    | false => rfl
    | true => exact absurd ⟨i, j, hi, hj, hij, e⟩ hn
  obtain ⟨i, j, hi, hj, hij, e⟩ := hp
  refine ⟨i, j, _, _, by omega, List.getElem?_eq_getElem hi, List.getElem?_eq_getElem hj, fun base => ?_⟩
  unfold pathsEqual at e
  unfold sameLetters remotePath
  split at e
  · rename_i hcl
    have e := eq_of_beq e
    exact ⟨by rw [List.map_append, List.map_append, e], fun hf => absurd hcl (by simp [hf])⟩
  · have e := eq_of_beq e
    exact ⟨by rw [e], fun _ => by rw [e]⟩

theorem afterLast_spec (slash : Byte) (dir name : List Byte) (hn : slash ∉ name) : afterLast slash (dir ++ slash :: name) = name := by
  unfold afterLast
  have h : ∀ x ∈ name.reverse, decide (x ≠ slash) = true := by
    intro x hx
    simp only [ne_eq, decide_not, Bool.not_eq_true', decide_eq_false_iff_not]
    rintro rfl
    exact hn (List.mem_reverse.1 hx)
  rw [List.reverse_append, List.reverse_cons, List.append_assoc, List.takeWhile_append_of_pos h]
  simp

/-- C40: where a file is stored: below the root at the same relative place (the root is compared ignoring case), from
anywhere else directly in the tool directory -/
theorem C40_location (p : Plat) (base root dir name : List Byte) :
    (∀ root', sameLetters root' root → remotePath p base root (root' ++ name) = base ++ name) ∧
    (p.slash ∉ name → (∀ root' rest, sameLetters root' root → dir ++ p.slash :: name ≠ root' ++ rest) →
      remotePath p base root (dir ++ p.slash :: name) = base ++ name) := by
  constructor
  · intro root' h
    have hl : root'.length = root.length := by
      have := congrArg List.length h
      simpa using this
    unfold remotePath relPath beginsWithI
    rw [← hl, List.take_left, List.drop_left]
    unfold sameLetters at h
    simp [h]
  · intro hn h
    unfold remotePath relPath
    rw [if_neg, afterLast_spec _ _ _ hn]
    intro hb
    unfold beginsWithI at hb
    simp only [Bool.and_eq_true, decide_eq_true_eq, beq_iff_eq] at hb
    exact h _ _ hb.2 (List.take_append_drop root.length _).symm

/-- an accepted toolchain: one file below the root, one elsewhere -/
example : compilerFiles linux [] (str "/t/cc") [str "/t/lib/a.so", str "/o/b.so"] =
    some (str "/t/", [str "/t/cc", str "/t/lib/a.so", str "/o/b.so"]) := by decide +kernel
example : remotePath linux (str "/w/") (str "/t/") (str "/t/lib/a.so") = str "/w/lib/a.so" := by decide +kernel
example : remotePath linux (str "/w/") (str "/t/") (str "/o/b.so") = str "/w/b.so" := by decide +kernel
/-- a refused one: the file outside the root would replace the one at the root -/
example : compilerFiles linux [] (str "/t/cc") [str "/t/b.so", str "/o/b.so"] = none := by decide +kernel
/-- case matters on Linux only -/
example : compilerFiles windows [] (str "c:\\t\\cc") [str "c:\\t\\B.dll", str "d:\\o\\b.DLL"] = none := by decide +kernel
example : compilerFiles linux [] (str "/t/cc") [str "/t/B.so", str "/o/b.so"] ≠ none := by decide +kernel

/-- Finding: a file outside the root may get a path that is a directory of another file -/
theorem C40_nested_accepted : ∃ (exe : List Byte) (extra : List (List Byte)) (root : List Byte) (files : List (List Byte)),
    compilerFiles linux [] exe extra = some (root, files) ∧
    ∃ a ∈ files, ∃ b ∈ files, ∃ rest, remotePath linux (str "/w/") root b = remotePath linux (str "/w/") root a ++ str "/" ++ rest :=
  ⟨str "/t/cc", [str "/o/bin", str "/t/bin/x"], str "/t/", [str "/t/cc", str "/o/bin", str "/t/bin/x"], by decide +kernel,
    str "/o/bin", by decide +kernel, str "/t/bin/x", by decide +kernel, str "x", by decide +kernel⟩

/-! ## C39: transfer -/

theorem strLen_text {s : List Byte} (h : ∀ b ∈ s, b ≠ 0) : strLen s = s.length := by
  unfold strLen
  induction s with
  | nil => rfl
  | cons b s ih =>
    have hb := h b (by simp)
    simp only [List.takeWhile_cons, hb, ne_eq, not_false_eq_true, decide_true, if_true, List.length_cons]
    rw [ih (fun x hx => h x (by simp [hx]))]

theorem text_of_strLen {s : List Byte} (h : strLen s = s.length) : ∀ b ∈ s, b ≠ 0 := by
  unfold strLen at h
  have := (List.takeWhile_prefix (fun (x : Byte) => decide (x ≠ 0)) (l := s)).eq_of_length h
  intro b hb
  rw [← this] at hb
  have := List.all_eq_true.1 (List.all_takeWhile (p := fun (x : Byte) => decide (x ≠ 0)) (l := s)) b hb
  simpa using this

theorem codec_mfile (f : MFile) (h1 : Text f.name) (h2 : f.stamp ≠ 0) (h3 : f.hash ≠ 0) : Codec (wrMFile f) rdMFile f := by
  refine (codec_str f.name h1.1).bind ((codec_u64 f.stamp).bind ((codec_u32 f.hash).bind ?_))
  rw [← List.append_nil (wrU32 f.size)]
  refine (codec_u32 f.size).bind ?_
  rw [if_neg (fun e => e.elim (fun e => e (strLen_text h1.2)) (fun e => e.elim h2 h3))]
  exact Codec.pure f

theorem codec_envVar (v : List Byte) (h : Text v) : Codec (wrStr v) rdEnvVar v := by
  rw [← List.append_nil (wrStr v)]
  refine (codec_str v h.1).bind ?_
  rw [if_neg (by simp [strLen_text h.2])]
  exact Codec.pure v

theorem codec_head (id : BitVec 64) (root : List Byte) (n : Nat) (hr : Text root) (h0 : n ≠ 0) (hn : n < 2 ^ 32) :
    Codec (wrU64 id ++ (wrStr root ++ wrU32 (BitVec.ofNat 32 n))) (rdHead id) (root, n) := by
  refine (codec_u64 id).bind ((codec_str root hr.1).bind ?_)
  rw [← List.append_nil (wrU32 _)]
  refine (codec_u32 _).bind ?_
  have hnum : (BitVec.ofNat 32 n : BitVec 32).toNat = n := by rw [BitVec.toNat_ofNat, Nat.mod_eq_of_lt hn]
  have hne : (BitVec.ofNat 32 n : BitVec 32) ≠ 0 := by
    intro e
    have := congrArg BitVec.toNat e
    rw [hnum] at this
    exact h0 this
  rw [if_neg (fun e => e.elim (fun e => e (strLen_text hr.2)) (fun e => e.elim hne (fun e => e rfl))), hnum]
  exact Codec.pure _

/-- everything before the number of variables -/
def rdFront (own : BitVec 64) : Parser (List Byte × List MFile) := do
  let x ← rdHead own
  let files ← rdMany rdMFile x.2
  return (x.1, files)

theorem bind_some {α β : Type} {p : Parser α} {f : α → Parser β} {r r' : Reader} {b : β} (h : (p >>= f) r = some (b, r')) :
    ∃ a r1, p r = some (a, r1) ∧ f a r1 = some (b, r') := by
  change Parser.bind _ _ _ = _ at h
  unfold Parser.bind at h
  split at h
  · cases h
  · rename_i a r1 e
    exact ⟨a, r1, e, h⟩

theorem pure_some {α : Type} {a b : α} {r r' : Reader} (h : (pure a : Parser α) r = some (b, r')) : a = b ∧ r = r' := by
  injection h with h
  injection h with h1 h2
  exact ⟨h1, h2⟩

theorem codec_front (m : Manifest) (h : Sendable m) :
    Codec (wrU64 m.toolId ++ wrStr m.root ++ wrU32 (BitVec.ofNat 32 m.files.length) ++ m.files.flatMap wrMFile)
      (rdFront m.toolId) (m.root, m.files) := by
  have := (codec_head m.toolId m.root m.files.length h.root (fun e => h.some_file (List.length_eq_zero_iff.1 e)) h.num_files).bind
    (f := fun x => do let files ← rdMany rdMFile x.2; return (x.1, files))
    ((codec_many m.files (fun f hf => codec_mfile f (h.files f hf).1 (h.files f hf).2.1 (h.files f hf).2.2)).map (fun fs => (m.root, fs)))
  unfold rdFront
  simpa only [List.append_assoc] using this

/-- `rdManifest` in terms of the front part -/
theorem rdManifest_eq (own : BitVec 64) (r : Reader) : rdManifest own r =
    match rdFront own r with
    | none => none
    | some (x, r) =>
      match rdU32Unchecked r with
      | none => none
      | some (numEnv, r) =>
        match rdMany rdEnvVar numEnv.toNat r with
        | none => none
        | some (env, r) => some (⟨own, x.1, x.2, env⟩, r) := by
  have hf : rdFront own r = Parser.bind (rdHead own) (fun x => Parser.bind (rdMany rdMFile x.2) (fun fs => Parser.pure (x.1, fs))) r := rfl
  have hm : rdManifest own r = Parser.bind (rdHead own) (fun x => Parser.bind (rdMany rdMFile x.2) (fun fs =>
    Parser.bind rdU32Unchecked (fun n => Parser.bind (rdMany rdEnvVar n.toNat) (fun env => Parser.pure ⟨own, x.1, fs, env⟩)))) r := rfl
  rw [hf, hm]
  unfold Parser.bind
  cases h1 : rdHead own r with
  | none => rfl
  | some x =>
    obtain ⟨x, r1⟩ := x
    dsimp only
    cases h2 : rdMany rdMFile x.2 r1 with
    | none => rfl
    | some y =>
      obtain ⟨fs, r2⟩ := y
      dsimp only [Parser.pure]
      cases h3 : rdU32Unchecked r2 with
      | none => rfl
      | some z =>
        obtain ⟨n, r3⟩ := z
        dsimp only
        cases rdMany rdEnvVar n.toNat r3 <;> rfl

/-- the unchecked read of a complete word -/
theorem unchecked_full (x : BitVec 32) (pre post : List Byte) :
    rdU32Unchecked ⟨pre ++ wrU32 x ++ post, pre.length⟩ = some (x, ⟨pre ++ wrU32 x ++ post, (pre ++ wrU32 x).length⟩) := by
  have hl : (wrU32 x).length = 4 := leBytes_length _ _
  have : ((pre ++ wrU32 x ++ post).drop pre.length).take 4 = wrU32 x := by
    rw [List.append_assoc, List.drop_left, ← hl, List.take_left]
  unfold rdU32Unchecked Reader.readBuffer
  dsimp only
  rw [List.length_append, List.length_append, hl, show min (pre.length + 4 + post.length - pre.length) 4 = 4 by omega, this]
  congr 2
  apply BitVec.eq_of_toNat_eq
  rw [BitVec.toNat_ofNat, wrU32, wrWord, ofLE_leBytes, Nat.mod_mod, Nat.mod_eq_of_lt x.isLt]

theorem rdManifest_full (m : Manifest) (h : Sendable m) (pre post : List Byte) :
    rdManifest m.toolId ⟨pre ++ m.serialize ++ post, pre.length⟩ = some (m, ⟨pre ++ m.serialize ++ post, (pre ++ m.serialize).length⟩) := by
  have hf := codec_front m h
  generalize hw : wrU64 m.toolId ++ wrStr m.root ++ wrU32 (BitVec.ofNat 32 m.files.length) ++ m.files.flatMap wrMFile = w at hf
  have hs : m.serialize = w ++ (wrU32 (BitVec.ofNat 32 m.env.length) ++ m.env.flatMap wrStr) := by
    unfold Manifest.serialize
    rw [hw, List.append_assoc]
  have he := codec_many m.env (fun v hv => codec_envVar v (h.env v hv))
  have hn : (BitVec.ofNat 32 m.env.length : BitVec 32).toNat = m.env.length := by
    rw [BitVec.toNat_ofNat, Nat.mod_eq_of_lt h.num_env]
  rw [rdManifest_eq, hs]
  have e1 : pre ++ (w ++ (wrU32 (BitVec.ofNat 32 m.env.length) ++ m.env.flatMap wrStr)) ++ post =
      pre ++ w ++ (wrU32 (BitVec.ofNat 32 m.env.length) ++ m.env.flatMap wrStr ++ post) := by simp
  have e2 : pre ++ w ++ (wrU32 (BitVec.ofNat 32 m.env.length) ++ m.env.flatMap wrStr ++ post) =
      (pre ++ w) ++ wrU32 (BitVec.ofNat 32 m.env.length) ++ (m.env.flatMap wrStr ++ post) := by simp
  have e3 : (pre ++ w) ++ wrU32 (BitVec.ofNat 32 m.env.length) ++ (m.env.flatMap wrStr ++ post) =
      (pre ++ w ++ wrU32 (BitVec.ofNat 32 m.env.length)) ++ m.env.flatMap wrStr ++ post := by simp
  rw [e1, hf.full]
  dsimp only
  rw [e2, unchecked_full]
  dsimp only
  rw [hn, e3, he.full]
  simp

/-- C39: a worker that asked for a tool receives exactly the manifest that was sent -/
theorem C39_roundtrip (p : Plat) (h : Hashes) (disk : List Byte → Option DiskFile) (base : List Byte) (tmp : Option (List Byte))
    (m : Manifest) (hm : Sendable m) : ∃ sync all env, receiveManifest p h disk base tmp m.toolId m.serialize = some (m, sync, all, env) := by
  have := rdManifest_full m hm [] []
  simp only [List.nil_append, List.append_nil, List.length_nil] at this
  unfold receiveManifest
  rw [this]
  exact ⟨_, _, _, rfl⟩

/-- C39: a manifest of another tool is refused -/
theorem C39_other_tool (p : Plat) (h : Hashes) (disk : List Byte → Option DiskFile) (base : List Byte) (tmp : Option (List Byte))
    (m : Manifest) (own : BitVec 64) (ho : own ≠ m.toolId) : receiveManifest p h disk base tmp own m.serialize = none := by
  have : rdManifest own ⟨m.serialize, 0⟩ = none := by
    cases e : rdManifest own ⟨m.serialize, 0⟩ with
    | none => rfl
    | some x =>
      exfalso
      obtain ⟨y, r, e1, _⟩ := bind_some e
      obtain ⟨id, r1, e2, e1⟩ := bind_some e1
      obtain ⟨root, r2, _, e1⟩ := bind_some e1
      obtain ⟨num, r3, _, e1⟩ := bind_some e1
      have h1 := (codec_u64 m.toolId).full [] (wrStr m.root ++ wrU32 (BitVec.ofNat 32 m.files.length) ++ m.files.flatMap wrMFile ++
        wrU32 (BitVec.ofNat 32 m.env.length) ++ m.env.flatMap wrStr)
      have hs : m.serialize = [] ++ wrU64 m.toolId ++ (wrStr m.root ++ wrU32 (BitVec.ofNat 32 m.files.length) ++ m.files.flatMap wrMFile ++
        wrU32 (BitVec.ofNat 32 m.env.length) ++ m.env.flatMap wrStr) := by simp [Manifest.serialize]
      rw [hs] at e2
      rw [List.length_nil] at h1
      rw [h1] at e2
      injection e2 with e2
      injection e2 with e2 _
      split at e1
      · cases e1
      · rename_i hc
        exact hc (Or.inr (Or.inr (fun e => ho (by rw [← e, e2]))))
  unfold receiveManifest
  rw [this]

/-- the unchecked read at the end of the data -/
theorem unchecked_short (pre v : List Byte) (hv : v.length ≤ 4) :
    rdU32Unchecked ⟨pre ++ v, pre.length⟩ = some (BitVec.ofNat 32 (ofLE v), ⟨pre ++ v, (pre ++ v).length⟩) := by
  unfold rdU32Unchecked Reader.readBuffer
  simp only [List.length_append, Nat.add_sub_cancel_left, Nat.min_eq_left hv, List.drop_left]
  rw [List.take_of_length_le (Nat.le_refl _)]

theorem rdStr_end (data : List Byte) : rdStr ⟨data, data.length⟩ = none := by
  have := (codec_u32 0).cut data [] (List.nil_prefix) (by decide)
  rw [List.append_nil] at this
  show Parser.bind _ _ _ = none
  rw [Parser.bind, this]

theorem rdMany_end (data : List Byte) (n : Nat) (es : List (List Byte)) (r : Reader)
    (h : rdMany rdEnvVar n ⟨data, data.length⟩ = some (es, r)) : n = 0 ∧ es = [] := by
  cases n with
  | zero =>
    injection h with h
    injection h with h1 h2
    exact ⟨rfl, h1.symm⟩
  | succ n =>
    exfalso
    have e : rdEnvVar ⟨data, data.length⟩ = none := by
      show Parser.bind _ _ _ = none
      rw [Parser.bind, rdStr_end]
    have : rdMany rdEnvVar (n + 1) ⟨data, data.length⟩ = none := by
      show Parser.bind _ _ _ = none
      rw [Parser.bind, e]
    rw [this] at h
    cases h

/-- C39: a manifest cut short is refused, unless it is cut in or just before the number of variables: then it may be
accepted with the files that were sent and no variables -/
theorem C39_cut_partial (p : Plat) (h : Hashes) (disk : List Byte → Option DiskFile) (base : List Byte) (tmp : Option (List Byte))
    (m : Manifest) (hm : Sendable m) (w : List Byte) (hw : w <+: m.serialize) (hne : w ≠ m.serialize)
    (m' : Manifest) (sync : List Bool) (all : Bool) (env : Except Err Block)
    (hr : receiveManifest p h disk base tmp m.toolId w = some (m', sync, all, env)) :
    m' = { m with env := [] } ∧ w.length < m.serialize.length - (m.env.flatMap wrStr).length := by
  have hf := codec_front m hm
  generalize hfw : wrU64 m.toolId ++ wrStr m.root ++ wrU32 (BitVec.ofNat 32 m.files.length) ++ m.files.flatMap wrMFile = front at hf
  have hs : m.serialize = front ++ (wrU32 (BitVec.ofNat 32 m.env.length) ++ m.env.flatMap wrStr) := by
    unfold Manifest.serialize
    rw [hfw, List.append_assoc]
  have he := codec_many m.env (fun v hv => codec_envVar v (hm.env v hv))
  have hn : (BitVec.ofNat 32 m.env.length : BitVec 32).toNat = m.env.length := by
    rw [BitVec.toNat_ofNat, Nat.mod_eq_of_lt hm.num_env]
  have hl : (wrU32 (BitVec.ofNat 32 m.env.length)).length = 4 := leBytes_length _ _
  have hrd : ∃ r, rdManifest m.toolId ⟨w, 0⟩ = some (m', r) := by
    unfold receiveManifest at hr
    cases e : rdManifest m.toolId ⟨w, 0⟩ with
    | none => rw [e] at hr; cases hr
    | some x =>
      rw [e] at hr
      obtain ⟨x1, x2⟩ := x
      injection hr with hr
      injection hr with h1 h2
      exact ⟨x2, by rw [h1]⟩
  obtain ⟨r, hrd⟩ := hrd
  rw [rdManifest_eq] at hrd
  rw [hs] at hw hne
  rcases prefix_append_cases hw hne with ⟨c1, c2⟩ | ⟨v, rfl, c1, c2⟩
  · have := hf.cut [] w c1 c2
    simp only [List.nil_append, List.length_nil] at this
    rw [this] at hrd
    cases hrd
  · have hfull := hf.full [] v
    simp only [List.nil_append, List.length_nil] at hfull
    rw [hfull] at hrd
    dsimp only at hrd
    rcases prefix_append_cases c1 c2 with ⟨d1, d2⟩ | ⟨u, rfl, d1, d2⟩
    · have hvl : v.length < 4 := by
        have := d1.length_le
        rcases Nat.lt_or_ge v.length 4 with h | h
        · exact h
        · exact absurd (d1.eq_of_length (by omega)) d2
      rw [unchecked_short front v (by omega)] at hrd
      dsimp only at hrd
      cases e : rdMany rdEnvVar (BitVec.ofNat 32 (ofLE v)).toNat ⟨front ++ v, (front ++ v).length⟩ with
      | none => rw [e] at hrd; cases hrd
      | some x =>
        rw [e] at hrd
        obtain ⟨es, r'⟩ := x
        obtain ⟨_, rfl⟩ := rdMany_end _ _ _ _ e
        injection hrd with hrd
        injection hrd with h1 h2
        refine ⟨by rw [← h1], ?_⟩
        rw [hs]
        simp only [List.length_append, hl]
        omega
    · have e1 : front ++ (wrU32 (BitVec.ofNat 32 m.env.length) ++ u) = front ++ wrU32 (BitVec.ofNat 32 m.env.length) ++ u := by simp
      rw [e1, unchecked_full] at hrd
      dsimp only at hrd
      rw [hn, he.cut _ u d1 d2] at hrd
      cases hrd

/-- whatever is received and accepted has been checked -/
theorem rdMFile_ok {r r' : Reader} {f : MFile} (h : rdMFile r = some (f, r')) :
    (∀ b ∈ f.name, b ≠ 0) ∧ f.stamp ≠ 0 ∧ f.hash ≠ 0 := by
  obtain ⟨name, _, _, h⟩ := bind_some h
  obtain ⟨stamp, _, _, h⟩ := bind_some h
  obtain ⟨hash, _, _, h⟩ := bind_some h
  obtain ⟨size, _, _, h⟩ := bind_some h
  split at h
  · cases h
  · rename_i hc
    obtain ⟨rfl, _⟩ := pure_some h
    have hc1 := Classical.not_not.1 (fun e => hc (Or.inl e))
    exact ⟨text_of_strLen hc1, fun e => hc (Or.inr (Or.inl e)), fun e => hc (Or.inr (Or.inr e))⟩

theorem rdEnvVar_ok {r r' : Reader} {v : List Byte} (h : rdEnvVar r = some (v, r')) : ∀ b ∈ v, b ≠ 0 := by
  obtain ⟨_, _, _, h⟩ := bind_some h
  split at h
  · cases h
  · rename_i hc
    obtain ⟨rfl, _⟩ := pure_some h
    exact text_of_strLen (Classical.not_not.1 hc)

theorem rdMany_ok {α : Type} {q : Parser α} {P : α → Prop} (hq : ∀ r a r', q r = some (a, r') → P a) :
    ∀ (n : Nat) (r r' : Reader) (as : List α), rdMany q n r = some (as, r') → as.length = n ∧ ∀ a ∈ as, P a
  | 0, r, r', as, h => by
    injection h with h
    injection h with h _
    subst h
    exact ⟨rfl, by simp⟩
  | n + 1, r, r', as, h => by
    obtain ⟨a, r1, ha, h⟩ := bind_some h
    obtain ⟨as', r2, has, h⟩ := bind_some h
    obtain ⟨rfl, _⟩ := pure_some h
    obtain ⟨h1, h2⟩ := rdMany_ok hq n _ _ _ has
    refine ⟨by simp [h1], fun x hx => ?_⟩
    rcases List.mem_cons.1 hx with rfl | hx
    · exact hq _ _ _ ha
    · exact h2 x hx

/-- C39: whatever bytes arrive, an accepted manifest is for the tool asked for, has a file, and every file has a
time, a hash and a name without terminators -/
theorem C39_accepted (p : Plat) (h : Hashes) (disk : List Byte → Option DiskFile) (base : List Byte) (tmp : Option (List Byte))
    (own : BitVec 64) (w : List Byte) (m : Manifest) (sync : List Bool) (all : Bool) (env : Except Err Block)
    (hr : receiveManifest p h disk base tmp own w = some (m, sync, all, env)) :
    m.toolId = own ∧ m.files ≠ [] ∧ (∀ f ∈ m.files, (∀ b ∈ f.name, b ≠ 0) ∧ f.stamp ≠ 0 ∧ f.hash ≠ 0) ∧
    (∀ v ∈ m.env, ∀ b ∈ v, b ≠ 0) ∧ ∀ b ∈ m.root, b ≠ 0 := by
  unfold receiveManifest at hr
  split at hr
  · cases hr
  rename_i m0 r hrd
  injection hr with hr
  injection hr with hr _
  subst hr
  rw [rdManifest_eq] at hrd
  split at hrd
  · cases hrd
  rename_i x r1 hfront
  split at hrd
  · cases hrd
  split at hrd
  · cases hrd
  rename_i env r3 henv
  injection hrd with hrd
  injection hrd with hrd _
  subst hrd
  obtain ⟨y, r0, hhead, hfront⟩ := bind_some hfront
  obtain ⟨fs, r2, hfs, hfront⟩ := bind_some hfront
  obtain ⟨rfl, _⟩ := pure_some hfront
  obtain ⟨k1, k2⟩ := rdMany_ok (P := fun f => (∀ b ∈ f.name, b ≠ 0) ∧ f.stamp ≠ 0 ∧ f.hash ≠ 0) (fun _ _ _ h => rdMFile_ok h) _ _ _ _ hfs
  have k3 := (rdMany_ok (P := fun v => ∀ b ∈ v, b ≠ 0) (fun _ _ _ h => rdEnvVar_ok h) _ _ _ _ henv).2
  have hh : (∀ b ∈ y.1, b ≠ 0) ∧ y.2 ≠ 0 := by
    obtain ⟨id, _, _, hhead⟩ := bind_some hhead
    obtain ⟨root, _, _, hhead⟩ := bind_some hhead
    obtain ⟨num, _, _, hhead⟩ := bind_some hhead
    split at hhead
    · cases hhead
    rename_i hc
    obtain ⟨rfl, _⟩ := pure_some hhead
    refine ⟨text_of_strLen (Classical.not_not.1 (fun e => hc (Or.inl e))), fun e => hc (Or.inr (Or.inl ?_))⟩
    exact BitVec.eq_of_toNat_eq e
  refine ⟨rfl, fun e => hh.2 ?_, k2, k3, hh.1⟩
  have e : fs = [] := e
  rw [← k1, e]
  rfl

/-- C39: which files a worker considers present from an earlier run -/
theorem C39_present (p : Plat) (h : Hashes) (disk : List Byte → Option DiskFile) (base : List Byte) (tmp : Option (List Byte))
    (own : BitVec 64) (w : List Byte) (m : Manifest) (sync : List Bool) (all : Bool) (env : Except Err Block)
    (hr : receiveManifest p h disk base tmp own w = some (m, sync, all, env)) :
    sync.length = m.files.length ∧
    (∀ (i : Nat) (f : MFile), m.files[i]? = some f → (sync[i]? = some true ↔
      ∃ d, disk (remotePath p base m.root f.name) = some d ∧ d.data.length = f.size.toNat ∧ h.xx32 d.data = f.hash)) ∧
    (all = true ↔ ∀ s ∈ sync, s = true) := by
  unfold receiveManifest at hr
  split at hr
  · cases hr
  rename_i m0 r hrd
  injection hr with hr
  injection hr with h1 hr
  injection hr with h2 hr
  injection hr with h3 _
  subst h1
  have hlen : sync.length = m0.files.length := by rw [← h2, List.length_map]
  refine ⟨hlen, ?_, ?_⟩
  · intro i f hf
    rw [← h2, List.getElem?_map, hf, Option.map_some, Option.some_inj]
    unfold present
    split
    · rename_i hd; simp [hd]
    · rename_i d hd
      split
      · rename_i hc
        simp only [Bool.false_eq_true, false_iff]
        rintro ⟨d', e, h1, _⟩
        rw [hd] at e
        injection e with e
        exact hc (e ▸ h1)
      · rename_i hc
        split
        · rename_i hc2
          simp only [Bool.false_eq_true, false_iff]
          rintro ⟨d', e, _, h1⟩
          rw [hd] at e
          injection e with e
          exact hc2 (e ▸ h1)
        · rename_i hc2
          simp only [true_iff]
          exact ⟨d, hd, Classical.not_not.1 hc, Classical.not_not.1 hc2⟩
  · rw [← h3, h2, decide_eq_true_iff, ← hlen, List.countP_eq_length]
    rfl

/-- a manifest to send -/
def sample : Manifest :=
  ⟨7, str "/t/", [⟨str "/t/cc", 5, 6, 3⟩, ⟨str "/o/b.so", 8, 9, 0⟩], [str "A=%1x", str "B"]⟩

theorem sample_sendable : Sendable sample where
  root := by unfold Text; decide +kernel
  some_file := by decide +kernel
  num_files := by decide +kernel
  files := by unfold Text; decide +kernel
  num_env := by decide +kernel
  env := by unfold Text; decide +kernel

/-- Finding: the number of variables is not checked, so every manifest cut just before it is accepted without its environment -/
theorem C39_cut_accepted (p : Plat) (h : Hashes) (disk : List Byte → Option DiskFile) (base : List Byte) (tmp : Option (List Byte))
    (m : Manifest) (hm : Sendable m) : ∃ w, w <+: m.serialize ∧ w ≠ m.serialize ∧
      ∃ sync all env, receiveManifest p h disk base tmp m.toolId w = some ({ m with env := [] }, sync, all, env) := by
  have hf := codec_front m hm
  generalize hfw : wrU64 m.toolId ++ wrStr m.root ++ wrU32 (BitVec.ofNat 32 m.files.length) ++ m.files.flatMap wrMFile = front at hf
  have hs : m.serialize = front ++ (wrU32 (BitVec.ofNat 32 m.env.length) ++ m.env.flatMap wrStr) := by
    unfold Manifest.serialize
    rw [hfw, List.append_assoc]
  have hl : (wrU32 (BitVec.ofNat 32 m.env.length)).length = 4 := leBytes_length _ _
  refine ⟨front, ⟨_, hs.symm⟩, fun e => ?_, ?_⟩
  · have := congrArg List.length e
    rw [hs, List.length_append, List.length_append, hl] at this
    omega
  · have h1 := hf.full [] []
    have h2 := unchecked_short front [] (by simp)
    simp only [List.nil_append, List.append_nil, List.length_nil] at h1 h2
    have e : rdManifest m.toolId ⟨front, 0⟩ = some ({ m with env := [] }, ⟨front, front.length⟩) := by
      rw [rdManifest_eq, h1]
      dsimp only
      rw [h2]
      rfl
    unfold receiveManifest
    rw [e]
    exact ⟨_, _, _, rfl⟩

/-- Finding: a file whose contents hash to zero makes the manifest unacceptable -/
theorem C39_zero_hash_refused (p : Plat) (h : Hashes) (disk : List Byte → Option DiskFile) (base : List Byte) (tmp : Option (List Byte))
    (own : BitVec 64) (w : List Byte) (m : Manifest) (sync : List Bool) (all : Bool) (env : Except Err Block) (f : MFile)
    (hf : f ∈ m.files) (h0 : f.hash = 0) : receiveManifest p h disk base tmp own w ≠ some (m, sync, all, env) :=
  fun hr => ((C39_accepted p h disk base tmp own w m sync all env hr).2.2.1 f hf).2.2 h0

/-! ## C39: the environment block -/

/-- what `v` becomes -/
def expanded (base v : List Byte) : List Byte :=
  match findToken v with
  | some (x, y) => x ++ base ++ y
  | none => v

theorem findToken_some : ∀ {v x y : List Byte}, findToken v = some (x, y) → v = x ++ str "%1" ++ y ∧
    ∀ a b, v = a ++ str "%1" ++ b → x.length ≤ a.length
  | [], _, _, h => by simp [findToken] at h
  | [_], _, _, h => by simp [findToken] at h
  | a :: b :: r, x, y, h => by
    rw [findToken] at h
    split at h
    · rename_i hc
      obtain ⟨rfl, rfl⟩ := hc
      simp only [Option.some.injEq, Prod.mk.injEq] at h
      obtain ⟨rfl, rfl⟩ := h
      exact ⟨rfl, fun _ _ _ => Nat.zero_le _⟩
    · rename_i hc
      split at h
      · cases h
      · rename_i x' y' e
        simp only [Option.some.injEq, Prod.mk.injEq] at h
        obtain ⟨rfl, rfl⟩ := h
        obtain ⟨h1, h2⟩ := findToken_some e
        refine ⟨by rw [h1]; rfl, fun a' b' e' => ?_⟩
        cases a' with
        | nil =>
          exfalso
          have e' : a :: b :: r = 0x25#8 :: 0x31#8 :: b' := e'
          simp only [List.cons.injEq] at e'
          exact hc ⟨e'.1, e'.2.1⟩
        | cons c a' =>
          simp only [List.cons_append, List.cons.injEq] at e'
          have := h2 a' b' e'.2
          simp only [List.length_cons]
          omega

theorem findToken_none : ∀ {v : List Byte}, findToken v = none → ∀ a b, v ≠ a ++ str "%1" ++ b
  | [], _, a, b, e => by
    have := congrArg List.length e
    simp [str] at this
  | [_], _, a, b, e => by
    have := congrArg List.length e
    simp [str] at this
    omega
  | c :: d :: r, h, a, b, e => by
    rw [findToken] at h
    split at h
    · cases h
    · rename_i hc
      split at h
      · rename_i e2
        cases a with
        | nil =>
          have e' : c :: d :: r = 0x25#8 :: 0x31#8 :: b := e
          simp only [List.cons.injEq] at e'
          exact hc ⟨e'.1, e'.2.1⟩
        | cons c' a' =>
          simp only [List.cons_append, List.cons.injEq] at e
          exact findToken_none e2 a' b e.2
      · cases h

theorem expanded_spec (base v : List Byte) : Expand base v (expanded base v) := by
  unfold expanded
  split
  · rename_i x y e
    obtain ⟨h1, h2⟩ := findToken_some e
    exact .token x y h1 h2
  · rename_i e
    exact .plain (findToken_none e)

theorem varLen_eq (base v : List Byte) : varLen base v = (expanded base v).length + 1 := by
  unfold varLen expanded
  cases e : findToken v with
  | none => rfl
  | some x =>
    obtain ⟨x, y⟩ := x
    obtain ⟨h1, _⟩ := findToken_some e
    have hl := congrArg List.length h1
    simp only [str, List.length_append, List.length_map] at hl
    have : "%1".toList.length = 2 := by decide
    simp only [List.length_append]
    omega

/-- a copy in the middle of the block, where everything before is known -/
theorem strCopy_known (done : List Byte) (rest : Block) (src : List Byte) (h : src.length + 1 ≤ rest.length) :
    ∃ rest' : Block, strCopy (done.map some ++ rest) done.length src = .ok ((done ++ src).map some ++ rest') ∧
      rest'.length + src.length = rest.length ∧ rest'.head? = some (some 0) := by
  unfold strCopy copyTo
  rw [if_pos (by simp; omega)]
  refine ⟨some 0 :: rest.drop (src.length + 1), ?_, by simp; omega, rfl⟩
  have h1 : (done.map some ++ rest).take done.length = done.map some := by
    rw [List.take_append_of_le_length (by simp), List.take_of_length_le (by simp)]
  have h2 : (done.map some ++ rest).drop (done.length + (src ++ [0]).length) = rest.drop (src.length + 1) := by
    rw [List.drop_append]
    simp
  rw [h1, h2]
  simp

theorem copyFixed_known : ∀ (vs : List (List Byte)) (done : List Byte) (rest : Block), (vs.map fun v => v.length + 1).sum + 1 ≤ rest.length →
    ∃ rest' : Block, copyFixed (done.map some ++ rest) done.length vs =
      .ok ((done ++ (vs.map fun v => v ++ [0]).flatten).map some ++ rest', (done ++ (vs.map fun v => v ++ [0]).flatten).length) ∧
      rest'.length + (vs.map fun v => v.length + 1).sum = rest.length
  | [], done, rest, _ => ⟨rest, by simp [copyFixed], by simp⟩
  | v :: vs, done, rest, h => by
    simp only [List.map_cons, List.sum_cons] at h
    obtain ⟨r1, e1, l1, _⟩ := strCopy_known done rest (v ++ [0]) (by simp; omega)
    simp only [List.length_append, List.length_cons, List.length_nil] at l1
    obtain ⟨r2, e2, l2⟩ := copyFixed_known vs (done ++ (v ++ [0])) r1 (by omega)
    refine ⟨r2, ?_, by simp only [List.map_cons, List.sum_cons]; omega⟩
    rw [copyFixed, e1]
    dsimp only
    have : done.length + (v.length + 1) = (done ++ (v ++ [0])).length := by simp
    rw [this, e2]
    simp

theorem copyVars_known (base : List Byte) : ∀ (vs : List (List Byte)) (done : List Byte) (rest : Block), (vs.map (varLen base)).sum + 1 ≤ rest.length →
    ∃ rest' : Block, copyVars base (done.map some ++ rest) done.length vs =
      .ok ((done ++ (vs.map fun v => expanded base v ++ [0]).flatten).map some ++ rest', (done ++ (vs.map fun v => expanded base v ++ [0]).flatten).length) ∧
      rest'.length + (vs.map (varLen base)).sum = rest.length
  | [], done, rest, _ => ⟨rest, by simp [copyVars], by simp⟩
  | v :: vs, done, rest, h => by
    simp only [List.map_cons, List.sum_cons] at h
    have hv := varLen_eq base v
    rw [copyVars]
    cases e : findToken v with
    | none =>
      have hx : expanded base v = v := by unfold expanded; rw [e]
      rw [hx] at hv
      obtain ⟨r1, e1, l1, _⟩ := strCopy_known done rest (v ++ [0]) (by simp; omega)
      simp only [List.length_append, List.length_cons, List.length_nil] at l1
      obtain ⟨r2, e2, l2⟩ := copyVars_known base vs (done ++ (v ++ [0])) r1 (by omega)
      refine ⟨r2, ?_, by simp only [List.map_cons, List.sum_cons]; omega⟩
      dsimp only
      rw [e1]
      dsimp only
      have : done.length + (v.length + 1) = (done ++ (v ++ [0])).length := by simp
      rw [this, e2]
      simp [hx]
    | some xy =>
      obtain ⟨x, y⟩ := xy
      have hx : expanded base v = x ++ base ++ y := by unfold expanded; rw [e]
      rw [hx] at hv
      simp only [List.length_append] at hv
      obtain ⟨h1, _⟩ := findToken_some e
      have hl := congrArg List.length h1
      simp only [str, List.length_append, List.length_map] at hl
      have h2 : "%1".toList.length = 2 := by decide
      rw [h2] at hl
      obtain ⟨r1, e1, l1, _⟩ := strCopy_known done rest x (by omega)
      obtain ⟨r2, e2, l2, _⟩ := strCopy_known (done ++ x) r1 base (by omega)
      obtain ⟨r3, e3, l3, _⟩ := strCopy_known (done ++ x ++ base) r2 (y ++ [0]) (by simp; omega)
      simp only [List.length_append, List.length_cons, List.length_nil] at l3
      obtain ⟨r4, e4, l4⟩ := copyVars_known base vs (done ++ x ++ base ++ (y ++ [0])) r3 (by omega)
      refine ⟨r4, ?_, by simp only [List.map_cons, List.sum_cons]; omega⟩
      dsimp only
      rw [e1]
      dsimp only
      rw [show done.length + x.length = (done ++ x).length by simp, e2]
      dsimp only
      rw [show (done ++ x).length + base.length = (done ++ x ++ base).length by simp only [List.length_append], e3]
      dsimp only
      rw [show (done ++ x ++ base).length + (v.length - 2 - x.length + 1) = (done ++ x ++ base ++ (y ++ [0])).length by
        simp only [List.length_append, List.length_cons, List.length_nil]; omega, e4]
      simp only [List.map_cons, List.flatten_cons, hx, List.append_assoc]

theorem sum_varLen (base : List Byte) (env : List (List Byte)) :
    (env.map (varLen base)).sum = ((env.map fun v => expanded base v ++ [0]).flatten).length := by
  induction env with
  | nil => rfl
  | cons v vs ih => simp only [List.map_cons, List.sum_cons, List.flatten_cons, List.length_append, ih, varLen_eq, List.length_cons, List.length_nil]

/-- C39: the environment block has exactly the computed length, is written only inside it, and consists of `PATH`, the
fixed variables of Windows, and the custom variables with the first `%1` of each replaced by the tool directory -/
theorem C39_environment (base : List Byte) (tmp : Option (List Byte)) (env : List (List Byte)) :
    ∃ out : List (List Byte), out.length = env.length ∧
      (∀ (i : Nat) (v o : List Byte), env[i]? = some v → out[i]? = some o → Expand base v o) ∧
      envBlock base tmp env = .ok ((block ((str "PATH=" ++ base) ::
        (match tmp with
          | none => []
          | some t => [str "TMP=" ++ t, str "SystemRoot=C:\\Windows"]) ++ out)).map some) := by
  refine ⟨env.map (expanded base), by simp, ?_, ?_⟩
  · intro i v o hv ho
    rw [List.getElem?_map, hv] at ho
    injection ho with ho
    rw [← ho]
    exact expanded_spec base v
  · have hfix : ((str "PATH=" ++ base) :: match tmp with
          | none => []
          | some t => [str "TMP=" ++ t, str "SystemRoot=C:\\Windows"]) = fixedVars base tmp := by
      have e1 : str "PATH=" = pathEq := by decide +kernel
      have e2 : str "TMP=" = tmpEq := by decide +kernel
      have e3 : str "SystemRoot=C:\\Windows" = sysRoot := by decide +kernel
      rw [e1, e2, e3]
      rfl
    rw [hfix]
    unfold envBlock
    dsimp only
    generalize hfv : fixedVars base tmp = fv
    have hlen : (List.replicate (envLen base tmp env) (none : Option Byte)).length =
        (fv.map fun v => v.length + 1).sum + (env.map (varLen base)).sum + 1 := by
      rw [List.length_replicate, envLen, hfv]
    obtain ⟨r1, e1, l1⟩ := copyFixed_known fv [] (List.replicate (envLen base tmp env) none) (by omega)
    simp only [List.map_nil, List.nil_append, List.length_nil] at e1
    rw [e1]
    dsimp only
    obtain ⟨r2, e2, l2⟩ := copyVars_known base env ((fv.map fun v => v ++ [0]).flatten) r1 (by omega)
    rw [e2]
    dsimp only
    generalize hd : (fv.map fun v => v ++ [0]).flatten ++ (env.map fun v => expanded base v ++ [0]).flatten = done
    have hr2 : r2.length = 1 := by omega
    unfold copyTo
    rw [if_pos (by simp; omega)]
    have h1 : (done.map some ++ r2).take done.length = done.map some := by
      rw [List.take_append_of_le_length (by simp), List.take_of_length_le (by simp)]
    have h2 : (done.map some ++ r2).drop (done.length + [(0 : Byte)].length) = [] := by
      apply List.drop_of_length_le
      simp; omega
    rw [h1, h2, block, ← hd]
    simp [List.map_map, Function.comp_def]

example : (match envBlock (str "/w/") none [str "A=%1x%1", str "B"] with
    | .ok b => b == (block [str "PATH=/w/", str "A=/w/x%1", str "B"]).map some
    | .error _ => false) = true := by decide +kernel

/-! ## C46 -/

/-- C46: a file entry that is new, or that described an earlier version of the file, describes the present file after the
compiler was built. Files keep their time only while their contents stay the same, and existing files have a time. -/
theorem C46_file (h : Hashes) (disk : List Byte → Option DiskFile) (f f' : MFile)
    (hstamp : ∀ n d, disk n = some d → d.stamp ≠ 0 ∧ d.data.length < 2 ^ 32)
    (old : DiskFile) (hold : f.hash = 0 ∨ (Describes h f old ∧ old.stamp ≠ 0 ∧ ∀ d, disk f.name = some d → d.stamp = old.stamp → d.data = old.data))
    (hb : f.doBuild h disk false = some f') : f'.name = f.name ∧ ∃ d, disk f.name = some d ∧ Describes h f' d := by
  unfold MFile.doBuild at hb
  cases hd : disk f.name with
  | none =>
    rw [hd] at hb
    dsimp only at hb
    split at hb
    · rename_i hc; cases hc
    · split at hb
      · rename_i hc
        rcases hold with h0 | ⟨h1, h2, _⟩
        · exact absurd h0 hc.1
        · exact absurd (h1.stamp ▸ hc.2) h2
      · cases hb
  | some d =>
    rw [hd] at hb
    dsimp only at hb
    obtain ⟨hs, hl⟩ := hstamp _ _ hd
    split at hb
    · rename_i hc; cases hc
    · split at hb
      · rename_i hc
        rcases hold with h0 | ⟨h1, h2, h3⟩
        · exact absurd h0 hc.1
        · injection hb with hb
          subst hb
          have e := h3 d hd (by rw [← hc.2, h1.stamp])
          exact ⟨rfl, d, rfl, hc.2, by rw [h1.hash, e], by rw [h1.size, e]⟩
      · injection hb with hb
        subst hb
        refine ⟨rfl, d, rfl, rfl, ?_, ?_⟩
        · show h.xx32 (d.data.take (d.data.length % 2 ^ 32)) = _
          rw [Nat.mod_eq_of_lt hl, List.take_length]
        · show (BitVec.ofNat 32 (d.data.length % 2 ^ 32)).toNat = _
          rw [BitVec.toNat_ofNat, Nat.mod_mod, Nat.mod_eq_of_lt hl]

theorem buildFiles_get (h : Hashes) (disk : List Byte → Option DiskFile) (skip : Bool) : ∀ (l l' : List MFile), buildFiles h disk skip l = some l' →
    l'.length = l.length ∧ ∀ (i : Nat) (f f' : MFile), l[i]? = some f → l'[i]? = some f' → f.doBuild h disk skip = some f'
  | [], l', e => by
    injection e with e
    subst e
    exact ⟨rfl, by simp⟩
  | f :: fs, l', e => by
    rw [buildFiles] at e
    split at e
    · cases e
    rename_i f1 e1
    split at e
    · cases e
    rename_i fs1 e2
    injection e with e
    subst e
    obtain ⟨h1, h2⟩ := buildFiles_get h disk skip fs fs1 e2
    refine ⟨by simp [h1], fun i g g' hg hg' => ?_⟩
    cases i with
    | zero => simp only [List.getElem?_cons_zero, Option.some_inj] at hg hg'; rw [← hg, ← hg', e1]
    | succ i => exact h2 i g g' (by simpa using hg) (by simpa using hg')

/-- C46: building a new compiler succeeds only if the manifest then lists exactly the given files, in order, and describes
each as it is on disk -/
theorem C46_manifest_partial (p : Plat) (h : Hashes) (disk : List Byte → Option DiskFile) (root : List Byte) (names env : List (List Byte)) (m : Manifest)
    (hstamp : ∀ n d, disk n = some d → d.stamp ≠ 0 ∧ d.data.length < 2 ^ 32)
    (hm : (Manifest.init root names env).doBuild p h disk false = some m) :
    m.root = root ∧ m.env = env ∧ m.files.map (·.name) = names ∧
    ∀ f ∈ m.files, ∃ d, disk f.name = some d ∧ Describes h f d := by
  unfold Manifest.doBuild at hm
  split at hm
  · cases hm
  rename_i fs e
  injection hm with hm
  subst hm
  obtain ⟨h1, h2⟩ := buildFiles_get h disk false _ _ e
  have h1 : fs.length = names.length := by simpa [Manifest.init] using h1
  have key : ∀ (i : Nat) (f' : MFile), fs[i]? = some f' → ∃ n, names[i]? = some n ∧ f'.name = n ∧ ∃ d, disk n = some d ∧ Describes h f' d := by
    intro i f' hf'
    have hi : i < names.length := h1 ▸ (List.getElem?_eq_some_iff.1 hf').1
    refine ⟨names[i], List.getElem?_eq_getElem hi, ?_⟩
    exact C46_file h disk ⟨names[i], 0, 0, 0⟩ f' hstamp ⟨0, []⟩ (Or.inl rfl)
      (h2 i _ f' (by show (names.map _)[i]? = _; rw [List.getElem?_map, List.getElem?_eq_getElem hi]; rfl) hf')
  refine ⟨rfl, rfl, ?_, ?_⟩
  · apply List.ext_getElem?
    intro i
    show (fs.map (·.name))[i]? = names[i]?
    rw [List.getElem?_map]
    cases hi : fs[i]? with
    | none =>
      rw [List.getElem?_eq_none_iff] at hi
      rw [Option.map_none, eq_comm, List.getElem?_eq_none_iff]
      omega
    | some f' =>
      obtain ⟨n, k1, k2, _⟩ := key i f' hi
      rw [k1, ← k2]
      rfl
  · intro f hf
    obtain ⟨i, hi, rfl⟩ := List.getElem_of_mem (show f ∈ fs from hf)
    obtain ⟨n, _, k2, d, k3, k4⟩ := key i _ (List.getElem?_eq_getElem hi)
    exact ⟨d, k2 ▸ k3, k4⟩

/-- two files of a toolchain on disk -/
def sampleDisk : List Byte → Option DiskFile := fun n =>
  if n = str "/t/cc" then some ⟨5, [1, 2, 3]⟩ else if n = str "/o/b.so" then some ⟨8, []⟩ else none
def sampleHashes : Hashes := ⟨fun d => BitVec.ofNat 32 (d.length + 1), fun _ => 1, fun _ => 2⟩
example : ((Manifest.init (str "/t/") [str "/t/cc", str "/o/b.so"] []).doBuild linux sampleHashes sampleDisk false).map (·.files) =
    some [⟨str "/t/cc", 5, 4, 3⟩, ⟨str "/o/b.so", 8, 1, 0⟩] := by decide +kernel
/-- a changed file is read again, an unchanged one is not -/
example : (⟨str "/t/cc", 5, 4, 3⟩ : MFile).doBuild sampleHashes sampleDisk false = some ⟨str "/t/cc", 5, 4, 3⟩ := by decide +kernel
example : (⟨str "/t/cc", 6, 9, 9⟩ : MFile).doBuild sampleHashes sampleDisk false = some ⟨str "/t/cc", 5, 4, 3⟩ := by decide +kernel

/-- Finding: an entry carried over to a new graph loses its size: after the build it claims size zero -/
theorem C46_migrated_size_lost (h : Hashes) (disk : List Byte → Option DiskFile) (old : MFile) (d : DiskFile)
    (hd : disk old.name = some d) (hdesc : Describes h old d) (hh : old.hash ≠ 0) (hne : d.data ≠ []) :
    ∃ f', ((⟨old.name, 0, 0, 0⟩ : MFile).migrate old).doBuild h disk false = some f' ∧ f'.size = 0 ∧ ¬ Describes h f' d ∧
      ∀ path, disk path = some d → present h disk path f' = false := by
  refine ⟨⟨old.name, old.stamp, old.hash, 0⟩, ?_, rfl, ?_, ?_⟩
  · unfold MFile.doBuild MFile.migrate
    simp only [Bool.false_eq_true, if_false, hd]
    rw [if_pos ⟨hh, hdesc.stamp⟩]
  · intro hc
    have := hc.size
    exact hne (List.length_eq_zero_iff.1 this.symm)
  · intro path hp
    unfold present
    rw [hp]
    have : d.data.length ≠ (0 : BitVec 32).toNat := fun e => hne (List.length_eq_zero_iff.1 e)
    dsimp only
    rw [if_pos this]

theorem idBytes_inj (p : Plat) (h : Hashes) (r1 r2 : List Byte) : ∀ (l1 l2 : List MFile), idBytes p h r1 l1 = idBytes p h r2 l2 →
    l1.map (fun f => (f.hash, h.xx32 (relPath p r1 f.name))) = l2.map (fun f => (f.hash, h.xx32 (relPath p r2 f.name)))
  | [], [], _ => rfl
  | [], f :: fs, e => by
    have := congrArg List.length e
    simp [idBytes, wrU32, wrWord, leBytes_length] at this
    try omega
  | f :: fs, [], e => by
    have := congrArg List.length e
    simp [idBytes, wrU32, wrWord, leBytes_length] at this
    try omega
  | f :: fs, g :: gs, e => by
    rw [idBytes, idBytes, List.append_assoc, List.append_assoc] at e
    have hw : ∀ x y : BitVec 32, wrU32 x = wrU32 y → x = y := by
      intro x y hxy
      have := congrArg ofLE hxy
      rw [wrU32, wrU32, wrWord, wrWord, ofLE_leBytes, ofLE_leBytes] at this
      apply BitVec.eq_of_toNat_eq
      have h1 := x.isLt
      have h2 := y.isLt
      omega
    have hl : ∀ x : BitVec 32, (wrU32 x).length = 4 := fun x => leBytes_length _ _
    obtain ⟨e1, e⟩ := List.append_inj e (by rw [hl, hl])
    obtain ⟨e2, e⟩ := List.append_inj e (by rw [hl, hl])
    rw [List.map_cons, List.map_cons, idBytes_inj p h r1 r2 fs gs e, hw _ _ e1, hw _ _ e2]

/-- C46: two toolchains have the same id only if their files have the same hashes in the same order, stored under remote
paths with the same hashes, unless the 64-bit hash collides -/
theorem C46_tool_id (p : Plat) (h : Hashes) (disk disk' : List Byte → Option DiskFile) (skip skip' : Bool) (m n m' n' : Manifest)
    (hm : m.doBuild p h disk skip = some m') (hn : n.doBuild p h disk' skip' = some n') (he : m'.toolId = n'.toolId)
    (hcol : h.xx3_64 (idBytes p h m'.root m'.files) = h.xx3_64 (idBytes p h n'.root n'.files) →
      idBytes p h m'.root m'.files = idBytes p h n'.root n'.files) :
    m'.files.map (fun f => (f.hash, h.xx32 (relPath p m'.root f.name))) = n'.files.map (fun f => (f.hash, h.xx32 (relPath p n'.root f.name))) := by
  unfold Manifest.doBuild at hm hn
  split at hm
  · cases hm
  split at hn
  · cases hn
  injection hm with hm
  injection hn with hn
  subst hm hn
  exact idBytes_inj p h _ _ _ _ (hcol he)

/-- Finding: the environment of a tool is not part of its id, so a worker cannot tell toolchains apart that differ only there -/
theorem C46_tool_id_ignores_environment (p : Plat) (h : Hashes) (disk : List Byte → Option DiskFile) (skip : Bool) (m m' : Manifest)
    (hm : m.doBuild p h disk skip = some m') (env : List (List Byte)) :
    ∃ n', ({ m with env := env } : Manifest).doBuild p h disk skip = some n' ∧ n'.toolId = m'.toolId ∧ n'.env = env := by
  unfold Manifest.doBuild at hm ⊢
  split at hm
  · cases hm
  injection hm with hm
  subst hm
  rename_i e
  simp only [e]
  exact ⟨_, rfl, rfl, rfl⟩

end Verif.Net
