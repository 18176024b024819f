import Verif.Transfer.Spec
import Verif.IO.CompressProps
/-! Lemmas for C112. -/
namespace Verif.Transfer
open Verif.IO

theorem beforeLast_none {c : Byte} : ∀ {n : Name}, c ∉ n → beforeLast c n = none
  | [], _ => rfl
  | x :: r, h => by
    have h1 : x ≠ c := fun e => h (by simp [e])
    have h2 : c ∉ r := fun e => h (by simp [e])
    rw [beforeLast, beforeLast_none h2]
    simp [h1]

theorem beforeLast_some {c : Byte} {e : Name} (h : c ∉ e) : ∀ s : Name, beforeLast c (s ++ c :: e) = some s
  | [] => by rw [List.nil_append, beforeLast, beforeLast_none h]; simp
  | x :: r => by rw [List.cons_append, beforeLast, beforeLast_some h r]

theorem afterLast_none {c : Byte} : ∀ {n : Name}, c ∉ n → afterLast c n = none
  | [], _ => rfl
  | x :: r, h => by
    have h1 : x ≠ c := fun e => h (by simp [e])
    have h2 : c ∉ r := fun e => h (by simp [e])
    rw [afterLast, afterLast_none h2]
    simp [h1]

theorem afterLast_some {c : Byte} {e : Name} (h : c ∉ e) : ∀ s : Name, afterLast c (s ++ c :: e) = some e
  | [] => by rw [List.nil_append, afterLast, afterLast_none h]; simp
  | x :: r => by rw [List.cons_append, afterLast, afterLast_some h r]

theorem split_last (c : Byte) : ∀ n : Name, (∃ s e, n = s ++ c :: e ∧ c ∉ e) ∨ c ∉ n
  | [] => Or.inr (by simp)
  | x :: r => by
    rcases split_last c r with ⟨s, e, h1, h2⟩ | h
    · exact Or.inl ⟨x :: s, e, by rw [h1]; rfl, h2⟩
    · by_cases hx : x = c
      · exact Or.inl ⟨[], r, by rw [hx]; rfl, h⟩
      · exact Or.inr (by simp [h, Ne.symm hx])

theorem stem_iff (o : Obj) (h : o.pchObj = []) (s : Name) : Stem o.name s ↔ o.stem = s := by
  rw [Obj.stem, if_pos h]
  rcases split_last dot o.name with ⟨s', e, h1, h2⟩ | h1
  · rw [h1, beforeLast_some h2]
    constructor
    · rintro (⟨e', h3, h4⟩ | ⟨h3, _⟩)
      · have a := beforeLast_some h2 s'
        rw [h3, beforeLast_some h4] at a
        exact (Option.some.inj a).symm
      · exact absurd (by simp) h3
    · rintro rfl
      exact Or.inl ⟨e, rfl, h2⟩
  · rw [beforeLast_none h1]
    constructor
    · rintro (⟨e', h3, _⟩ | ⟨_, h3⟩)
      · exact absurd (by rw [h3]; simp) h1
      · exact h3.symm
    · rintro rfl
      exact Or.inr ⟨h1, rfl⟩

theorem bit_test (f : BitVec 32) (i : Nat) (hi : i < 32) : (f &&& BitVec.twoPow 32 i != 0) = f.getLsbD i := by
  rw [BitVec.and_twoPow]
  have h : BitVec.twoPow 32 i ≠ 0#32 := by
    intro e
    have := congrArg (fun x => x.getLsbD i) e
    simp [BitVec.getLsbD_twoPow, hi] at this
  cases f.getLsbD i <;> simp [h]

theorem pdb_bit (o : Obj) : o.pdb = o.flags.getLsbD 12 := bit_test o.flags 12 (by decide)
theorem analysis_bit (o : Obj) : o.analysis = o.flags.getLsbD 21 := bit_test o.flags 21 (by decide)
theorem deopt_bit (o : Obj) : o.deopt = o.flags.getLsbD 27 := bit_test o.flags 27 (by decide)

/-! ## messages -/

theorem codec_node (j : Job) (h1 : j.obj.name.length < 2 ^ 32) (h2 : j.source.length < 2 ^ 32) (h3 : j.args.length < 2 ^ 32) :
    Codec (wrNode j) rdNode (⟨j.obj.name, [], j.obj.flags⟩, j.source, j.args) := by
  refine (codec_u32 6#32).bind ?_
  refine (show Codec (_ ++ _) (rdStr >>= _) _ from (codec_str j.obj.name h1).bind ?_)
  refine (codec_str j.source h2).bind ?_
  refine (codec_u32 j.obj.flags).bind ?_
  exact (codec_str j.args h3).map (fun a => ((⟨j.obj.name, [], j.obj.flags⟩ : Obj), j.source, a))

theorem codec_sized {β : Type} (d : List Byte) (hd : d.length < 2 ^ 32) (g : List Byte → β) :
    Codec (wrU32 (BitVec.ofNat 32 d.length) ++ d) (do let n ← rdU32; let x ← rdBytes n.toNat; return g x) (g d) := by
  refine (codec_u32 (BitVec.ofNat 32 d.length)).bind ?_
  rw [BitVec.toNat_ofNat, Nat.mod_eq_of_lt hd]
  exact (codec_bytes d).map g

theorem codec_job (j : Job) (wd : Name) (h1 : j.obj.name.length < 2 ^ 32) (h2 : j.source.length < 2 ^ 32)
    (h3 : j.args.length < 2 ^ 32) (h4 : wd.length < 2 ^ 32) (h5 : j.data.length < 2 ^ 32) :
    Codec (wrJob j wd) rdJob
      ⟨j.id, j.obj.name, wd, ⟨j.obj.name, [], j.obj.flags⟩, j.source, j.args, j.compressed, j.data⟩ := by
  refine (codec_u32 j.id).bind ?_
  refine (codec_str j.obj.name h1).bind ?_
  refine (codec_str wd h4).bind ?_
  refine (codec_node j h1 h2 h3).bind ?_
  refine (codec_bool j.compressed).bind ?_
  exact codec_sized j.data h5 (fun d => (⟨j.id, j.obj.name, wd, ⟨j.obj.name, [], j.obj.flags⟩, j.source, j.args, j.compressed, d⟩ : RemoteJob))

theorem codec_result (id : BitVec 32) (name : Name) (d : Done) (t : BitVec 32) (th : BitVec 16) (h1 : name.length < 2 ^ 32)
    (h2 : d.messages.length < 2 ^ 32) (h3 : ∀ m ∈ d.messages, m.length < 2 ^ 32) (h4 : d.data.length < 2 ^ 32) :
    Codec (wrResult id name d t th) rdResult
      ⟨id, name, d.result == .ok, decide (d.systemErrors > 0), d.messages, t, th, d.data⟩ := by
  refine (codec_u32 id).bind ?_
  refine (codec_str name h1).bind ?_
  refine (codec_bool _).bind ?_
  refine (codec_bool _).bind ?_
  refine (codec_arr d.messages (fun m hm => codec_str m (h3 m hm)) h2).bind ?_
  refine (codec_u32 t).bind ?_
  refine (codec_word 2 th).bind ?_
  exact codec_sized d.data h4 (fun x => (⟨id, name, d.result == .ok, decide (d.systemErrors > 0), d.messages, t, th, x⟩ : Result))

theorem Codec.at_start {α : Type} {w : List Byte} {p : Parser α} {a : α} (h : Codec w p a) (post : List Byte) :
    ∃ r, p ⟨w ++ post, 0⟩ = some (a, r) := by
  have := h.full [] post
  simp only [List.nil_append, List.length_nil] at this
  exact ⟨_, this⟩

/-! ## files -/

/-- the kinds in the order of the buffer -/
def kinds (o : Obj) : List Kind :=
  [.obj] ++ (if o.pdb then [.pdb] else []) ++ (if o.analysis then [.xml] else []) ++ (if o.deopt then [.alt] else [])

def nameOf (o : Obj) : Kind → Name
  | .obj => o.name
  | .pdb => o.pdbName
  | .xml => o.xmlName
  | .alt => o.altName

theorem resultFiles_eq (o : Obj) : resultFiles o = (kinds o).map (nameOf o) := by
  rw [resultFiles, kinds]
  cases o.pdb <;> cases o.analysis <;> cases o.deopt <;> rfl

theorem mem_kinds (o : Obj) (k : Kind) : k ∈ kinds o ↔ Asked o.flags k := by
  have e1 := pdb_bit o
  have e2 := analysis_bit o
  have e3 := deopt_bit o
  rw [kinds]
  cases k <;> simp [Asked, e1, e2, e3]

theorem kinds_length (o : Obj) : (kinds o).length ≤ 4 := by
  rw [kinds]
  cases o.pdb <;> cases o.analysis <;> cases o.deopt <;> simp

theorem kinds_flags (o o' : Obj) (h : o.flags = o'.flags) : kinds o = kinds o' := by
  rw [kinds, kinds, pdb_bit, analysis_bit, deopt_bit, pdb_bit, analysis_bit, deopt_bit, h]

theorem made_iff (o : Obj) (h : o.pchObj = []) (k : Kind) (n : Name) : Made o.name k n ↔ n = nameOf o k := by
  constructor
  · rintro (_ | _ | hs | hs)
    · rfl
    · rfl
    · rw [stem_iff o h] at hs; rw [← hs]; rfl
    · rw [stem_iff o h] at hs; rw [← hs]; rfl
  · rintro rfl
    cases k with
    | obj => exact Made.obj
    | pdb => exact Made.pdb
    | xml => exact Made.xml ((stem_iff o h _).2 rfl)
    | alt => exact Made.alt ((stem_iff o h _).2 rfl)

theorem writeFiles_all (b : List Byte) (o : Obj) (x : Kind → List Byte)
    (h : ∀ i f, ((kinds o).map x)[i]? = some f → extractFile b i = .wrote f) :
    ∃ n, writeFiles b o = some ((kinds o).map (fun k => (nameOf o k, x k)), n, true) := by
  rw [writeFiles]
  rw [kinds] at h ⊢
  have e0 := h 0
  have e1 := h 1
  have e2 := h 2
  have e3 := h 3
  revert e0 e1 e2 e3
  cases o.pdb <;> cases o.analysis <;> cases o.deopt <;> simp [writeNext, nameOf] <;> intros <;> simp_all

theorem assemble_length (t : Nat) (d : List Byte) (out : Option (List Byte)) : (assemble t d out).2.length ≤ 12 + d.length := by
  cases out with
  | none => simp [assemble, wrHeader_length]
  | some o =>
    simp only [assemble]
    split
    · simp [wrHeader_length]; omega
    · simp [wrHeader_length]

theorem mbCompress_length (c : Codecs) (b : List Byte) (l : Int) (z : Bool) (r : List Byte) (h : mbCompress c b l z = some r) :
    r.length ≤ 12 + b.length := by
  rw [mbCompress] at h
  split at h
  · cases h
    rw [compressZstd]
    split <;> exact assemble_length _ _ _
  · rw [compress] at h
    split at h
    · cases h
    · split at h
      · cases h; exact assemble_length _ _ _
      · split at h
        · cases h; exact assemble_length _ _ _
        · cases h; exact assemble_length _ _ _

end Verif.Transfer
