import Verif.IO.StreamModel
import Verif.Mem.PoolProps
/-! Round-trip lemmas for the typed reads and writes. -/
namespace Verif.IO

/-- `p` reads exactly the bytes `w` back as `a`, wherever they are, and fails if `w` is cut off. -/
structure Codec {α : Type} (w : List Byte) (p : Parser α) (a : α) : Prop where
  full : ∀ pre post, p ⟨pre ++ w ++ post, pre.length⟩ = some (a, ⟨pre ++ w ++ post, (pre ++ w).length⟩)
  cut : ∀ pre w', w' <+: w → w' ≠ w → p ⟨pre ++ w', pre.length⟩ = none

theorem Codec.pure {α : Type} (a : α) : Codec [] (Pure.pure a : Parser α) a := by
  constructor
  · intro pre post; simp [Pure.pure, Parser.pure]
  · intro pre w' h1 h2; exact absurd (List.prefix_nil.1 h1) h2

theorem prefix_append_cases {α : Type} {w' w1 w2 : List α} (h : w' <+: w1 ++ w2) (hne : w' ≠ w1 ++ w2) :
    (w' <+: w1 ∧ w' ≠ w1) ∨ ∃ v, w' = w1 ++ v ∧ v <+: w2 ∧ v ≠ w2 := by
  by_cases hlt : w'.length < w1.length
  · left
    refine ⟨List.prefix_of_prefix_length_le h (List.prefix_append w1 w2) (by omega), ?_⟩
    intro e; rw [e] at hlt; exact Nat.lt_irrefl _ hlt
  · right
    have h1 : w1 <+: w' := List.prefix_of_prefix_length_le (List.prefix_append w1 w2) h (by omega)
    obtain ⟨v, rfl⟩ := h1
    exact ⟨v, rfl, (List.prefix_append_right_inj w1).1 h, fun e => hne (by rw [e])⟩

theorem Codec.bind {α β : Type} {w1 w2 : List Byte} {p : Parser α} {a : α} {f : α → Parser β} {b : β}
    (h1 : Codec w1 p a) (h2 : Codec w2 (f a) b) : Codec (w1 ++ w2) (p >>= f) b := by
  constructor
  · intro pre post
    have e1 : pre ++ (w1 ++ w2) ++ post = pre ++ w1 ++ (w2 ++ post) := by simp
    have e2 : pre ++ (w1 ++ w2) ++ post = (pre ++ w1) ++ w2 ++ post := by simp
    show Parser.bind p f _ = _
    rw [Parser.bind, e1, h1.full pre (w2 ++ post)]
    have := h2.full (pre ++ w1) post
    simp only [List.append_assoc, List.length_append] at this ⊢
    exact this
  · intro pre w' h hne
    show Parser.bind p f _ = none
    rw [Parser.bind]
    rcases prefix_append_cases h hne with ⟨c1, c2⟩ | ⟨v, rfl, c1, c2⟩
    · rw [h1.cut pre w' c1 c2]
    · have := h1.full pre v
      rw [← List.append_assoc, this]
      exact h2.cut (pre ++ w1) v c1 c2

theorem Codec.map {α β : Type} {w : List Byte} {p : Parser α} {a : α} (h : Codec w p a) (g : α → β) :
    Codec w (do let x ← p; return g x) (g a) := by
  have := h.bind (f := fun x => (Pure.pure (g x) : Parser β)) (Codec.pure (g a))
  rwa [List.append_nil] at this

/-! ## bytes, words -/

theorem codec_bytes (s : List Byte) : Codec s (rdBytes s.length) s := by
  constructor
  · intro pre post
    simp [rdBytes, Reader.readBuffer]
  · intro pre w' h1 h2
    have hl : w'.length < s.length := by
      have := h1.length_le
      rcases Nat.lt_or_ge w'.length s.length with h | h
      · exact h
      · exact absurd (h1.eq_of_length (by omega)) h2
    have hb : (Reader.readBuffer ⟨pre ++ w', pre.length⟩ s.length).1.length ≠ s.length := by
      simp [Reader.readBuffer]
      omega
    show (if (Reader.readBuffer ⟨pre ++ w', pre.length⟩ s.length).1.length = s.length then _ else _) = _
    rw [if_neg hb]

theorem leBytes_length : ∀ (k x : Nat), (leBytes k x).length = k
  | 0, _ => rfl
  | k + 1, x => by rw [leBytes, List.length_cons, leBytes_length k]

theorem ofLE_leBytes : ∀ (k x : Nat), ofLE (leBytes k x) = x % 2 ^ (8 * k)
  | 0, x => by simp [leBytes, ofLE, Nat.mod_one]
  | k + 1, x => by
    rw [leBytes, ofLE, ofLE_leBytes k, BitVec.toNat_ofNat]
    have e : 2 ^ (8 * (k + 1)) = 2 ^ 8 * 2 ^ (8 * k) := by rw [← Nat.pow_add]; congr 1; omega
    rw [e, Nat.mod_mul]

theorem codec_word (k : Nat) (x : BitVec (8 * k)) : Codec (wrWord k x) (rdWord k) x := by
  have h := codec_bytes (wrWord k x)
  have hl : (wrWord k x).length = k := leBytes_length k _
  rw [hl] at h
  have := h.map (fun b => BitVec.ofNat (8 * k) (ofLE b))
  have e : BitVec.ofNat (8 * k) (ofLE (wrWord k x)) = x := by
    rw [wrWord, ofLE_leBytes]
    apply BitVec.eq_of_toNat_eq
    rw [BitVec.toNat_ofNat, Nat.mod_mod, Nat.mod_eq_of_lt x.isLt]
  rw [e] at this
  exact this

theorem codec_u8 (x : BitVec 8) : Codec (wrU8 x) rdU8 x := codec_word 1 x
theorem codec_u32 (x : BitVec 32) : Codec (wrU32 x) rdU32 x := codec_word 4 x
theorem codec_u64 (x : BitVec 64) : Codec (wrU64 x) rdU64 x := codec_word 8 x

theorem codec_bool (b : Bool) : Codec (wrBool b) rdBool b := by
  have := (codec_u8 (if b then 1 else 0)).map (fun x => x != 0)
  cases b with
  | true => exact this
  | false => exact this

theorem codec_str (s : List Byte) (hs : s.length < 2 ^ 32) : Codec (wrStr s) rdStr s := by
  refine (codec_u32 (BitVec.ofNat 32 s.length)).bind ?_
  rw [BitVec.toNat_ofNat, Nat.mod_eq_of_lt hs]
  exact codec_bytes s

theorem codec_many {α : Type} {p : Parser α} {w : α → List Byte} : ∀ (as : List α), (∀ a ∈ as, Codec (w a) p a) →
    Codec (as.flatMap w) (rdMany p as.length) as
  | [], _ => Codec.pure []
  | a :: as, h => by
    rw [List.flatMap_cons]
    refine (h a (by simp)).bind ?_
    have := (codec_many as (fun x hx => h x (by simp [hx]))).bind (f := fun r => (Pure.pure (a :: r) : Parser (List α))) (Codec.pure (a :: as))
    rwa [List.append_nil] at this

theorem codec_arr {α : Type} {p : Parser α} {w : α → List Byte} (as : List α) (h : ∀ a ∈ as, Codec (w a) p a) (hl : as.length < 2 ^ 32) :
    Codec (wrArr w as) (rdArr p) as := by
  refine (codec_u32 (BitVec.ofNat 32 as.length)).bind ?_
  rw [BitVec.toNat_ofNat, Nat.mod_eq_of_lt hl]
  exact codec_many as h

end Verif.IO
