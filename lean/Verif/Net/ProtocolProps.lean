import Verif.Net.ProtocolModel
import Verif.Net.FrameProps
/-! C41, continued: the messages themselves. -/
namespace Verif.Net
open Verif.IO

/-- which messages are followed by a payload: jobs, manifests, files and results -/
def PMsg.carries : PMsg → Bool
  | .job _ _ => true
  | .manifest _ => true
  | .file _ _ => true
  | .jobResult => true
  | .jobResultCompressed => true
  | _ => false

/-- the host name fills its array -/
def PMsg.Ok : PMsg → Prop
  | .connection _ _ _ _ h => h.length = 64
  | _ => True

theorem word_len (n : Nat) (x : BitVec (8 * n)) : (wrWord n x).length = n := leBytes_length _ _
theorem u16_len (x : BitVec 16) : (wrWord 2 x).length = 2 := leBytes_length _ _

theorem field_at (n : Nat) (x : BitVec (8 * n)) (pre post : List Byte) : field (8 * n) n pre.length (pre ++ (wrWord n x ++ post)) = x := by
  rw [field, List.drop_left, List.take_left' (word_len n x), wrWord, ofLE_leBytes]
  apply BitVec.eq_of_toNat_eq
  rw [BitVec.toNat_ofNat, Nat.mod_mod, Nat.mod_eq_of_lt x.isLt]

theorem field8 (x : Byte) (pre post : List Byte) : field 8 1 pre.length (pre ++ (x :: post)) = x := by
  have := field_at 1 x pre post
  have e : wrWord 1 x = [x] := by
    simp [wrWord, leBytes]
  rw [e] at this
  exact this

/-- C41. Every message the program sends arrives with its own type and fields, tells in its flag whether a payload
follows, and is small enough for its size byte. -/
theorem C41_messages (m : PMsg) (h : m.Ok) :
    castMsg m.bytes = .msg m ∧ hasPayload m.bytes = m.carries ∧ m.bytes[1]? = some (BitVec.ofNat 8 m.bytes.length) ∧ m.bytes.length < 256 ∧ 3 ≤ m.bytes.length := by
  cases m with
  | connection v n p mi hn =>
    have hh : hn.length = 64 := h
    have hl : (PMsg.connection v n p mi hn).bytes.length = 80 := by simp [PMsg.bytes, imessage, u32_length, u16_len, u64_length, hh]
    refine ⟨?_, rfl, by rw [hl]; rfl, by omega, by omega⟩
    have f1 : field 32 4 4 (PMsg.connection v n p mi hn).bytes = v := by
      have := field_at 4 v (imessage 1 80 false) (wrU32 n ++ [p, mi, 0, 0] ++ hn)
      simpa [PMsg.bytes, imessage, wrU32, wrU64] using this
    have f2 : field 32 4 8 (PMsg.connection v n p mi hn).bytes = n := by
      have := field_at 4 n (imessage 1 80 false ++ wrU32 v) ([p, mi, 0, 0] ++ hn)
      rw [show (imessage 1 80 false ++ wrU32 v).length = 8 by simp [imessage, u32_length, u16_len, u64_length]] at this
      simpa [PMsg.bytes, imessage, wrU32, wrU64] using this
    have f3 : field 8 1 12 (PMsg.connection v n p mi hn).bytes = p := by
      have := field8 p (imessage 1 80 false ++ wrU32 v ++ wrU32 n) ([mi, 0, 0] ++ hn)
      rw [show (imessage 1 80 false ++ wrU32 v ++ wrU32 n).length = 12 by simp [imessage, u32_length, u16_len, u64_length]] at this
      simpa [PMsg.bytes, imessage, wrU32, wrU64] using this
    have f4 : field 8 1 13 (PMsg.connection v n p mi hn).bytes = mi := by
      have := field8 mi (imessage 1 80 false ++ wrU32 v ++ wrU32 n ++ [p]) ([0, 0] ++ hn)
      rw [show (imessage 1 80 false ++ wrU32 v ++ wrU32 n ++ [p]).length = 13 by simp [imessage, u32_length, u16_len, u64_length]] at this
      simpa [PMsg.bytes, imessage, wrU32, wrU64] using this
    have f5 : ((PMsg.connection v n p mi hn).bytes.drop 16).take 64 = hn := by
      show ((imessage 1 80 false ++ wrU32 v ++ wrU32 n ++ [p, mi, 0, 0] ++ hn).drop 16).take 64 = hn
      rw [List.drop_left' (by simp [imessage, u32_length, u16_len, u64_length]), List.take_of_length_le (by omega)]
    have e0 : (PMsg.connection v n p mi hn).bytes[0]? = some 1 := rfl
    rw [castMsg, e0]
    dsimp only
    rw [if_pos rfl, f1, f2, f3, f4, f5, sized, if_neg (by omega)]
  | connectionAck w ma mi =>
    have hl : (PMsg.connectionAck w ma mi).bytes.length = 8 := by simp [PMsg.bytes, imessage, u32_length, u16_len, u64_length]
    refine ⟨?_, rfl, by rw [hl]; rfl, by omega, by omega⟩
    have f1 : field 16 2 4 (PMsg.connectionAck w ma mi).bytes = w := by
      have := field_at 2 w (imessage 12 8 false) [ma, mi]
      simpa [PMsg.bytes, imessage, wrU32, wrU64] using this
    have f2 : field 8 1 6 (PMsg.connectionAck w ma mi).bytes = ma := by
      have := field8 ma (imessage 12 8 false ++ wrWord 2 w) [mi]
      rw [show (imessage 12 8 false ++ wrWord 2 w).length = 6 by simp [imessage, u32_length, u16_len, u64_length]] at this
      simpa [PMsg.bytes, imessage, wrU32, wrU64] using this
    have f3 : field 8 1 7 (PMsg.connectionAck w ma mi).bytes = mi := by
      have := field8 mi (imessage 12 8 false ++ wrWord 2 w ++ [ma]) []
      rw [show (imessage 12 8 false ++ wrWord 2 w ++ [ma]).length = 7 by simp [imessage, u32_length, u16_len, u64_length]] at this
      simpa [PMsg.bytes, imessage, wrU32, wrU64] using this
    have e0 : (PMsg.connectionAck w ma mi).bytes[0]? = some 12 := rfl
    rw [castMsg, e0]
    dsimp only
    rw [if_neg (by decide), if_neg (by decide), if_neg (by decide), if_neg (by decide), if_neg (by decide), if_neg (by decide), if_neg (by decide),
      if_neg (by decide), if_neg (by decide), if_neg (by decide), if_neg (by decide), if_pos rfl, f1, f2, f3, sized, if_neg (by omega)]
  | status n =>
    have hl : (PMsg.status n).bytes.length = 8 := by simp [PMsg.bytes, imessage, u32_length, u16_len, u64_length]
    refine ⟨?_, rfl, by rw [hl]; rfl, by omega, by omega⟩
    have f1 : field 32 4 4 (PMsg.status n).bytes = n := by
      have := field_at 4 n (imessage 2 8 false) []
      simpa [PMsg.bytes, imessage, wrU32, wrU64] using this
    have e0 : (PMsg.status n).bytes[0]? = some 2 := rfl
    rw [castMsg, e0]
    dsimp only
    rw [if_neg (by decide), if_pos rfl, f1, sized, if_neg (by omega)]
  | requestJob => decide
  | noJobAvailable => decide
  | jobResult => decide
  | jobResultCompressed => decide
  | job l t =>
    have hl : (PMsg.job l t).bytes.length = 16 := by simp [PMsg.bytes, imessage, u32_length, u16_len, u64_length]
    refine ⟨?_, rfl, by rw [hl]; rfl, by omega, by omega⟩
    have f1 : field 16 2 4 (PMsg.job l t).bytes = l := by
      have := field_at 2 l (imessage 5 16 true) ([0, 0] ++ wrU64 t)
      simpa [PMsg.bytes, imessage, wrU32, wrU64] using this
    have f2 : field 64 8 8 (PMsg.job l t).bytes = t := by
      have := field_at 8 t (imessage 5 16 true ++ wrWord 2 l ++ [0, 0]) []
      have hlen : List.length (α := Byte) (imessage 5 16 true ++ wrWord 2 l ++ [0, 0]) = 8 := by
        rw [List.length_append, List.length_append, u16_len]; rfl
      rw [hlen] at this
      simpa [PMsg.bytes, imessage, wrU32, wrU64] using this
    have e0 : (PMsg.job l t).bytes[0]? = some 5 := rfl
    rw [castMsg, e0]
    dsimp only
    rw [if_neg (by decide), if_neg (by decide), if_neg (by decide), if_neg (by decide), if_pos rfl, f1, f2, sized, if_neg (by omega)]
  | requestManifest t =>
    have hl : (PMsg.requestManifest t).bytes.length = 16 := by simp [PMsg.bytes, imessage, u32_length, u16_len, u64_length]
    refine ⟨?_, rfl, by rw [hl]; rfl, by omega, by omega⟩
    have f2 : field 64 8 8 (PMsg.requestManifest t).bytes = t := by
      have := field_at 8 t (imessage 7 16 false ++ [0, 0, 0, 0]) []
      simpa [PMsg.bytes, imessage, wrU32, wrU64] using this
    have e0 : (PMsg.requestManifest t).bytes[0]? = some 7 := rfl
    rw [castMsg, e0]
    dsimp only
    rw [if_neg (by decide), if_neg (by decide), if_neg (by decide), if_neg (by decide), if_neg (by decide), if_neg (by decide), if_pos rfl, f2, sized, if_neg (by omega)]
  | manifest t =>
    have hl : (PMsg.manifest t).bytes.length = 16 := by simp [PMsg.bytes, imessage, u32_length, u16_len, u64_length]
    refine ⟨?_, rfl, by rw [hl]; rfl, by omega, by omega⟩
    have f2 : field 64 8 8 (PMsg.manifest t).bytes = t := by
      have := field_at 8 t (imessage 8 16 true ++ [0, 0, 0, 0]) []
      simpa [PMsg.bytes, imessage, wrU32, wrU64] using this
    have e0 : (PMsg.manifest t).bytes[0]? = some 8 := rfl
    rw [castMsg, e0]
    dsimp only
    rw [if_neg (by decide), if_neg (by decide), if_neg (by decide), if_neg (by decide), if_neg (by decide), if_neg (by decide), if_neg (by decide), if_pos rfl, f2,
      sized, if_neg (by omega)]
  | requestFile f t =>
    have hl : (PMsg.requestFile f t).bytes.length = 16 := by simp [PMsg.bytes, imessage, u32_length, u16_len, u64_length]
    refine ⟨?_, rfl, by rw [hl]; rfl, by omega, by omega⟩
    have f1 : field 32 4 4 (PMsg.requestFile f t).bytes = f := by
      have := field_at 4 f (imessage 9 16 false) (wrU64 t)
      simpa [PMsg.bytes, imessage, wrU32, wrU64] using this
    have f2 : field 64 8 8 (PMsg.requestFile f t).bytes = t := by
      have := field_at 8 t (imessage 9 16 false ++ wrU32 f) []
      rw [show (imessage 9 16 false ++ wrU32 f).length = 8 by simp [imessage, u32_length, u16_len, u64_length]] at this
      simpa [PMsg.bytes, imessage, wrU32, wrU64] using this
    have e0 : (PMsg.requestFile f t).bytes[0]? = some 9 := rfl
    rw [castMsg, e0]
    dsimp only
    rw [if_neg (by decide), if_neg (by decide), if_neg (by decide), if_neg (by decide), if_neg (by decide), if_neg (by decide), if_neg (by decide), if_neg (by decide),
      if_pos rfl, f1, f2, sized, if_neg (by omega)]
  | file f t =>
    have hl : (PMsg.file f t).bytes.length = 16 := by simp [PMsg.bytes, imessage, u32_length, u16_len, u64_length]
    refine ⟨?_, rfl, by rw [hl]; rfl, by omega, by omega⟩
    have f1 : field 32 4 4 (PMsg.file f t).bytes = f := by
      have := field_at 4 f (imessage 10 16 true) (wrU64 t)
      simpa [PMsg.bytes, imessage, wrU32, wrU64] using this
    have f2 : field 64 8 8 (PMsg.file f t).bytes = t := by
      have := field_at 8 t (imessage 10 16 true ++ wrU32 f) []
      rw [show (imessage 10 16 true ++ wrU32 f).length = 8 by simp [imessage, u32_length, u16_len, u64_length]] at this
      simpa [PMsg.bytes, imessage, wrU32, wrU64] using this
    have e0 : (PMsg.file f t).bytes[0]? = some 10 := rfl
    rw [castMsg, e0]
    dsimp only
    rw [if_neg (by decide), if_neg (by decide), if_neg (by decide), if_neg (by decide), if_neg (by decide), if_neg (by decide), if_neg (by decide), if_neg (by decide),
      if_neg (by decide), if_pos rfl, f1, f2, sized, if_neg (by omega)]

example : (PMsg.job 0xFFFE 0x1122334455667788).bytes = [5, 16, 1, 0, 0xFE, 0xFF, 0, 0, 0x88, 0x77, 0x66, 0x55, 0x44, 0x33, 0x22, 0x11] := by decide

/-- C41. The messages of the program are well formed for framing, with a payload exactly where one is carried. -/
theorem C41_wellformed (m : PMsg) (h : m.Ok) (payload : Option (List Byte)) (hp : payload.isSome = m.carries)
    (hs : 300 + (payload.getD []).length < 2 ^ 32) : Msg.Wf ⟨m.bytes, payload⟩ := by
  obtain ⟨_, h2, _, h4, h5⟩ := C41_messages m h
  exact ⟨h5, by rw [hp]; exact h2, by dsimp only; omega⟩

/-- Finding: a frame is cast to a message without comparing sizes. A frame of four bytes of type "job" is read
beyond its end. -/
theorem C41_short_frame : castMsg [5, 16, 0, 0] = .outOfBounds := by decide

end Verif.Net
