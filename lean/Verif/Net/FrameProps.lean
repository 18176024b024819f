import Verif.Net.FrameModel
import Verif.IO.CompressProps
/-! C41 message framing, C45 noticing a lost connection. -/
namespace Verif.Net
open Verif.IO

/-! ## Sending -/

theorem total_eq (bufs : List (List Byte)) (h : bufs.flatten.length < 2 ^ 32) : totalBytes bufs = bufs.flatten.length := by
  have key : ∀ (bufs : List (List Byte)) (t : Nat), t + bufs.flatten.length < 2 ^ 32 →
      bufs.foldl (fun t b => (t + b.length) % 2 ^ 32) t = t + bufs.flatten.length := by
    intro bufs
    induction bufs with
    | nil => intro t h; simp
    | cons b bs ih =>
      intro t h
      rw [List.flatten_cons, List.length_append] at h
      rw [List.foldl_cons, Nat.mod_eq_of_lt (by omega), ih _ (by omega), List.flatten_cons, List.length_append]; omega
  rw [totalBytes, key bufs 0 (by omega)]; omega

theorem gather_eq (n : Nat) : ∀ (bufs : List (List Byte)) (offset : Nat), offset + bufs.flatten.length < 2 ^ 32 →
    (gather n offset bufs).flatten = bufs.flatten.drop (n - offset) := by
  intro bufs
  induction bufs with
  | nil => intro offset _; simp [gather]
  | cons b bs ih =>
    intro offset h
    rw [List.flatten_cons, List.length_append] at h
    have hov : (if n > offset then n - offset else 0) = n - offset := by split <;> omega
    rw [gather]
    rw [hov, Nat.mod_eq_of_lt (by omega), List.flatten_cons, List.drop_append]
    have ih' := ih (offset + b.length) (by omega)
    have e : n - (offset + b.length) = n - offset - b.length := by omega
    rw [e] at ih'
    by_cases hl : n - offset < b.length
    · rw [if_pos hl, List.flatten_cons, ih']
    · rw [if_neg hl, ih', List.drop_eq_nil_of_le (as := b) (by omega), List.nil_append]

/-- the loop writes a prefix of what remains, and all of it if it reports success -/
theorem sendLoop_spec (bufs : List (List Byte)) (h : bufs.flatten.length < 2 ^ 32) : ∀ (ws : List Write) (n : Nat), n ≤ bufs.flatten.length →
    (sendLoop bufs n ws).2 <+: bufs.flatten.drop n ∧ ((sendLoop bufs n ws).1 = true → (sendLoop bufs n ws).2 = bufs.flatten.drop n) := by
  intro ws
  induction ws with
  | nil =>
    intro n hn
    refine ⟨List.nil_prefix, fun hd => ?_⟩
    have hd' := of_decide_eq_true hd
    rw [total_eq bufs h] at hd'
    exact (List.drop_eq_nil_of_le (by omega)).symm
  | cons w ws ih =>
    intro n hn
    rw [sendLoop.eq_def]
    dsimp only
    rw [total_eq bufs h]
    by_cases hlt : n < bufs.flatten.length
    · rw [if_pos hlt]
      cases w with
      | giveUp => exact ⟨List.nil_prefix, fun c => by cases c⟩
      | wouldBlock => exact ih n hn
      | sent k =>
        dsimp only
        rw [gather_eq n bufs 0 (by omega), Nat.sub_zero]
        have hlen : ((bufs.flatten.drop n).take (k + 1)).length ≤ bufs.flatten.length - n := by
          rw [List.length_take, List.length_drop]; omega
        have hl2 : ((bufs.flatten.drop n).take (k + 1)).length = min (k + 1) (bufs.flatten.length - n) := by
          rw [List.length_take, List.length_drop]
        obtain ⟨i1, i2⟩ := ih (n + ((bufs.flatten.drop n).take (k + 1)).length) (by omega)
        rw [Nat.mod_eq_of_lt (by omega)]
        have hd : bufs.flatten.drop n = (bufs.flatten.drop n).take (k + 1) ++ bufs.flatten.drop (n + ((bufs.flatten.drop n).take (k + 1)).length) := by
          rw [← List.drop_drop, hl2]
          conv => lhs; rw [← List.take_append_drop (k + 1) (bufs.flatten.drop n)]
          congr 1
          by_cases hk : k + 1 ≤ bufs.flatten.length - n
          · rw [Nat.min_eq_left hk]
          · rw [Nat.min_eq_right (by omega), List.drop_eq_nil_of_le (by rw [List.length_drop]; omega),
              List.drop_eq_nil_of_le (by rw [List.length_drop]; omega)]
        constructor
        · conv => rhs; rw [hd]
          exact (List.prefix_append_right_inj _).2 i1
        · intro hok
          conv => rhs; rw [hd]
          rw [i2 hok]
    · rw [if_neg hlt]
      exact ⟨List.nil_prefix, fun _ => (List.drop_eq_nil_of_le (by omega)).symm⟩

/-! ## Frames -/

/-- a frame on the wire -/
def wireF (f : List Byte) : List Byte := wrU32 (BitVec.ofNat 32 f.length) ++ f

/-- the frames of a message -/
def framesM (m : Msg) : List (List Byte) := m.data :: m.payload.toList

/-- a message fits: it has at least the fields of every message, tells whether it has a payload, and everything
together is below 4 GiB -/
structure Msg.Wf (m : Msg) : Prop where
  size : 3 ≤ m.data.length
  flag : hasPayload m.data = m.payload.isSome
  total : 8 + m.data.length + (m.payload.getD []).length < 2 ^ 32

theorem buffers_flatten (m : Msg) (h : m.Wf) : (buffersOf m.data m.payload).flatten = (framesM m).flatMap wireF := by
  have ht := h.total
  cases hp : m.payload with
  | none =>
    rw [framesM, hp]
    simp only [buffersOf, framesOf, sendBuffer, wireF, Option.toList, List.flatMap_cons, List.flatMap_nil, List.flatten_cons, List.flatten_nil, List.append_nil]
    rw [Nat.mod_eq_of_lt (by omega), List.take_of_length_le (Nat.le_refl _)]
  | some p =>
    rw [hp] at ht
    simp only [Option.getD_some] at ht
    rw [framesM, hp]
    simp only [buffersOf, framesOf, sendBuffer, wireF, Option.toList, List.flatMap_cons, List.flatMap_nil, List.flatten_cons, List.flatten_nil, List.append_nil,
      List.cons_append, List.nil_append]
    rw [Nat.mod_eq_of_lt (a := m.data.length) (by omega), Nat.mod_eq_of_lt (a := p.length) (by omega), List.take_of_length_le (Nat.le_refl _), List.take_of_length_le (Nat.le_refl _)]
    simp

theorem wireF_length (f : List Byte) : (wireF f).length = 4 + f.length := by rw [wireF, List.length_append, u32_length]

theorem buffers_length (m : Msg) (h : m.Wf) : (buffersOf m.data m.payload).flatten.length < 2 ^ 32 := by
  have ht := h.total
  rw [buffers_flatten m h]
  cases hp : m.payload with
  | none => rw [framesM, hp]; simp [wireF_length]; omega
  | some p => rw [hp] at ht; rw [framesM, hp]; simp [wireF_length] at ht ⊢; omega

/-- what the senders put on the wire is a prefix of the frames of the messages; all of it if every send succeeded -/
theorem sendAll_prefix : ∀ (ms : List (Msg × List Write)), (∀ x ∈ ms, x.1.Wf) →
    sendAll ms <+: ((ms.map (·.1)).flatMap framesM).flatMap wireF ∧
    ((∀ x ∈ ms, (sendLoop (buffersOf x.1.data x.1.payload) 0 x.2).1 = true) → sendAll ms = ((ms.map (·.1)).flatMap framesM).flatMap wireF) := by
  intro ms
  induction ms with
  | nil => exact fun _ => ⟨List.nil_prefix, fun _ => rfl⟩
  | cons x ms ih =>
    intro hw
    obtain ⟨m, ws⟩ := x
    have hm := hw _ (List.mem_cons_self ..)
    obtain ⟨i1, i2⟩ := ih (fun y hy => hw y (List.mem_cons_of_mem _ hy))
    obtain ⟨s1, s2⟩ := sendLoop_spec (buffersOf m.data m.payload) (buffers_length m hm) ws 0 (by omega)
    rw [List.drop_zero, buffers_flatten m hm] at s1 s2
    rw [sendAll]
    rw [List.map_cons, List.flatMap_cons, List.flatMap_append]
    by_cases hok : (sendLoop (buffersOf m.data m.payload) 0 ws).1 = true
    · rw [if_pos hok, s2 hok]
      exact ⟨(List.prefix_append_right_inj _).2 i1, fun hall => by rw [i2 (fun y hy => hall y (List.mem_cons_of_mem _ hy))]⟩
    · rw [if_neg hok]
      exact ⟨s1.trans (List.prefix_append ..), fun hall => absurd (hall _ (List.mem_cons_self ..)) hok⟩

/-! ## Receiving -/

theorem recvLoop_got : ∀ (calls : List Recv) (need : Nat) (errno : Bool) (stream acc b : List Byte) (e' : Bool) (calls' : List Recv) (stream' : List Byte),
    recvLoop need errno calls stream acc = .got b e' calls' stream' →
      need ≤ stream.length ∧ b = acc ++ stream.take need ∧ stream' = stream.drop need := by
  intro calls
  induction calls with
  | nil =>
    intro need errno stream acc b e' calls' stream' h
    cases need with
    | zero => cases h; exact ⟨Nat.zero_le _, by simp, by simp⟩
    | succ n => cases h
  | cons k calls ih =>
    intro need errno stream acc b e' calls' stream' h
    cases need with
    | zero => cases h; exact ⟨Nat.zero_le _, by simp, by simp⟩
    | succ n =>
      cases k with
      | data j =>
        rw [recvLoop] at h
        split at h
        · exact ih _ _ _ _ _ _ _ _ h
        · obtain ⟨h1, h2, h3⟩ := ih _ _ _ _ _ _ _ _ h
          generalize hc : min (j + 1) (n + 1) = c at *
          have hc' : c ≤ n + 1 := by omega
          rw [List.length_drop, List.length_take] at h1
          rw [List.length_take] at h2 h3
          by_cases hs : c ≤ stream.length
          · rw [Nat.min_eq_left hs] at h1 h2 h3
            refine ⟨by omega, ?_, ?_⟩
            · rw [h2, List.append_assoc]
              congr 1
              have : n + 1 = c + (n + 1 - c) := by omega
              conv => rhs; rw [this]
              rw [List.take_add]
            · rw [h3, List.drop_drop]; congr 1; omega
          · rw [Nat.min_eq_right (by omega)] at h1
            omega
      | again => exact ih _ _ _ _ _ _ _ _ h
      | closed =>
        rw [recvLoop] at h
        split at h
        · exact ih _ _ _ _ _ _ _ _ h
        · cases h
      | error => cases h

/-- a frame received is the first frame of the stream -/
theorem handleRead_got (errno : Bool) (calls : List Recv) (stream frame : List Byte) (e' : Bool) (calls' : List Recv) (stream' : List Byte)
    (fs : List (List Byte)) (hs : ∀ f ∈ fs, f.length < 2 ^ 32) (hp : stream <+: fs.flatMap wireF)
    (h : handleRead errno calls stream = .got frame e' calls' stream') :
    ∃ f fs', fs = f :: fs' ∧ frame = f ∧ stream' <+: fs'.flatMap wireF ∧ stream = wireF f ++ stream' := by
  rw [handleRead] at h
  cases hr : recvLoop 4 errno calls stream [] with
  | waiting e => rw [hr] at h; cases h
  | lost => rw [hr] at h; cases h
  | got size e1 calls1 stream1 =>
    rw [hr] at h
    dsimp only at h
    obtain ⟨a1, a2, a3⟩ := recvLoop_got _ _ _ _ _ _ _ _ _ hr
    obtain ⟨b1, b2, b3⟩ := recvLoop_got _ _ _ _ _ _ _ _ _ h
    cases fs with
    | nil =>
      have := hp.length_le
      simp at this
      rw [this] at a1; simp at a1
    | cons f fs =>
      obtain ⟨t, ht⟩ := hp
      rw [List.flatMap_cons, wireF, List.append_assoc] at ht
      rw [List.nil_append] at a2 b2
      have h4 : size = wrU32 (BitVec.ofNat 32 f.length) := by
        rw [a2]
        have e1 : (stream ++ t).take 4 = stream.take 4 := List.take_append_of_le_length a1
        rw [← e1, ht, List.take_left' (u32_length _)]
      have hsz : ofLE size = f.length := by
        rw [h4, ofLE_u32 _ (hs f (List.mem_cons_self ..))]
      have ht1 : stream1 ++ t = f ++ fs.flatMap wireF := by
        rw [a3]
        have e1 : (stream ++ t).drop 4 = stream.drop 4 ++ t := List.drop_append_of_le_length a1
        rw [← e1, ht, List.drop_left' (u32_length _)]
      rw [hsz] at b1 b2 b3
      have hf : frame = f := by
        rw [b2]
        have e1 : (stream1 ++ t).take f.length = stream1.take f.length := List.take_append_of_le_length b1
        rw [← e1, ht1, List.take_left]
      have ht2 : stream' ++ t = fs.flatMap wireF := by
        rw [b3]
        have e1 : (stream1 ++ t).drop f.length = stream1.drop f.length ++ t := List.drop_append_of_le_length b1
        rw [← e1, ht1, List.drop_left]
      refine ⟨f, fs, rfl, hf, ⟨t, ht2⟩, ?_⟩
      have : stream = stream.take 4 ++ (stream1.take f.length ++ stream') := by
        rw [b3, List.take_append_drop, a3, List.take_append_drop]
      rw [this, ← a2, h4, ← b2, hf, wireF, List.append_assoc]

/-- frames received are the first frames sent -/
theorem receive_prefix : ∀ (fuel : Nat) (errno : Bool) (calls : List Recv) (stream : List Byte) (c : Conn) (fs : List (List Byte)),
    (∀ f ∈ fs, f.length < 2 ^ 32) → stream <+: fs.flatMap wireF → ∃ k, (receive fuel errno calls stream c).1 = (fs.take k).foldl onReceive c := by
  intro fuel
  induction fuel with
  | zero => intro errno calls stream c fs _ _; exact ⟨0, by simp [receive]⟩
  | succ n ih =>
    intro errno calls stream c fs hs hp
    rw [receive]
    cases h : handleRead errno calls stream with
    | waiting e => exact ⟨0, by simp⟩
    | lost => exact ⟨0, by simp⟩
    | got frame e' calls' stream' =>
      obtain ⟨f, fs', rfl, rfl, hp', _⟩ := handleRead_got _ _ _ _ _ _ _ fs hs hp h
      obtain ⟨k, hk⟩ := ih e' calls' stream' (onReceive c frame) fs' (fun g hg => hs g (List.mem_cons_of_mem _ hg)) hp'
      exact ⟨k + 1, by dsimp only; rw [hk]; rfl⟩

/-- a call that gives data -/
def Recv.isData : Recv → Bool
  | .data _ => true
  | _ => false

/-- the peer hasn't closed and nothing is broken -/
def Recv.fine : Recv → Bool
  | .data _ => true
  | .again => true
  | _ => false

theorem recvLoop_enough : ∀ (calls : List Recv) (need : Nat) (errno : Bool) (stream acc : List Byte), (∀ c ∈ calls, c.fine = true) →
    need ≤ stream.length → need ≤ calls.countP Recv.isData →
    ∃ b e' calls' stream', recvLoop need errno calls stream acc = .got b e' calls' stream' ∧ (∀ c ∈ calls', c.fine = true) ∧
      calls.countP Recv.isData ≤ calls'.countP Recv.isData + need := by
  intro calls
  induction calls with
  | nil =>
    intro need errno stream acc _ _ hn
    have : need = 0 := by simpa using hn
    subst this
    exact ⟨_, _, _, _, rfl, by simp, by simp⟩
  | cons k calls ih =>
    intro need errno stream acc hf hl hn
    cases need with
    | zero => exact ⟨_, _, _, _, rfl, hf, by omega⟩
    | succ n =>
      have hf' : ∀ c ∈ calls, c.fine = true := fun c hc => hf c (List.mem_cons_of_mem _ hc)
      cases k with
      | again =>
        rw [List.countP_cons_of_neg (by simp [Recv.isData])] at hn ⊢
        exact ih _ _ _ _ hf' hl hn
      | closed => exact absurd (hf _ (List.mem_cons_self ..)) (by simp [Recv.fine])
      | error => exact absurd (hf _ (List.mem_cons_self ..)) (by simp [Recv.fine])
      | data j =>
        rw [List.countP_cons_of_pos (by simp [Recv.isData])] at hn ⊢
        rw [recvLoop]
        have hlen : (stream.take (min (j + 1) (n + 1))).length = min (j + 1) (n + 1) := by rw [List.length_take]; omega
        rw [if_neg (by intro c; rw [c] at hlen; simp at hlen)]
        rw [hlen]
        obtain ⟨b, e', calls', stream', h1, h2, h3⟩ := ih (n + 1 - min (j + 1) (n + 1)) errno (stream.drop (min (j + 1) (n + 1)))
          (acc ++ stream.take (min (j + 1) (n + 1))) hf' (by rw [List.length_drop]; omega) (by omega)
        exact ⟨b, e', calls', stream', h1, h2, by omega⟩

theorem receive_complete : ∀ (fs : List (List Byte)) (fuel : Nat) (errno : Bool) (calls : List Recv) (c : Conn),
    (∀ f ∈ fs, f.length < 2 ^ 32) → (∀ r ∈ calls, r.fine = true) → (fs.flatMap wireF).length ≤ calls.countP Recv.isData → fs.length < fuel →
    (receive fuel errno calls (fs.flatMap wireF) c).1 = fs.foldl onReceive c := by
  intro fs
  induction fs with
  | nil =>
    intro fuel errno calls c _ hf _ _
    obtain ⟨k, hk⟩ := receive_prefix fuel errno calls [] c [] (by simp) (by simp)
    rw [List.flatMap_nil, hk]; simp
  | cons f fs ih =>
    intro fuel errno calls c hs hf hn hfu
    cases fuel with
    | zero => simp at hfu
    | succ n =>
      have hlen : ((f :: fs).flatMap wireF).length = 4 + f.length + (fs.flatMap wireF).length := by
        rw [List.flatMap_cons, List.length_append, wireF_length]
      have hfl := hs f (List.mem_cons_self ..)
      obtain ⟨b, e1, calls1, stream1, h1, h2, h3⟩ := recvLoop_enough calls 4 errno ((f :: fs).flatMap wireF) [] hf (by omega) (by omega)
      obtain ⟨a1, a2, a3⟩ := recvLoop_got _ _ _ _ _ _ _ _ _ h1
      have hb : ofLE b = f.length := by
        rw [a2, List.nil_append, List.flatMap_cons, wireF, List.append_assoc, List.take_left' (u32_length _), ofLE_u32 _ hfl]
      have hst : stream1.length = f.length + (fs.flatMap wireF).length := by rw [a3, List.length_drop]; omega
      obtain ⟨b', e2, calls2, stream2, g1, g2, g3⟩ := recvLoop_enough calls1 f.length e1 stream1 [] h2 (by omega) (by omega)
      have hh : handleRead errno calls ((f :: fs).flatMap wireF) = .got b' e2 calls2 stream2 := by
        rw [handleRead, h1]
        dsimp only
        rw [hb, g1]
      obtain ⟨f', fs', e, ef, _, es⟩ := handleRead_got _ _ _ _ _ _ _ (f :: fs) hs (List.prefix_refl _) hh
      cases e
      rw [List.flatMap_cons] at es
      have es' := List.append_cancel_left es
      rw [receive, hh]
      dsimp only
      rw [← es', ef]
      exact ih n e2 calls2 _ (fun g hg => hs g (List.mem_cons_of_mem _ hg)) g2 (by omega) (by simp at hfu; omega)

/-! ## Pairing -/

/-- any number of frames of some messages are processed as the first messages -/
theorem pairing : ∀ (ms : List Msg) (p : List Msg) (k : Nat), (∀ m ∈ ms, m.Wf) →
    ∃ j, (((ms.flatMap framesM).take k).foldl onReceive ⟨none, p, false⟩).processed = p ++ ms.take j ∧
      (((ms.flatMap framesM).take k).foldl onReceive ⟨none, p, false⟩).invalid = false ∧
      ((ms.flatMap framesM).length ≤ k → j = ms.length) := by
  intro ms
  induction ms with
  | nil => intro p k _; exact ⟨0, by simp, by simp, fun _ => rfl⟩
  | cons m ms ih =>
    intro p k hw
    have hm := hw m (List.mem_cons_self ..)
    have hw' : ∀ x ∈ ms, x.Wf := fun x hx => hw x (List.mem_cons_of_mem _ hx)
    have hflag := hm.flag
    have hsz := hm.size
    obtain ⟨data, payload⟩ := m
    cases k with
    | zero => exact ⟨0, by simp, by simp, fun h => by simp [framesM] at h⟩
    | succ k =>
      rw [List.flatMap_cons]
      cases payload with
      | none =>
        have e : ((framesM ⟨data, none⟩ ++ ms.flatMap framesM).take (k + 1)) = data :: (ms.flatMap framesM).take k := rfl
        rw [e, List.foldl_cons]
        have e2 : onReceive ⟨none, p, false⟩ data = ⟨none, p ++ [⟨data, none⟩], false⟩ := by
          rw [onReceive]
          dsimp only
          rw [if_neg (by simp at hsz; omega), if_neg (by simpa using hflag)]
        rw [e2]
        obtain ⟨j, h1, h2, h3⟩ := ih (p ++ [⟨data, none⟩]) k hw'
        refine ⟨j + 1, by rw [h1]; simp, h2, fun h => ?_⟩
        rw [h3 (by simp [framesM] at h ⊢; omega)]; rfl
      | some pl =>
        have e2 : onReceive ⟨none, p, false⟩ data = ⟨some data, p, false⟩ := by
          rw [onReceive]
          dsimp only
          rw [if_neg (by simp at hsz; omega), if_pos (by simpa using hflag)]
        cases k with
        | zero =>
          have e : ((framesM ⟨data, some pl⟩ ++ ms.flatMap framesM).take 1) = [data] := rfl
          rw [Nat.zero_add, e, List.foldl_cons, e2]
          exact ⟨0, by simp, rfl, fun h => by simp [framesM] at h⟩
        | succ k =>
          have e : ((framesM ⟨data, some pl⟩ ++ ms.flatMap framesM).take (k + 1 + 1)) = data :: pl :: (ms.flatMap framesM).take k := rfl
          rw [e, List.foldl_cons, e2, List.foldl_cons]
          have e3 : onReceive ⟨some data, p, false⟩ pl = ⟨none, p ++ [⟨data, some pl⟩], false⟩ := rfl
          rw [e3]
          obtain ⟨j, h1, h2, h3⟩ := ih (p ++ [⟨data, some pl⟩]) k hw'
          refine ⟨j + 1, by rw [h1]; simp, h2, fun h => ?_⟩
          rw [h3 (by simp [framesM] at h ⊢; omega)]; rfl

theorem frames_small (ms : List Msg) (h : ∀ m ∈ ms, m.Wf) : ∀ f ∈ ms.flatMap framesM, f.length < 2 ^ 32 := by
  intro f hf
  obtain ⟨m, hm, hf⟩ := List.mem_flatMap.1 hf
  have ht := (h m hm).total
  rw [framesM, List.mem_cons] at hf
  rcases hf with rfl | hf
  · omega
  · cases hp : m.payload with
    | none => rw [hp] at hf; simp at hf
    | some p => rw [hp] at hf ht; simp at hf ht; subst hf; omega

/-- C41. Whatever the sizes accepted by the writes, whether sends fail at some point, however much of what was sent
has arrived, and in whatever pieces it is read, the receiver processes exactly the first messages sent, in order and
with their own payloads, and never misreads a frame as a message. -/
theorem C41_prefix (sends : List (Msg × List Write)) (h : ∀ x ∈ sends, x.1.Wf) (arrived : List Byte) (ha : arrived <+: sendAll sends)
    (calls : List Recv) :
    (receiveAll calls arrived).1.processed <+: sends.map (·.1) ∧ (receiveAll calls arrived).1.invalid = false := by
  have hw : ∀ m ∈ sends.map (·.1), Msg.Wf m := by
    intro m hm
    obtain ⟨x, hx, rfl⟩ := List.mem_map.1 hm
    exact h x hx
  obtain ⟨k, hk⟩ := receive_prefix (calls.length + 1) false calls arrived ⟨none, [], false⟩ ((sends.map (·.1)).flatMap framesM)
    (frames_small _ hw) (ha.trans (sendAll_prefix sends h).1)
  obtain ⟨j, h1, h2, _⟩ := pairing (sends.map (·.1)) [] k hw
  rw [receiveAll, hk, h1, h2]
  exact ⟨by rw [List.nil_append]; exact List.take_prefix .., rfl⟩

/-- C41. If every send succeeded and everything has been read, in whatever pieces, all messages have been processed. -/
theorem C41_all (sends : List (Msg × List Write)) (h : ∀ x ∈ sends, x.1.Wf)
    (hok : ∀ x ∈ sends, (sendLoop (buffersOf x.1.data x.1.payload) 0 x.2).1 = true)
    (calls : List Recv) (hf : ∀ r ∈ calls, r.fine = true) (hc : (sendAll sends).length ≤ calls.countP Recv.isData) :
    (receiveAll calls (sendAll sends)).1.processed = sends.map (·.1) := by
  have hw : ∀ m ∈ sends.map (·.1), Msg.Wf m := by
    intro m hm
    obtain ⟨x, hx, rfl⟩ := List.mem_map.1 hm
    exact h x hx
  have e := (sendAll_prefix sends h).2 hok
  rw [e] at hc ⊢
  have hfl : ∀ fs : List (List Byte), fs.length ≤ (fs.flatMap wireF).length := by
    intro fs
    induction fs with
    | nil => simp
    | cons f fs ih => rw [List.flatMap_cons, List.length_append, wireF_length, List.length_cons]; omega
  have hlen := hfl ((sends.map (·.1)).flatMap framesM)
  have hcl : calls.countP Recv.isData ≤ calls.length := List.countP_le_length
  rw [receiveAll, receive_complete _ _ _ _ _ (frames_small _ hw) hf hc (by omega)]
  obtain ⟨j, h1, _, h3⟩ := pairing (sends.map (·.1)) [] ((sends.map (·.1)).flatMap framesM).length hw
  rw [List.take_of_length_le (Nat.le_refl _)] at h1
  rw [h1, h3 (Nat.le_refl _), List.nil_append, List.take_of_length_le (Nat.le_refl _)]

/-- a message with payload and one without, written and read in odd pieces -/
def exSends : List (Msg × List Write) :=
  [(⟨[5, 4, 1, 0], some [7, 8]⟩, [.sent 2, .wouldBlock, .sent 9, .sent 9]), (⟨[2, 4, 0, 0], none⟩, [.sent 100])]
example : (∀ x ∈ exSends, x.1.Wf) ∧ sendAll exSends = [4, 0, 0, 0, 5, 4, 1, 0, 2, 0, 0, 0, 7, 8, 4, 0, 0, 0, 2, 4, 0, 0] := by
  refine ⟨?_, by decide⟩
  intro x hx
  simp only [exSends, List.mem_cons, List.not_mem_nil, or_false] at hx
  rcases hx with rfl | rfl <;> exact ⟨by decide, by decide, by decide⟩
example : (receiveAll (List.replicate 10 (.data 1) ++ [.again] ++ List.replicate 30 (.data 2)) (sendAll exSends)).1.processed = exSends.map (·.1) := by decide
example : (receiveAll [.data 3, .data 3, .data 1, .again, .data 9, .data 9] ((sendAll exSends).take 17)).1.processed = [⟨[5, 4, 1, 0], some [7, 8]⟩] := by decide

/-- Finding: the sizes are 32 bit. A message whose frames add up to exactly 4 GiB is reported as sent although
nothing of it is. -/
theorem C41_four_gib (data payload : List Byte) (h1 : data.length = 16) (h2 : payload.length = 2 ^ 32 - 24) :
    sendLoop (buffersOf data (some payload)) 0 [] = (true, []) := by
  have e : totalBytes (buffersOf data (some payload)) = 0 := by
    have l1 := u32_length (BitVec.ofNat 32 data.length)
    have l2 := u32_length (BitVec.ofNat 32 payload.length)
    have l3 : (sendBuffer data).length = 16 := by rw [sendBuffer, List.length_take, h1]; rfl
    have l4 : (sendBuffer payload).length = 2 ^ 32 - 24 := by rw [sendBuffer, List.length_take, h2]; rfl
    simp only [totalBytes, buffersOf, framesOf, List.cons_append, List.nil_append, List.foldl_cons, List.foldl_nil, l1, l2, l3, l4]
  rw [sendLoop, e]; rfl

/-! ## C45 -/

theorem recvLoop_error : ∀ (calls : List Recv) (need : Nat) (errno : Bool) (stream acc : List Byte), Recv.error ∈ calls →
    recvLoop need errno calls stream acc = .lost ∨ ∃ b e' calls' stream', recvLoop need errno calls stream acc = .got b e' calls' stream' ∧
      Recv.error ∈ calls' ∧ calls'.length + (if need = 0 then 0 else 1) ≤ calls.length := by
  intro calls
  induction calls with
  | nil => intro need errno stream acc h; cases h
  | cons k calls ih =>
    intro need errno stream acc h
    cases need with
    | zero => exact Or.inr ⟨_, _, _, _, rfl, h, by simp⟩
    | succ n =>
      have step : ∀ (need : Nat) (errno : Bool) (stream acc : List Byte), Recv.error ∈ calls →
          recvLoop need errno calls stream acc = .lost ∨ ∃ b e' calls' stream', recvLoop need errno calls stream acc = .got b e' calls' stream' ∧
            Recv.error ∈ calls' ∧ calls'.length + (if n + 1 = 0 then 0 else 1) ≤ (k :: calls).length := by
        intro need errno stream acc hm
        rcases ih need errno stream acc hm with h | ⟨b, e', c', s', h1, h2, h3⟩
        · exact Or.inl h
        · refine Or.inr ⟨b, e', c', s', h1, h2, ?_⟩
          rw [List.length_cons, if_neg (by omega)]
          split at h3 <;> omega
      cases k with
      | error => exact Or.inl rfl
      | again => exact step _ _ _ _ ((List.mem_cons.1 h).resolve_left (by simp))
      | closed =>
        rw [recvLoop]
        split
        · exact step _ _ _ _ ((List.mem_cons.1 h).resolve_left (by simp))
        · exact Or.inl rfl
      | data j =>
        rw [recvLoop]
        split
        · exact step _ _ _ _ ((List.mem_cons.1 h).resolve_left (by simp))
        · exact step _ _ _ _ ((List.mem_cons.1 h).resolve_left (by simp))

theorem receive_error : ∀ (fuel : Nat) (errno : Bool) (calls : List Recv) (stream : List Byte) (c : Conn), Recv.error ∈ calls → calls.length < fuel →
    (receive fuel errno calls stream c).2 = true := by
  intro fuel
  induction fuel with
  | zero => intro _ _ _ _ _ h; omega
  | succ n ih =>
    intro errno calls stream c hm hl
    rw [receive, handleRead]
    rcases recvLoop_error calls 4 errno stream [] hm with h | ⟨b, e1, calls1, stream1, h1, h2, h3⟩
    · rw [h]
    · rw [h1]
      dsimp only
      rw [if_neg (by decide)] at h3
      rcases recvLoop_error calls1 (ofLE b) e1 stream1 [] h2 with h | ⟨b', e2, calls2, stream2, g1, g2, g3⟩
      · rw [h]
      · rw [g1]
        dsimp only
        exact ih _ _ _ _ g2 (by split at g3 <;> omega)

/-- C45. An error reported by a read, at any point of the stream, ends the connection. Missing from the full claim: a
peer that closes the connection in an orderly way after some read found nothing (`C45_close_missed`). -/
theorem C45_error_noticed_partial (calls : List Recv) (stream : List Byte) (h : Recv.error ∈ calls) : (receiveAll calls stream).2 = true :=
  receive_error _ _ _ _ _ h (Nat.lt_succ_self _)

theorem recvLoop_closed_again : ∀ (n need : Nat) (stream acc : List Byte), 0 < need → recvLoop need true (List.replicate n .closed) stream acc = .waiting true := by
  intro n
  induction n with
  | zero =>
    intro need stream acc h
    cases need with
    | zero => omega
    | succ k => rfl
  | succ n ih =>
    intro need stream acc h
    cases need with
    | zero => omega
    | succ k =>
      rw [List.replicate_succ, recvLoop, if_pos rfl]
      exact ih _ _ _ h

/-- Finding: `recv` returning 0 leaves `errno` as it is, but `WouldBlock` is consulted. If an earlier read of the
connection found nothing (a message arrived in two pieces), an orderly close by the peer is taken for "nothing yet"
forever: however often the read is repeated, the connection is never left. Here a message arrives in two pieces and
is processed, then the peer closes. -/
theorem C45_close_missed (data : List Byte) (h3 : 3 ≤ data.length) (hs : data.length < 2 ^ 32) (hp : hasPayload data = false) (n : Nat) :
    receiveAll (.data 3 :: .again :: .data data.length :: List.replicate n .closed) (wireF data) = (⟨none, [⟨data, none⟩], false⟩, false) := by
  obtain ⟨m, hm⟩ : ∃ m, data.length = m + 1 := ⟨data.length - 1, by omega⟩
  have e1 : recvLoop 4 false (.data 3 :: .again :: .data data.length :: List.replicate n .closed) (wireF data) [] =
      .got (wrU32 (BitVec.ofNat 32 data.length)) false (.again :: .data data.length :: List.replicate n .closed) data := by
    have ht : (wireF data).take 4 = wrU32 (BitVec.ofNat 32 data.length) := by rw [wireF, List.take_left' (u32_length _)]
    rw [recvLoop]
    rw [show min (3 + 1) (3 + 1) = 4 from rfl, ht, u32_length, if_neg (by intro c; have := u32_length (BitVec.ofNat 32 data.length); rw [c] at this; cases this)]
    rw [show 3 + 1 - 4 = 0 from rfl, recvLoop, wireF, List.drop_left' (u32_length _), List.nil_append]
  have e2 : recvLoop data.length false (.again :: .data data.length :: List.replicate n .closed) data [] = .got data true (List.replicate n .closed) [] := by
    rw [hm, recvLoop, recvLoop]
    rw [← hm, Nat.min_eq_right (by omega), List.take_of_length_le (Nat.le_refl _), if_neg (by intro c; rw [c] at h3; simp at h3), Nat.sub_self, recvLoop,
      List.drop_eq_nil_of_le (Nat.le_refl _), List.nil_append]
  have e3 : handleRead false (.data 3 :: .again :: .data data.length :: List.replicate n .closed) (wireF data) = .got data true (List.replicate n .closed) [] := by
    rw [handleRead, e1]
    dsimp only
    rw [ofLE_u32 _ hs, e2]
  have e4 : onReceive ⟨none, [], false⟩ data = ⟨none, [⟨data, none⟩], false⟩ := by
    rw [onReceive]
    dsimp only
    rw [if_neg (by omega), if_neg (by rw [hp]; simp)]; rfl
  have e5 : handleRead true (List.replicate n .closed) [] = .waiting true := by
    rw [handleRead, recvLoop_closed_again n 4 [] [] (by decide)]
  rw [receiveAll, receive, e3]
  dsimp only
  rw [e4]
  show receive (List.length (.again :: .data data.length :: List.replicate n Recv.closed) + 1) _ _ _ _ = _
  rw [receive, e5]

example : (receiveAll [.data 3, .data 3, .closed] (wireF [2, 4, 0, 0])) = (⟨none, [⟨[2, 4, 0, 0], none⟩], false⟩, true) := by decide

end Verif.Net
