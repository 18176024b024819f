import Verif.IO.CodecProps
/-! Property C24: streams in memory are byte sequences. -/
namespace Verif.IO

/-! ## chained stream -/

/-- the stream holds the bytes `bs`: all pages but the last are full -/
def Chained.Holds (s : Chained) (bs : List Byte) : Prop :=
  s.pageSize < 2 ^ 32 ∧
  ((s.pages = [] ∧ bs = [] ∧ s.pos = 0) ∨
   ∃ (full : List (List Byte)) (last : List Byte) (k : Nat), (∀ p ∈ full, p.length = s.pageSize) ∧
     s.pages = full.map (·.map some) ++ [last.map some ++ List.replicate k none] ∧ last.length + k = s.pageSize ∧
     s.cur = full.length ∧ s.pos = last.length ∧ bs = full.flatten ++ last)

/-- what is retrieved page by page -/
def Chained.retrieve (s : Chained) : Except Err Block :=
  (List.range s.pages.length).foldl (fun acc i => do
    let b ← acc
    let (p, n) ← s.getPage i
    return b ++ p.take n) (.ok [])

theorem Chained.new_holds (n : Nat) : (Chained.new n).Holds [] :=
  ⟨Nat.mod_lt _ (by omega), Or.inl ⟨rfl, rfl, rfl⟩⟩

/-- after `ensure` there is a page with room -/
theorem ensure_spec {s : Chained} {bs : List Byte} (h : s.Holds bs) (hp : 0 < s.pageSize) :
    ∃ (full : List (List Byte)) (last : List Byte) (k : Nat), 0 < k ∧ s.ensure.2 = k ∧ s.ensure.1.pageSize = s.pageSize ∧
      (∀ p ∈ full, p.length = s.pageSize) ∧
      s.ensure.1.pages = full.map (·.map some) ++ [last.map some ++ List.replicate k none] ∧ last.length + k = s.pageSize ∧
      s.ensure.1.cur = full.length ∧ s.ensure.1.pos = last.length ∧ bs = full.flatten ++ last := by
  obtain ⟨_, ⟨h1, h2, h3⟩ | ⟨full, last, k, h1, h2, h3, h4, h5, h6⟩⟩ := h
  · refine ⟨[], [], s.pageSize, hp, ?_, ?_, by simp, ?_, by simp, ?_, ?_, by simp [h2]⟩ <;> simp [Chained.ensure, h1]
  · have hne : s.pages ≠ [] := by rw [h2]; simp
    by_cases hk : k = 0
    · subst hk
      refine ⟨full ++ [last], [], s.pageSize, hp, ?_, ?_, ?_, ?_, by simp, ?_, ?_, by simp [h6]⟩
      · simp only [Chained.ensure, hne, if_false]; rw [if_pos (by omega)]
      · simp only [Chained.ensure, hne, if_false]; rw [if_pos (by omega)]
      · intro p hp'
        rcases List.mem_append.1 hp' with h | h
        · exact h1 p h
        · simp only [List.mem_singleton] at h; rw [h]; omega
      · simp only [Chained.ensure, hne, if_false]; rw [if_pos (by omega), h2]; simp
      · simp only [Chained.ensure, hne, if_false]; rw [if_pos (by omega), h2]; simp
      · simp only [Chained.ensure, hne, if_false]; rw [if_pos (by omega)]; simp
    · refine ⟨full, last, k, by omega, ?_, ?_, h1, ?_, h3, ?_, ?_, h6⟩
      · simp only [Chained.ensure, hne, if_false]; rw [if_neg (by omega)]; simp; omega
      all_goals simp only [Chained.ensure, hne, if_false]; rw [if_neg (by omega)]
      · exact h2
      · exact h4
      · exact h5

theorem take_some (a : List Byte) : (a.map some).take a.length = a.map some := List.take_of_length_le (by simp)

theorem drop_some (a : List Byte) (n : Nat) : (a.map some).drop (a.length + n) = [] := List.drop_eq_nil_of_le (by simp)

theorem copyTo_spec (a : List Byte) (k : Nat) (d : List Byte) (hd : d.length ≤ k) :
    copyTo (a.map some ++ List.replicate k none) a.length d = .ok ((a ++ d).map some ++ List.replicate (k - d.length) none) := by
  rw [copyTo, if_pos (by simp; omega)]
  congr 1
  rw [List.take_append_of_le_length (by simp), List.drop_append, take_some, drop_some]
  simp

theorem write_spec {s : Chained} {bs : List Byte} (h : s.Holds bs) (hp : 0 < s.pageSize) (data : List Byte) :
    ∃ s', s.write data = .ok s' ∧ s'.Holds (bs ++ data) ∧ s'.pageSize = s.pageSize := by
  suffices ∀ n (data : List Byte), data.length = n → ∀ (s : Chained) (bs : List Byte), s.Holds bs → 0 < s.pageSize →
      ∃ s', s.write data = .ok s' ∧ s'.Holds (bs ++ data) ∧ s'.pageSize = s.pageSize from this _ data rfl s bs h hp
  intro n
  induction n using Nat.strongRecOn with
  | _ n ih =>
    intro data hn s bs h hp
    rw [Chained.write]
    by_cases hd : data = []
    · subst hd
      rw [dif_pos rfl]
      exact ⟨s, rfl, by simpa using h, rfl⟩
    · rw [dif_neg hd]
      have hlt := h.1
      obtain ⟨full, last, k, e1, e2, e3, e4, e5, e6, e7, e8, e9⟩ := ensure_spec h hp
      generalize hse : s.ensure = se at *
      obtain ⟨t, avail⟩ := se
      dsimp only at e2 e3 e5 e7 e8 ⊢
      subst e2
      rw [dif_neg (by omega)]
      have hpage : t.pages[t.cur]? = some (last.map some ++ List.replicate avail none) := by
        rw [e5, e7, List.getElem?_append_right (by simp)]; simp
      rw [hpage]
      have hdl : data.length ≠ 0 := fun e => hd (List.length_eq_zero_iff.1 e)
      have hn1 : (data.take (min avail data.length)).length = min avail data.length := by simp
      have hcp := copyTo_spec last avail (data.take (min avail data.length)) (by omega)
      dsimp only
      rw [e8, hcp]
      dsimp only
      rw [if_pos (by omega)]
      have hset : t.pages.set t.cur ((last ++ data.take (min avail data.length)).map some ++ List.replicate (avail - (data.take (min avail data.length)).length) none)
          = full.map (·.map some) ++ [(last ++ data.take (min avail data.length)).map some ++ List.replicate (avail - (data.take (min avail data.length)).length) none] := by
        rw [e5, e7]
        have := List.set_append_right (s := full.map (·.map some)) (t := [last.map some ++ List.replicate avail none])
          (i := full.length) (x := (last ++ data.take (min avail data.length)).map some ++ List.replicate (avail - (data.take (min avail data.length)).length) none) (by simp)
        rw [this]; simp
      rw [hset]
      have hholds : Chained.Holds ⟨t.pageSize, t.cur, last.length + min avail data.length,
          full.map (·.map some) ++ [(last ++ data.take (min avail data.length)).map some ++ List.replicate (avail - (data.take (min avail data.length)).length) none]⟩
          (bs ++ data.take (min avail data.length)) := by
        refine ⟨by dsimp only; omega, Or.inr ⟨full, last ++ data.take (min avail data.length), _, ?_, rfl, ?_, e7, ?_, ?_⟩⟩
        · dsimp only; rw [e3]; exact e4
        · simp only [List.length_append, hn1]; omega
        · simp only [List.length_append, hn1]
        · rw [e9]; simp
      obtain ⟨s', r1, r2, r3⟩ := ih (data.drop (min avail data.length)).length (by simp; omega) _ rfl _ _ hholds (by dsimp only; omega)
      refine ⟨s', r1, ?_, by rw [r3]; exact e3⟩
      rw [List.append_assoc, List.take_append_drop] at r2
      exact r2

/-- several writes -/
def Chained.writeAll (s : Chained) : List (List Byte) → Except Err Chained
  | [] => .ok s
  | d :: ds => do
    let s ← s.write d
    s.writeAll ds

theorem writeAll_spec (ds : List (List Byte)) : ∀ {s : Chained} {bs : List Byte}, s.Holds bs → 0 < s.pageSize →
    ∃ s', s.writeAll ds = .ok s' ∧ s'.Holds (bs ++ ds.flatten) ∧ s'.pageSize = s.pageSize := by
  induction ds with
  | nil => intro s bs h hp; exact ⟨s, rfl, by simpa using h, rfl⟩
  | cons d ds ih =>
    intro s bs h hp
    obtain ⟨s1, e1, e2, e3⟩ := write_spec h hp d
    obtain ⟨s2, f1, f2, f3⟩ := ih e2 (by omega)
    refine ⟨s2, ?_, by simpa using f2, by omega⟩
    rw [Chained.writeAll, e1]
    exact f1

theorem foldl_pages (s : Chained) : ∀ (parts : List (List Byte)) (i : Nat) (acc : Block),
    (∀ j, (hj : j < parts.length) → ∃ p n, s.getPage (i + j) = .ok (p, n) ∧ p.take n = parts[j].map some) →
    (List.range' i parts.length).foldl (fun acc i => do
      let b ← acc
      let (p, n) ← s.getPage i
      return b ++ p.take n) (.ok acc) = (.ok (acc ++ parts.flatten.map some) : Except Err Block)
  | [], i, acc, _ => by simp
  | d :: ds, i, acc, h => by
    rw [List.length_cons, List.range'_succ, List.foldl_cons]
    obtain ⟨p, n, h1, h2⟩ := h 0 (by simp)
    rw [Nat.add_zero] at h1
    simp only [List.getElem_cons_zero] at h2
    have e : ((do
      let b ← (.ok acc : Except Err Block)
      let (p, n) ← s.getPage i
      return b ++ p.take n) : Except Err Block) = .ok (acc ++ d.map some) := by
      rw [← h2]
      show (do let (p, n) ← s.getPage i; return acc ++ p.take n) = _
      rw [h1]; rfl
    rw [e, foldl_pages s ds (i + 1) (acc ++ d.map some)]
    · simp
    · intro j hj
      obtain ⟨p, n, h1, h2⟩ := h (j + 1) (by simp; omega)
      refine ⟨p, n, ?_, by simpa using h2⟩
      rw [← h1]; congr 1; omega

theorem retrieve_spec {s : Chained} {bs : List Byte} (h : s.Holds bs) : s.retrieve = .ok (bs.map some) := by
  obtain ⟨_, ⟨h1, h2, h3⟩ | ⟨full, last, k, h1, h2, h3, h4, h5, h6⟩⟩ := h
  · simp [Chained.retrieve, h1, h2]
  · have hlen : s.pages.length = (full ++ [last]).length := by rw [h2]; simp
    rw [Chained.retrieve, List.range_eq_range', hlen, foldl_pages s (full ++ [last]) 0 []]
    · simp [h6]
    · intro j hj
      rw [Nat.zero_add]
      by_cases hjl : j < full.length
      · refine ⟨full[j].map some, s.pageSize, ?_, ?_⟩
        · rw [Chained.getPage, h2, List.getElem?_append_left (by simpa using hjl)]
          simp [hjl]
          omega
        · rw [List.getElem_append_left hjl, List.take_of_length_le]
          simp [h1 full[j] (List.getElem_mem hjl)]
      · simp only [List.length_append, List.length_cons, List.length_nil] at hj
        have hje : j = full.length := by omega
        subst hje
        refine ⟨last.map some ++ List.replicate k none, s.pos, ?_, ?_⟩
        · rw [Chained.getPage, h2, List.getElem?_append_right (by simp)]
          simp
        · rw [h5, List.take_append_of_le_length (by simp), take_some]
          simp

theorem size_spec {s : Chained} {bs : List Byte} (h : s.Holds bs) :
    ∃ full last, bs.length = full * s.pageSize + last ∧ last ≤ s.pageSize ∧ s.size = full * s.pageSize % 2 ^ 32 + last := by
  obtain ⟨_, ⟨h1, h2, h3⟩ | ⟨full, last, k, h1, h2, h3, h4, h5, h6⟩⟩ := h
  · exact ⟨0, 0, by simp [h2], by omega, by simp [Chained.size, h1, h3]⟩
  · have hfl : full.flatten.length = full.length * s.pageSize := by
      clear h2 h4 h6
      induction full with
      | nil => simp
      | cons p ps ih =>
        simp only [List.flatten_cons, List.length_append, List.length_cons, Nat.succ_mul]
        rw [ih (fun q hq => h1 q (by simp [hq])), h1 p (by simp)]
        omega
    refine ⟨full.length, last.length, by rw [h6, List.length_append, hfl], by omega, ?_⟩
    rw [Chained.size, h2, h5]
    simp only [List.length_append, List.length_map, List.length_cons, List.length_nil, Nat.zero_add, Nat.add_sub_cancel]
    by_cases hf : full.length = 0
    · simp [hf]
    · rw [if_pos (by omega)]

/-- C24. Writing any blocks of data to a chained stream of any page size never fails, and the pages retrieved
one after the other are exactly the concatenation of everything written. -/
theorem C24_chained (pageSize : Nat) (h0 : 0 < pageSize % 2 ^ 32) (ds : List (List Byte)) :
    ∃ s, (Chained.new pageSize).writeAll ds = .ok s ∧ s.retrieve = .ok (ds.flatten.map some) := by
  obtain ⟨s, e1, e2, e3⟩ := writeAll_spec ds (Chained.new_holds pageSize) h0
  rw [List.nil_append] at e2
  exact ⟨s, e1, retrieve_spec e2⟩

/-- C24. The size reported is exact if less than 4 GiB were written. Missing from the full claim: larger
amounts, for which it is false (`C24_size_wraps`). -/
theorem C24_size_partial (pageSize : Nat) (h0 : 0 < pageSize % 2 ^ 32) (ds : List (List Byte)) (hlt : ds.flatten.length < 2 ^ 32) :
    ∃ s, (Chained.new pageSize).writeAll ds = .ok s ∧ s.size = ds.flatten.length := by
  obtain ⟨s, e1, e2, e3⟩ := writeAll_spec ds (Chained.new_holds pageSize) h0
  rw [List.nil_append] at e2
  refine ⟨s, e1, ?_⟩
  obtain ⟨full, last, f1, f2, f3⟩ := size_spec e2
  rw [f3, Nat.mod_eq_of_lt (by omega), f1]

/-- Finding: after writing 4 GiB + 5 bytes with the page size used for the database (8 MiB), the size reported
is 5. -/
theorem C24_size_wraps (ds : List (List Byte)) (h : ds.flatten.length = 2 ^ 32 + 5) :
    ∃ s, (Chained.new (8 * 1024 * 1024)).writeAll ds = .ok s ∧ s.size = 5 := by
  obtain ⟨s, e1, e2, e3⟩ := writeAll_spec ds (Chained.new_holds (8 * 1024 * 1024)) (by decide)
  rw [List.nil_append] at e2
  refine ⟨s, e1, ?_⟩
  obtain ⟨full, last, f1, f2, f3⟩ := size_spec e2
  have hps : s.pageSize = 8388608 := by rw [e3]; rfl
  rw [hps] at f1 f2 f3
  rw [h] at f1
  rw [f3]
  omega

/-- such data exists -/
example : ([List.replicate (2 ^ 32 + 5) (0 : Byte)] : List (List Byte)).flatten.length = 2 ^ 32 + 5 := by
  rw [List.flatten_cons, List.flatten_nil, List.append_nil, List.length_replicate]

/-! ## memory stream -/

def MemStream.Holds (s : MemStream) (bs : List Byte) : Prop := ∃ tail, s.mem = bs.map some ++ tail ∧ s.fin = bs.length

theorem MemStream.write_spec {s : MemStream} {bs : List Byte} (h : s.Holds bs) (d : List Byte) :
    ∃ s', s.write d = .ok s' ∧ s'.Holds (bs ++ d) := by
  have room : ∀ t : MemStream, t.Holds bs → t.fin + d.length ≤ t.mem.length →
      ∃ s', (match copyTo t.mem t.fin d with
        | .error e => .error e
        | .ok mem => .ok (⟨mem, t.fin + d.length, t.minGrowth⟩ : MemStream) : Except Err MemStream) = .ok s' ∧ s'.Holds (bs ++ d) := by
    rintro t ⟨tail, h1, h2⟩ hr
    rw [copyTo, if_pos hr]
    refine ⟨_, rfl, tail.drop d.length, ?_, by simp [h2]⟩
    simp only
    rw [h1, h2, List.take_append_of_le_length (by simp), List.drop_append, take_some, drop_some]
    simp
  rw [MemStream.write]
  by_cases hg : s.fin + d.length > s.mem.length
  · rw [if_pos hg]
    obtain ⟨tail, h1, h2⟩ := h
    have hle : s.fin ≤ s.mem.length := by rw [h1, h2]; simp
    have hgr : s.grow d.length = .ok ⟨s.mem.take s.fin ++ (List.replicate (s.mem.length + max d.length s.minGrowth) none).drop s.fin, s.fin, s.minGrowth⟩ := by
      rw [MemStream.grow, if_pos ⟨hle, by omega⟩]
    rw [hgr]
    apply room
    · refine ⟨(List.replicate (s.mem.length + max d.length s.minGrowth) none).drop s.fin, ?_, h2⟩
      rw [h1, h2, List.take_append_of_le_length (by simp), take_some]
    · simp; omega
  · rw [if_neg hg]
    exact room s h (by omega)

def MemStream.writeAll (s : MemStream) : List (List Byte) → Except Err MemStream
  | [] => .ok s
  | d :: ds => do
    let s ← s.write d
    s.writeAll ds

/-- C24. A memory stream with any initial size and growth holds exactly what was written. -/
theorem C24_memory (initial minGrowth : Nat) (ds : List (List Byte)) :
    ∃ s, (MemStream.new initial minGrowth).writeAll ds = .ok s ∧ s.mem.take s.size = ds.flatten.map some ∧ s.size = ds.flatten.length := by
  suffices ∀ (ds : List (List Byte)) (s : MemStream) (bs : List Byte), s.Holds bs → ∃ s', s.writeAll ds = .ok s' ∧ s'.Holds (bs ++ ds.flatten) by
    obtain ⟨s, e1, tail, e2, e3⟩ := this ds (MemStream.new initial minGrowth) [] ⟨_, rfl, rfl⟩
    rw [List.nil_append] at e2 e3
    refine ⟨s, e1, ?_, e3⟩
    rw [MemStream.size, e3, e2, List.take_append_of_le_length (by rw [List.length_map]; exact Nat.le_refl _), take_some]
  intro ds
  induction ds with
  | nil => intro s bs h; exact ⟨s, rfl, by simpa using h⟩
  | cons d ds ih =>
    intro s bs h
    obtain ⟨s1, e1, e2⟩ := MemStream.write_spec h d
    obtain ⟨s2, f1, f2⟩ := ih s1 _ e2
    refine ⟨s2, ?_, by simpa using f2⟩
    rw [MemStream.writeAll, e1]
    exact f1

/-! ## typed values -/

/-- types with `Read` and `Write` functions -/
inductive Ty where
  | bool
  | word (bytes : Nat)
  | str
  | arr (t : Ty)

/-- their values -/
def Ty.Val : Ty → Type
  | .bool => Bool
  | .word k => BitVec (8 * k)
  | .str => List Byte
  | .arr t => List t.Val

/-- lengths fit into 32 bits -/
def Ty.Fits : (t : Ty) → t.Val → Prop
  | .bool, _ => True
  | .word _, _ => True
  | .str, s => s.length < 2 ^ 32
  | .arr t, as => List.length (α := t.Val) as < 2 ^ 32 ∧ ∀ a, List.Mem (α := t.Val) a as → t.Fits a

/-- which functions serve a type -/
def Ty.write : (t : Ty) → t.Val → List Byte
  | .bool, b => wrBool b
  | .word k, x => wrWord k x
  | .str, s => wrStr s
  | .arr t, as => wrArr t.write as

def Ty.read : (t : Ty) → Parser t.Val
  | .bool => rdBool
  | .word k => rdWord k
  | .str => rdStr
  | .arr t => rdArr t.read

theorem Ty.codec : ∀ (t : Ty) (v : t.Val), t.Fits v → Codec (t.write v) t.read v
  | .bool, b, _ => codec_bool b
  | .word k, x, _ => codec_word k x
  | .str, s, h => codec_str s h
  | .arr t, as, h => codec_arr (α := t.Val) as (fun a ha => Ty.codec t a (h.2 a ha)) h.1

/-- one item of a file: a value, raw bytes, or alignment -/
inductive Item where
  | val (t : Ty) (v : t.Val)
  | raw (b : List Byte)
  | align (k : Nat)

def Item.Fits : Item → Prop
  | .val t v => t.Fits v
  | .raw _ => True
  | .align k => k ≤ 32

/-- bytes written by an item when the stream has `tell` bytes; alignment to `2 ^ k` -/
def Item.write (tell : Nat) : Item → List Byte
  | .val t v => t.write v
  | .raw b => b
  | .align k => wrAlign tell (2 ^ k)

/-- what is written in sequence -/
def writeItems (tell : Nat) : List Item → List Byte
  | [] => []
  | i :: is => i.write tell ++ writeItems (tell + (i.write tell).length) is

/-- reading the item back and comparing -/
def Item.readsBack : Item → Reader → Reader → Prop
  | .val t v, r, r' => t.read r = some (v, r')
  | .raw b, r, r' => rdBytes b.length r = some (b, r')
  | .align k, r, r' => rdAlign (2 ^ k) r = some ((), r') ∧ r'.pos % 2 ^ k = 0

def readItems : List Item → Reader → Reader → Prop
  | [], r, r' => r = r'
  | i :: is, r, r' => ∃ r1, i.readsBack r r1 ∧ readItems is r1 r'

theorem pad_spec (tell k : Nat) (h : tell + 2 ^ k ≤ 2 ^ 64) :
    ∃ n, (Mem.roundUp (BitVec.ofNat 64 tell) (BitVec.ofNat 64 (2 ^ k)) - BitVec.ofNat 64 tell).toNat = n ∧ (tell + n) % 2 ^ k = 0 ∧ n < 2 ^ k := by
  have hpos : 0 < 2 ^ k := Nat.two_pow_pos k
  have hand := Mem.and_not_mask
  generalize hal : 2 ^ k = al at *
  have e1 : (BitVec.ofNat 64 tell + BitVec.ofNat 64 al - 1).toNat = tell + al - 1 := by
    rw [BitVec.toNat_sub, BitVec.toNat_add, BitVec.toNat_ofNat, BitVec.toNat_ofNat]
    show (2 ^ 64 - 1 + (tell % 2 ^ 64 + al % 2 ^ 64) % 2 ^ 64) % 2 ^ 64 = tell + al - 1
    omega
  have e2 : (Mem.roundUp (BitVec.ofNat 64 tell) (BitVec.ofNat 64 al)).toNat = (tell + al - 1) / al * al := by
    rw [Mem.roundUp, ← hal, hand, hal, e1, BitVec.toNat_ofNat]
    apply Nat.mod_eq_of_lt
    have := Nat.div_mul_le_self (tell + al - 1) al
    omega
  have d1 := Nat.div_add_mod (tell + al - 1) al
  have d2 := Nat.mod_lt (tell + al - 1) hpos
  have d3 := Nat.mul_comm al ((tell + al - 1) / al)
  have d4 := Nat.div_mul_le_self (tell + al - 1) al
  refine ⟨(tell + al - 1) / al * al - tell, ?_, ?_, by omega⟩
  · rw [BitVec.toNat_sub, e2, BitVec.toNat_ofNat]
    omega
  · have : tell + ((tell + al - 1) / al * al - tell) = (tell + al - 1) / al * al := by omega
    rw [this, Nat.mul_mod_left]

/-- C24. Whatever is written by a sequence of typed writes, raw writes and alignments is read back by the same
sequence of reads: each succeeds, gives the value written and stops where the write stopped. -/
theorem C24_typed : ∀ (items : List Item) (pre post : List Byte), (∀ i ∈ items, i.Fits) →
    (pre ++ writeItems pre.length items).length + 2 ^ 32 ≤ 2 ^ 64 →
    readItems items ⟨pre ++ writeItems pre.length items ++ post, pre.length⟩
      ⟨pre ++ writeItems pre.length items ++ post, (pre ++ writeItems pre.length items).length⟩
  | [], pre, post, _, _ => by simp [readItems, writeItems]
  | i :: is, pre, post, h, hlen => by
    rw [readItems]
    have ih := C24_typed is (pre ++ i.write pre.length) post (fun j hj => h j (by simp [hj]))
    have hl := List.length_append (as := pre) (bs := i.write pre.length)
    have e : pre ++ writeItems pre.length (i :: is) = pre ++ i.write pre.length ++ writeItems (pre.length + (i.write pre.length).length) is := by
      rw [writeItems, List.append_assoc]
    rw [← hl] at e
    rw [e] at hlen ⊢
    refine ⟨_, ?_, ih hlen⟩
    rw [hl]
    have hfit := h i (by simp)
    cases i with
    | val t v =>
      have := (t.codec v hfit).full pre (writeItems (pre.length + (t.write v).length) is ++ post)
      simp only [Item.readsBack, Item.write]
      simpa using this
    | raw b =>
      have := (codec_bytes b).full pre (writeItems (pre.length + b.length) is ++ post)
      simp only [Item.readsBack, Item.write]
      simpa using this
    | align k =>
      have hk : 2 ^ k ≤ 2 ^ 32 := Nat.pow_le_pow_right (by omega) hfit
      have hpl : pre.length + 2 ^ 32 ≤ 2 ^ 64 := by
        rw [List.length_append, hl] at hlen
        omega
      obtain ⟨n, n1, n2, n3⟩ := pad_spec pre.length k (by omega)
      simp only [Item.readsBack, Item.write, wrAlign, n1, List.length_replicate]
      refine ⟨?_, n2⟩
      unfold rdAlign
      simp only [n1, Reader.readBuffer]
      have hm : min ((pre ++ List.replicate n (0 : Byte) ++ writeItems (pre.length + n) is ++ post).length - pre.length) n = n := by
        simp
      rw [hm, if_pos n2]

/-- C24. Data that was cut off is not accepted: reading any proper prefix of what was written fails. -/
theorem C24_cut (t : Ty) (v : t.Val) (hv : t.Fits v) (pre w : List Byte) (h1 : w <+: t.write v) (h2 : w ≠ t.write v) :
    t.read ⟨pre ++ w, pre.length⟩ = none := (t.codec v hv).cut pre w h1 h2

/-- C24. Reading never returns bytes outside the buffer, and never moves the position beyond the end. -/
theorem C24_read (r : Reader) (h : r.pos ≤ r.data.length) (n : Nat) :
    (r.readBuffer n).1 = (r.data.drop r.pos).take n ∧ (r.readBuffer n).2.pos ≤ r.data.length ∧
    (r.readBuffer n).2.pos = r.pos + (r.readBuffer n).1.length := by
  simp only [Reader.readBuffer]
  refine ⟨?_, by omega, ?_⟩
  · rcases Nat.le_total n (r.data.length - r.pos) with hle | hle
    · rw [Nat.min_eq_right hle]
    · rw [Nat.min_eq_left hle, List.take_of_length_le (by simp), List.take_of_length_le (by simpa using hle)]
  · simp

/-- pages of 3 bytes: three writes split over three pages -/
example : ∃ s, (Chained.new 3).writeAll [[1, 2], [3, 4, 5, 6, 7], []] = .ok s ∧ s.retrieve = .ok ([1, 2, 3, 4, 5, 6, 7].map some) :=
  C24_chained 3 (by decide) [[1, 2], [3, 4, 5, 6, 7], []]

example : writeItems 0 [.val .bool true, .val .str ([0x61, 0x62] : List Byte), .align 3, .val (.arr (.word 2)) ([0x1234#16, 5] : List (BitVec 16))] =
    [1, 2, 0, 0, 0, 0x61, 0x62, 0, 2, 0, 0, 0, 0x34, 0x12, 5, 0] := by decide

end Verif.IO
