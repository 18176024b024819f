import Verif.Proc.Model
import Verif.Str.TokenProps
/-
The arguments, the environment and the descriptors.
-/
namespace Verif.Proc

theorem rq_len : ∀ (n : Nat) (s : List Char), s.length = n → (Str.removeQuotes s).length ≤ s.length := by
  intro n
  induction n using Nat.strongRecOn with
  | ind n ih =>
      intro s hs
      cases s with
      | nil => simp [Str.removeQuotes]
      | cons c s =>
          have ih' : ∀ t : List Char, t.length ≤ s.length → (Str.removeQuotes t).length ≤ t.length := fun t ht =>
            ih t.length (by simp at hs; omega) t rfl
          unfold Str.removeQuotes
          split
          · have := ih' s (Nat.le_refl _); simp; omega
          · split
            · split
              · have := ih' _ (show _ ≤ _ by simp; rename_i t; exact Nat.le_succ t.length); simp; omega
              · have := ih' s (Nat.le_refl _); simp; omega
            · have := ih' s (Nat.le_refl _); simp; omega

theorem rq_mem : ∀ (n : Nat) (s : List Char), s.length = n → ∀ c ∈ Str.removeQuotes s, c ∈ s := by
  intro n
  induction n using Nat.strongRecOn with
  | ind n ih =>
      intro s hs
      cases s with
      | nil => simp [Str.removeQuotes]
      | cons c s =>
          have ih' : ∀ t : List Char, t.length ≤ s.length → ∀ x ∈ Str.removeQuotes t, x ∈ t := fun t ht =>
            ih t.length (by simp at hs; omega) t rfl
          unfold Str.removeQuotes
          intro x hx
          split at hx
          · exact List.mem_cons_of_mem _ (ih' s (Nat.le_refl _) x hx)
          · split at hx
            · split at hx
              · rename_i t
                rcases List.mem_cons.1 hx with h | h
                · simp [h]
                · have := ih' t (by simp) x h
                  simp [this]
              · rcases List.mem_cons.1 hx with h | h
                · simp [h]
                · exact List.mem_cons_of_mem _ (ih' s (Nat.le_refl _) x h)
            · rcases List.mem_cons.1 hx with h | h
              · simp [h]
              · exact List.mem_cons_of_mem _ (ih' s (Nat.le_refl _) x h)

/-- The pointer is at the string. -/
structure PtrOk (b : Buf) (p : Ptr) (t : List Char) : Prop where
  alloc : p.alloc = b.alloc
  clean : '\x00' ∉ t
  split : ∃ pre post, b.chars = pre ++ t ++ '\x00' :: post ∧ pre.length = p.offset

theorem takeWhile_clean {t r : List Char} (h : '\x00' ∉ t) : (t ++ '\x00' :: r).takeWhile (· ≠ '\x00') = t := by
  induction t with
  | nil => simp
  | cons c t ih =>
      have h1 : c ≠ '\x00' := fun e => h (by simp [e])
      have h2 : '\x00' ∉ t := fun e => h (by simp [e])
      rw [List.cons_append, List.takeWhile_cons_of_pos (by simpa using h1), ih h2]

theorem PtrOk.deref {b p t} (h : PtrOk b p t) : deref b p = some t := by
  obtain ⟨pre, post, e, hl⟩ := h.split
  unfold Proc.deref
  rw [if_pos ⟨h.alloc, by rw [e]; simp; omega⟩, e, ← hl, List.append_assoc, List.drop_left, takeWhile_clean h.clean]

inductive All2 (R : Ptr → List Char → Prop) : List Ptr → List (List Char) → Prop
  | nil : All2 R [] []
  | snoc {ps ts p t} : All2 R ps ts → R p t → All2 R (ps ++ [p]) (ts ++ [t])

theorem All2.imp {R Q : Ptr → List Char → Prop} (h : ∀ p t, R p t → Q p t) : ∀ {ps ts}, All2 R ps ts → All2 Q ps ts := by
  intro ps ts H
  induction H with
  | nil => exact .nil
  | snoc _ r ih => exact .snoc ih (h _ _ r)

theorem All2.deref {b ps ts} (h : All2 (PtrOk b) ps ts) : ps.map (deref b) = ts.map some := by
  induction h with
  | nil => rfl
  | snoc _ r ih => simp [ih, r.deref]

theorem append_fits {b : Buf} {cs : List Char} (h : b.chars.length + cs.length ≤ b.reserved) :
    append b cs = { b with chars := b.chars ++ cs } := by
  unfold append
  rw [if_neg (by omega)]

theorem argLoop_ok (s : List Char) (hs : '\x00' ∉ s) : ∀ (rs : List (Nat × Nat)) (lo : Nat) (b : Buf) (ps : List Ptr) (ts : List (List Char)),
    Str.Ranges lo s.length rs → b.chars.length ≤ lo → s.length + 1 ≤ b.reserved → All2 (PtrOk b) ps ts →
    ∃ b' ps', argLoop s rs b ps = (b', ps') ∧ b'.alloc = b.alloc ∧
      All2 (PtrOk b') ps' (ts ++ rs.map fun (i, j) => Str.removeQuotes ((s.drop i).take (j - i)))
  | [], lo, b, ps, ts, _, h1, _, h3 => ⟨b, ps, rfl, rfl, by simpa using h3⟩
  | (i, j) :: rs, lo, b, ps, ts, hr, h1, h2, h3 => by
      obtain ⟨hp, hm⟩ := hr
      have hp' := List.pairwise_cons.1 hp
      have hij := hm (i, j) (by simp)
      simp only at hij
      generalize ha : Str.removeQuotes ((s.drop i).take (j - i)) = arg
      have hlen : arg.length ≤ j - i := by
        have := rq_len _ ((s.drop i).take (j - i)) rfl
        rw [ha] at this
        simp at this
        omega
      have hclean : '\x00' ∉ arg := fun h => by
        rw [← ha] at h
        exact hs (List.mem_of_mem_drop (List.mem_of_mem_take (rq_mem _ _ rfl _ h)))
      have e1 : append b arg = { b with chars := b.chars ++ arg } := append_fits (by omega)
      have e2 : append (append b arg) ['\x00'] = { b with chars := b.chars ++ arg ++ ['\x00'] } := by
        rw [e1, append_fits]
        simp
        omega
      have hold : ∀ p t, PtrOk b p t → PtrOk { b with chars := b.chars ++ arg ++ ['\x00'] } p t := by
        intro p t h
        obtain ⟨pre, post, e, hl⟩ := h.split
        exact ⟨h.alloc, h.clean, pre, post ++ arg ++ ['\x00'], by simp [e], hl⟩
      obtain ⟨b', ps', e, ea, hA⟩ := argLoop_ok s hs rs (j + 1) { b with chars := b.chars ++ arg ++ ['\x00'] }
        (ps ++ [⟨b.alloc, b.chars.length⟩]) (ts ++ [arg])
        ⟨hp'.2, fun r hr => ⟨by have := hp'.1 r hr; simp at this; omega, (hm r (by simp [hr])).2⟩⟩
        (by simp; omega) h2
        (.snoc (h3.imp hold) ⟨rfl, hclean, b.chars, [], by simp, rfl⟩)
      refine ⟨b', ps', ?_, ea, ?_⟩
      · simp only [argLoop]
        rw [ha, e2]
        exact e
      · simpa [ha] using hA

theorem argVector_ok (s : List Char) (hs : '\x00' ∉ s) :
    (argVector s).2.map (deref (argVector s).1) =
      ((Str.tokenRanges ' ' s).map fun (i, j) => Str.removeQuotes ((s.drop i).take (j - i))).map some := by
  have hb : (setReserved ⟨0, 2048, []⟩ (s.length + 1)).chars = [] ∧
      s.length + 1 ≤ (setReserved ⟨0, 2048, []⟩ (s.length + 1)).reserved := by
    unfold setReserved
    split
    · exact ⟨rfl, by assumption⟩
    · exact ⟨rfl, Nat.le_refl _⟩
  obtain ⟨b', ps', e, _, hA⟩ := argLoop_ok s hs (Str.tokenRanges ' ' s) 0 (setReserved ⟨0, 2048, []⟩ (s.length + 1)) [] []
    (Str.C29_tokenRanges ' ' s (by decide) (by decide)).1 (by rw [hb.1]; simp) hb.2 .nil
  unfold argVector
  rw [e]
  simpa using hA.deref

/-- The memory of an environment. -/
def block : List (List Char) → List Char
  | [] => []
  | t :: ts => t ++ '\x00' :: block ts

theorem envLoop_ok (rest : List Char) : ∀ (ts : List (List Char)) (pre : List Char) (fuel : Nat), ts.length < fuel →
    (∀ t ∈ ts, t ≠ [] ∧ '\x00' ∉ t) →
    ∃ os, envLoop (pre ++ block ts ++ '\x00' :: rest) fuel pre.length = some os ∧
      os.map (fun o => ((pre ++ block ts ++ '\x00' :: rest).drop o).takeWhile (· ≠ '\x00')) = ts
  | [], pre, fuel + 1, _, _ => ⟨[], by simp [envLoop, block], rfl⟩
  | t :: ts, pre, fuel + 1, hf, h => by
      obtain ⟨hne, hc⟩ := h t (by simp)
      obtain ⟨os, e, hm⟩ := envLoop_ok rest ts (pre ++ t ++ ['\x00']) fuel (by simp at hf; omega) fun t ht => h t (by simp [ht])
      have hM : pre ++ t ++ ['\x00'] ++ block ts ++ '\x00' :: rest = pre ++ block (t :: ts) ++ '\x00' :: rest := by simp [block]
      rw [hM] at e hm
      have hd : ((pre ++ block (t :: ts) ++ '\x00' :: rest).drop pre.length).takeWhile (· ≠ '\x00') = t := by
        rw [List.append_assoc, List.drop_left]
        simp only [block, List.append_assoc, List.cons_append]
        exact takeWhile_clean hc
      refine ⟨pre.length :: os, ?_, ?_⟩
      · unfold envLoop
        obtain ⟨c, t', rfl⟩ : ∃ c t', t = c :: t' := by
          cases t with
          | nil => exact absurd rfl hne
          | cons c t' => exact ⟨c, t', rfl⟩
        have hg : (pre ++ block ((c :: t') :: ts) ++ '\x00' :: rest)[pre.length]? = some c := by
          simp [block]
        rw [hg]
        simp only
        rw [if_neg (fun e => hc (by simp [e])), hd]
        have : (pre ++ (c :: t') ++ ['\x00']).length = pre.length + (c :: t').length + 1 := by simp; omega
        rw [this] at e
        rw [e]
        rfl
      · rw [List.map_cons, hd, hm]

end Verif.Proc
