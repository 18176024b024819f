import Verif.Compdb.Spec
import Verif.Args.Forward
namespace Verif.Compdb
open Verif.Args (Hole NoHole findHole findHole_spec)

/-! ### strings -/

/-- escaped, without the end at a zero byte -/
def esc (signed : Bool) (s : Name) : Name := s.flatMap (escChar signed)

theorem escape_plain {signed : Bool} {s : Name} (h : Plain signed s) : escape signed s = esc signed s := by
  unfold escape esc
  congr 1
  induction s with
  | nil => rfl
  | cons c s ih =>
    have := (h c (by simp)).1
    rw [List.takeWhile_cons, if_pos (by simp; omega), ih (fun d hd => h d (by simp [hd]))]

theorem esc_append (signed : Bool) (s t : Name) : esc signed (s ++ t) = esc signed s ++ esc signed t := by simp [esc]

/-- how a character is escaped -/
def Short (c : Char) (w : List Char) : Prop :=
  (w = [c] ∧ 32 ≤ c.toNat ∧ c ≠ '"' ∧ c ≠ '\\') ∨ (∃ e, w = ['\\', e] ∧ e ≠ 'u' ∧ e ≠ '%' ∧ unesc e = some c) ∨
    (∃ a b d e, w = ['\\', 'u', a, b, d, e] ∧ '%' ∉ w ∧ c.toNat < 32 ∧ hexQuad a b d e = some c.toNat)

theorem char_eta (c : Char) : Char.ofNat c.toNat = c := Char.ofNat_toNat c

theorem control : ∀ k : Fin 32, (0 < k.val →
    ((escChar false (Char.ofNat k.val)).length = 2 ∧ (escChar false (Char.ofNat k.val))[0]? = some '\\' ∧
      (∀ e ∈ (escChar false (Char.ofNat k.val))[1]?, e ≠ 'u' ∧ e ≠ '%' ∧ unesc e = some (Char.ofNat k.val))) ∨
    ((escChar false (Char.ofNat k.val)).take 2 = ['\\', 'u'] ∧ (escChar false (Char.ofNat k.val)).length = 6 ∧
      '%' ∉ escChar false (Char.ofNat k.val) ∧
      hexQuad ((escChar false (Char.ofNat k.val)).getD 2 ' ') ((escChar false (Char.ofNat k.val)).getD 3 ' ')
        ((escChar false (Char.ofNat k.val)).getD 4 ' ') ((escChar false (Char.ofNat k.val)).getD 5 ' ') = some k.val)) := by
  decide +kernel

theorem escChar_short {signed : Bool} {c : Char} (h0 : 0 < c.toNat) (h : signed = true → c.toNat < 128) : Short c (escChar signed c) := by
  have he : escChar signed c = escChar false c := by
    cases signed with
    | false => rfl
    | true =>
      have := h rfl
      have h1 : ¬ (true = true ∧ 128 ≤ c.toNat) := by omega
      have h2 : ¬ (false = true ∧ 128 ≤ c.toNat) := by simp
      unfold escChar
      rw [if_neg h1, if_neg h2]
  rw [he]
  by_cases hc : c.toNat < 32
  · have := control ⟨c.toNat, hc⟩ h0
    simp only [char_eta] at this
    generalize escChar false c = w at this ⊢
    rcases this with ⟨h1, h2, h3⟩ | ⟨h1, h2, h3, h4⟩
    · match w, h1, h2, h3 with
      | [x, e], _, h2, h3 =>
        simp at h2
        subst h2
        exact .inr (.inl ⟨e, rfl, h3 e (by simp)⟩)
    · match w, h1, h2, h3, h4 with
      | [x, y, a, b, d, e], h1, _, h3, h4 =>
        simp at h1
        obtain ⟨rfl, rfl⟩ := h1
        exact .inr (.inr ⟨a, b, d, e, rfl, h3, hc, by simpa using h4⟩)
  · have h1 : ¬ (false = true ∧ 128 ≤ c.toNat) := by simp
    have h2 : ¬ c.toNat ≤ 31 := by omega
    unfold escChar
    rw [if_neg h1, if_neg h2]
    split
    · next e => exact .inr (.inl ⟨'"', rfl, by decide, by decide, by subst e; decide⟩)
    · split
      · next e => exact .inr (.inl ⟨'\\', rfl, by decide, by decide, by subst e; decide⟩)
      · next h3 h4 => exact .inl ⟨rfl, by omega, h3, h4⟩

theorem pstr_plainChar {c : Char} {r : List Char} (h1 : 32 ≤ c.toNat) (h2 : c ≠ '"') (h3 : c ≠ '\\') :
    pstr (c :: r) = match pstr r with
      | some (s, t) => some (c :: s, t)
      | none => none := by
  rw [pstr.eq_def]
  split
  · simp at *
  · next h => simp at h; exact absurd h.1 h2
  · next h => simp at h; exact absurd h.1 h3
  · next h => simp at h; exact absurd h.1 h3
  · next c' r' _ _ _ h =>
    simp at h
    obtain ⟨rfl, rfl⟩ := h
    rw [if_neg (by simp only [not_or]; exact ⟨by omega, h3⟩)]
    rfl

theorem pstr_short {c : Char} {w r : List Char} (h : Short c w) :
    pstr (w ++ r) = match pstr r with
      | some (s, t) => some (c :: s, t)
      | none => none := by
  rcases h with ⟨rfl, h1, h2, h3⟩ | ⟨e, rfl, h1, _, h2⟩ | ⟨a, b, d, e, rfl, _, _, h⟩
  · exact pstr_plainChar h1 h2 h3
  · simp only [List.cons_append, List.nil_append]
    rw [pstr.eq_def]
    split
    · simp at *
    · next h => simp at h
    · next h => simp at h; exact absurd h.1 h1
    · next e' r' _ h =>
      simp at h
      obtain ⟨rfl, rfl⟩ := h
      rw [h2]
      cases pstr r <;> rfl
    · next c' r' h' h'' h''' h =>
      simp at h
      obtain ⟨rfl, rfl⟩ := h
      exact (h''' e r rfl rfl).elim
  · simp only [List.cons_append, List.nil_append, pstr, h]
    cases pstr r <;> simp only [char_eta]

theorem pstr_esc {signed : Bool} {s : Name} (r : List Char) (h : Plain signed s) :
    pstr (esc signed s ++ '"' :: r) = some (s, r) := by
  induction s with
  | nil => simp [esc, pstr]
  | cons c s ih =>
    have h' := h c (by simp)
    rw [show esc signed (c :: s) = escChar signed c ++ esc signed s from by simp [esc], List.append_assoc,
      pstr_short (escChar_short h'.1 h'.2.2), ih (fun d hd => h d (by simp [hd]))]

theorem pstr_key {k : List Char} (r : List Char) (h : ∀ c ∈ k, 32 ≤ c.toNat ∧ c ≠ '"' ∧ c ≠ '\\') : pstr (k ++ '"' :: r) = some (k, r) := by
  induction k with
  | nil => simp [pstr]
  | cons c k ih =>
    have h' := h c (by simp)
    rw [List.cons_append, pstr_plainChar h'.1 h'.2.1 h'.2.2, ih (fun d hd => h d (by simp [hd]))]

/-! ### placeholders -/

theorem findHole_skip {n : Char} {p w : List Char} (h : '%' ∉ p) :
    findHole n (p ++ w) = (findHole n w).map fun (u, v) => (p ++ u, v) := by
  induction p with
  | nil => simp
  | cons a p ih =>
    have ha : a ≠ '%' := by intro e; subst e; simp at h
    have ih := ih (fun hm => h (by simp [hm]))
    rw [List.cons_append, findHole.eq_def]
    cases hp : p ++ w with
    | nil =>
      obtain ⟨rfl, rfl⟩ := List.append_eq_nil_iff.1 hp
      simp [findHole]
    | cons b r =>
      simp only [ha, false_and, if_false]
      rw [← hp, ih]
      cases findHole n w <;> simp

theorem short_percent {c : Char} {w : List Char} (h : Short c w) (hc : c ≠ '%') : '%' ∉ w := by
  rcases h with ⟨rfl, _, _, _⟩ | ⟨e, rfl, _, h, _⟩ | ⟨a, b, d, e, rfl, h, _, _⟩
  · simp [Ne.symm hc]
  · simp [Ne.symm h]
  · exact h

theorem short_head {c n : Char} {w : List Char} (h : Short c w) (hn : n = '1' ∨ n = '2') : w.head? = some n ↔ c = n := by
  have h1 : n ≠ '\\' := by rcases hn with rfl | rfl <;> decide
  rcases h with ⟨rfl, _, _, _⟩ | ⟨e, rfl, _, _, h⟩ | ⟨a, b, d, e, rfl, _, h, _⟩
  · simp
  · simp only [List.head?_cons, Option.some.injEq]
    constructor
    · intro e; exact absurd e.symm h1
    · rintro rfl
      exfalso
      unfold unesc at h
      repeat' split at h
      all_goals first | (cases h; done) | (simp only [Option.some.injEq] at h; subst h; revert hn; decide)
  · simp only [List.head?_cons, Option.some.injEq]
    constructor
    · intro e; exact absurd e.symm h1
    · rintro rfl
      rcases hn with rfl | rfl <;> exact absurd h (by decide)


theorem findHole_cons (n a b : Char) (r : List Char) : findHole n (a :: b :: r) =
    if a = '%' ∧ b = n then some ([], r) else (findHole n (b :: r)).map fun (u, v) => (a :: u, v) := by
  rw [findHole.eq_def]

theorem esc_cons (signed : Bool) (c : Char) (s : Name) : esc signed (c :: s) = escChar signed c ++ esc signed s := by simp [esc]

theorem escChar_percent (signed : Bool) : escChar signed '%' = ['%'] := by cases signed <;> decide

theorem escChar_digit (signed : Bool) {n : Char} (hn : n = '1' ∨ n = '2') : escChar signed n = [n] := by
  rcases hn with rfl | rfl <;> cases signed <;> decide

theorem short_ne {c : Char} {w : List Char} (h : Short c w) : w ≠ [] := by
  rcases h with ⟨rfl, _⟩ | ⟨e, rfl, _⟩ | ⟨a, b, d, e, rfl, _⟩ <;> simp

theorem findHole_esc {signed : Bool} {n : Char} (hn : n = '1' ∨ n = '2') : ∀ {s : Name}, Plain signed s →
    findHole n (esc signed s) = (findHole n s).map fun (u, v) => (esc signed u, esc signed v)
  | [], _ => by simp [esc, findHole]
  | c :: s, h => by
    have hc := h c (by simp)
    have hsh := escChar_short (signed := signed) hc.1 hc.2.2
    have ih := findHole_esc hn (s := s) (fun d hd => h d (by simp [hd]))
    rw [esc_cons]
    by_cases hp : c = '%'
    · subst hp
      rw [escChar_percent]
      match s with
      | [] => simp [esc, findHole]
      | d :: t =>
        have hd := h d (by simp)
        have hsd := escChar_short (signed := signed) hd.1 hd.2.2
        by_cases hdn : d = n
        · subst hdn
          rw [esc_cons, escChar_digit signed hn]
          simp [findHole, esc]
        · have hh : (escChar signed d).head? ≠ some n := fun e => hdn ((short_head hsd hn).1 e)
          have hne := short_ne hsd
          rw [findHole_cons n '%' d t]
          rw [esc_cons] at ih ⊢
          match hw : escChar signed d, hne with
          | x :: w, _ =>
            rw [hw] at hh ih
            simp only [List.head?_cons, ne_eq, Option.some.injEq] at hh
            simp only [List.cons_append, List.nil_append] at ih ⊢
            rw [findHole_cons]
            simp only [hh, hdn, and_false, if_false]
            rw [ih]
            cases findHole n (d :: t) with
            | none => simp
            | some p => simp [esc_cons, escChar_percent]
    · rw [findHole_skip (short_percent hsh hp), ih]
      cases s with
      | nil => simp [findHole]
      | cons d t =>
        rw [findHole_cons n c d t]
        simp only [hp, false_and, if_false]
        cases findHole n (d :: t) with
        | none => simp
        | some p => simp [esc_cons]

theorem argFor_esc {signed : Bool} {a f o : Name} (h : Plain signed a) :
    argFor (esc signed f) (esc signed o) (esc signed a) = esc signed (argFor f o a) := by
  unfold argFor
  rw [findHole_esc (.inl rfl) h, findHole_esc (.inr rfl) h]
  cases findHole '1' a with
  | some p => simp [esc_append]
  | none => cases findHole '2' a with
    | some p => simp [esc_append]
    | none => rfl

theorem argFor_spec (f o a : Name) : ArgOf f o a (argFor f o a) := by
  have h1 := findHole_spec '1' a
  have h2 := findHole_spec '2' a
  unfold argFor
  cases e1 : findHole '1' a with
  | some p => exact .inl ⟨p.1, p.2, h1.1 _ _ e1, rfl⟩
  | none =>
    cases e2 : findHole '2' a with
    | some p => exact .inr (.inl ⟨h1.2 e1, p.1, p.2, h2.1 _ _ e2, rfl⟩)
    | none => exact .inr (.inr ⟨h1.2 e1, h2.2 e2, rfl⟩)

theorem argFor_plain {signed : Bool} {a f o : Name} (h : Plain signed a) (hf : Plain signed f) (ho : Plain signed o) :
    Plain signed (argFor f o a) := by
  rcases argFor_spec f o a with ⟨u, v, ⟨e, _⟩, hb⟩ | ⟨_, u, v, ⟨e, _⟩, hb⟩ | ⟨_, _, hb⟩
  · rw [hb]
    intro c hc
    simp only [List.mem_append] at hc
    rcases hc with (hc | hc) | hc
    · exact h c (by rw [e]; simp [hc])
    · exact hf c hc
    · exact h c (by rw [e]; simp [hc])
  · rw [hb]
    intro c hc
    simp only [List.mem_append] at hc
    rcases hc with (hc | hc) | hc
    · exact h c (by rw [e]; simp [hc])
    · exact ho c hc
    · exact h c (by rw [e]; simp [hc])
  · rw [hb]; exact h

/-! ### options -/

theorem isStart_analyze (t : Name) : Verif.Cache.isStart t "analyze" = ("/analyze".toList.isPrefixOf t || "-analyze".toList.isPrefixOf t) := by
  have e1 : "/analyze".toList = '/' :: "analyze".toList := by decide +kernel
  have e2 : "-analyze".toList = '-' :: "analyze".toList := by decide +kernel
  rw [e1, e2]
  unfold Verif.Cache.isStart
  generalize "analyze".toList = w
  split
  · simp [List.isPrefixOf]
  · simp [List.isPrefixOf]
  · next h1 h2 =>
    cases t with
    | nil => simp [List.isPrefixOf]
    | cons a r =>
      have ha : a ≠ '/' := by rintro rfl; exact h1 r rfl
      have hb : a ≠ '-' := by rintro rfl; exact h2 r rfl
      simp [List.isPrefixOf, Ne.symm ha, Ne.symm hb]

theorem prepare_eq {signed msvc : Bool} : ∀ {l : List Name}, (∀ t ∈ l, Plain signed t) →
    prepare signed msvc l = (l.filter fun t => !(msvc && ("/analyze".toList.isPrefixOf t || "-analyze".toList.isPrefixOf t))).map (esc signed)
  | [], _ => rfl
  | t :: l, h => by
    have ih := prepare_eq (signed := signed) (msvc := msvc) (l := l) (fun x hx => h x (by simp [hx]))
    rw [prepare, isStart_analyze, List.filter_cons]
    cases hb : (msvc && ("/analyze".toList.isPrefixOf t || "-analyze".toList.isPrefixOf t)) with
    | true => simp [ih]
    | false => simp [ih, escape_plain (h t (by simp))]

theorem mem_removeQuotes : ∀ {s : List Char} {c : Char}, c ∈ Verif.Str.removeQuotes s → c ∈ s
  | [], c, h => by simp [Verif.Str.removeQuotes] at h
  | a :: s, c, h => by
    rw [Verif.Str.removeQuotes.eq_def] at h
    simp only at h
    split at h
    · exact List.mem_cons_of_mem _ (mem_removeQuotes h)
    · split at h
      · split at h
        · next s' _ =>
          rcases List.mem_cons.1 h with rfl | h
          · simp
          · exact List.mem_cons_of_mem _ (List.mem_cons_of_mem _ (mem_removeQuotes h))
        · rcases List.mem_cons.1 h with rfl | h
          · simp
          · exact List.mem_cons_of_mem _ (mem_removeQuotes h)
      · rcases List.mem_cons.1 h with rfl | h
        · simp
        · exact List.mem_cons_of_mem _ (mem_removeQuotes h)

theorem mem_tokenize {s t : List Char} {c : Char} (h : t ∈ Verif.Str.tokenize ' ' s) (hc : c ∈ t) : c ∈ s := by
  unfold Verif.Str.tokenize at h
  obtain ⟨p, _, rfl⟩ := List.mem_map.1 h
  exact List.mem_of_mem_drop (List.mem_of_mem_take hc)

theorem args_eq {signed : Bool} {n : ListNd} (h : Plain signed n.options) :
    n.args signed = n.options'.map (esc signed) ∧ ∀ a ∈ n.options', Plain signed a := by
  have hp : ∀ t ∈ (Verif.Str.tokenize ' ' n.options).map Verif.Str.removeQuotes, Plain signed t := by
    intro t ht c hc
    obtain ⟨u, hu, rfl⟩ := List.mem_map.1 ht
    exact h c (mem_tokenize hu (mem_removeQuotes hc))
  exact ⟨prepare_eq hp, fun a ha => hp a (List.mem_filter.1 ha).1⟩

end Verif.Compdb
