/-
Lemmas about the directories of the brokerage and about the client.
-/
import Verif.Broker.Spec

namespace Verif.Broker

/-! ### Pieces -/

/-- The pieces, as a function. -/
def cutAt : Text → List Text
  | [] => [[]]
  | c :: s => if c = ';' then [] :: cutAt s
      else match cutAt s with
        | p :: ps => (c :: p) :: ps
        | [] => [[c]]

theorem cutAt_ne : ∀ s, cutAt s ≠ []
  | [] => by simp [cutAt]
  | c :: s => by
      simp only [cutAt]
      split
      · simp
      · cases h : cutAt s <;> simp

theorem cutAt_cons {c : Char} {s : Text} (h : c ≠ ';') :
    ∃ p ps, cutAt s = p :: ps ∧ cutAt (c :: s) = (c :: p) :: ps := by
  cases hc : cutAt s with
  | nil => exact absurd hc (cutAt_ne s)
  | cons p ps => exact ⟨p, ps, rfl, by simp [cutAt, h, hc]⟩

theorem cutAt_plain {p : Text} (h : ';' ∉ p) : cutAt p = [p] := by
  induction p with
  | nil => rfl
  | cons c p ih =>
    have hc : c ≠ ';' := fun e => h (e ▸ List.mem_cons_self ..)
    have := ih fun m => h (List.mem_cons_of_mem _ m)
    simp [cutAt, hc, this]

theorem cutAt_append {p s : Text} (h : ';' ∉ p) : cutAt (p ++ ';' :: s) = p :: cutAt s := by
  induction p with
  | nil => simp [cutAt]
  | cons c p ih =>
    have hc : c ≠ ';' := fun e => h (e ▸ List.mem_cons_self ..)
    have := ih fun m => h (List.mem_cons_of_mem _ m)
    simp [cutAt, hc, this]

theorem cutAt_pieces : ∀ {ps : List Text}, ps ≠ [] → (∀ p ∈ ps, ';' ∉ p) →
    cutAt ([';'].intercalate ps) = ps
  | [], h, _ => absurd rfl h
  | [p], _, h => by
      rw [show [';'].intercalate [p] = p by simp [List.intercalate]]
      exact cutAt_plain (h p (by simp))
  | p :: q :: ps, _, h => by
      have e : [';'].intercalate (p :: q :: ps) = p ++ ';' :: [';'].intercalate (q :: ps) := by
        simp [List.intercalate, List.intersperse]
      rw [e, cutAt_append (h p (by simp)),
        cutAt_pieces (by simp) fun x m => h x (List.mem_cons_of_mem _ m)]

theorem pieces_cutAt (s : Text) : Pieces s (cutAt s) := by
  refine ⟨cutAt_ne s, ?_, ?_⟩
  · induction s with
    | nil => simp [cutAt]
    | cons c s ih =>
      by_cases hc : c = ';'
      · subst hc
        intro p hp
        simp only [cutAt, if_true, List.mem_cons] at hp
        rcases hp with rfl | hp
        · simp
        · exact ih p hp
      · obtain ⟨p, ps, h1, h2⟩ := cutAt_cons (s := s) hc
        rw [h2]
        rw [h1] at ih
        intro q hq
        rcases List.mem_cons.1 hq with rfl | hq
        · intro m
          rcases List.mem_cons.1 m with e | m
          · exact hc e.symm
          · exact ih p (by simp) m
        · exact ih q (List.mem_cons_of_mem _ hq)
  · induction s with
    | nil => simp [cutAt, List.intercalate]
    | cons c s ih =>
      by_cases hc : c = ';'
      · subst hc
        cases h : cutAt s with
        | nil => exact absurd h (cutAt_ne s)
        | cons p ps =>
          rw [h] at ih
          simp only [cutAt, if_true, h]
          rw [show [';'].intercalate ([] :: p :: ps) = ';' :: [';'].intercalate (p :: ps) by
            simp [List.intercalate, List.intersperse], ← ih]
      · obtain ⟨p, ps, h1, h2⟩ := cutAt_cons (s := s) hc
        rw [h2]
        rw [h1] at ih
        have : [';'].intercalate ((c :: p) :: ps) = c :: [';'].intercalate (p :: ps) := by
          cases ps <;> simp [List.intercalate, List.intersperse]
        rw [this, ← ih]

theorem pieces_unique {s : Text} {ps : List Text} (h : Pieces s ps) : ps = cutAt s := by
  obtain ⟨h1, h2, rfl⟩ := h
  exact (cutAt_pieces h1 h2).symm

/-! ### Directories -/

theorem trimStart_spec (p : Text) :
    ∃ a, p = List.replicate a ' ' ++ trimStart p ∧ (trimStart p).head? ≠ some ' ' := by
  induction p with
  | nil => exact ⟨0, by simp [trimStart]⟩
  | cons c p ih =>
    by_cases hc : c = ' '
    · subst hc
      obtain ⟨a, h1, h2⟩ := ih
      refine ⟨a + 1, ?_, ?_⟩
      · rw [show trimStart (' ' :: p) = trimStart p by simp [trimStart], List.replicate_succ,
          List.cons_append, ← h1]
      · rw [show trimStart (' ' :: p) = trimStart p by simp [trimStart]]; exact h2
    · have e : trimStart (c :: p) = c :: p := by
        unfold trimStart; rw [List.dropWhile_cons_of_neg (by simpa using hc)]
      exact ⟨0, by rw [e]; rfl, by rw [e]; simpa using hc⟩

theorem trimEnd_spec (p : Text) :
    ∃ b, p = trimEnd p ++ List.replicate b ' ' ∧ (trimEnd p).getLast? ≠ some ' ' := by
  obtain ⟨b, h1, h2⟩ := trimStart_spec p.reverse
  refine ⟨b, ?_, ?_⟩
  · have := congrArg List.reverse h1
    rw [List.reverse_reverse, List.reverse_append, List.reverse_replicate] at this
    exact this
  · show ((trimStart p.reverse).reverse).getLast? ≠ some ' '
    rw [List.getLast?_reverse]; exact h2

theorem head_trimEnd {p : Text} (h : p.head? ≠ some ' ') : (trimEnd p).head? ≠ some ' ' := by
  obtain ⟨b, h1, _⟩ := trimEnd_spec p
  intro e
  cases ht : trimEnd p with
  | nil => rw [ht] at e; simp at e
  | cons c t =>
    rw [ht] at e h1
    rw [h1] at h
    simp only [List.head?_cons, Option.some.injEq] at e
    subst e
    exact h rfl

theorem trimmed_trim (p : Text) : Trimmed p (trimEnd (trimStart p)) := by
  obtain ⟨a, h1, h2⟩ := trimStart_spec p
  obtain ⟨b, h3, h4⟩ := trimEnd_spec (trimStart p)
  refine ⟨⟨a, b, ?_⟩, head_trimEnd h2, h4⟩
  rw [List.append_assoc, ← h3, ← h1]

theorem trimStart_replicate (a : Nat) (q : Text) :
    trimStart (List.replicate a ' ' ++ q) = trimStart q := by
  induction a with
  | zero => rfl
  | succ a ih =>
    rw [List.replicate_succ, List.cons_append]
    exact ih

theorem trimStart_self {q : Text} (h : q.head? ≠ some ' ') : trimStart q = q := by
  cases q with
  | nil => rfl
  | cons c q =>
    have : c ≠ ' ' := fun e => h (by simp [e])
    unfold trimStart; rw [List.dropWhile_cons_of_neg (by simpa using this)]

theorem trimEnd_replicate (b : Nat) (q : Text) (h : q.getLast? ≠ some ' ') :
    trimEnd (q ++ List.replicate b ' ') = q := by
  show (trimStart (q ++ List.replicate b ' ').reverse).reverse = q
  rw [List.reverse_append, List.reverse_replicate, trimStart_replicate, trimStart_self,
    List.reverse_reverse]
  rw [List.head?_reverse]; exact h

theorem trim_unique {p q : Text} (h : Trimmed p q) : trimEnd (trimStart p) = q := by
  obtain ⟨⟨a, b, rfl⟩, h1, h2⟩ := h
  rw [List.append_assoc, trimStart_replicate]
  cases q with
  | nil =>
    rw [List.nil_append]
    have : trimStart (List.replicate b ' ' ++ []) = [] := by rw [trimStart_replicate]; rfl
    rw [List.append_nil] at this
    rw [this]; rfl
  | cons c q =>
    have : trimStart (c :: q ++ List.replicate b ' ') = c :: q ++ List.replicate b ' ' :=
      trimStart_self (by simpa using h1)
    rw [this, trimEnd_replicate b _ h2]

theorem isRoot_iff {pl : Plat} {p r : Text} : IsRoot pl p r ↔ r = rootOf pl p := by
  constructor
  · rintro ⟨q, h, rfl⟩
    unfold rootOf; rw [trim_unique h]
  · rintro rfl
    exact ⟨_, trimmed_trim p, rfl⟩

theorem rootsLoop_eq (pl : Plat) : ∀ (fuel : Nat) (s : Text), s.length < fuel →
    rootsLoop pl fuel s = (cutAt s).map (rootOf pl)
  | 0, s, h => by omega
  | fuel + 1, s, h => by
      have hs : s.takeWhile (· != ';') ++ s.dropWhile (· != ';') = s := List.takeWhile_append_dropWhile
      have hn : ';' ∉ s.takeWhile (· != ';') := fun m => by
        have := List.all_takeWhile (p := (· != ';')) (l := s)
        rw [List.all_eq_true] at this
        simpa using this _ m
      unfold rootsLoop
      cases hd : s.dropWhile (· != ';') with
      | nil =>
        rw [hd, List.append_nil] at hs
        rw [hs] at hn
        rw [cutAt_plain hn]; rfl
      | cons c rest =>
        have hc : c = ';' := by
          have := List.head_dropWhile_not (· != ';') (l := s) (by rw [hd]; simp)
          simpa [hd] using this
        subst hc
        rw [hd] at hs
        have hl : rest.length < fuel := by
          have := congrArg List.length hs
          simp at this; omega
        show rootOf pl _ :: rootsLoop pl fuel rest = _
        rw [rootsLoop_eq pl fuel rest hl]
        conv => rhs; rw [← hs]
        rw [cutAt_append hn]; rfl

theorem init_eq (pl : Plat) (s : Text) :
    initBrokerage pl (some s) = (cutAt s).map (rootOf pl) := rootsLoop_eq pl _ s (by omega)

/-! ### The list of workers given -/

theorem tokenGo_plain (S : Text) : ∀ (s : Text) (i : Nat) (cur : Option Nat), S.drop i = s →
    '"' ∉ s → '\\' ∉ s → (∀ st, cur = some st → st < i) →
    (Verif.Str.tokenGo ';' i false cur s).map (fun (a, b) => (S.drop a).take (b - a)) =
      match cur with
      | none => (cutAt s).filter (· ≠ [])
      | some st => (((S.drop st).take (i - st) ++ (cutAt s).headD []) :: (cutAt s).tail.filter (· ≠ []))
  | [], i, none, _, _, _, _ => by simp [Verif.Str.tokenGo, cutAt]
  | [], i, some st, _, _, _, _ => by simp [Verif.Str.tokenGo, cutAt]
  | c :: s, i, cur, hS, hq, hb, hc => by
      have hS' : S.drop (i + 1) = s := by
        rw [← List.drop_drop, hS]; rfl
      have hq' : '"' ∉ s := fun m => hq (List.mem_cons_of_mem _ m)
      have hb' : '\\' ∉ s := fun m => hb (List.mem_cons_of_mem _ m)
      have c1 : c ≠ '"' := fun e => hq (e ▸ List.mem_cons_self ..)
      have c2 : c ≠ '\\' := fun e => hb (e ▸ List.mem_cons_self ..)
      have step : ∀ st, st ≤ i →
          (S.drop st).take (i + 1 - st) = (S.drop st).take (i - st) ++ [c] := by
        intro st hst
        have e : i + 1 - st = (i - st) + 1 := by omega
        rw [e, List.take_add_one, List.getElem?_drop, show st + (i - st) = i by omega]
        have : S[i]? = some c := by
          have := congrArg (fun l => l[0]?) hS
          simpa [List.getElem?_drop] using this
        rw [this]; rfl
      by_cases hsep : c = ';'
      · subst hsep
        cases cur with
        | none =>
          have := tokenGo_plain S s (i + 1) none hS' hq' hb' (by simp)
          simp only [Verif.Str.tokenGo, and_self, if_true, cutAt]
          rw [this]; simp
        | some st =>
          have := tokenGo_plain S s (i + 1) none hS' hq' hb' (by simp)
          have d1 : (';' : Char) ≠ '"' := by decide
          have d2 : (';' : Char) ≠ '\\' := by decide
          simp only [Verif.Str.tokenGo, cutAt, if_true, List.headD_cons, List.tail_cons]
          simp [d1, d2]
          simpa using this
      · obtain ⟨p, ps, h1, h2⟩ := cutAt_cons (s := s) hsep
        rw [h2]
        cases cur with
        | none =>
          have := tokenGo_plain S s (i + 1) (some i) hS' hq' hb' (by simp)
          rw [h1] at this
          simp only [Verif.Str.tokenGo, hsep, and_false, if_false, c1, c2, Option.getD_none]
          rw [this]; dsimp only; rw [step i (Nat.le_refl _)]
          simp
        | some st =>
          have hlt := hc st rfl
          have := tokenGo_plain S s (i + 1) (some st) hS' hq' hb' (by simp; omega)
          rw [h1] at this
          simp only [Verif.Str.tokenGo, hsep, and_false, if_false, c1, c2, Option.getD_some]
          rw [this]; dsimp only; rw [step st (by omega)]
          simp

theorem tokenize_plain {s : Text} (hq : '"' ∉ s) (hb : '\\' ∉ s) :
    Verif.Str.tokenize ';' s = (cutAt s).filter (· ≠ []) :=
  tokenGo_plain s s 0 none rfl hq hb (by simp)

/-! ### Directories of files -/

theorem under_eq : ∀ (d p w : Text), under d p = some w ↔ p = d ++ w
  | [], p, w => by simp [under, eq_comm]
  | a :: d, [], w => by simp [under]
  | a :: d, b :: p, w => by
      by_cases h : a = b
      · subst h; simp [under, under_eq d p w]
      · simp [under, h, Ne.symm h]

theorem mem_files {pl : Plat} {fs : Fs} {root p : Text} :
    p ∈ fs.files pl root ↔ Exists fs p ∧ ∃ w, p = root ++ w ∧ Name pl w := by
  unfold Fs.files
  rw [List.mem_filter, List.mem_map]
  refine and_congr ?_ ?_
  · constructor
    · rintro ⟨⟨q, f⟩, h, rfl⟩; exact ⟨f, h⟩
    · rintro ⟨f, h⟩; exact ⟨_, h, rfl⟩
  · cases h : under root p with
    | none =>
      simp only [Bool.false_eq_true, false_iff]
      rintro ⟨w, hw, _⟩
      rw [(under_eq ..).2 hw] at h; cases h
    | some w =>
      have hw := (under_eq ..).1 h
      constructor
      · intro hc
        simp only [Bool.and_eq_true, Bool.not_eq_true', List.isEmpty_eq_false_iff] at hc
        exact ⟨w, hw, hc.1, by simpa using hc.2⟩
      · rintro ⟨v, hv, h1, h2⟩
        have : v = w := List.append_cancel_left (hv.symm.trans hw)
        subst this
        simp [h1, h2]

theorem lastPart_eq {pl : Plat} {d w : Text} (hd : d.getLast? = some pl.slash) (h : pl.slash ∉ w) :
    lastPart pl (d ++ w) = w := by
  unfold lastPart
  rw [List.reverse_append]
  have hr : d.reverse.head? = some pl.slash := by rw [List.head?_reverse]; exact hd
  cases he : d.reverse with
  | nil => rw [he] at hr; cases hr
  | cons c l =>
    rw [he] at hr
    simp only [List.head?_cons, Option.some.injEq] at hr
    subst hr
    rw [List.takeWhile_append_of_pos]
    · simp
    · intro x hx
      have : x ≠ pl.slash := fun e => h (e ▸ List.mem_reverse.1 hx)
      simpa using this

theorem rootOf_last {pl : Plat} (hp : pl.tail.getLast? = some pl.slash) (p : Text) :
    (rootOf pl p).getLast? = some pl.slash := by
  unfold rootOf
  rw [List.getLast?_append, hp]; rfl

end Verif.Broker
