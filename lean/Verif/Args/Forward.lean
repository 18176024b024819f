import Verif.Args.Spec
import Verif.Cache.FlagsProps
/-
The loop of the model does what the specification says.
-/
namespace Verif.Args
open Verif.Str
open Verif.Cache (Tok isArg isStart isArg_iff isStart_iff)

/-! ### Rules -/

/-- A rule as the drivers evaluate it. -/
def ruleOf : Rule → Tok → Option Bool
  | .whole o, t => alone (strip o t)
  | .start o, t => alone (strip o t true)
  | .value o, t => stripWithArg o t
  | .msWhole o, t => alone (isArg t o)
  | .msStart o, t => alone (isStart t o)
  | .msValue o, t => stripWithArgMS o t

/-- Names of options with values begin with a dash. -/
def Rule.Good : Rule → Prop
  | .value o => o.toList.head? = some '-'
  | _ => True

instance (r : Rule) : Decidable r.Good := by
  cases r <;> unfold Rule.Good <;> infer_instance

theorem alone_iff {b c : Bool} : alone b = some c ↔ b = true ∧ c = false := by
  cases b <;> cases c <;> simp [alone]

theorem quoted_succ (n : Nat) (u : Tok) : quoted (n + 1) u = '"' :: (quoted n u ++ ['"']) := by
  have h : List.replicate (n + 1) '"' = List.replicate n '"' ++ ['"'] := List.replicate_succ'
  unfold quoted
  conv => lhs; rw [List.append_assoc]
  conv => lhs; arg 1; rw [List.replicate_succ]
  rw [h]
  simp

theorem strip_quoted (o : Tok) (ho : o.head? = some '-') (r : Tok) : ∀ (k n : Nat), k < n →
    stripWithArgGo o n (quoted k (o ++ r)) = some (o ++ r == o) := by
  intro k
  induction k with
  | zero =>
    intro n hn
    obtain ⟨n, rfl⟩ : ∃ m, n = m + 1 := ⟨n - 1, by omega⟩
    simp [stripWithArgGo, quoted]
  | succ k ih =>
    intro n hn
    obtain ⟨n, rfl⟩ : ∃ m, n = m + 1 := ⟨n - 1, by omega⟩
    obtain ⟨o', rfl⟩ : ∃ o', o = '-' :: o' := by
      cases o with
      | nil => simp at ho
      | cons a o => simp at ho; exact ⟨o, by rw [ho]⟩
    rw [quoted_succ, stripWithArgGo]
    have h1 : ('-' :: o').isPrefixOf ('"' :: (quoted k ('-' :: o' ++ r) ++ ['"'])) = false := by
      simp [List.isPrefixOf]
    rw [h1, if_neg (by simp), if_pos]
    · have : (List.drop 1 ('"' :: (quoted k ('-' :: o' ++ r) ++ ['"']))).dropLast = quoted k ('-' :: o' ++ r) := by simp
      rw [this]
      exact ih n (by omega)
    · refine ⟨rfl, ?_, ?_⟩
      · rw [← List.cons_append, List.getLast?_append]; rfl
      · simp [quoted]; omega

theorem strip_sound (o : Tok) : ∀ (n : Nat) (t : Tok) (b : Bool), stripWithArgGo o n t = some b →
    ∃ k r, t = quoted k (o ++ r) ∧ b = (o ++ r == o) := by
  intro n
  induction n with
  | zero => intro t b h; simp [stripWithArgGo] at h
  | succ n ih =>
    intro t b h
    rw [stripWithArgGo] at h
    split at h
    · rename_i hp
      obtain ⟨r, rfl⟩ := List.isPrefixOf_iff_prefix.1 hp
      exact ⟨0, r, by simp [quoted], by simpa using h.symm⟩
    · split at h
      · rename_i hq
        obtain ⟨h1, h2, h3⟩ := hq
        obtain ⟨k, r, e, hb⟩ := ih _ _ h
        refine ⟨k + 1, r, ?_, hb⟩
        rw [quoted_succ, ← e]
        cases t with
        | nil => simp at h1
        | cons a t =>
          simp at h1; subst h1
          have hne : t ≠ [] := by intro e; subst e; simp at h3
          have hl : t.getLast? = some '"' := by rwa [List.getLast?_cons_of_ne_nil hne] at h2
          have := List.dropLast_concat_getLast hne
          rw [List.getLast?_eq_some_getLast hne] at hl
          simp only [Option.some.injEq] at hl
          rw [hl] at this
          simp only [List.drop_succ_cons, List.drop_zero]
          rw [this]
      · cases h

theorem taken_value {o : String} (ho : o.toList.head? = some '-') {t : Tok} {b : Bool} :
    Taken (.value o) t b ↔ stripWithArg o t = some b := by
  have hb : ∀ r : Tok, (o.toList ++ r == o.toList) = decide (r = []) := by
    intro r
    rw [Bool.eq_iff_iff]; simp
  constructor
  · rintro ⟨k, r, rfl, h⟩
    unfold stripWithArg
    rw [strip_quoted _ ho r k _ (by simp [quoted]; omega), hb]
    cases b
    · simp at h; simp [h]
    · simp at h; simp [h]
  · intro h
    obtain ⟨k, r, rfl, rfl⟩ := strip_sound _ _ _ _ h
    refine ⟨k, r, rfl, ?_⟩
    rw [hb]; simp

theorem isArg_cases {t : Tok} {o : String} {r : Tok} (h : t = '/' :: (o.toList ++ r) ∨ t = '-' :: (o.toList ++ r)) :
    isArg t o = true ↔ r = [] := by
  rw [isArg_iff]
  rcases h with rfl | rfl <;> simp

theorem taken_iff {r : Rule} (hr : r.Good) {t : Tok} {b : Bool} : Taken r t b ↔ ruleOf r t = some b := by
  cases r with
  | whole o => simp [Taken, ruleOf, alone_iff, strip]
  | start o => simp only [Taken, ruleOf, alone_iff, strip, if_true, List.isPrefixOf_iff_prefix]; constructor
               · rintro ⟨⟨r, rfl⟩, h⟩; exact ⟨⟨r, rfl⟩, h⟩
               · rintro ⟨⟨r, rfl⟩, h⟩; exact ⟨⟨r, rfl⟩, h⟩
  | value o => exact taken_value hr
  | msWhole o => simp only [Taken, ruleOf, alone_iff, isArg_iff]
  | msStart o => simp only [Taken, ruleOf, alone_iff, isStart_iff]
  | msValue o =>
    simp only [Taken, ruleOf, stripWithArgMS]
    constructor
    · rintro ⟨r, h, hb⟩
      rw [if_pos ((isStart_iff t o).2 ⟨r, h⟩)]
      have := isArg_cases h
      congr 1
      rw [Bool.eq_iff_iff, this, hb]
    · intro h
      split at h
      · rename_i hs
        obtain ⟨r, hr'⟩ := (isStart_iff t o).1 hs
        refine ⟨r, hr', ?_⟩
        cases h
        exact isArg_cases hr'
      · cases h

theorem firstOf_no {l : List (Option Bool)} : firstOf l = .no ↔ ∀ x ∈ l, x = none := by
  induction l with
  | nil => simp [firstOf]
  | cons a l ih => cases a <;> simp [firstOf, ih]

theorem firstOf_yes {l : List (Option Bool)} {b : Bool} {cs : List Call} (h : firstOf l = .yes b cs) : cs = [] ∧ some b ∈ l := by
  induction l with
  | nil => simp [firstOf] at h
  | cons a l ih =>
    cases a with
    | none => have := ih h; exact ⟨this.1, List.mem_cons_of_mem _ this.2⟩
    | some c => simp [firstOf] at h; exact ⟨h.2, by simp [h.1]⟩

theorem firstOf_bad {l : List (Option Bool)} : firstOf l ≠ .bad := by
  induction l with
  | nil => simp [firstOf]
  | cons a l ih => cases a <;> simp [firstOf, ih]

/-- The rules as the drivers evaluate them, one after the other. -/
def byRules (rs : List Rule) (t : Tok) : Did := firstOf (rs.map (ruleOf · t))

theorem byRules_no {rs : List Rule} (hg : ∀ r ∈ rs, r.Good) {t : Tok} : byRules rs t = .no ↔ Free rs t := by
  unfold byRules Free
  rw [firstOf_no]
  constructor
  · intro h r hr b ht
    have := h _ (List.mem_map.2 ⟨r, hr, rfl⟩)
    rw [(taken_iff (hg r hr)).1 ht] at this
    cases this
  · intro h x hx
    obtain ⟨r, hr, rfl⟩ := List.mem_map.1 hx
    cases hx : ruleOf r t with
    | none => rfl
    | some b => exact absurd ((taken_iff (hg r hr)).2 hx) (h r hr b)

theorem byRules_iff {rs : List Rule} (hg : ∀ r ∈ rs, r.Good) {t : Tok} {b : Bool} :
    byRules rs t = .yes b [] ↔ Picks rs t b := by
  induction rs with
  | nil =>
    constructor
    · intro h; simp [byRules, firstOf] at h
    · rintro ⟨l, r, l', h, _⟩; simp at h
  | cons r rs ih =>
    have hr : ∀ {b}, Taken r t b ↔ ruleOf r t = some b := taken_iff (hg r (by simp))
    have ih := ih fun x hx => hg x (List.mem_cons_of_mem _ hx)
    unfold byRules at ih ⊢
    rw [List.map_cons]
    cases hx : ruleOf r t with
    | some b' =>
      simp only [firstOf, Did.yes.injEq, and_true]
      constructor
      · rintro rfl
        exact ⟨[], r, rs, rfl, by simp [Free], hr.2 hx⟩
      · rintro ⟨l, r', l', h, hf, ht⟩
        cases l with
        | nil =>
          simp only [List.nil_append, List.cons.injEq] at h
          rw [← h.1] at ht
          have := hr.1 ht
          rw [hx] at this; cases this; rfl
        | cons x l =>
          simp only [List.cons_append, List.cons.injEq] at h
          exact absurd (hr.2 hx) (hf r (by simp [h.1]) b')
    | none =>
      simp only [firstOf]
      rw [ih]
      constructor
      · rintro ⟨l, r', l', h, hf, ht⟩
        refine ⟨r :: l, r', l', by rw [h]; rfl, ?_, ht⟩
        intro x hx' b' ht'
        rcases List.mem_cons.1 hx' with rfl | hx'
        · rw [hr.1 ht'] at hx; cases hx
        · exact hf x hx' b' ht'
      · rintro ⟨l, r', l', h, hf, ht⟩
        cases l with
        | nil =>
          simp only [List.nil_append, List.cons.injEq] at h
          rw [← h.1] at ht
          rw [hr.1 ht] at hx; cases hx
        | cons x l =>
          simp only [List.cons_append, List.cons.injEq] at h
          exact ⟨l, r', l', h.2, fun y hy => hf y (List.mem_cons_of_mem _ hy), ht⟩

theorem byRules_yes {rs : List Rule} (hg : ∀ r ∈ rs, r.Good) {t : Tok} {b : Bool} {cs : List Call}
    (h : byRules rs t = .yes b cs) : cs = [] ∧ Picks rs t b := by
  have := (firstOf_yes h).1
  subst this
  exact ⟨rfl, (byRules_iff hg).1 h⟩

theorem picks_mem {rs : List Rule} {t : Tok} {b : Bool} (h : Picks rs t b) : ∃ r ∈ rs, Taken r t b := by
  obtain ⟨l, r, l', rfl, _, ht⟩ := h
  exact ⟨r, by simp, ht⟩

/-- A rule applies, or none does. -/
theorem picks_or_free {rs : List Rule} (hg : ∀ r ∈ rs, r.Good) (t : Tok) : (∃ b, Picks rs t b) ∨ Free rs t := by
  cases h : byRules rs t with
  | no => exact Or.inr ((byRules_no hg).1 h)
  | yes b cs => exact Or.inl ⟨b, (byRules_yes hg h).2⟩
  | bad => exact absurd h firstOf_bad

theorem picks_unique {rs : List Rule} (hg : ∀ r ∈ rs, r.Good) {t : Tok} {b b' : Bool} (h : Picks rs t b) (h' : Picks rs t b') :
    b = b' := by
  have h1 := (byRules_iff hg).2 h
  have h2 := (byRules_iff hg).2 h'
  rw [h1] at h2; cases h2; rfl

theorem picks_not_free {rs : List Rule} {t : Tok} {b : Bool} (h : Picks rs t b) (hf : Free rs t) : False := by
  obtain ⟨r, hr, ht⟩ := picks_mem h
  exact hf r hr b ht

theorem byRules_append (rs rs' : List Rule) (t : Tok) : byRules (rs ++ rs') t = (byRules rs t).orElse (byRules rs' t) := by
  unfold byRules
  induction rs with
  | nil => simp [firstOf, Did.orElse]
  | cons r rs ih =>
    simp only [List.cons_append, List.map_cons]
    cases ruleOf r t with
    | none => simpa [firstOf] using ih
    | some b => simp [firstOf, Did.orElse]

/-- A table: every rule is good. -/
def goods : Rule → Bool
  | .value o => o.toList.head? == some '-'
  | _ => true

theorem good_of {rs : List Rule} (h : rs.all goods = true) : ∀ r ∈ rs, r.Good := by
  intro r hr
  have := List.all_eq_true.1 h r hr
  cases r <;> simp_all [goods, Rule.Good]

theorem good_pre (d : Driver) : ∀ r ∈ preRules d, r.Good := by
  apply good_of
  rcases d with (c | c | _ | _ | _ | _ | _ | _ | _ | _) <;> first | (cases c <;> rfl) | rfl

theorem good_compile (d : Driver) (l : Bool) : ∀ r ∈ compileRules d l, r.Good := by
  apply good_of
  rcases d with (c | c | _ | _ | _ | _ | _ | _ | _ | _) <;> cases l <;> first | (cases c <;> rfl) | rfl

theorem good_common (d : Driver) (l : Bool) : ∀ r ∈ commonRules d l, r.Good := by
  apply good_of
  rcases d with (c | c | _ | _ | _ | _ | _ | _ | _ | _) <;> cases l <;> first | (cases c <;> rfl) | rfl

theorem good_remote (d : Driver) : ∀ r ∈ remoteRules d, r.Good := by
  apply good_of
  cases d <;> rfl

theorem good_passRules (d : Driver) (l : Bool) (pass : Pass) : ∀ r ∈ passRules d l pass, r.Good := by
  cases pass
  · exact good_pre d
  · exact good_compile d l
  all_goals simp [passRules]

/-! ### Text of calls -/

/-- The characters of calls. -/
def textOf : List Call → List Char
  | [] => []
  | .add s :: cs => s ++ textOf cs
  | .delim :: cs => ' ' :: textOf cs

theorem textOf_append (a b : List Call) : textOf (a ++ b) = textOf a ++ textOf b := by
  induction a with
  | nil => rfl
  | cons x a ih => cases x <;> simp [textOf, ih]

theorem foldl_text (cs : List Call) : ∀ a : Args, (cs.foldl Args.call a).text = a.text ++ textOf cs := by
  induction cs with
  | nil => intro a; simp [textOf]
  | cons x cs ih =>
    intro a
    rw [List.foldl_cons, ih]
    cases x <;> simp [Args.call, textOf]

theorem ofCalls_text (cs : List Call) : (Args.ofCalls cs).text = textOf cs := by
  simp [Args.ofCalls, foldl_text]

theorem trailed_one (w : Tok) : Trailed [w] (w ++ [' ']) := Trailed.word w .nil

/-! ### Placeholders -/

theorem findHole_spec (n : Char) (t : Tok) :
    (∀ u v, findHole n t = some (u, v) → Hole n t u v) ∧ (findHole n t = none → NoHole n t) := by
  induction t with
  | nil =>
    refine ⟨by simp [findHole], fun _ u v e => ?_⟩
    cases u <;> simp at e
  | cons a s ih =>
    cases s with
    | nil =>
      refine ⟨by simp [findHole], fun _ u v e => ?_⟩
      have := congrArg List.length e
      simp at this; omega
    | cons b r =>
      rw [findHole.eq_def]
      dsimp only
      by_cases h : a = '%' ∧ b = n
      · rw [if_pos h]
        obtain ⟨rfl, rfl⟩ := h
        refine ⟨?_, by simp⟩
        intro u v e; cases e
        exact ⟨rfl, by simp⟩
      · rw [if_neg h]
        have hstep : ∀ u' v', a :: b :: r = u' ++ '%' :: n :: v' → ∃ u'', u' = a :: u'' ∧ b :: r = u'' ++ '%' :: n :: v' := by
          intro u' v' e
          cases u' with
          | nil => simp at e; exact absurd ⟨e.1, e.2.1⟩ h
          | cons x u' =>
            simp only [List.cons_append, List.cons.injEq] at e
            exact ⟨u', by rw [e.1], e.2⟩
        constructor
        · intro u v e
          cases hf : findHole n (b :: r) with
          | none => rw [hf] at e; simp at e
          | some p =>
            rw [hf] at e
            simp only [Option.map_some, Option.some.injEq, Prod.mk.injEq] at e
            obtain ⟨rfl, rfl⟩ := e
            obtain ⟨h1, h2⟩ := ih.1 p.1 p.2 (by rw [hf])
            refine ⟨by rw [h1]; rfl, ?_⟩
            intro u' v' e
            obtain ⟨u'', rfl, e'⟩ := hstep u' v' e
            have := h2 _ _ e'
            simp; omega
        · intro e
          have := ih.2 (by simpa using e)
          intro u' v' e'
          obtain ⟨u'', rfl, e''⟩ := hstep u' v' e'
          exact this _ _ e''

theorem input_eq (c : Ctx) : (if c.override = [] then relName c c.src else c.override) = c.input := by
  unfold Ctx.input relName
  by_cases h : c.override = [] <;> simp [h]

theorem substBase_spec (d : Driver) (c : Ctx) (t : Tok) (hs : ¬ Slashed d t)
    (h34 : d.isCL = true → NoHole '3' t ∧ NoHole '4' t) :
    (substBase c t = .no ∧ Filled d c t [t]) ∨ ∃ cs ws, substBase c t = .yes false cs ∧ Filled d c t ws ∧ Trailed ws (textOf cs) := by
  unfold substBase
  have f1 := findHole_spec '1' t
  have f2 := findHole_spec '2' t
  cases h1 : findHole '1' t with
  | some p =>
    obtain ⟨u, v⟩ := p
    refine Or.inr ⟨_, _, rfl, .input hs h34 (f1.1 u v h1), ?_⟩
    rw [input_eq]
    simpa [textOf] using trailed_one (u ++ c.input ++ v)
  | none =>
    cases h2 : findHole '2' t with
    | some p =>
      obtain ⟨u, v⟩ := p
      refine Or.inr ⟨_, _, rfl, .output hs h34 (f1.2 h1) (f2.1 u v h2), ?_⟩
      simpa [textOf, Ctx.output, relName] using trailed_one (u ++ c.output ++ v)
    | none => exact Or.inl ⟨rfl, .kept hs h34 (f1.2 h1) (f2.2 h2)⟩

theorem usings_trailed (u v : Tok) (l : List (List Char)) :
    Trailed (l.map fun n => u ++ n ++ v)
      (textOf (l.flatMap (fun n => [Call.add u, .add n, .add v, .delim]) ++ [.delim])) := by
  induction l with
  | nil => exact .blank .nil
  | cons n l ih =>
    simp only [List.map_cons, List.flatMap_cons, List.append_assoc]
    rw [textOf_append]
    have := (trailed_one (u ++ n ++ v)).append ih
    simpa [textOf] using this

theorem processSubst_spec (d : Driver) (c : Ctx) (t : Tok) (hs : ¬ Slashed d t) :
    (processSubst d c t = .no ∧ Filled d c t [t]) ∨
    (∃ cs ws, processSubst d c t = .yes false cs ∧ Filled d c t ws ∧ Trailed ws (textOf cs)) ∨
    processSubst d c t = .bad ∧ d.isCL = true ∧ c.pchObj = [] ∧ ∃ u v, Hole '3' t u v := by
  have base := fun h34 => substBase_spec d c t hs h34
  cases hd : d.isCL with
  | false =>
    have : processSubst d c t = substBase c t := by
      cases d <;> first | rfl | (simp [Driver.isCL] at hd)
    rw [this]
    rcases base (by simp [hd]) with h | h
    · exact Or.inl h
    · exact Or.inr (Or.inl h)
  | true =>
    obtain ⟨cl, rfl⟩ : ∃ cl, d = .cl cl := by cases d <;> simp [Driver.isCL] at hd; exact ⟨_, rfl⟩
    unfold processSubst
    have f3 := findHole_spec '3' t
    have f4 := findHole_spec '4' t
    cases h3 : findHole '3' t with
    | some p =>
      obtain ⟨u, v⟩ := p
      by_cases hp : c.pchObj = []
      · exact Or.inr (Or.inr ⟨by simp [hp], rfl, hp, u, v, f3.1 u v h3⟩)
      · refine Or.inr (Or.inl ⟨_, _, by simp only [hp, if_false]; rfl, .pch hs hd (f3.1 u v h3) hp, ?_⟩)
        simpa [textOf] using trailed_one (u ++ c.pchObj ++ v)
    | none =>
      cases h4 : findHole '4' t with
      | some p =>
        obtain ⟨u, v⟩ := p
        exact Or.inr (Or.inl ⟨_, _, rfl, .usings hs hd (f3.2 h3) (f4.1 u v h4), usings_trailed u v c.usings⟩)
      | none =>
        rcases base (fun _ => ⟨f3.2 h3, f4.2 h4⟩) with h | h
        · exact Or.inl h
        · exact Or.inr (Or.inl h)

/-! ### Options left out by every pass -/

theorem slashed_iff (cl : Bool) (t : Tok) :
    (isStart t "I\"" = true ∧ ['\\', '"'].isSuffixOf t = true) ↔ Slashed (.cl cl) t := by
  rw [isStart_iff, List.isSuffixOf_iff_suffix]
  unfold Slashed
  constructor
  · rintro ⟨⟨r, hr⟩, ⟨m, hm⟩⟩
    refine ⟨rfl, ?_⟩
    have key : ∀ x : Char, t = x :: ("I\"".toList ++ r) → ∃ m', t = x :: 'I' :: '"' :: (m' ++ ['\\', '"']) := by
      intro x hx
      change t = x :: 'I' :: '"' :: r at hx
      rw [hx] at hm
      -- the backslash is behind the quote
      match m, hm with
      | [], hm => simp at hm
      | [_], hm => simp at hm
      | [_, _], hm => simp at hm
      | a :: b :: e :: m', hm =>
        simp only [List.cons_append, List.cons.injEq] at hm
        exact ⟨m', by rw [hx, ← hm.2.2.2]⟩
    rcases hr with hr | hr
    · obtain ⟨m', h⟩ := key _ hr
      exact ⟨m', Or.inl (by rw [h]; rfl)⟩
    · obtain ⟨m', h⟩ := key _ hr
      exact ⟨m', Or.inr (by rw [h]; rfl)⟩
  · rintro ⟨_, m, rfl | rfl⟩
    · exact ⟨⟨m ++ ['\\', '"'], Or.inl rfl⟩, ⟨"/I\"".toList ++ m, rfl⟩⟩
    · exact ⟨⟨m ++ ['\\', '"'], Or.inr rfl⟩, ⟨"-I\"".toList ++ m, rfl⟩⟩

/-- Common options and placeholders together. -/
theorem processRest_spec (d : Driver) (c : Ctx) (t : Tok) :
    ((processCommon d c t).orElse (processSubst d c t) = .no ∧ Becomes d c t [t]) ∨
    (∃ cs ws, (processCommon d c t).orElse (processSubst d c t) = .yes false cs ∧ Becomes d c t ws ∧ Trailed ws (textOf cs)) ∨
    (processCommon d c t).orElse (processSubst d c t) = .bad ∧ d.isCL = true ∧ c.pchObj = [] ∧ ∃ u v, Hole '3' t u v := by
  -- no common rule and not slashed
  have rest : processCommon d c t = .no → Free (commonRules d c.colored) t → ¬ Slashed d t →
      ((processCommon d c t).orElse (processSubst d c t) = .no ∧ Becomes d c t [t]) ∨
      (∃ cs ws, (processCommon d c t).orElse (processSubst d c t) = .yes false cs ∧ Becomes d c t ws ∧ Trailed ws (textOf cs)) ∨
      (processCommon d c t).orElse (processSubst d c t) = .bad ∧ d.isCL = true ∧ c.pchObj = [] ∧ ∃ u v, Hole '3' t u v := by
    intro h hf hs
    rw [h]
    simp only [Did.orElse]
    rcases processSubst_spec d c t hs with ⟨h1, h2⟩ | ⟨cs, ws, h1, h2, h3⟩ | h1
    · exact Or.inl ⟨h1, .filled hf h2⟩
    · exact Or.inr (Or.inl ⟨cs, ws, h1, .filled hf h2, h3⟩)
    · exact Or.inr (Or.inr h1)
  have ign : ∀ r ∈ commonRules d c.colored, Taken r t false → processCommon d c t = .yes false [] →
      ∃ cs ws, (processCommon d c t).orElse (processSubst d c t) = .yes false cs ∧ Becomes d c t ws ∧ Trailed ws (textOf cs) := by
    intro r hr ht h
    rw [h]
    exact ⟨[], [], rfl, .ignored hr ht, .nil⟩
  have noSlash : d.isCL = false → ¬ Slashed d t := fun h hs => by rw [hs.1] at h; cases h
  cases d with
  | cl cl =>
    by_cases h1 : isStart t "MP" = true
    · refine Or.inr (Or.inl (ign (.msStart "MP") (by simp [commonRules]) ?_ (by simp [processCommon, h1])))
      exact (taken_iff (r := .msStart "MP") trivial).2 (by simp [ruleOf, alone, h1])
    by_cases h2 : isArg t "Gm" = true
    · refine Or.inr (Or.inl (ign (.msWhole "Gm") (by simp [commonRules]) ?_ (by simp [processCommon, h1, h2])))
      exact (taken_iff (r := .msWhole "Gm") trivial).2 (by simp [ruleOf, alone, h2])
    have hfree : Free (commonRules (.cl cl) c.colored) t := by
      rw [← byRules_no (good_common _ _)]
      simp [byRules, commonRules, ruleOf, alone, h1, h2, firstOf]
    by_cases h3 : isStart t "I\"" = true ∧ ['\\', '"'].isSuffixOf t = true
    · have hs := (slashed_iff cl t).1 h3
      obtain ⟨m, hm⟩ := List.isSuffixOf_iff_suffix.1 h3.2
      refine Or.inr (Or.inl ⟨[.add (t.take (t.length - 2)), .add ['"'], .delim], [m ++ ['"']], ?_,
        .filled hfree (.slashed rfl hm.symm hs), ?_⟩)
      · simp only [processCommon]
        rw [if_neg h1, if_neg h2, if_pos h3]
        rfl
      · have : t.take (t.length - 2) = m := by rw [← hm]; simp
        rw [this]
        simpa [textOf] using trailed_one (m ++ ['"'])
    · refine rest ?_ hfree (fun h => h3 ((slashed_iff cl t).2 h))
      simp only [processCommon]
      rw [if_neg h1, if_neg h2, if_neg h3]
  | gcc cl =>
    by_cases hc : c.colored = true
    · by_cases h1 : strip "-fdiagnostics-color" t true = true
      · refine Or.inr (Or.inl (ign (.start "-fdiagnostics-color") (by simp [commonRules, hc]) ?_ ?_))
        · exact (taken_iff (r := .start _) trivial).2 (by simp [ruleOf, alone, h1])
        · simp only [processCommon]
          rw [if_pos ⟨hc, by simp [h1]⟩]
      by_cases h2 : strip "-fno-diagnostics-color" t = true
      · refine Or.inr (Or.inl (ign (.whole "-fno-diagnostics-color") (by simp [commonRules, hc]) ?_ ?_))
        · exact (taken_iff (r := .whole _) trivial).2 (by simp [ruleOf, alone, h2])
        · simp only [processCommon]
          rw [if_pos ⟨hc, by simp [h2]⟩]
      refine rest ?_ ?_ (noSlash rfl)
      · simp only [processCommon]
        rw [if_neg (by simp [h1, h2])]
      · rw [← byRules_no (good_common _ _)]
        simp [byRules, commonRules, hc, ruleOf, alone, h1, h2, firstOf]
    · refine rest ?_ ?_ (noSlash rfl)
      · simp only [processCommon]
        rw [if_neg (by simp [hc])]
      · simp [commonRules, hc, Free]
  | vbcc => exact rest rfl (by simp [commonRules, Free]) (noSlash rfl)
  | qtRcc => exact rest rfl (by simp [commonRules, Free]) (noSlash rfl)
  | orbis => exact rest rfl (by simp [commonRules, Free]) (noSlash rfl)
  | snc => exact rest rfl (by simp [commonRules, Free]) (noSlash rfl)
  | cuda => exact rest rfl (by simp [commonRules, Free]) (noSlash rfl)
  | codeWarrior => exact rest rfl (by simp [commonRules, Free]) (noSlash rfl)
  | greenHills => exact rest rfl (by simp [commonRules, Free]) (noSlash rfl)
  | generic => exact rest rfl (by simp [commonRules, Free]) (noSlash rfl)

end Verif.Args
