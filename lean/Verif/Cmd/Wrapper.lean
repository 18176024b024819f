import Verif.Cmd.Props
/-
C98: the wrapper processes get the same options. Findings and examples.
-/
namespace Verif.Cmd
open Verif.Str (tokenize lower)

/-! ### words of a command line -/

theorem argv_slash (q w : Bool) (n : Nat) (cur l : Arg) : argv q w n cur ('\\' :: l) = argv q true (n + 1) cur l := by
  rw [argv]

theorem argv_other {c : Char} (h1 : c ≠ '\\') (h2 : c ≠ '"') (q w : Bool) (n : Nat) (cur l : Arg) : argv q w n cur (c :: l) =
    if ¬ q ∧ (c = ' ' ∨ c = '\t') then
      if w ∨ n ≠ 0 then (cur ++ List.replicate n '\\') :: argv false false 0 [] l else argv false false 0 [] l
    else argv q true 0 (cur ++ List.replicate n '\\' ++ [c]) l := by
  rw [argv]
  · exact h1
  · rintro l rfl; exact absurd rfl h2
  · exact h2

theorem argv_bare : ∀ (w : Arg) (wd : Bool) (n : Nat) (cur r : Arg), Bare w → (w ≠ [] ∨ wd = true ∨ n ≠ 0) →
    argv false wd n cur (w ++ ' ' :: r) = (cur ++ List.replicate n '\\' ++ w) :: argv false false 0 [] r ∧
      argv false wd n cur w = [cur ++ List.replicate n '\\' ++ w] := by
  intro w
  induction w with
  | nil =>
    intro wd n cur r _ h
    have h' : wd = true ∨ n ≠ 0 := by simpa using h
    constructor
    · rw [List.nil_append, argv_other (by decide) (by decide)]
      simp only [Bool.false_eq_true, not_false_eq_true, true_and, true_or, if_true, List.append_nil]
      rw [if_pos h']
    · rw [argv]
      rw [if_pos h', List.append_nil]
  | cons c w ih =>
    intro wd n cur r hb _
    have hc := hb c (by simp)
    have hw : Bare w := fun x hx => hb x (by simp [hx])
    rw [List.cons_append]
    by_cases hs : c = '\\'
    · subst hs
      rw [argv_slash, argv_slash]
      have := ih true (n + 1) cur r hw (.inr (.inl rfl))
      rw [this.1, this.2, List.replicate_succ']
      simp
    · rw [argv_other hs hc.2.2, argv_other hs hc.2.2, if_neg (by simp [hc.1, hc.2.1]), if_neg (by simp [hc.1, hc.2.1])]
      have := ih true 0 (cur ++ List.replicate n '\\' ++ [c]) r hw (.inr (.inl rfl))
      rw [this.1, this.2]
      simp

theorem argv_inside : ∀ (v : Arg) (n : Nat) (cur r : Arg), (∀ c ∈ v, c ≠ '"') → v.getLast? ≠ some '\\' → (v ≠ [] ∨ n = 0) →
    argv true true n cur (v ++ '"' :: ' ' :: r) = argv false true 0 (cur ++ List.replicate n '\\' ++ v) (' ' :: r) := by
  intro v
  induction v with
  | nil =>
    intro n cur r _ _ h
    have hn : n = 0 := by simpa using h
    subst hn
    rw [List.nil_append, argv]
    · simp
    · rintro l h; cases h
  | cons c v ih =>
    intro n cur r h1 h2 _
    have hc := h1 c (by simp)
    have hv : ∀ c ∈ v, c ≠ '"' := fun x hx => h1 x (by simp [hx])
    rw [List.cons_append]
    by_cases hs : c = '\\'
    · subst hs
      have hne : v ≠ [] := by rintro rfl; simp at h2
      rw [argv_slash, ih (n + 1) cur r hv ?_ (.inl hne), List.replicate_succ']
      · simp
      · cases v with
        | nil => simp
        | cons d v => simpa [List.getLast?_cons_cons] using h2
    · rw [argv_other hs hc, if_neg (by simp), ih 0 _ r hv ?_ (.inr rfl)]
      · simp
      · cases v with
        | nil => simp
        | cons d v => simpa [List.getLast?_cons_cons] using h2

theorem argv_quote {v : Arg} (h : Quotable v) (r : Arg) : argv false false 0 [] (quote v ++ ' ' :: r) = v :: argv false false 0 [] r := by
  have hend : argv false true 0 v (' ' :: r) = v :: argv false false 0 [] r := by
    have := (argv_bare [] true 0 v r (fun _ h => nomatch h) (.inr (.inl rfl))).1
    simpa using this
  have hin := argv_inside v 0 [] r h.1 h.2 (.inr rfl)
  simp only [List.replicate_zero, List.append_nil, List.nil_append] at hin
  rw [hend] at hin
  unfold quote
  cases v with
  | nil =>
    show argv false false 0 [] ('"' :: '"' :: ' ' :: r) = _
    rw [argv]
    simpa using hin
  | cons c v =>
    have hc := h.1 c (by simp)
    have e : '"' :: (c :: v ++ ['"']) ++ ' ' :: r = '"' :: c :: (v ++ '"' :: ' ' :: r) := by simp
    rw [e, argv]
    · simpa using hin
    · rintro l h'; cases h'; exact hc rfl

/-- the arguments of an item -/
def Item.words : Item → List Arg
  | .flag a => [a]
  | .trim v _ => ["-cachetrim".toList, v]
  | .level dist v _ => [(if dist then "-distcompressionlevel" else "-cachecompressionlevel").toList, v]
  | .config v => ["-config".toList, v]
  | .db v => ["-dbfile".toList, v]
  | .jobs v _ => ['-' :: 'j' :: v]
  | .report v _ => ["-report".toList ++ v]
  | .source (some v) => ["-sourcefile".toList, v]
  | .source none => ["-sourcefile".toList]
  | .target a => [a]

theorem items_words {env : Env} {had : Bool} {l : List Arg} {is : List Item} (h : Items env had l is) : l = is.flatMap Item.words := by
  induction h with
  | nil => rfl
  | flag _ _ ih => rw [List.flatMap_cons, ← ih]; rfl
  | trim _ _ ih => rw [List.flatMap_cons, ← ih]; rfl
  | level _ _ _ _ ih => rw [List.flatMap_cons, ← ih]; rfl
  | config _ ih => rw [List.flatMap_cons, ← ih]; rfl
  | db _ ih => rw [List.flatMap_cons, ← ih]; rfl
  | jobs _ _ _ ih => rw [List.flatMap_cons, ← ih]; rfl
  | report _ _ ih => rw [List.flatMap_cons, ← ih]; rfl
  | source _ _ ih => rw [List.flatMap_cons, ← ih]; rfl
  | sourceEnd => rfl
  | target _ _ ih => rw [List.flatMap_cons, ← ih]; rfl

theorem bare_names : ∀ s ∈ plainNames ++ windowsNames ++ ["-cachetrim", "-distcompressionlevel", "-cachecompressionlevel", "-config", "-dbfile", "-sourcefile", "-report"],
    s.toList ≠ [] ∧ ∀ c ∈ s.toList, c ≠ ' ' ∧ c ≠ '\t' ∧ c ≠ '"' := by decide +kernel

theorem flag_bare {w : Bool} {a : Arg} (h : IsFlag w a) : a ≠ [] ∧ Bare a := by
  obtain ⟨s, hs, rfl⟩ := h
  refine bare_names s ?_
  simp only [List.mem_append]
  rcases hs with hs | ⟨_, hs⟩
  · exact .inl (.inl hs)
  · exact .inl (.inr hs)

/-- a word at the front -/
theorem argv_word {w : Arg} (h : w ≠ [] ∧ Bare w) (r : Arg) : argv false false 0 [] (w ++ ' ' :: r) = w :: argv false false 0 [] r := by
  simpa using (argv_bare w false 0 [] r h.2 (.inl h.1)).1

theorem argv_two {a v : Arg} (ha : a ≠ [] ∧ Bare a) (hv : v ≠ [] ∧ Bare v) {t : Arg} (ht : t = a ++ ' ' :: v) (r : Arg) :
    argv false false 0 [] (t ++ ' ' :: r) = [a, v] ++ argv false false 0 [] r := by
  rw [ht, List.append_assoc, List.cons_append, argv_word ha, argv_word hv]
  rfl

theorem argv_two_quoted {a v : Arg} (ha : a ≠ [] ∧ Bare a) (hv : Quotable v) {t : Arg} (ht : t = a ++ ' ' :: quote v) (r : Arg) :
    argv false false 0 [] (t ++ ' ' :: r) = [a, v] ++ argv false false 0 [] r := by
  rw [ht, List.append_assoc, List.cons_append, argv_word ha, argv_quote hv]
  rfl

theorem argv_item {env : Env} {i : Item} (hf : Fine env i) (hs : i.Safe) (r : Arg) :
    argv false false 0 [] (i.text ++ ' ' :: r) = i.words ++ argv false false 0 [] r := by
  cases i with
  | flag a => exact argv_word (flag_bare (w := env.windows) hf) r
  | trim v n => exact argv_two (bare_names _ (by decide +kernel)) hs (text_trim v n) r
  | level dist v n =>
    refine argv_two ?_ hs (text_level dist v n) r
    cases dist
    · exact bare_names "-cachecompressionlevel" (by decide +kernel)
    · exact bare_names "-distcompressionlevel" (by decide +kernel)
  | config v => exact argv_two_quoted (bare_names _ (by decide +kernel)) hs (text_config v) r
  | db v => exact argv_two_quoted (bare_names _ (by decide +kernel)) hs (text_db v) r
  | jobs v n =>
    rw [text_jobs]
    refine argv_word (w := '-' :: 'j' :: v) ⟨by simp, ?_⟩ r
    intro c hc
    simp only [List.mem_cons] at hc
    rcases hc with rfl | rfl | hc
    · decide
    · decide
    · exact hs c hc
  | report v t =>
    refine argv_word (w := "-report".toList ++ v) ⟨?_, ?_⟩ r
    · intro h; exact absurd (List.append_eq_nil_iff.1 h).1 (bare_names "-report" (by decide +kernel)).1
    · intro c hc
      rcases List.mem_append.1 hc with hc | hc
      · exact (bare_names "-report" (by decide +kernel)).2 c hc
      · exact hs c hc
  | source v =>
    cases v with
    | none => cases hs
    | some v => exact argv_two (bare_names _ (by decide +kernel)) hs (text_source v) r
  | target a => exact argv_quote hs r

theorem argv_joined {env : Env} : ∀ (is : List Item) (r : Arg), (∀ i ∈ is, Fine env i) → (∀ i ∈ is, i.Safe) →
    argv false false 0 [] (joined (is.map Item.text) ++ ' ' :: r) = is.flatMap Item.words ++ argv false false 0 [] r := by
  intro is
  induction is with
  | nil =>
    intro r _ _
    rw [List.map_nil, joined, List.nil_append, argv_other (by decide) (by decide)]
    simp
  | cons i is ih =>
    intro r hf hs
    have e : joined ((i :: is).map Item.text) ++ ' ' :: r = i.text ++ ' ' :: (if is = [] then r else joined (is.map Item.text) ++ ' ' :: r) := by
      cases is with
      | nil => simp [joined]
      | cons j is => simp [joined]
    rw [e, argv_item (hf i (by simp)) (hs i (by simp)), List.flatMap_cons, List.append_assoc]
    congr 1
    split
    · next h => subst h; simp
    · exact ih r (fun j hj => hf j (by simp [hj])) (fun j hj => hs j (by simp [hj]))

/-! ### the processes -/

theorem items_add {env : Env} {a : Arg} (ha : IsFlag env.windows a) {had : Bool} {l : List Arg} {is : List Item} (h : Items env had l is) :
    (∀ i ∈ is, i.Safe) → Items env had (l ++ [a]) (is ++ [.flag a]) := by
  induction h with
  | nil => intro _; exact .flag ha .nil
  | flag h1 _ ih => intro hs; exact .flag h1 (ih fun i hi => hs i (by simp [hi]))
  | trim h1 _ ih => intro hs; exact .trim h1 (ih fun i hi => hs i (by simp [hi]))
  | level h1 h2 h3 _ ih => intro hs; exact .level h1 h2 h3 (ih fun i hi => hs i (by simp [hi]))
  | config _ ih => intro hs; exact .config (ih fun i hi => hs i (by simp [hi]))
  | db _ ih => intro hs; exact .db (ih fun i hi => hs i (by simp [hi]))
  | jobs h1 h2 _ ih => intro hs; exact .jobs h1 h2 (ih fun i hi => hs i (by simp [hi]))
  | report h1 _ ih => intro hs; exact .report h1 (ih fun i hi => hs i (by simp [hi]))
  | source h1 _ ih => intro hs; exact .source h1 (ih fun i hi => hs i (by simp [hi]))
  | sourceEnd => intro hs; exact (hs (.source none) (by simp)).elim
  | target h1 _ ih => intro hs; exact .target h1 (ih fun i hi => hs i (by simp [hi]))

theorem lastOf_add {α : Type} (f : Item → Option α) (d : α) (is : List Item) (i : Item) : lastOf f d (is ++ [i]) = (f i).getD (lastOf f d is) := by
  unfold lastOf
  rw [List.filterMap_append]
  cases h : f i with
  | none => simp [h]
  | some x => simp [h]

theorem joined_add : ∀ (l : List Arg) (a : Arg), l ≠ [] → joined (l ++ [a]) = joined l ++ ' ' :: a := by
  intro l
  induction l with
  | nil => intro a h; exact absurd rfl h
  | cons b l ih =>
    intro a _
    cases l with
    | nil => rfl
    | cons c l =>
      show b ++ ' ' :: joined (c :: l ++ [a]) = b ++ ' ' :: joined (c :: l) ++ ' ' :: a
      rw [ih a (by simp)]
      simp

/-- the options but for the text and the mode -/
structure Same (o o' : Opts) : Prop where
  flags : o'.flags = o.flags
  targets : o'.targets = o.targets
  sources : o'.sources = o.sources
  trim : o'.cacheTrim = o.cacheTrim
  cacheLevel : o'.cacheLevel = o.cacheLevel
  distLevel : o'.distLevel = o.distLevel
  config : o'.config = o.config
  db : o'.dbFile = o.dbFile
  threads : o'.threads = o.threads
  report : o'.report = o.report
  wsl : o'.wslPath = o.wslPath

theorem Same.trans {a b c : Opts} (h : Same a b) (h' : Same b c) : Same a c :=
  ⟨h'.flags.trans h.flags, h'.targets.trans h.targets, h'.sources.trans h.sources, h'.trim.trans h.trim, h'.cacheLevel.trans h.cacheLevel,
    h'.distLevel.trans h.distLevel, h'.config.trans h.config, h'.db.trans h.db, h'.threads.trans h.threads, h'.report.trans h.report, h'.wsl.trans h.wsl⟩

theorem wrapper_names : ∀ w : Bool, ∀ s ∈ ["-wrapperintermediate", "-wrapperfinal"], (∀ f ∈ Fld.all, switch (switches w f).1 (switches w f).2 (.flag s.toList) = none) ∧
    switch ["-cache", "-cacheread", "-cachewrite"] [] (.flag s.toList) = none ∧ s ∈ windowsNames ∧ s.toList ≠ [] ∧ s.toList ≠ "-wsl".toList ∧
      ∀ c ∈ s.toList, c ≠ ' ' ∧ c ≠ '\t' ∧ c ≠ '"' := by
  intro w
  cases w <;> decide +kernel

/-- starting one process of the wrapper -/
theorem one_process {env : Env} {l : List Arg} {is : List Item} {o : Opts} {s : String} {m : Mode} (hs : s ∈ ["-wrapperintermediate", "-wrapperfinal"])
    (hsm : modeOf true (.flag s.toList) = some m) (hw : env.windows = true)
    (hi : Items env false l is) (hm : ModeOK env is) (ho : Meaning env is o) (hsafe : ∀ i ∈ is, i.Safe) :
    ∃ o', argv false false 0 [] (o.args ++ ' ' :: s.toList) = l ++ [s.toList] ∧ process env (l ++ [s.toList]) = .ok o' ∧ o'.mode = m ∧ Same o o' ∧
      Items env false (l ++ [s.toList]) (is ++ [.flag s.toList]) ∧ ModeOK env (is ++ [.flag s.toList]) ∧ Meaning env (is ++ [.flag s.toList]) o' ∧
      ∀ i ∈ is ++ [.flag s.toList], i.Safe := by
  obtain ⟨t1, t2, t3, t4, t5, t6⟩ := wrapper_names env.windows s hs
  have hfl : IsFlag env.windows s.toList := ⟨s, .inr ⟨hw, t3⟩, rfl⟩
  have hi' := items_add hfl hi hsafe
  have hm' : ModeOK env (is ++ [.flag s.toList]) := by
    rcases hm with ⟨i, h1, h2⟩ | h
    · exact .inl ⟨i, by simp [h1], h2⟩
    · exact .inr h
  have hhead : (l ++ [s.toList]).head? ≠ some "-wsl".toList := by
    intro e
    cases l with
    | nil => simp only [List.nil_append, List.head?_cons, Option.some.injEq] at e; exact t5 e
    | cons a l =>
      simp only [List.cons_append, List.head?_cons, Option.some.injEq] at e
      obtain ⟨i, skip, is', _, hone, _⟩ := items_cons.1 hi
      exact one_not_wsl hone e
  have hex : ∃ o', process env (l ++ [s.toList]) = .ok o' ∧ Meaning env (is ++ [.flag s.toList]) o' := by
    have hb := fold_base (items_fine hi')
    obtain ⟨o', _, h⟩ := (finish_spec hb).1 hm'
    exact ⟨o', (C98_meaning (fun _ => hhead)).2 ⟨_, hi', hm', h⟩, h⟩
  obtain ⟨o', hp, hme⟩ := hex
  refine ⟨o', ?_, hp, ?_, ?_, hi', hm', hme, ?_⟩
  · rw [ho.args, argv_joined is _ (items_fine hi) hsafe, ← items_words hi]
    congr 1
    have := (argv_bare s.toList false 0 [] [] t6 (.inl t4)).2
    simpa using this
  · rw [hme.mode, lastOf_add, hw, hsm]
    rfl
  · refine ⟨?_, ?_, ?_, ?_, ?_, ?_, ?_, ?_, ?_, ?_, ?_⟩
    · funext f
      rw [hme.flags, ho.flags]
      have hby : ∀ modes, byVariable env (is ++ [.flag s.toList]) modes = byVariable env is modes := by
        intro modes
        unfold byVariable
        congr 1
        refine decide_eq_decide.2 ?_
        constructor
        · intro h i hi; exact h i (by simp [hi])
        · intro h i hi
          rcases List.mem_append.1 hi with hi | hi
          · exact h i hi
          · rw [List.mem_singleton.1 hi]; exact t2
      unfold flagValue
      rw [lastOf_add, t1 f (Fld.mem_all f), hby, hby]
      rfl
    · rw [hme.targets, ho.targets, List.filterMap_append, show List.filterMap targetOf [Item.flag s.toList] = [] from rfl, List.append_nil]
    · rw [hme.sources, ho.sources, List.flatMap_append, show List.flatMap sourcesOf [Item.flag s.toList] = [] from rfl, List.append_nil]
    · rw [hme.trim, ho.trim, lastOf_add]; rfl
    · rw [hme.cacheLevel, ho.cacheLevel, lastOf_add]; rfl
    · rw [hme.distLevel, ho.distLevel, lastOf_add]; rfl
    · rw [hme.config, ho.config, lastOf_add]; rfl
    · rw [hme.db, ho.db, lastOf_add]; rfl
    · rw [hme.threads, ho.threads, lastOf_add]; rfl
    · rw [hme.report, ho.report, lastOf_add]; rfl
    · rw [hme.wsl, ho.wsl]
  · intro i hx
    rcases List.mem_append.1 hx with hx | hx
    · exact hsafe i hx
    · rw [List.mem_singleton.1 hx]; trivial

/-- With `-ide` or `-wrapper` (or without), the intermediate process and the final process started by it have the options of the
process that was started, but for the mode. If paths and numbers that are not put in quotes are without blanks, and what is put in
quotes has no quote and no backslash at the end. -/
theorem C98_wrapper_partial {env : Env} {l : List Arg} {is : List Item} (hw : env.windows = true) (hi : Items env false l is) (hm : ModeOK env is)
    (hsafe : ∀ i ∈ is, i.Safe) :
    ∃ o o1 o2, process env l = .ok o ∧ process env (forIntermediate o) = .ok o1 ∧ process env (forFinal o1) = .ok o2 ∧
      o1.mode = .intermediate ∧ o2.mode = .final ∧ Same o o1 ∧ Same o o2 := by
  have hhead : l.head? ≠ some "-wsl".toList := by
    intro e
    cases l with
    | nil => cases e
    | cons a l =>
      simp only [List.head?_cons, Option.some.injEq] at e
      obtain ⟨i, skip, is', _, hone, _⟩ := items_cons.1 hi
      exact one_not_wsl hone e
  obtain ⟨o, _, ho⟩ := (finish_spec (fold_base (items_fine hi))).1 hm
  obtain ⟨o1, a1, p1, m1, s1, i1, k1, e1, f1⟩ := one_process (s := "-wrapperintermediate") (m := .intermediate) (by decide +kernel) (by decide +kernel) hw hi hm ho hsafe
  obtain ⟨o2, a2, p2, m2, s2, _⟩ := one_process (s := "-wrapperfinal") (m := .final) (by decide +kernel) (by decide +kernel) hw i1 k1 e1 f1
  refine ⟨o, o1, o2, (C98_meaning (fun _ => hhead)).2 ⟨is, hi, hm, ho⟩, ?_, ?_, m1, m2, s1, s1.trans s2⟩
  · unfold forIntermediate
    rw [show " -wrapperintermediate".toList = ' ' :: "-wrapperintermediate".toList by decide +kernel, a1]
    exact p1
  · unfold forFinal
    rw [show " -wrapperfinal".toList = ' ' :: "-wrapperfinal".toList by decide +kernel, a2]
    exact p2

/-! ### the Windows subsystem for Linux -/

theorem loop_wsl {env : Env} : ∀ (l : List Arg) (o : Opts), o.mode = .wsl → (∀ a ∈ l, a ≠ []) → loop env false false l o =
    finish env { o with args := if o.args = [] then joined l else if l = [] then o.args else o.args ++ ' ' :: joined l } := by
  intro l
  induction l with
  | nil =>
    intro o _ _
    show finish env o = _
    congr 1
    cases o with
    | mk a b c d e f g h i j k m n =>
      simp only [joined, if_true]
      congr 1
      split
      · next h => exact h
      · rfl
  | cons a l ih =>
    intro o h hl
    have hs : (spaced o).mode = .wsl := by unfold spaced; split <;> exact h
    have hst : step env false a l.head? o = .next false ((spaced o).add a) := by
      unfold step
      rw [if_neg (by rw [h]; simp)]
      show (if (spaced o).mode = .wsl then _ else _) = _
      rw [if_pos hs]
    have ha := hl a (by simp)
    rw [loop, if_neg (by simp), hst]
    show loop env false false l _ = _
    rw [ih ((spaced o).add a) hs (fun b hb => hl b (by simp [hb]))]
    congr 1
    have e : (spaced o).add a = { o with args := if o.args = [] then a else o.args ++ ' ' :: a } := by
      unfold spaced Opts.add
      by_cases hb : o.args = [] <;> simp [hb]
    rw [e]
    by_cases hb : o.args = []
    · cases l with
      | nil => simp [hb, ha, joined]
      | cons c l => simp [hb, ha, joined]
    · cases l with
      | nil => simp [hb, joined]
      | cons c l => simp [hb, joined]

/-- `-wsl path …` first: everything behind it is for the program in the path. -/
theorem C98_wsl {env : Env} {p : Arg} {l : List Arg} (hw : env.windows = true) (hl : ∀ a ∈ l, a ≠ [])
    (hm : ∀ m, env.cacheMode = some m → m ∈ ["r", "w", "rw"].map (·.toList)) :
    ∃ o, process env ("-wsl".toList :: p :: l) = .ok o ∧ o.mode = .wsl ∧ o.wslPath = p ∧ o.args = joined l := by
  have hst : step env true "-wsl".toList (some p) { threads := env.cores } = .next true { threads := env.cores, mode := .wsl, wslPath := p } := by
    unfold step
    rw [if_pos ⟨hw, rfl, rfl⟩]
    rfl
  have e : process env ("-wsl".toList :: p :: l) = finish env { threads := env.cores, mode := .wsl, wslPath := p, args := joined l } := by
    rw [process, loop, if_neg (by simp)]
    show (match step env true "-wsl".toList (some p) { threads := env.cores } with
      | .error => Out.error
      | .quit => Out.quit
      | .next s o => loop env false s (p :: l) o) = _
    rw [hst]
    show loop env false true (p :: l) _ = _
    rw [loop, if_pos rfl, loop_wsl l _ rfl hl]
    rfl
  rw [e, finish_eq]
  generalize hq : ({ threads := env.cores, mode := .wsl, wslPath := p, args := joined l } : Opts) = q
  have hd : (withDefaults env q).mode = .wsl ∧ (withDefaults env q).wslPath = p ∧ (withDefaults env q).args = joined l := by
    subst hq; exact ⟨rfl, rfl, rfl⟩
  generalize withDefaults env q = d at hd
  have nice : ∀ fl, ∃ o, Out.ok { d with flags := fl } = .ok o ∧ o.mode = .wsl ∧ o.wslPath = p ∧ o.args = joined l := fun fl => ⟨_, rfl, hd⟩
  unfold withCache
  split
  · split
    · exact nice d.flags
    · next m hc =>
      have := hm m hc
      simp only [List.map_cons, List.map_nil, List.mem_cons, List.not_mem_nil, or_false] at this
      split
      · exact nice _
      · next h1 =>
        split
        · exact nice _
        · next h2 =>
          split
          · exact nice _
          · next h3 =>
            rcases this with h | h | h
            · exact absurd h h1
            · exact absurd h h2
            · exact absurd h h3
  · exact nice d.flags

end Verif.Cmd
