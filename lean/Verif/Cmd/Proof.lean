import Verif.Cmd.Spec
/-
The loop takes one item after the other.
-/
namespace Verif.Cmd
open Verif.Str (tokenize lower)

/-! ### names -/

theorem names_table : ∀ b ∈ branches, (b.name ∈ plainNames ∧ b.winOnly = false) ∨ (b.name ∈ windowsNames ∧ b.winOnly = true) := by decide +kernel

theorem table_plain : ∀ s ∈ plainNames, ∃ b ∈ branches, b.name = s ∧ b.winOnly = false := by decide +kernel

theorem table_windows : ∀ s ∈ windowsNames, ∃ b ∈ branches, b.name = s ∧ b.winOnly = true := by decide +kernel

theorem isFlag_iff {w : Bool} {a : Arg} : IsFlag w a ↔ ∃ b, branch w a = some b := by
  rw [← Option.isSome_iff_exists, branch, List.find?_isSome]
  simp only [Bool.and_eq_true, decide_eq_true_eq, Bool.or_eq_true, Bool.not_eq_true']
  constructor
  · rintro ⟨s, hs | ⟨hw, hs⟩, rfl⟩
    · obtain ⟨b, hb, rfl, h⟩ := table_plain s hs
      exact ⟨b, hb, rfl, .inr h⟩
    · obtain ⟨b, hb, rfl, h⟩ := table_windows s hs
      exact ⟨b, hb, rfl, .inl hw⟩
  · rintro ⟨b, hb, rfl, h⟩
    refine ⟨b.name, ?_, rfl⟩
    rcases names_table b hb with ⟨h1, _⟩ | ⟨h1, h2⟩
    · exact .inl h1
    · refine .inr ⟨?_, h1⟩
      rcases h with h | h
      · exact h
      · rw [h2] at h; cases h

theorem flag_names {w : Bool} {a : Arg} (h : IsFlag w a) : begins "-" a = true ∧ begins "-j" a = false ∧ begins "-report" a = false ∧
    a ∉ ["-wsl", "-cachetrim", "-cachecompressionlevel", "-distcompressionlevel", "-config", "-dbfile", "-help", "-version", "-sourcefile"].map (·.toList) := by
  obtain ⟨s, hs, rfl⟩ := h
  have key : ∀ s ∈ plainNames ++ windowsNames, begins "-" s.toList = true ∧ begins "-j" s.toList = false ∧ begins "-report" s.toList = false ∧
      s.toList ∉ ["-wsl", "-cachetrim", "-cachecompressionlevel", "-distcompressionlevel", "-config", "-dbfile", "-help", "-version", "-sourcefile"].map (·.toList) := by
    decide +kernel
  refine key s (List.mem_append.2 ?_)
  rcases hs with hs | ⟨_, hs⟩
  · exact .inl hs
  · exact .inr hs

theorem branch_none {w : Bool} {a : Arg} (h : begins "-" a = false ∨ begins "-j" a = true ∨ begins "-report" a = true ∨
    a ∈ ["-wsl", "-cachetrim", "-cachecompressionlevel", "-distcompressionlevel", "-config", "-dbfile", "-help", "-version", "-sourcefile"].map (·.toList)) :
    branch w a = none := by
  cases hb : branch w a with
  | none => rfl
  | some b =>
    exfalso
    obtain ⟨h1, h2, h3, h4⟩ := flag_names (isFlag_iff.2 ⟨b, hb⟩)
    rcases h with h | h | h | h
    · rw [h1] at h; cases h
    · rw [h2] at h; cases h
    · rw [h3] at h; cases h
    · exact h4 h

/-! ### one item -/

/-- what an item does to the options -/
def Item.update (env : Env) (i : Item) (o : Opts) : Opts :=
  match i with
  | .flag a => match branch env.windows a with
    | some b => { o with flags := assign (b.sets ++ (if env.windows then b.winSets else [])) o.flags
                         mode := if env.windows then b.mode.getD o.mode else o.mode }
    | none => o
  | .trim _ n => { o with cacheTrim := n }
  | .level dist _ n => if dist then { o with distLevel := n } else { o with cacheLevel := n }
  | .config v => { o with config := v }
  | .db v => { o with dbFile := v }
  | .jobs _ n => { o with threads := n }
  | .report _ t => { o with report := t }
  | .source (some v) => { o with sources := o.sources ++ tokenize ';' v }
  | .source none => o
  | .target a => { o with targets := o.targets ++ [a] }

def Item.take (env : Env) (o : Opts) (i : Item) : Opts := i.update env ((spaced o).add i.text)

/-- the item that begins with an argument, and if it has the next one as well -/
inductive One (env : Env) : Bool → Arg → Option Arg → Item → Bool → Prop
  | flag {had : Bool} {a : Arg} {next : Option Arg} : IsFlag env.windows a → One env had a next (.flag a) false
  | trim {had : Bool} {v : Arg} {n : Nat} : env.scanU v = some n → One env had "-cachetrim".toList (some v) (.trim v n) true
  | level {had dist : Bool} {v : Arg} {n : Int} : env.scanI v = some n → -128 ≤ n → n ≤ 12 →
      One env had (if dist then "-distcompressionlevel" else "-cachecompressionlevel").toList (some v) (.level dist v n) true
  | config {had : Bool} {v : Arg} : One env had "-config".toList (some v) (.config v) true
  | db {had : Bool} {v : Arg} : One env had "-dbfile".toList (some v) (.db v) true
  | jobs {had : Bool} {v : Arg} {n : Nat} {next : Option Arg} : env.scanU v = some n → n ≤ 256 → One env had ('-' :: 'j' :: v) next (.jobs v n) false
  | report {had : Bool} {v t : Arg} {next : Option Arg} : ReportOf ("-report".toList ++ v) t → One env had ("-report".toList ++ v) next (.report v t) false
  | source {had : Bool} {v : Arg} : had = true ∨ tokenize ';' v ≠ [] → One env had "-sourcefile".toList (some v) (.source (some v)) true
  | sourceEnd : One env true "-sourcefile".toList none (.source none) false
  | target {had : Bool} {a : Arg} {next : Option Arg} : a.head? ≠ some '-' → One env had a next (.target a) false

/-- a source file has been named after the item -/
def Item.had : Item → Bool → Bool
  | .source _, _ => true
  | _, h => h

theorem items_cons {env : Env} {had : Bool} {a : Arg} {l : List Arg} {is : List Item} : Items env had (a :: l) is ↔
    ∃ i skip is', is = i :: is' ∧ One env had a l.head? i skip ∧ Items env (i.had had) (if skip then l.tail else l) is' := by
  constructor
  · intro h
    cases h with
    | flag h1 h2 => exact ⟨_, _, _, rfl, .flag h1, by simpa [Item.had] using h2⟩
    | trim h1 h2 => exact ⟨_, _, _, rfl, .trim h1, by simpa [Item.had] using h2⟩
    | level h1 h2 h3 h4 => exact ⟨_, _, _, rfl, .level h1 h2 h3, by simpa [Item.had] using h4⟩
    | config h => exact ⟨_, _, _, rfl, .config, by simpa [Item.had] using h⟩
    | db h => exact ⟨_, _, _, rfl, .db, by simpa [Item.had] using h⟩
    | jobs h1 h2 h3 => exact ⟨_, _, _, rfl, .jobs h1 h2, by simpa [Item.had] using h3⟩
    | report h1 h2 => exact ⟨_, _, _, rfl, .report h1, by simpa [Item.had] using h2⟩
    | source h1 h2 => exact ⟨_, _, _, rfl, .source h1, by simpa [Item.had] using h2⟩
    | sourceEnd => exact ⟨_, _, _, rfl, .sourceEnd, .nil⟩
    | target h1 h2 => exact ⟨_, _, _, rfl, .target h1, by simpa [Item.had] using h2⟩
  · rintro ⟨i, skip, is', rfl, h, h'⟩
    generalize hn : l.head? = next at h
    cases h with
    | flag h1 => exact .flag h1 (by simpa [Item.had] using h')
    | trim h1 =>
      cases l with
      | nil => cases hn
      | cons v l => cases hn; exact .trim h1 (by simpa [Item.had] using h')
    | level h1 h2 h3 =>
      cases l with
      | nil => cases hn
      | cons v l => cases hn; exact .level h1 h2 h3 (by simpa [Item.had] using h')
    | config =>
      cases l with
      | nil => cases hn
      | cons v l => cases hn; exact .config (by simpa [Item.had] using h')
    | db =>
      cases l with
      | nil => cases hn
      | cons v l => cases hn; exact .db (by simpa [Item.had] using h')
    | jobs h1 h2 => exact .jobs h1 h2 (by simpa [Item.had] using h')
    | report h1 => exact .report h1 (by simpa [Item.had] using h')
    | source h1 =>
      cases l with
      | nil => cases hn
      | cons v l => cases hn; exact .source h1 (by simpa [Item.had] using h')
    | sourceEnd =>
      cases l with
      | nil => cases h'; exact .sourceEnd
      | cons v l => cases hn
    | target h1 => exact .target h1 (by simpa [Item.had] using h')

theorem spaced_same (o : Opts) : (spaced o).mode = o.mode ∧ (spaced o).sources = o.sources := by
  unfold spaced; split <;> exact ⟨rfl, rfl⟩

theorem begins_iff {p : String} {a : Arg} : begins p a = true ↔ ∃ v, a = p.toList ++ v := by
  rw [begins, List.isPrefixOf_iff_prefix]
  exact ⟨fun ⟨v, h⟩ => ⟨v, h.symm⟩, fun ⟨v, h⟩ => ⟨v, h.symm⟩⟩

theorem begins_dash {a : Arg} : begins "-" a = true ↔ a.head? = some '-' := by
  rw [begins_iff]
  cases a with
  | nil => simp
  | cons c l => simp

/-! ### the branches -/

theorem kind_flag {env : Env} {a : Arg} {b : Branch} (h : branch env.windows a = some b) : kind env a = .flag b := by
  unfold kind
  rw [if_pos (flag_names (isFlag_iff.2 ⟨b, h⟩)).1, h]

theorem kind_target {env : Env} {a : Arg} (h : begins "-" a = false) : kind env a = .target := by
  unfold kind
  rw [h]
  rfl

theorem kind_trim {env : Env} : kind env "-cachetrim".toList = .trim := by
  unfold kind
  rw [if_pos (by decide +kernel), branch_none (by decide +kernel)]
  rfl

theorem kind_level {env : Env} (dist : Bool) : kind env (if dist then "-distcompressionlevel" else "-cachecompressionlevel").toList = .level dist := by
  cases dist
  · rw [if_neg (by decide)]
    unfold kind
    rw [if_pos (by decide +kernel), branch_none (by decide +kernel)]
    rfl
  · rw [if_pos rfl]
    unfold kind
    rw [if_pos (by decide +kernel), branch_none (by decide +kernel)]
    rfl

theorem kind_config {env : Env} : kind env "-config".toList = .config := by
  unfold kind
  rw [if_pos (by decide +kernel), branch_none (by decide +kernel)]
  rfl

theorem kind_db {env : Env} : kind env "-dbfile".toList = .db := by
  unfold kind
  rw [if_pos (by decide +kernel), branch_none (by decide +kernel)]
  rfl

theorem kind_source {env : Env} : kind env "-sourcefile".toList = .source := by
  unfold kind
  rw [if_pos (by decide +kernel), branch_none (by decide +kernel)]
  rfl

theorem kind_jobs {env : Env} {v : Arg} {n : Nat} (h : env.scanU v = some n) : kind env ('-' :: 'j' :: v) = .jobs n := by
  have hb : begins "-j" ('-' :: 'j' :: v) = true := begins_iff.2 ⟨v, rfl⟩
  have hne : ∀ s : String, s.toList.take 2 ≠ ['-', 'j'] → ¬ ('-' :: 'j' :: v) = s.toList := fun s hs e => hs (by rw [← e]; rfl)
  unfold kind
  rw [if_pos (show begins "-" ('-' :: 'j' :: v) = true from begins_iff.2 ⟨'j' :: v, rfl⟩), branch_none (.inr (.inl hb))]
  simp only []
  rw [if_neg (hne _ (by decide +kernel)), if_neg (hne _ (by decide +kernel)), if_neg (hne _ (by decide +kernel)), if_neg (hne _ (by decide +kernel)),
    if_neg (hne _ (by decide +kernel)), if_neg (by rintro (e | e) <;> exact hne _ (by decide +kernel) e), if_pos ⟨hb, by simp [h]⟩]
  simp [h]

theorem kind_report {env : Env} (v : Arg) : kind env ("-report".toList ++ v) = .report := by
  have hb : begins "-report" ("-report".toList ++ v) = true := begins_iff.2 ⟨v, rfl⟩
  have htk : ("-report".toList ++ v).take 3 = "-re".toList := by
    rw [List.take_append_of_le_length (by decide +kernel)]; decide +kernel
  have hne : ∀ s : String, s.toList.take 3 ≠ "-re".toList → ¬ ("-report".toList ++ v) = s.toList := fun s hs e => hs (by rw [← e, htk])
  have hj : ¬ (begins "-j" ("-report".toList ++ v) = true ∧ (env.scanU (("-report".toList ++ v).drop 2)).isSome = true) := by
    rintro ⟨h, _⟩
    obtain ⟨w, hw⟩ := begins_iff.1 h
    have := congrArg (·.take 2) hw
    simp at this
  unfold kind
  rw [if_pos (show begins "-" ("-report".toList ++ v) = true from begins_iff.2 ⟨"report".toList ++ v, rfl⟩), branch_none (.inr (.inr (.inl hb)))]
  simp only []
  rw [if_neg (hne _ (by decide +kernel)), if_neg (hne _ (by decide +kernel)), if_neg (hne _ (by decide +kernel)), if_neg (hne _ (by decide +kernel)),
    if_neg (hne _ (by decide +kernel)), if_neg (by rintro (e | e) <;> exact hne _ (by decide +kernel) e), if_neg hj, if_pos hb]

/-- each branch is for its arguments only -/
theorem kind_inv (env : Env) (a : Arg) : match kind env a with
    | .flag b => branch env.windows a = some b
    | .trim => a = "-cachetrim".toList
    | .level dist => a = (if dist then "-distcompressionlevel" else "-cachecompressionlevel").toList
    | .config => a = "-config".toList
    | .db => a = "-dbfile".toList
    | .quit => a = "-help".toList ∨ a = "-version".toList
    | .jobs n => ∃ v, a = '-' :: 'j' :: v ∧ env.scanU v = some n
    | .report => ∃ v, a = "-report".toList ++ v
    | .source => a = "-sourcefile".toList
    | .unknown => True
    | .target => begins "-" a = false := by
  unfold kind
  by_cases hd : begins "-" a = true
  · rw [if_pos hd]
    cases hb : branch env.windows a with
    | some b => rfl
    | none =>
      simp only []
      by_cases e : a = "-cachetrim".toList
      · rw [if_pos e]; exact e
      rw [if_neg e]; clear e
      by_cases e : a = "-cachecompressionlevel".toList
      · rw [if_pos e]; exact e
      rw [if_neg e]; clear e
      by_cases e : a = "-distcompressionlevel".toList
      · rw [if_pos e]; exact e
      rw [if_neg e]; clear e
      by_cases e : a = "-config".toList
      · rw [if_pos e]; exact e
      rw [if_neg e]; clear e
      by_cases e : a = "-dbfile".toList
      · rw [if_pos e]; exact e
      rw [if_neg e]; clear e
      by_cases e : a = "-help".toList ∨ a = "-version".toList
      · rw [if_pos e]; exact e
      rw [if_neg e]; clear e
      by_cases e : begins "-j" a = true ∧ (env.scanU (a.drop 2)).isSome = true
      · rw [if_pos e]
        obtain ⟨v, rfl⟩ := begins_iff.1 e.1
        obtain ⟨n, hn⟩ := Option.isSome_iff_exists.1 e.2
        rw [hn]
        exact ⟨v, rfl, hn⟩
      rw [if_neg e]; clear e
      by_cases e : begins "-report" a = true
      · rw [if_pos e]; exact begins_iff.1 e
      rw [if_neg e]; clear e
      by_cases e : a = "-sourcefile".toList
      · rw [if_pos e]; exact e
      rw [if_neg e]
      trivial
  · rw [if_neg hd]
    simpa using hd

theorem step_eq {env : Env} {first : Bool} {a : Arg} {next : Option Arg} {o : Opts} (hw : ¬ (env.windows ∧ o.mode = .none ∧ a = "-wsl".toList))
    (hm : o.mode ≠ .wsl) : step env first a next o = perform env a next (if begins "-" a then (spaced o).add a else spaced o) (kind env a) := by
  unfold step
  rw [if_neg hw, if_neg (by rw [(spaced_same o).1]; exact hm)]

theorem text_trim (v : Arg) (n : Nat) : (Item.trim v n).text = "-cachetrim".toList ++ ' ' :: v := by
  show "-cachetrim ".toList ++ v = _
  rw [show "-cachetrim ".toList = "-cachetrim".toList ++ [' '] by decide +kernel, List.append_assoc]
  rfl

theorem text_level (dist : Bool) (v : Arg) (n : Int) :
    (Item.level dist v n).text = (if dist then "-distcompressionlevel" else "-cachecompressionlevel").toList ++ ' ' :: v := by
  cases dist
  · show "-cachecompressionlevel ".toList ++ v = "-cachecompressionlevel".toList ++ _
    rw [show "-cachecompressionlevel ".toList = "-cachecompressionlevel".toList ++ [' '] by decide +kernel, List.append_assoc]
    rfl
  · show "-distcompressionlevel ".toList ++ v = "-distcompressionlevel".toList ++ _
    rw [show "-distcompressionlevel ".toList = "-distcompressionlevel".toList ++ [' '] by decide +kernel, List.append_assoc]
    rfl

theorem text_config (v : Arg) : (Item.config v).text = "-config".toList ++ ' ' :: quote v := by
  show "-config ".toList ++ quote v = _
  rw [show "-config ".toList = "-config".toList ++ [' '] by decide +kernel, List.append_assoc]
  rfl

theorem text_db (v : Arg) : (Item.db v).text = "-dbfile".toList ++ ' ' :: quote v := by
  show "-dbfile ".toList ++ quote v = _
  rw [show "-dbfile ".toList = "-dbfile".toList ++ [' '] by decide +kernel, List.append_assoc]
  rfl

theorem text_source (v : Arg) : (Item.source (some v)).text = "-sourcefile".toList ++ ' ' :: v := by
  show "-sourcefile ".toList ++ v = _
  rw [show "-sourcefile ".toList = "-sourcefile".toList ++ [' '] by decide +kernel, List.append_assoc]
  rfl

theorem text_jobs (v : Arg) (n : Nat) : (Item.jobs v n).text = '-' :: 'j' :: v := by
  show "-j".toList ++ v = _
  rfl

/-- text added in two parts -/
theorem two_parts {f : Opts → Opts} (hf : ∀ o x, f (o.add x) = (f o).add x) (o : Opts) {t a b : Arg} (h : t = a ++ b) : (f (o.add a)).add b = f (o.add t) := by
  subst h
  rw [hf, hf]
  simp [Opts.add]

theorem perform_report {env : Env} {a t : Arg} {next : Option Arg} (h : ReportOf a t) (o : Opts) :
    perform env a next o .report = .next false { o with report := t } := by
  unfold perform
  rcases h with ⟨x, y, l, e1, rfl, e3⟩ | ⟨e1, rfl⟩
  · rw [e1]
    exact if_pos e3
  · match ht : tokenize '=' a with
    | [] => rfl
    | [x] => rfl
    | x :: y :: l => rw [ht] at e1; simp at e1; omega

theorem step_of_one {env : Env} {first had skip : Bool} {a : Arg} {next : Option Arg} {o : Opts} {i : Item} (hw : ¬ (env.windows ∧ o.mode = .none ∧ a = "-wsl".toList))
    (hm : o.mode ≠ .wsl) (hh : had = true ↔ o.sources ≠ []) (h : One env had a next i skip) : step env first a next o = .next skip (i.take env o) := by
  rw [step_eq hw hm]
  have hs := (spaced_same o).2
  unfold Item.take
  generalize spaced o = p at hs ⊢
  cases h with
  | flag h1 =>
    obtain ⟨b, hb⟩ := isFlag_iff.1 h1
    have hd : begins "-" a = true := (flag_names h1).1
    have e1 : (Item.flag a).update env (p.add a) = { p.add a with flags := assign (b.sets ++ (if env.windows then b.winSets else [])) (p.add a).flags
                                                                  mode := if env.windows then b.mode.getD (p.add a).mode else (p.add a).mode } := by
      unfold Item.update
      simp only [hb]
    rw [if_pos hd, kind_flag hb]
    exact congrArg (Step.next false) e1.symm
  | @trim had v n h1 =>
    rw [if_pos (show begins "-" "-cachetrim".toList = true by decide +kernel), kind_trim]
    simp only [perform, Option.bind_some, h1]
    exact congrArg (Step.next true) (two_parts (f := fun o => { o with cacheTrim := n }) (fun _ _ => rfl) p (text_trim v n))
  | @level had dist v n h1 h2 h3 =>
    rw [kind_level, if_pos (show begins "-" (if dist then "-distcompressionlevel" else "-cachecompressionlevel").toList = true by cases dist <;> decide +kernel)]
    simp only [perform, Option.bind_some, h1]
    rw [if_neg (by omega)]
    exact congrArg (Step.next true) (two_parts (f := fun o => if dist then { o with distLevel := n } else { o with cacheLevel := n })
      (fun o x => by cases dist <;> rfl) p (text_level dist v n))
  | @config had v =>
    rw [if_pos (show begins "-" "-config".toList = true by decide +kernel), kind_config]
    exact congrArg (Step.next true) (two_parts (f := fun o => { o with config := v }) (fun _ _ => rfl) p (text_config v))
  | @db had v =>
    rw [if_pos (show begins "-" "-dbfile".toList = true by decide +kernel), kind_db]
    exact congrArg (Step.next true) (two_parts (f := fun o => { o with dbFile := v }) (fun _ _ => rfl) p (text_db v))
  | @jobs had v n next h1 h2 =>
    rw [if_pos (show begins "-" ('-' :: 'j' :: v) = true from begins_iff.2 ⟨'j' :: v, rfl⟩), kind_jobs h1, text_jobs]
    simp only [perform, if_pos h2, Item.update]
  | @report had v t next h1 =>
    rw [if_pos (show begins "-" ("-report".toList ++ v) = true from begins_iff.2 ⟨"report".toList ++ v, rfl⟩), kind_report]
    rw [perform_report h1]
    rfl
  | @source had v h1 =>
    rw [if_pos (show begins "-" "-sourcefile".toList = true by decide +kernel), kind_source]
    have : ¬ (o.sources ++ tokenize ';' v = []) := by
      rcases h1 with h1 | h1
      · simp [hh.1 h1]
      · simp [h1]
    have h2 := two_parts (f := fun o => { o with sources := o.sources ++ tokenize ';' v }) (fun _ _ => rfl) p (text_source v)
    simp only [perform]
    rw [if_neg (by rw [← hs] at this; exact this)]
    exact congrArg (Step.next true) h2
  | sourceEnd =>
    rw [if_pos (show begins "-" "-sourcefile".toList = true by decide +kernel), kind_source]
    simp only [perform]
    rw [if_neg (by have := hh.1 rfl; rw [← hs] at this; exact this)]
    rfl
  | target h1 =>
    have hd : begins "-" a = false := by
      cases h : begins "-" a with
      | false => rfl
      | true => exact absurd (begins_dash.1 h) h1
    rw [hd, kind_target hd]
    rfl

theorem one_of_step {env : Env} {first had skip : Bool} {a : Arg} {next : Option Arg} {o o' : Opts} (hw : ¬ (env.windows ∧ o.mode = .none ∧ a = "-wsl".toList))
    (hm : o.mode ≠ .wsl) (hh : had = true ↔ o.sources ≠ []) (h : step env first a next o = .next skip o') : ∃ i, One env had a next i skip := by
  rw [step_eq hw hm] at h
  have hs : (if begins "-" a then (spaced o).add a else spaced o).sources = o.sources := by
    split
    · exact (spaced_same o).2
    · exact (spaced_same o).2
  generalize (if begins "-" a then (spaced o).add a else spaced o) = p at h hs
  have hk := kind_inv env a
  cases hkk : kind env a with
  | flag b =>
    rw [hkk] at h hk
    simp only [perform, Step.next.injEq] at h
    rw [← h.1]
    exact ⟨_, .flag (isFlag_iff.2 ⟨b, hk⟩)⟩
  | trim =>
    rw [hkk] at h hk
    simp only at hk
    subst hk
    simp only [perform] at h
    split at h
    · next n v h1 =>
      simp only [Option.bind_some] at h1
      cases h
      exact ⟨_, .trim h1⟩
    · cases h
  | level dist =>
    rw [hkk] at h hk
    simp only at hk
    subst hk
    simp only [perform] at h
    split at h
    · next n v h1 =>
      simp only [Option.bind_some] at h1
      split at h
      · cases h
      · simp only [Step.next.injEq] at h
        rw [← h.1]
        exact ⟨_, .level h1 (by omega) (by omega)⟩
    · cases h
  | config =>
    rw [hkk] at h hk
    simp only at hk
    subst hk
    simp only [perform] at h
    split at h
    · cases h; exact ⟨_, .config⟩
    · cases h
  | db =>
    rw [hkk] at h hk
    simp only at hk
    subst hk
    simp only [perform] at h
    split at h
    · cases h; exact ⟨_, .db⟩
    · cases h
  | quit => rw [hkk] at h; cases h
  | jobs n =>
    rw [hkk] at h hk
    obtain ⟨v, rfl, hn⟩ := hk
    simp only [perform] at h
    split at h
    · next hl => cases h; exact ⟨_, .jobs hn hl⟩
    · cases h
  | report =>
    rw [hkk] at h hk
    obtain ⟨v, rfl⟩ := hk
    simp only [perform] at h
    split at h
    · next x t l ht =>
      split at h
      · next hl => cases h; exact ⟨_, .report (.inl ⟨x, t, l, ht, rfl, hl⟩)⟩
      · cases h
    · next hne =>
      cases h
      refine ⟨_, .report (.inr ⟨?_, rfl⟩)⟩
      match ht : tokenize '=' ("-report".toList ++ v) with
      | [] => simp
      | [x] => simp
      | x :: y :: l => exact absurd ht (hne x y l)
  | source =>
    rw [hkk] at h hk
    simp only at hk
    subst hk
    simp only [perform] at h
    split at h
    · next v =>
      split at h
      · cases h
      · next hne =>
        cases h
        refine ⟨_, .source ?_⟩
        by_cases hx : tokenize ';' v = []
        · exact .inl (hh.2 (by simpa [hx, Opts.add, hs] using hne))
        · exact .inr hx
    · split at h
      · cases h
      · next hne =>
        cases h
        rw [hh.2 (by rw [← hs]; exact hne)]
        exact ⟨_, .sourceEnd⟩
  | unknown => rw [hkk] at h; cases h
  | target =>
    rw [hkk] at h hk
    simp only [perform, Step.next.injEq] at h
    rw [← h.1]
    refine ⟨_, .target (fun e => ?_)⟩
    rw [begins_dash.2 e] at hk
    cases hk

end Verif.Cmd
