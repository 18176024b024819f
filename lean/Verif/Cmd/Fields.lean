import Verif.Cmd.Proof
/-
The fields after a list of items.
-/
namespace Verif.Cmd
open Verif.Str (tokenize lower)

/-! ### the loop -/

theorem one_not_wsl {env : Env} {had skip : Bool} {a : Arg} {next : Option Arg} {i : Item} (h : One env had a next i skip) : a ≠ "-wsl".toList := by
  cases h with
  | flag h1 => intro e; exact (flag_names h1).2.2.2 (by rw [e]; decide +kernel)
  | trim _ => decide +kernel
  | @level _ dist _ _ _ _ _ => cases dist <;> decide +kernel
  | config => decide +kernel
  | db => decide +kernel
  | @jobs _ v _ _ _ _ => intro e; have := congrArg (·.take 2) e; simp at this
  | @report _ v _ _ _ => intro e; have := congrArg (·.take 2) e; simp at this
  | source _ => decide +kernel
  | sourceEnd => decide +kernel
  | target h1 => rintro rfl; exact h1 (by decide +kernel)

theorem mode_table : ∀ b ∈ branches, b.mode ≠ some .wsl := by decide +kernel

theorem spaced_add (o : Opts) (t : Arg) : (spaced o).add t = { o with args := if o.args = [] then t else o.args ++ ' ' :: t } := by
  unfold spaced Opts.add
  split
  · next h => simp [h]
  · simp

theorem branch_mem {w : Bool} {a : Arg} {b : Branch} (h : branch w a = some b) : b ∈ branches ∧ b.name.toList = a := by
  unfold branch at h
  have h1 := List.find?_some h
  simp only [Bool.and_eq_true, decide_eq_true_eq] at h1
  exact ⟨List.mem_of_find?_eq_some h, h1.1⟩

theorem take_mode {env : Env} {o : Opts} (i : Item) (h : o.mode ≠ .wsl) : (i.take env o).mode ≠ .wsl := by
  unfold Item.take
  rw [spaced_add]
  cases i with
  | flag a =>
    unfold Item.update
    cases hb : branch env.windows a with
    | none => simpa [hb] using h
    | some b =>
      simp only [hb]
      split
      · cases hm : b.mode with
        | none => simpa using h
        | some m =>
          have := mode_table b (branch_mem hb).1
          rw [hm] at this
          simpa using this
      · exact h
  | level dist v n => cases dist <;> exact h
  | source v => cases v <;> exact h
  | trim v n => exact h
  | config v => exact h
  | db v => exact h
  | jobs v n => exact h
  | report v t => exact h
  | target a => exact h

theorem take_sources {env : Env} {o : Opts} (i : Item) : (i.take env o).sources = o.sources ++ sourcesOf i := by
  unfold Item.take
  rw [spaced_add]
  cases i with
  | flag a =>
    unfold Item.update sourcesOf
    cases hb : branch env.windows a <;> simp [hb]
  | level dist v n => cases dist <;> simp [Item.update, sourcesOf]
  | source v => cases v <;> simp [Item.update, sourcesOf]
  | trim v n => simp [Item.update, sourcesOf]
  | config v => simp [Item.update, sourcesOf]
  | db v => simp [Item.update, sourcesOf]
  | jobs v n => simp [Item.update, sourcesOf]
  | report v t => simp [Item.update, sourcesOf]
  | target a => simp [Item.update, sourcesOf]

theorem take_had {env : Env} {had skip : Bool} {a : Arg} {next : Option Arg} {i : Item} {o : Opts} (h : One env had a next i skip)
    (hh : had = true ↔ o.sources ≠ []) : i.had had = true ↔ (i.take env o).sources ≠ [] := by
  rw [take_sources]
  cases h with
  | source h1 =>
    simp only [Item.had, sourcesOf, true_iff]
    rcases h1 with h1 | h1
    · simp [hh.1 h1]
    · simp [h1]
  | sourceEnd => simpa [Item.had, sourcesOf] using hh
  | flag _ => simpa [Item.had, sourcesOf] using hh
  | trim _ => simpa [Item.had, sourcesOf] using hh
  | level _ _ _ => simpa [Item.had, sourcesOf] using hh
  | config => simpa [Item.had, sourcesOf] using hh
  | db => simpa [Item.had, sourcesOf] using hh
  | jobs _ _ => simpa [Item.had, sourcesOf] using hh
  | report _ => simpa [Item.had, sourcesOf] using hh
  | target _ => simpa [Item.had, sourcesOf] using hh

theorem loop_skip {env : Env} {skip : Bool} {l : List Arg} {o : Opts} : loop env false skip l o = loop env false false (if skip then l.tail else l) o := by
  cases skip with
  | false => rfl
  | true =>
    cases l with
    | nil => rfl
    | cons a l => rfl

theorem loop_iff {env : Env} {o' : Opts} : ∀ (k : Nat) (l : List Arg) (o : Opts) (had first : Bool), l.length ≤ k → o.mode ≠ .wsl → (had = true ↔ o.sources ≠ []) →
    (first = true → env.windows = true → l.head? ≠ some "-wsl".toList) →
    (loop env first false l o = .ok o' ↔ ∃ is, Items env had l is ∧ finish env (is.foldl (Item.take env) o) = .ok o') := by
  intro k
  induction k with
  | zero =>
    intro l o had first hl _ _ _
    cases l with
    | nil =>
      simp only [loop]
      constructor
      · intro h; exact ⟨[], .nil, h⟩
      · rintro ⟨is, h, h'⟩; cases h; exact h'
    | cons a l => simp at hl
  | succ k ih =>
    intro l o had first hl hm hh hw
    cases l with
    | nil =>
      simp only [loop]
      constructor
      · intro h; exact ⟨[], .nil, h⟩
      · rintro ⟨is, h, h'⟩; cases h; exact h'
    | cons a l =>
      have hlen : ∀ s : Bool, (if s = true then l.tail else l).length ≤ k := by
        intro s
        simp only [List.length_cons] at hl
        cases s <;> simp <;> omega
      constructor
      · intro h
        have hw' : ¬ (env.windows ∧ o.mode = .none ∧ a = "-wsl".toList) := by
          rintro ⟨h1, h2, rfl⟩
          cases first with
          | true => exact hw rfl h1 rfl
          | false =>
            simp only [loop, step, h1, h2, true_and, if_true] at h
            simp at h
        simp only [loop] at h
        cases hs : step env first a l.head? o with
        | error => rw [hs] at h; simp at h
        | quit => rw [hs] at h; simp at h
        | next skip o1 =>
          obtain ⟨i, hi⟩ := one_of_step hw' hm hh hs
          have e := step_of_one (first := first) hw' hm hh hi
          rw [e] at h
          simp only [Bool.false_eq_true, if_false] at h
          rw [loop_skip, ih _ _ (i.had had) false (hlen skip) (take_mode i hm) (take_had hi hh) (by simp)] at h
          obtain ⟨is, h1, h2⟩ := h
          exact ⟨i :: is, items_cons.2 ⟨i, skip, is, rfl, hi, h1⟩, h2⟩
      · rintro ⟨is, h, h'⟩
        obtain ⟨i, skip, is', rfl, hi, hrest⟩ := items_cons.1 h
        have hw' : ¬ (env.windows ∧ o.mode = .none ∧ a = "-wsl".toList) := fun ⟨_, _, h⟩ => one_not_wsl hi h
        simp only [loop, step_of_one (first := first) hw' hm hh hi, Bool.false_eq_true, if_false]
        rw [loop_skip, ih _ _ (i.had had) false (hlen skip) (take_mode i hm) (take_had hi hh) (by simp)]
        exact ⟨is', hrest, h'⟩

/-! ### the last item that says something -/

theorem lastOf_cons {α : Type} (f : Item → Option α) (d : α) (i : Item) (is : List Item) : lastOf f d (i :: is) = lastOf f ((f i).getD d) is := by
  unfold lastOf
  cases h : f i with
  | none => simp [h]
  | some x =>
    rw [List.filterMap_cons_some h]
    cases hl : is.filterMap f with
    | nil => simp
    | cons y l => simp [List.getLast?_cons_cons, List.getLast?_cons]

theorem lastOf_nil {α : Type} (f : Item → Option α) (d : α) : lastOf f d [] = d := rfl

theorem lastOf_none {α : Type} {f : Item → Option α} (d : α) {is : List Item} (h : ∀ i ∈ is, f i = none) : lastOf f d is = d := by
  induction is with
  | nil => rfl
  | cons i is ih => rw [lastOf_cons, h i (by simp)]; exact ih (fun x hx => h x (by simp [hx]))

theorem lastOf_some {α : Type} {f : Item → Option α} (d d' : α) {is : List Item} (h : ∃ i ∈ is, f i ≠ none) : lastOf f d is = lastOf f d' is := by
  induction is generalizing d d' with
  | nil => obtain ⟨i, hi, _⟩ := h; cases hi
  | cons i is ih =>
    rw [lastOf_cons, lastOf_cons]
    cases hf : f i with
    | some x => rfl
    | none =>
      obtain ⟨j, hj, hn⟩ := h
      rcases List.mem_cons.1 hj with rfl | hj
      · exact absurd hf hn
      · exact ih _ _ ⟨j, hj, hn⟩

theorem lastOf_const {α : Type} {f : Item → Option α} {c d : α} {is : List Item} (hf : ∀ i x, f i = some x → x = c) (h : ∃ i ∈ is, f i ≠ none) :
    lastOf f d is = c := by
  induction is generalizing d with
  | nil => obtain ⟨i, hi, _⟩ := h; cases hi
  | cons i is ih =>
    rw [lastOf_cons]
    by_cases hx : ∃ i ∈ is, f i ≠ none
    · exact ih hx
    · have hn : ∀ i ∈ is, f i = none := fun i hi => Classical.byContradiction fun e => hx ⟨i, hi, e⟩
      rw [lastOf_none _ hn]
      obtain ⟨j, hj, hjn⟩ := h
      rcases List.mem_cons.1 hj with rfl | hj
      · cases e : f j with
        | none => exact absurd e hjn
        | some x => exact hf j x e
      · exact absurd (hn j hj) hjn

/-- the flags of the items are known -/
def Fine (env : Env) : Item → Prop
  | .flag a => IsFlag env.windows a
  | _ => True

theorem items_fine {env : Env} {had : Bool} {l : List Arg} {is : List Item} (h : Items env had l is) : ∀ i ∈ is, Fine env i := by
  induction h with
  | nil => simp
  | flag h1 _ ih => simpa using ⟨h1, ih⟩
  | trim _ _ ih => simpa [Fine] using ih
  | level _ _ _ _ ih => simpa [Fine] using ih
  | config _ ih => simpa [Fine] using ih
  | db _ ih => simpa [Fine] using ih
  | jobs _ _ _ ih => simpa [Fine] using ih
  | report _ _ ih => simpa [Fine] using ih
  | source _ _ ih => simpa [Fine] using ih
  | sourceEnd => simp [Fine]
  | target _ _ ih => simpa [Fine] using ih

theorem fold_last {α : Type} {env : Env} (g : Item → Option α) (x : Opts → α) (h : ∀ o i, Fine env i → x (i.take env o) = (g i).getD (x o)) :
    ∀ (is : List Item) (o : Opts), (∀ i ∈ is, Fine env i) → x (is.foldl (Item.take env) o) = lastOf g (x o) is := by
  intro is
  induction is with
  | nil => intro o _; rfl
  | cons i is ih =>
    intro o hf
    rw [List.foldl_cons, ih _ (fun j hj => hf j (by simp [hj])), lastOf_cons, h o i (hf i (by simp))]

/-! ### flags -/

def Fld.all : List Fld := [.continueAfterDBMove, .useCacheRead, .useCacheWrite, .cacheInfo, .cacheVerbose, .forceCleanBuild, .generateCompilationDatabase,
  .allowDistributed, .distVerbose, .generateDotGraph, .generateDotGraphFull, .fixupErrorPaths, .noLocalConsumptionOfRemoteJobs,
  .allowLocalRace, .showProgress, .progressSpecified, .enableMonitor, .fastCancel, .stopOnFirstError, .showSummary, .noSummaryOnError, .noUnity,
  .profile, .showCommandSummary, .showTotalTimeTaken, .showVerbose, .showCommandLines, .showCommandOutput, .displayDependencyDB,
  .displayTargetList, .showHiddenTargets, .waitMode, .showBuildReason]

theorem Fld.mem_all (f : Fld) : f ∈ Fld.all := by cases f <;> decide

/-- the value assigned to a field -/
def assigned (l : List (Fld × Bool)) (f : Fld) : Option Bool := (l.filterMap fun p => if f = p.1 then some p.2 else none).getLast?

theorem assign_eq : ∀ (l : List (Fld × Bool)) (g : Fld → Bool) (f : Fld), assign l g f = (assigned l f).getD (g f) := by
  intro l
  induction l with
  | nil => intro g f; rfl
  | cons p l ih =>
    intro g f
    rw [assign, List.foldl_cons]
    have := ih (fun x => if x = p.1 then p.2 else g x) f
    rw [assign] at this
    rw [this]
    unfold assigned
    by_cases h : f = p.1
    · rw [List.filterMap_cons_some (b := p.2) (by simp [h]), if_pos h]
      cases hl : l.filterMap (fun p => if f = p.1 then some p.2 else none) with
      | nil => simp
      | cons y t => simp [List.getLast?_cons_cons, List.getLast?_cons]
    · rw [List.filterMap_cons_none (by simp [h]), if_neg h]

theorem flags_table : ∀ w : Bool, ∀ b ∈ branches, ∀ f ∈ Fld.all,
    assigned (b.sets ++ (if w then b.winSets else [])) f = switch (switches w f).1 (switches w f).2 (.flag b.name.toList) := by
  intro w
  cases w <;> decide +kernel

theorem take_flags {env : Env} (f : Fld) (o : Opts) (i : Item) (hi : Fine env i) :
    (i.take env o).flags f = (switch (switches env.windows f).1 (switches env.windows f).2 i).getD (o.flags f) := by
  unfold Item.take
  rw [spaced_add]
  cases i with
  | flag a =>
    obtain ⟨b, hb⟩ := isFlag_iff.1 hi
    unfold Item.update
    simp only [hb]
    rw [assign_eq, flags_table env.windows b (branch_mem hb).1 f (Fld.mem_all f), (branch_mem hb).2]
  | level dist v n => cases dist <;> rfl
  | source v => cases v <;> rfl
  | trim v n => rfl
  | config v => rfl
  | db v => rfl
  | jobs v n => rfl
  | report v t => rfl
  | target a => rfl

theorem modes_table : ∀ w : Bool, ∀ b ∈ branches, (if w then b.mode else none) = modeOf w (.flag b.name.toList) := by
  intro w
  cases w <;> decide +kernel

theorem take_modeOf {env : Env} (o : Opts) (i : Item) (hi : Fine env i) : (i.take env o).mode = (modeOf env.windows i).getD o.mode := by
  unfold Item.take
  rw [spaced_add]
  cases i with
  | flag a =>
    obtain ⟨b, hb⟩ := isFlag_iff.1 hi
    unfold Item.update
    simp only [hb]
    rw [← (branch_mem hb).2, ← modes_table env.windows b (branch_mem hb).1]
    split <;> rfl
  | level dist v n => cases dist <;> rfl
  | source v => cases v <;> rfl
  | trim v n => rfl
  | config v => rfl
  | db v => rfl
  | jobs v n => rfl
  | report v t => rfl
  | target a => rfl

/-- fields that only one kind of item is about -/
theorem take_value {env : Env} (o : Opts) (i : Item) : (i.take env o).cacheTrim = (trimOf i).getD o.cacheTrim ∧
    (i.take env o).cacheLevel = (levelOf false i).getD o.cacheLevel ∧ (i.take env o).distLevel = (levelOf true i).getD o.distLevel ∧
    (i.take env o).config = (configOf i).getD o.config ∧ (i.take env o).dbFile = (dbOf i).getD o.dbFile ∧
    (i.take env o).threads = (jobsOf i).getD o.threads ∧ (i.take env o).report = (reportOf i).getD o.report ∧
    (i.take env o).wslPath = o.wslPath ∧ (i.take env o).targets = o.targets ++ (targetOf i).toList ∧
    (i.take env o).args = if o.args = [] then i.text else o.args ++ ' ' :: i.text := by
  unfold Item.take
  rw [spaced_add]
  generalize i.text = t
  cases i with
  | flag a =>
    unfold Item.update
    cases hb : branch env.windows a <;> simp [hb, trimOf, levelOf, configOf, dbOf, jobsOf, reportOf, targetOf]
  | level dist v n => cases dist <;> simp [Item.update, trimOf, levelOf, configOf, dbOf, jobsOf, reportOf, targetOf]
  | source v => cases v <;> simp [Item.update, trimOf, levelOf, configOf, dbOf, jobsOf, reportOf, targetOf]
  | trim v n => simp [Item.update, trimOf, levelOf, configOf, dbOf, jobsOf, reportOf, targetOf]
  | config v => simp [Item.update, trimOf, levelOf, configOf, dbOf, jobsOf, reportOf, targetOf]
  | db v => simp [Item.update, trimOf, levelOf, configOf, dbOf, jobsOf, reportOf, targetOf]
  | jobs v n => simp [Item.update, trimOf, levelOf, configOf, dbOf, jobsOf, reportOf, targetOf]
  | report v t => simp [Item.update, trimOf, levelOf, configOf, dbOf, jobsOf, reportOf, targetOf]
  | target a => simp [Item.update, trimOf, levelOf, configOf, dbOf, jobsOf, reportOf, targetOf]

theorem fold_lists {env : Env} : ∀ (is : List Item) (o : Opts), (is.foldl (Item.take env) o).targets = o.targets ++ is.filterMap targetOf ∧
    (is.foldl (Item.take env) o).sources = o.sources ++ is.flatMap sourcesOf ∧ (is.foldl (Item.take env) o).wslPath = o.wslPath := by
  intro is
  induction is with
  | nil => intro o; simp
  | cons i is ih =>
    intro o
    obtain ⟨h1, h2, h3⟩ := ih (i.take env o)
    obtain ⟨_, _, _, _, _, _, _, e1, e2, _⟩ := take_value (env := env) o i
    rw [List.foldl_cons, h1, h2, h3, take_sources, e1, e2]
    cases ht : targetOf i <;> simp [ht, List.filterMap_cons]


theorem text_ne {env : Env} {i : Item} (hi : Fine env i) : i.text ≠ [] := by
  have hne : ∀ (s : Arg) (c : Char) (v : Arg), s ++ c :: v ≠ [] := by intro s c v; simp
  cases i with
  | flag a =>
    have hi' : IsFlag env.windows a := hi
    have hb : begins "-" a = true := (flag_names hi').1
    have hc := begins_dash.1 hb
    show a ≠ []
    rintro rfl
    simp at hc
  | level dist v n => rw [text_level]; exact hne _ _ _
  | source v =>
    cases v with
    | none =>
      have e : "-sourcefile".toList ≠ [] := by decide +kernel
      exact e
    | some v => rw [text_source]; exact hne _ _ _
  | trim v n => rw [text_trim]; exact hne _ _ _
  | config v => rw [text_config]; exact hne _ _ _
  | db v => rw [text_db]; exact hne _ _ _
  | jobs v n => rw [text_jobs]; simp
  | report v t =>
    show "-report".toList ++ v ≠ []
    intro h
    exact absurd (List.append_eq_nil_iff.1 h).1 (by decide +kernel)
  | target a => exact fun h => absurd (congrArg List.length h) (by show (quote a).length ≠ 0; simp [quote])

theorem joined_cons (a t : Arg) (l : List Arg) : joined ((a ++ ' ' :: t) :: l) = joined (a :: t :: l) := by
  cases l with
  | nil => simp [joined]
  | cons b l => simp [joined]

theorem fold_args {env : Env} : ∀ (is : List Item) (o : Opts), (∀ i ∈ is, Fine env i) → o.args ≠ [] →
    (is.foldl (Item.take env) o).args = joined (o.args :: is.map Item.text) := by
  intro is
  induction is with
  | nil => intro o _ _; rfl
  | cons i is ih =>
    intro o hf ho
    have e := (take_value (env := env) o i).2.2.2.2.2.2.2.2.2
    rw [if_neg ho] at e
    rw [List.foldl_cons, ih _ (fun j hj => hf j (by simp [hj])) (by rw [e]; simp), e, joined_cons]
    rfl

theorem fold_args_nil {env : Env} (is : List Item) (o : Opts) (hf : ∀ i ∈ is, Fine env i) (ho : o.args = []) :
    (is.foldl (Item.take env) o).args = joined (is.map Item.text) := by
  cases is with
  | nil => exact ho
  | cons i is =>
    have e := (take_value (env := env) o i).2.2.2.2.2.2.2.2.2
    rw [if_pos ho] at e
    rw [List.foldl_cons, fold_args is _ (fun j hj => hf j (by simp [hj])) (by rw [e]; exact text_ne (hf i (by simp))), e]
    rfl

end Verif.Cmd
