import Verif.Cmd.Fields
/-
C98: what a command line means, and what the wrapper processes are given.
-/
namespace Verif.Cmd
open Verif.Str (tokenize lower)

theorem switch_true {on : List String} {i : Item} {x : Bool} (h : switch on [] i = some x) : x = true := by
  unfold switch at h
  split at h
  · split at h
    · simp at h; exact h
    · simp at h
  · cases h

/-- a list of flags is split in any way -/
theorem switch_none {on off on' off' : List String} (h : ∀ s, s ∈ on ++ off ↔ s ∈ on' ++ off') (i : Item) : switch on off i = none ↔ switch on' off' i = none := by
  have key : ∀ (on off : List String), switch on off i = none ↔ ∀ a, i = .flag a → ∀ s ∈ on ++ off, a ≠ s.toList := by
    intro on off
    cases i with
    | flag a =>
      simp only [switch]
      split
      · next h1 =>
        obtain ⟨s, hs, rfl⟩ := List.mem_map.1 h1
        simp only [reduceCtorEq, false_iff]
        intro h
        exact h _ rfl s (by simp [hs]) rfl
      · next h1 =>
        split
        · next h2 =>
          obtain ⟨s, hs, rfl⟩ := List.mem_map.1 h2
          simp only [reduceCtorEq, false_iff]
          intro h
          exact h _ rfl s (by simp [hs]) rfl
        · next h2 =>
          simp only [true_iff]
          rintro b hb s hs rfl
          cases hb
          rcases List.mem_append.1 hs with hs | hs
          · exact h1 (List.mem_map.2 ⟨s, hs, rfl⟩)
          · exact h2 (List.mem_map.2 ⟨s, hs, rfl⟩)
    | trim _ _ => simp [switch]
    | level _ _ _ => simp [switch]
    | config _ => simp [switch]
    | db _ => simp [switch]
    | jobs _ _ => simp [switch]
    | report _ _ => simp [switch]
    | source _ => simp [switch]
    | target _ => simp [switch]
  rw [key, key]
  constructor <;> intro hh a ha s hs
  · exact hh a ha s ((h s).2 hs)
  · exact hh a ha s ((h s).1 hs)

/-- an option that can only be switched on -/
theorem on_iff {on : List String} {is : List Item} : lastOf (switch on []) false is = true ↔ ∃ i ∈ is, switch on [] i ≠ none := by
  constructor
  · intro h
    refine Classical.byContradiction fun hn => ?_
    rw [lastOf_none _ (fun i hi => Classical.byContradiction fun e => hn ⟨i, hi, e⟩)] at h
    cases h
  · exact lastOf_const (fun _ _ => switch_true)

/-- the options before the loop is left -/
structure Base (env : Env) (is : List Item) (o : Opts) : Prop where
  flags : ∀ f, o.flags f = lastOf (switch (switches env.windows f).1 (switches env.windows f).2) (initial f) is
  mode : o.mode = lastOf (modeOf env.windows) .none is
  targets : o.targets = is.filterMap targetOf
  sources : o.sources = is.flatMap sourcesOf
  trim : o.cacheTrim = lastOf trimOf 0 is
  cacheLevel : o.cacheLevel = lastOf (levelOf false) 1 is
  distLevel : o.distLevel = lastOf (levelOf true) (-1) is
  config : o.config = lastOf configOf [] is
  db : o.dbFile = lastOf dbOf [] is
  threads : o.threads = lastOf jobsOf env.cores is
  report : o.report = lastOf reportOf [] is
  wsl : o.wslPath = []
  args : o.args = joined (is.map Item.text)

theorem fold_base {env : Env} {is : List Item} (hf : ∀ i ∈ is, Fine env i) : Base env is (is.foldl (Item.take env) { threads := env.cores }) where
  flags f := fold_last (env := env) _ (fun o => o.flags f) (fun o i hi => take_flags f o i hi) is _ hf
  mode := fold_last (env := env) _ (fun o => o.mode) (fun o i hi => take_modeOf o i hi) is _ hf
  targets := by rw [(fold_lists is _).1]; rfl
  sources := by rw [(fold_lists is _).2.1]; rfl
  trim := fold_last (env := env) _ (fun o => o.cacheTrim) (fun o i _ => (take_value o i).1) is _ hf
  cacheLevel := fold_last (env := env) _ (fun o => o.cacheLevel) (fun o i _ => (take_value o i).2.1) is _ hf
  distLevel := fold_last (env := env) _ (fun o => o.distLevel) (fun o i _ => (take_value o i).2.2.1) is _ hf
  config := fold_last (env := env) _ (fun o => o.config) (fun o i _ => (take_value o i).2.2.2.1) is _ hf
  db := fold_last (env := env) _ (fun o => o.dbFile) (fun o i _ => (take_value o i).2.2.2.2.1) is _ hf
  threads := fold_last (env := env) _ (fun o => o.threads) (fun o i _ => (take_value o i).2.2.2.2.2.1) is _ hf
  report := fold_last (env := env) _ (fun o => o.report) (fun o i _ => (take_value o i).2.2.2.2.2.2.1) is _ hf
  wsl := by rw [(fold_lists is _).2.2]
  args := fold_args_nil is _ hf rfl

/-- the part of `finish` about the cache -/
def withCache (env : Env) (o : Opts) : Out :=
  if o.flags .useCacheRead = false ∧ o.flags .useCacheWrite = false then
    match env.cacheMode with
    | none => .ok o
    | some m =>
      if m = "r".toList then .ok { o with flags := assign [(.useCacheRead, true)] o.flags }
      else if m = "w".toList then .ok { o with flags := assign [(.useCacheWrite, true)] o.flags }
      else if m = "rw".toList then .ok { o with flags := assign [(.useCacheRead, true), (.useCacheWrite, true)] o.flags }
      else .error
  else .ok o

/-- with the progress and the targets -/
def withDefaults (env : Env) (o : Opts) : Opts :=
  { o with flags := if o.flags .progressSpecified then o.flags else assign [(.showProgress, !env.redirected)] o.flags
           targets := if o.targets = [] then ["all".toList] else o.targets }

theorem finish_eq (env : Env) (o : Opts) : finish env o = withCache env (withDefaults env o) := by
  unfold finish withCache withDefaults
  by_cases h1 : o.flags .progressSpecified = true <;> by_cases h2 : o.targets = [] <;> simp only [h1, h2, if_true, if_false, Bool.false_eq_true, if_pos, if_neg, not_false_eq_true] <;> rfl

theorem defaults_flags {env : Env} {is : List Item} {o : Opts} (h : Base env is o) (f : Fld) :
    (withDefaults env o).flags f = lastOf (switch (switches env.windows f).1 (switches env.windows f).2) (default env f) is := by
  have hs : o.flags .progressSpecified = lastOf (switch ["-progress", "-noprogress", "-ide", "-vs"] []) false is := h.flags .progressSpecified
  show (if o.flags .progressSpecified then o.flags else assign [(.showProgress, !env.redirected)] o.flags) f = _
  by_cases hp : f = .showProgress
  · subst hp
    by_cases hh : o.flags .progressSpecified = true
    · rw [if_pos hh, h.flags]
      obtain ⟨i, hi, hn⟩ := on_iff.1 (hs ▸ hh)
      refine lastOf_some _ _ ⟨i, hi, fun e => hn ?_⟩
      exact (switch_none (on := ["-progress"]) (off := ["-noprogress", "-ide", "-vs"]) (by simp) i).1 e
    · rw [if_neg hh, assign_eq]
      have : ∀ i ∈ is, switch ["-progress"] ["-noprogress", "-ide", "-vs"] i = none := by
        intro i hi
        refine (switch_none (on' := ["-progress", "-noprogress", "-ide", "-vs"]) (off' := []) (by simp) i).2 ?_
        exact Classical.byContradiction fun e => hh (hs.trans (on_iff.2 ⟨i, hi, e⟩))
      exact (lastOf_none (f := switch ["-progress"] ["-noprogress", "-ide", "-vs"]) (!env.redirected) this).symm
  · have hd : default env f = initial f := by cases f <;> first | rfl | exact absurd rfl hp
    have ha : assign [(.showProgress, !env.redirected)] o.flags f = o.flags f := by
      rw [assign_eq]
      simp [assigned, hp]
    rw [hd, ← h.flags f]
    split
    · rfl
    · exact ha

theorem cache_none {env : Env} {is : List Item} {o : Opts} (h : Base env is o) :
    ((withDefaults env o).flags .useCacheRead = false ∧ (withDefaults env o).flags .useCacheWrite = false) ↔
      ∀ i ∈ is, switch ["-cache", "-cacheread", "-cachewrite"] [] i = none := by
  have e1 : (withDefaults env o).flags .useCacheRead = lastOf (switch ["-cache", "-cacheread"] []) false is := defaults_flags h .useCacheRead
  have e2 : (withDefaults env o).flags .useCacheWrite = lastOf (switch ["-cache", "-cachewrite"] []) false is := defaults_flags h .useCacheWrite
  have split3 : ∀ i, switch ["-cache", "-cacheread", "-cachewrite"] [] i = none ↔ switch ["-cache", "-cacheread"] [] i = none ∧ switch ["-cache", "-cachewrite"] [] i = none := by
    intro i
    cases i with
    | flag a =>
      simp only [switch, List.map_cons, List.map_nil, List.not_mem_nil, if_false]
      simp only [List.mem_cons, List.not_mem_nil, or_false]
      by_cases a1 : a = "-cache".toList
      · simp [a1]
      · by_cases a2 : a = "-cacheread".toList
        · simp [a2]
        · by_cases a3 : a = "-cachewrite".toList
          · simp [a3]
          · simp only [a1, a2, a3, or_false, if_false, and_self]
    | trim _ _ => simp [switch]
    | level _ _ _ => simp [switch]
    | config _ => simp [switch]
    | db _ => simp [switch]
    | jobs _ _ => simp [switch]
    | report _ _ => simp [switch]
    | source _ => simp [switch]
    | target _ => simp [switch]
  rw [e1, e2]
  have off : ∀ on : List String, lastOf (switch on []) false is = false ↔ ∀ i ∈ is, switch on [] i = none := by
    intro on
    constructor
    · intro h i hi
      refine Classical.byContradiction fun e => ?_
      rw [on_iff.2 ⟨i, hi, e⟩] at h
      cases h
    · exact lastOf_none _
  rw [off, off]
  constructor
  · rintro ⟨h1, h2⟩ i hi; exact (split3 i).2 ⟨h1 i hi, h2 i hi⟩
  · intro hh; exact ⟨fun i hi => ((split3 i).1 (hh i hi)).1, fun i hi => ((split3 i).1 (hh i hi)).2⟩

theorem Meaning.unique {env : Env} {is : List Item} {o o' : Opts} (h : Meaning env is o) (h' : Meaning env is o') : o = o' := by
  obtain ⟨a, m, w, t, s, f, c, cl, dl, r, d, g, th⟩ := o
  obtain ⟨a', m', w', t', s', f', c', cl', dl', r', d', g', th'⟩ := o'
  have e1 : f = f' := funext fun x => (h.flags x).trans (h'.flags x).symm
  have e2 : m = m' := h.mode.trans h'.mode.symm
  have e3 : t = t' := h.targets.trans h'.targets.symm
  have e4 : s = s' := h.sources.trans h'.sources.symm
  have e5 : c = c' := h.trim.trans h'.trim.symm
  have e6 : cl = cl' := h.cacheLevel.trans h'.cacheLevel.symm
  have e7 : dl = dl' := h.distLevel.trans h'.distLevel.symm
  have e8 : g = g' := h.config.trans h'.config.symm
  have e9 : d = d' := h.db.trans h'.db.symm
  have e10 : th = th' := h.threads.trans h'.threads.symm
  have e11 : r = r' := h.report.trans h'.report.symm
  have e12 : w = w' := h.wsl.trans h'.wsl.symm
  have e13 : a = a' := h.args.trans h'.args.symm
  subst e1 e2 e3 e4 e5 e6 e7 e8 e9 e10 e11 e12 e13
  rfl

theorem meaning_of {env : Env} {is : List Item} {o o' : Opts} (h : Base env is o) (hfl : ∀ f, o'.flags f = flagValue env is f)
    (ho : ∃ g, o' = { withDefaults env o with flags := g }) : Meaning env is o' := by
  obtain ⟨g, rfl⟩ := ho
  refine ⟨hfl, h.mode, ?_, h.sources, h.trim, h.cacheLevel, h.distLevel, h.config, h.db, h.threads, h.report, h.wsl, h.args⟩
  show (if o.targets = [] then ["all".toList] else o.targets) = _
  rw [h.targets]

theorem finish_spec {env : Env} {is : List Item} {o : Opts} (h : Base env is o) :
    (ModeOK env is → ∃ o', finish env o = .ok o' ∧ Meaning env is o') ∧ (¬ ModeOK env is → finish env o = .error) := by
  rw [finish_eq]
  have hd := defaults_flags h
  have hc := cache_none h
  generalize hq : withDefaults env o = q at hd hc
  have other : ∀ f, f ≠ .useCacheRead → f ≠ .useCacheWrite → flagValue env is f = q.flags f := by
    intro f h1 h2
    rw [hd]
    unfold flagValue
    cases f <;> first | contradiction | simp
  unfold withCache
  by_cases hn : ∀ i ∈ is, switch ["-cache", "-cacheread", "-cachewrite"] [] i = none
  · rw [if_pos (hc.2 hn)]
    have fr : ∀ modes, byVariable env is modes = env.cacheMode.any (· ∈ modes.map (·.toList)) := by
      intro modes
      unfold byVariable
      rw [decide_eq_true hn]
      rfl
    have vr : flagValue env is .useCacheRead = byVariable env is ["r", "rw"] := by
      show (lastOf _ (default env .useCacheRead) is || byVariable env is ["r", "rw"]) = _
      rw [← hd, (hc.2 hn).1]
      simp
    have vw : flagValue env is .useCacheWrite = byVariable env is ["w", "rw"] := by
      show (lastOf _ (default env .useCacheWrite) is || byVariable env is ["w", "rw"]) = _
      rw [← hd, (hc.2 hn).2]
      simp
    have mk : ∀ g : Fld → Bool, (∀ f, f ≠ .useCacheRead → f ≠ .useCacheWrite → g f = q.flags f) → g .useCacheRead = byVariable env is ["r", "rw"] →
        g .useCacheWrite = byVariable env is ["w", "rw"] → Meaning env is { q with flags := g } := by
      intro g h1 h2 h3
      refine meaning_of h ?_ ⟨g, by rw [hq]⟩
      intro f
      by_cases f1 : f = .useCacheRead
      · subst f1; rw [vr]; exact h2
      · by_cases f2 : f = .useCacheWrite
        · subst f2; rw [vw]; exact h3
        · rw [other f f1 f2]; exact h1 f f1 f2
    cases hm : env.cacheMode with
    | none =>
      refine ⟨fun _ => ⟨q, rfl, ?_⟩, fun hx => absurd (.inr (by simp [hm])) hx⟩
      refine mk q.flags (fun _ _ _ => rfl) ?_ ?_
      · rw [fr, hm, (hc.2 hn).1]; rfl
      · rw [fr, hm, (hc.2 hn).2]; rfl
    | some m =>
      simp only []
      by_cases m1 : m = "r".toList
      · subst m1
        rw [if_pos rfl]
        refine ⟨fun _ => ⟨_, rfl, mk _ ?_ ?_ ?_⟩, fun hx => absurd (.inr ?_) hx⟩
        · intro f f1 _; rw [assign_eq]; simp [assigned, f1]
        · rw [fr, hm, assign_eq]; generalize q.flags _ = b; cases b <;> decide +kernel
        · rw [fr, hm, assign_eq, (hc.2 hn).2]; decide +kernel
        · intro m e; rw [hm] at e; cases e; decide +kernel
      rw [if_neg m1]
      by_cases m2 : m = "w".toList
      · subst m2
        rw [if_pos rfl]
        refine ⟨fun _ => ⟨_, rfl, mk _ ?_ ?_ ?_⟩, fun hx => absurd (.inr ?_) hx⟩
        · intro f _ f1; rw [assign_eq]; simp [assigned, f1]
        · rw [fr, hm, assign_eq, (hc.2 hn).1]; decide +kernel
        · rw [fr, hm, assign_eq]; generalize q.flags _ = b; cases b <;> decide +kernel
        · intro m e; rw [hm] at e; cases e; decide +kernel
      rw [if_neg m2]
      by_cases m3 : m = "rw".toList
      · subst m3
        rw [if_pos rfl]
        refine ⟨fun _ => ⟨_, rfl, mk _ ?_ ?_ ?_⟩, fun hx => absurd (.inr ?_) hx⟩
        · intro f f1 f2; rw [assign_eq]; simp [assigned, f1, f2]
        · rw [fr, hm, assign_eq]; generalize q.flags _ = b; cases b <;> decide +kernel
        · rw [fr, hm, assign_eq]; generalize q.flags _ = b; cases b <;> decide +kernel
        · intro m e; rw [hm] at e; cases e; decide +kernel
      rw [if_neg m3]
      refine ⟨?_, fun _ => rfl⟩
      rintro (⟨i, hi, e⟩ | hx)
      · exact absurd (hn i hi) e
      · have := hx m hm
        rw [List.map_cons, List.map_cons, List.map_cons, List.map_nil, List.mem_cons, List.mem_cons, List.mem_cons] at this
        rcases this with e | e | e | e
        · exact absurd e m1
        · exact absurd e m2
        · exact absurd e m3
        · cases e
  · rw [if_neg (fun e => hn (hc.1 e))]
    have hex : ∃ i ∈ is, switch ["-cache", "-cacheread", "-cachewrite"] [] i ≠ none := by
      refine Classical.byContradiction fun e => hn fun i hi => Classical.byContradiction fun e' => e ⟨i, hi, e'⟩
    refine ⟨fun _ => ⟨q, rfl, ?_⟩, fun hx => absurd (.inl hex) hx⟩
    refine meaning_of h ?_ ⟨q.flags, by rw [hq]⟩
    have fr : ∀ modes, byVariable env is modes = false := by
      intro modes
      unfold byVariable
      rw [decide_eq_false hn]
      rfl
    intro f
    by_cases f1 : f = .useCacheRead
    · subst f1
      show _ = (lastOf _ (default env .useCacheRead) is || byVariable env is ["r", "rw"])
      rw [fr, ← hd]
      simp
    · by_cases f2 : f = .useCacheWrite
      · subst f2
        show _ = (lastOf _ (default env .useCacheWrite) is || byVariable env is ["w", "rw"])
        rw [fr, ← hd]
        simp
      · exact (other f f1 f2).symm

/-- A command line that is not for the Windows subsystem for Linux is accepted exactly if it is a list of items (and the variable
for the cache has a meaning, if it is used), and all options are what the items say, field by field. -/
theorem C98_meaning {env : Env} {l : List Arg} {o : Opts} (hw : env.windows = true → l.head? ≠ some "-wsl".toList) :
    process env l = .ok o ↔ ∃ is, Items env false l is ∧ ModeOK env is ∧ Meaning env is o := by
  unfold process
  rw [loop_iff l.length l { threads := env.cores } false true (Nat.le_refl _) (by simp) (by simp) (fun _ => hw)]
  constructor
  · rintro ⟨is, h1, h2⟩
    have hb := fold_base (items_fine h1)
    have hs := finish_spec hb
    by_cases hm : ModeOK env is
    · obtain ⟨o', e, hme⟩ := hs.1 hm
      rw [e] at h2
      cases h2
      exact ⟨is, h1, hm, hme⟩
    · rw [hs.2 hm] at h2
      cases h2
  · rintro ⟨is, h1, h2, h3⟩
    have hb := fold_base (items_fine h1)
    obtain ⟨o', e, hme⟩ := (finish_spec hb).1 h2
    exact ⟨is, h1, by rw [e, hme.unique h3]⟩

end Verif.Cmd
