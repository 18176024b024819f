/-
C104: a worker is offered to clients while it is available, and only then.
-/
import Verif.Broker.Serve

namespace Verif.Broker

/-! ### Directories and clients -/

/-- C104. The directories are those named by the user, one for each piece of the variable between
semicolons, in order, without the spaces around it, with the group and version appended. -/
theorem C104_roots (pl : Plat) (s : Text) :
    ∃ ps, Pieces s ps ∧ (∀ qs, Pieces s qs → qs = ps) ∧
      (initBrokerage pl (some s)).length = ps.length ∧
      ∀ (i : Nat) p, ps[i]? = some p → ∃ r, (initBrokerage pl (some s))[i]? = some r ∧ IsRoot pl p r ∧
        ∀ r', IsRoot pl p r' → r' = r := by
  refine ⟨cutAt s, pieces_cutAt s, fun qs h => pieces_unique h, ?_, ?_⟩
  · rw [init_eq, List.length_map]
  · intro i p hp
    refine ⟨rootOf pl p, ?_, isRoot_iff.2 rfl, fun r' h => isRoot_iff.1 h⟩
    rw [init_eq, List.getElem?_map, hp]; rfl

/-- C104. A list of workers in the environment is used as it is: the pieces that are not empty, in
order, whatever is registered. -/
theorem C104_given {pl : Plat} {s : Text} {ps : List Text} {paths : Option Text}
    {locals : List Text} {fs : Fs} (hq : '"' ∉ s) (hb : '\\' ∉ s) (hp : Pieces s ps)
    (h : ∃ p ∈ ps, p ≠ []) :
    findWorkers pl (some s) paths locals fs = ps.filter (· ≠ []) := by
  have e := pieces_unique hp
  obtain ⟨p, hm, hne⟩ := h
  unfold findWorkers
  simp only [tokenize_plain hq hb]
  rw [← e]
  have : (ps.filter (· ≠ [])).isEmpty = false := by
    rw [List.isEmpty_eq_false_iff_exists_mem]
    exact ⟨p, List.mem_filter.2 ⟨hm, by simpa using hne⟩⟩
  rw [this]; rfl

/-- C104. Otherwise a client finds exactly the workers that have a file in one of the directories
and are not the machine itself. -/
theorem C104_found {pl : Plat} (hpl : pl.tail.getLast? = some pl.slash) {paths : Text}
    {ps locals : List Text} {fs : Fs} (hp : Pieces paths ps) (w : Text) :
    w ∈ findWorkers pl none (some paths) locals fs ↔
      w ∉ locals ∧ Name pl w ∧ ∃ p ∈ ps, ∃ r, IsRoot pl p r ∧ Exists fs (r ++ w) := by
  have e := pieces_unique hp
  unfold findWorkers
  simp only [List.isEmpty_nil, if_true, init_eq]
  rw [← e, List.mem_filter, List.mem_map]
  have last : ∀ {r x : Text}, (∃ p ∈ ps, rootOf pl p = r) → Name pl x → lastPart pl (r ++ x) = x := by
    rintro r x ⟨p, _, rfl⟩ hx
    exact lastPart_eq (rootOf_last hpl p) hx.2
  constructor
  · rintro ⟨⟨q, hq, rfl⟩, hl⟩
    obtain ⟨r, hr, hf⟩ := List.mem_flatMap.1 hq
    obtain ⟨p, hpm, rfl⟩ := List.mem_map.1 hr
    obtain ⟨he, x, rfl, hx⟩ := mem_files.1 hf
    rw [last ⟨p, hpm, rfl⟩ hx] at hl ⊢
    exact ⟨by simpa using hl, hx, p, hpm, _, isRoot_iff.2 rfl, he⟩
  · rintro ⟨h1, h2, p, hpm, r, hr, he⟩
    have := isRoot_iff.1 hr
    subst this
    refine ⟨⟨rootOf pl p ++ w, List.mem_flatMap.2 ⟨_, List.mem_map.2 ⟨p, hpm, rfl⟩,
      mem_files.2 ⟨he, w, rfl, h2⟩⟩, last ⟨p, hpm, rfl⟩ h2⟩, by simpa using h1⟩

/-- C104. Without a list and without directories no worker is found. -/
theorem C104_none (pl : Plat) (locals : List Text) (fs : Fs) :
    findWorkers pl none none locals fs = [] := rfl

/-! ### Workers -/

/-- C104. A worker that is available has its file at the latest when it is asked ten seconds after
it last touched it: of the name it goes by, with the time of now, saying the settings of now; and
after five minutes the names are those of the machine. -/
theorem C104_announced_partial {pl : Plat} {Own : Text → Prop} {told : Nat → Told} {root : Text}
    {rest : List Text} {t : Nat} {s s' : Server} {fs fs' : Fs} {e : Env}
    (h : Runs pl Own told root rest t s fs) (fit : Fits Own told root e)
    (ht : t ≤ e.settingsTime) (due : s.lastUpdate + 10000 ≤ e.now) (opens : e.opens = true)
    (hc : setAvailability pl e true s fs = (s', fs')) :
    (∃ w f, Goes s'.ip s'.host w ∧ Own w ∧ w ≠ [] ∧ (root ++ w, f) ∈ fs' ∧ f.time = e.wall ∧
        f.content = note s'.host s'.domain s'.ip e.told) ∧
      (s.lastIP + 300000 ≤ e.now →
        s'.host = e.host ∧ s'.domain = e.domain ∧ s'.ip = e.ip.getD []) := by
  have hi := runs_inv h
  have hp := pre_updatePath hi
  have hu : s.updatePath.lastUpdate = s.lastUpdate := by
    rw [updatePath_eq hi.roots]
  have hd : updateEvery ≤ e.now - s.updatePath.lastUpdate := by
    rw [hu]; unfold updateEvery; omega
  have ha := announce_pre fit ht hp
  obtain ⟨⟨f, hf⟩, htime⟩ := announce_due (fs := fs) hd opens
  have hs := announce_settings (fs := fs) hd opens (Nat.le_trans hp.time ht)
  have hh := announce_host (fs := fs) hd fit.host.2
  rw [set_true hi.roots] at hc
  obtain ⟨x, hx⟩ := clean_server (pl := pl) e
    { (announce e s.updatePath fs).1 with available := true } (announce e s.updatePath fs).2
  rw [hc] at hx
  dsimp only at hx
  have hfs : fs' = (clean pl e { (announce e s.updatePath fs).1 with available := true }
    (announce e s.updatePath fs).2).2 := by rw [hc]
  have kept := clean_keeps (pl := pl) (s := { (announce e s.updatePath fs).1 with available := true })
    hf (fun g hg => by
      obtain ⟨c, tm⟩ := g
      have := htime _ hg
      dsimp only at this
      subst this
      exact tooOld_fresh _ _)
  rw [← hfs] at kept
  have hown : Own (announce e s.updatePath fs).1.shown := by
    unfold Server.shown
    split
    · exact ha.host hh
    · rename_i hn
      exact ha.ip (by simpa using hn)
  have hne : (announce e s.updatePath fs).1.shown ≠ [] := by
    unfold Server.shown
    split
    · exact hh
    · rename_i hn
      simpa using hn
  constructor
  · refine ⟨(announce e s.updatePath fs).1.shown, f, ?_, hown, hne, ?_, htime f hf, ?_⟩
    · rw [hx]; exact goes_iff.2 rfl
    · rw [← ha.path]; exact kept
    · have := (ha.files _ hown f (by rw [← ha.path]; exact hf)).2
      rw [hs, ← fit.told] at this
      rw [hx]; exact this
  · intro hip
    have hl : s.updatePath.lastIP = s.lastIP := by rw [updatePath_eq hi.roots]
    have := announce_fresh (fs := fs) hd (by rw [hp.roots]; simp) (e := e)
      (by rw [hl]; unfold ipEvery; omega)
    rw [hx]; exact this

/-- C104. A worker that is not available has no file, of any name the machine ever had: neither
right after it was told so nor at any time until it is available again. -/
theorem C104_withdrawn_partial {pl : Plat} {Own : Text → Prop} {told : Nat → Told} {root : Text}
    {rest : List Text} {t : Nat} {s : Server} {fs : Fs} (h : Runs pl Own told root rest t s fs)
    (hn : s.available = false) (w : Text) (hw : Own w) : ¬ Exists fs (root ++ w) := by
  rintro ⟨f, hf⟩
  have := ((runs_inv h).files w hw f hf).1
  rw [hn] at this; cases this

/-- Being available is what the worker was told last. -/
theorem C104_told (pl : Plat) (e : Env) (available : Bool) (s : Server) (fs : Fs)
    (h : s.roots ≠ []) : (setAvailability pl e available s fs).1.available = available := by
  cases hr : s.roots with
  | nil => exact absurd hr h
  | cons root rest =>
    cases available with
    | true =>
      rw [set_true hr]
      obtain ⟨x, hx⟩ := clean_server (pl := pl) e
        { (announce e s.updatePath fs).1 with available := true } (announce e s.updatePath fs).2
      rw [hx]
    | false =>
      rw [set_false hr]
      split
      · obtain ⟨x, hx⟩ := clean_server (pl := pl) e
          { s.updatePath with lastUpdate := e.now, available := false }
          (deleteFile e fs s.updatePath.path)
        rw [hx]
      · obtain ⟨x, hx⟩ := clean_server (pl := pl) e { s.updatePath with available := false } fs
        rw [hx]

/-- C104. At any time a worker has at most one file, of the name it goes by. -/
theorem C104_one {pl : Plat} {Own : Text → Prop} {told : Nat → Told} {root : Text}
    {rest : List Text} {t : Nat} {s : Server} {fs : Fs} (h : Runs pl Own told root rest t s fs)
    (w : Text) (hw : Own w) (he : Exists fs (root ++ w)) : Goes s.ip s.host w := by
  obtain ⟨f, hf⟩ := he
  exact goes_iff.2 ((runs_inv h).files w hw f hf).2.1

/-- C104. A worker that ends as it should leaves no file. -/
theorem C104_ended {pl : Plat} {Own : Text → Prop} {told : Nat → Told} {root : Text}
    {rest : List Text} {t : Nat} {s : Server} {fs : Fs} {e : Env} (available : Bool)
    (h : Runs pl Own told root rest t s fs) (fit : Fits Own told root e) (ht : t ≤ e.settingsTime)
    (w : Text) (hw : Own w) :
    ¬ Exists ((setAvailability pl e available s fs).1.stop e (setAvailability pl e available s fs).2)
      (root ++ w) := by
  have hi := runs_inv (.call e available h fit ht)
  have hpath : (setAvailability pl e available s fs).1.path = root ++ (setAvailability pl e available s fs).1.shown := by
    have hi0 := runs_inv h
    have hp := pre_updatePath hi0
    cases available with
    | true =>
      rw [set_true hi0.roots]
      obtain ⟨x, hx⟩ := clean_server (pl := pl) e
        { (announce e s.updatePath fs).1 with available := true } (announce e s.updatePath fs).2
      rw [hx]
      exact (announce_pre fit ht hp).path
    | false =>
      rw [set_false hi0.roots]
      split
      · obtain ⟨x, hx⟩ := clean_server (pl := pl) e
          { s.updatePath with lastUpdate := e.now, available := false }
          (deleteFile e fs s.updatePath.path)
        rw [hx]; exact hp.path
      · obtain ⟨x, hx⟩ := clean_server (pl := pl) e { s.updatePath with available := false } fs
        rw [hx]; exact hp.path
  rintro ⟨f, hf⟩
  unfold Server.stop at hf
  split at hf
  · obtain ⟨h1, h2⟩ := mem_deleteFile.1 hf
    have := (hi.files w hw f h1).2.1
    have hq : root ++ w = (setAvailability pl e available s fs).1.path := by rw [hpath, ← this]
    have := h2 hq
    rw [← hq, fit.deletes w hw] at this
    cases this
  · rename_i hn
    exact absurd (hi.files w hw f hf).1 hn

/-- C104. From the worker to the client: a client that names the first directory of the worker
anywhere in its variable, spaces or not, finds the worker after it was announced. -/
theorem C104_offered_partial {pl : Plat} (hpl : pl.tail.getLast? = some pl.slash)
    {Own : Text → Prop} {told : Nat → Told} {root : Text} {rest : List Text} {t : Nat}
    {s s' : Server} {fs fs' : Fs} {e : Env} {paths p : Text} {ps locals : List Text}
    (h : Runs pl Own told root rest t s fs) (fit : Fits Own told root e)
    (ht : t ≤ e.settingsTime) (due : s.lastUpdate + 10000 ≤ e.now) (opens : e.opens = true)
    (hc : setAvailability pl e true s fs = (s', fs')) (own : ∀ w, Own w → pl.slash ∉ w)
    (hps : Pieces paths ps) (hp : p ∈ ps) (hr : IsRoot pl p root)
    (w : Text) (hw : Goes s'.ip s'.host w) (hl : w ∉ locals) :
    w ∈ findWorkers pl none (some paths) locals fs' := by
  obtain ⟨⟨v, f, hg, ho, hne, hf, _⟩, _⟩ := C104_announced_partial h fit ht due opens hc
  have : w = v := by rw [goes_iff.1 hw, goes_iff.1 hg]
  subst this
  exact (C104_found hpl hps w).2 ⟨hl, ⟨hne, own w ho⟩, p, hp, root, hr, f, hf⟩

/-- C104. And a client of the worker's directory alone does not find it while it is not available. -/
theorem C104_hidden_partial {pl : Plat} (hpl : pl.tail.getLast? = some pl.slash)
    {Own : Text → Prop} {told : Nat → Told} {root : Text} {rest : List Text} {t : Nat}
    {s : Server} {fs : Fs} {paths : Text} {ps locals : List Text}
    (h : Runs pl Own told root rest t s fs) (hn : s.available = false)
    (hps : Pieces paths ps) (hr : ∀ p ∈ ps, IsRoot pl p root) (w : Text) (hw : Own w) :
    w ∉ findWorkers pl none (some paths) locals fs := by
  intro hm
  obtain ⟨_, _, p, hp, r, hr', he⟩ := (C104_found hpl hps w).1 hm
  have : r = root := by rw [isRoot_iff.1 hr', isRoot_iff.1 (hr p hp)]
  subst this
  exact C104_withdrawn_partial h hn w hw he

/-- C104. Cleaning deletes the files of its directory that nobody has touched for more than a day,
and no others. -/
theorem C104_clean (pl : Plat) (e : Env) (root : Text) (fs : Fs) (hs : Single fs)
    (hd : ∀ p, e.deletes p = true) (p : Text) (f : File) :
    (p, f) ∈ cleanFiles pl e root fs ↔
      (p, f) ∈ fs ∧ ¬ ((∃ w, p = root ++ w ∧ Name pl w) ∧ f.time / 1000 + 86400 < e.wall / 1000) := by
  have ho : tooOld e.wall f = true ↔ f.time / 1000 + 86400 < e.wall / 1000 := by
    unfold tooOld cleanOlder
    simp only [Bool.and_eq_true, decide_eq_true_eq]
    omega
  rw [cleanFiles_eq]
  constructor
  · intro h
    have hm := mem_cleanLoop h
    refine ⟨hm, ?_⟩
    rintro ⟨hw, hold⟩
    exact cleanLoop_removes hs (mem_files.2 ⟨⟨f, hm⟩, hw⟩) h ⟨ho.2 hold, hd p⟩
  · rintro ⟨hm, hn⟩
    by_cases hw : ∃ w, p = root ++ w ∧ Name pl w
    · refine cleanLoop_keeps hm fun g hg => ?_
      have : g = f := hs p g f hg hm
      subst this
      cases ht : tooOld e.wall g with
      | false => rfl
      | true => exact absurd ⟨hw, ho.1 ht⟩ hn
    · exact loop_other hm fun m => hw (mem_files.1 m).2
where
  loop_other {e : Env} {p : Text} {f : File} : ∀ {ps : List Text} {fs : Fs}, (p, f) ∈ fs → p ∉ ps →
      (p, f) ∈ ps.foldl (cleanOne e) fs
    | [], _, h, _ => h
    | q :: ps, fs, h, hn => by
        rw [List.foldl_cons]
        refine loop_other ?_ fun m => hn (List.mem_cons_of_mem _ m)
        unfold cleanOne
        split
        · exact h
        · split
          · exact mem_deleteFile.2 ⟨h, fun e => absurd (e ▸ List.mem_cons_self ..) hn⟩
          · exact h

/-- C104. Cleaning takes place with the first call, and again twelve hours later. -/
theorem C104_clean_due (pl : Plat) (e : Env) (s : Server) (fs : Fs) (root : Text) (rest : List Text)
    (hr : s.roots = root :: rest) :
    (s.lastClean + 43200000 ≤ e.now →
      clean pl e s fs = ({ s with lastClean := e.now }, cleanFiles pl e root fs)) ∧
    (e.now < s.lastClean + 43200000 → clean pl e s fs = (s, fs)) ∧
    ∀ now, (Server.start (root :: rest) now).lastClean + 43200000 = now := by
  refine ⟨fun h => ?_, fun h => ?_, fun now => ?_⟩
  · unfold clean
    rw [hr]
    dsimp only
    rw [if_pos (by unfold cleanEvery; omega)]
  · unfold clean
    rw [hr]
    dsimp only
    rw [if_neg (by unfold cleanEvery; omega)]
  · unfold Server.start cleanEvery; dsimp only; omega

end Verif.Broker
