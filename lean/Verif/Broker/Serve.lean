/-
Lemmas about the worker's side.
-/
import Verif.Broker.Proof

namespace Verif.Broker

theorem mem_delete {fs : Fs} {p q : Text} {f : File} :
    (q, f) ∈ fs.delete p ↔ (q, f) ∈ fs ∧ q ≠ p := by
  simp [Fs.delete, List.mem_filter]

theorem mem_deleteFile {e : Env} {fs : Fs} {p q : Text} {f : File} :
    (q, f) ∈ deleteFile e fs p ↔ (q, f) ∈ fs ∧ (q = p → e.deletes p = false) := by
  unfold deleteFile
  split
  · rename_i h
    rw [mem_delete, h]; simp
  · rename_i h
    simp [h]

theorem mem_write {fs : Fs} {p q : Text} {f g : File} :
    (q, g) ∈ fs.write p f ↔ ((q, g) ∈ fs ∧ q ≠ p) ∨ (q = p ∧ g = f) := by
  unfold Fs.write
  rw [List.mem_append, mem_delete]
  simp

theorem mem_touch {fs : Fs} {p q : Text} {t : Int} {g : File} :
    (q, g) ∈ fs.touch p t ↔
      ∃ f, (q, f) ∈ fs ∧ g = if q = p then { f with time := t } else f := by
  unfold Fs.touch
  rw [List.mem_map]
  constructor
  · rintro ⟨⟨r, f⟩, h, he⟩
    by_cases hr : r = p
    · subst hr
      simp only [beq_self_eq_true, if_true, Prod.mk.injEq] at he
      obtain ⟨rfl, rfl⟩ := he
      exact ⟨f, h, by simp⟩
    · have hb : (r == p) = false := by simpa using hr
      simp only [hb, Bool.false_eq_true, if_false, Prod.mk.injEq] at he
      obtain ⟨rfl, rfl⟩ := he
      exact ⟨f, h, by simp [hr]⟩
  · rintro ⟨f, h, rfl⟩
    refine ⟨(q, f), h, ?_⟩
    by_cases hr : q = p
    · simp [hr]
    · simp [hr]

theorem find_some {fs : Fs} {p : Text} {f : File} (h : fs.find p = some f) : (p, f) ∈ fs := by
  unfold Fs.find at h
  induction fs with
  | nil => cases h
  | cons a fs ih =>
    obtain ⟨q, g⟩ := a
    by_cases hq : p = q
    · subst hq
      simp only [List.lookup_cons, beq_self_eq_true] at h
      cases h; exact List.mem_cons_self ..
    · have hb : (p == q) = false := by simpa using hq
      simp only [List.lookup_cons, hb] at h
      exact List.mem_cons_of_mem _ (ih h)

theorem find_isSome {fs : Fs} {p : Text} : (fs.find p).isSome = true ↔ Exists fs p := by
  constructor
  · intro h
    obtain ⟨f, hf⟩ := Option.isSome_iff_exists.1 h
    exact ⟨f, find_some hf⟩
  · rintro ⟨f, hf⟩
    unfold Fs.find
    induction fs with
    | nil => cases hf
    | cons a fs ih =>
      obtain ⟨q, g⟩ := a
      by_cases hq : p = q
      · subst hq; simp [List.lookup_cons]
      · have hb : (p == q) = false := by simpa using hq
        simp only [List.lookup_cons, hb]
        rcases List.mem_cons.1 hf with h | h
        · exact absurd (congrArg Prod.fst h) hq
        · exact ih h

/-! ### Cleaning -/

/-- One round of the loop. -/
def cleanOne (e : Env) (fs : Fs) (p : Text) : Fs :=
  match fs.find p with
  | none => fs
  | some f => if tooOld e.wall f then deleteFile e fs p else fs

theorem mem_cleanOne {e : Env} {fs : Fs} {p q : Text} {f : File} (h : (q, f) ∈ cleanOne e fs p) :
    (q, f) ∈ fs := by
  unfold cleanOne at h
  split at h
  · exact h
  · split at h
    · exact (mem_deleteFile.1 h).1
    · exact h

theorem mem_cleanLoop {e : Env} {q : Text} {f : File} : ∀ {ps : List Text} {fs : Fs},
    (q, f) ∈ ps.foldl (cleanOne e) fs → (q, f) ∈ fs
  | [], _, h => h
  | _ :: _, _, h => mem_cleanOne (mem_cleanLoop h)

theorem cleanOne_keeps {e : Env} {fs : Fs} {p q : Text} {f : File} (h : (q, f) ∈ fs)
    (hk : ∀ g, (q, g) ∈ fs → tooOld e.wall g = false) : (q, f) ∈ cleanOne e fs p := by
  unfold cleanOne
  split
  · exact h
  · rename_i g hg
    split
    · rename_i ho
      refine mem_deleteFile.2 ⟨h, fun hq => ?_⟩
      subst hq
      rw [hk g (find_some hg)] at ho
      cases ho
    · exact h

theorem cleanLoop_keeps {e : Env} {q : Text} {f : File} : ∀ {ps : List Text} {fs : Fs},
    (q, f) ∈ fs → (∀ g, (q, g) ∈ fs → tooOld e.wall g = false) → (q, f) ∈ ps.foldl (cleanOne e) fs
  | [], _, h, _ => h
  | p :: ps, fs, h, hk => by
      rw [List.foldl_cons]
      exact cleanLoop_keeps (cleanOne_keeps h hk) fun g hg => hk g (mem_cleanOne hg)

theorem cleanFiles_eq (pl : Plat) (e : Env) (root : Text) (fs : Fs) :
    cleanFiles pl e root fs = (fs.files pl root).foldl (cleanOne e) fs := rfl

/-- Every path is written once. -/
def Single (fs : Fs) : Prop := ∀ p f g, (p, f) ∈ fs → (p, g) ∈ fs → f = g

theorem cleanOne_removes {e : Env} {fs : Fs} {p : Text} {f : File} (hs : Single fs)
    (h : (p, f) ∈ cleanOne e fs p) : ¬ (tooOld e.wall f = true ∧ e.deletes p = true) := by
  rintro ⟨h1, h2⟩
  have hm := mem_cleanOne h
  unfold cleanOne at h
  cases hf : fs.find p with
  | none =>
    have := find_isSome.2 ⟨f, hm⟩
    rw [hf] at this; cases this
  | some g =>
    have : g = f := hs p g f (find_some hf) hm
    subst this
    rw [hf] at h
    simp only [h1, if_true] at h
    rw [(mem_deleteFile.1 h).2 rfl] at h2
    cases h2

theorem cleanLoop_removes {e : Env} {p : Text} {f : File} : ∀ {ps : List Text} {fs : Fs},
    Single fs → p ∈ ps → (p, f) ∈ ps.foldl (cleanOne e) fs →
      ¬ (tooOld e.wall f = true ∧ e.deletes p = true)
  | q :: ps, fs, hs, hp, h => by
      rw [List.foldl_cons] at h
      rcases List.mem_cons.1 hp with rfl | hp
      · exact cleanOne_removes hs (mem_cleanLoop h)
      · exact cleanLoop_removes
          (fun a x y hx hy => hs a x y (mem_cleanOne hx) (mem_cleanOne hy)) hp h

theorem mem_clean {pl : Plat} {e : Env} {s : Server} {fs : Fs} {q : Text} {f : File}
    (h : (q, f) ∈ (clean pl e s fs).2) : (q, f) ∈ fs := by
  unfold clean at h
  split at h
  · exact h
  · split at h
    · exact mem_cleanLoop h
    · exact h

theorem clean_keeps {pl : Plat} {e : Env} {s : Server} {fs : Fs} {q : Text} {f : File}
    (h : (q, f) ∈ fs) (hk : ∀ g, (q, g) ∈ fs → tooOld e.wall g = false) :
    (q, f) ∈ (clean pl e s fs).2 := by
  unfold clean
  split
  · exact h
  · split
    · exact cleanLoop_keeps h hk
    · exact h

theorem tooOld_fresh (t : Int) (c : Text) : tooOld t ⟨c, t⟩ = false := by
  unfold tooOld; simp

/-! ### The names of the worker -/

/-- The name the worker goes by. -/
def Server.shown (s : Server) : Text := if s.ip.isEmpty then s.host else s.ip

theorem goes_iff {s : Server} {w : Text} : Goes s.ip s.host w ↔ w = s.shown := by
  unfold Goes Server.shown
  cases h : s.ip <;> simp

theorem updatePath_eq {s : Server} {root : Text} {rest : List Text} (h : s.roots = root :: rest) :
    s.updatePath = { s with path := root ++ s.shown } := by
  unfold Server.updatePath Server.shown; rw [h]

/-- What holds of a worker and the files all the time. -/
structure Inv (Own : Text → Prop) (told : Nat → Told) (root : Text) (rest : List Text) (t : Nat)
    (s : Server) (fs : Fs) : Prop where
  roots : s.roots = root :: rest
  host : s.host ≠ [] → Own s.host
  ip : s.ip ≠ [] → Own s.ip
  time : s.settingsTime ≤ t
  files : ∀ w, Own w → ∀ f, (root ++ w, f) ∈ fs →
    s.available = true ∧ w = s.shown ∧ f.content = note s.host s.domain s.ip (told s.settingsTime)

theorem shown_path (s : Server) (p : Text) : ({ s with path := p } : Server).shown = s.shown := rfl

variable {pl : Plat} {Own : Text → Prop} {told : Nat → Told} {root : Text} {rest : List Text}
  {t : Nat} {s : Server} {fs : Fs}

/-- The invariant, for a worker that has its path but is not yet marked as available. -/
structure Pre (Own : Text → Prop) (told : Nat → Told) (root : Text) (rest : List Text) (t : Nat)
    (s : Server) (fs : Fs) : Prop where
  roots : s.roots = root :: rest
  path : s.path = root ++ s.shown
  host : s.host ≠ [] → Own s.host
  ip : s.ip ≠ [] → Own s.ip
  time : s.settingsTime ≤ t
  files : ∀ w, Own w → ∀ f, (root ++ w, f) ∈ fs →
    w = s.shown ∧ f.content = note s.host s.domain s.ip (told s.settingsTime)

theorem renew_pre {e : Env} (fit : Fits Own told root e) (ht : t ≤ e.settingsTime) {c : Bool}
    (h : Pre Own told root rest t s fs) :
    Pre Own told root rest t (renew e s fs c).1 (renew e s fs c).2.1 := by
  unfold renew
  split
  · dsimp only
    split
    · rename_i hd
      rw [updatePath_eq (root := root) (rest := rest) (by exact h.roots)]
      refine ⟨h.roots, rfl, fun _ => fit.host.1, ?_, h.time, ?_⟩
      · intro hi
        cases he : e.ip with
        | none => exact absurd (by show e.ip.getD [] = []; rw [he]; rfl) hi
        | some i => exact fit.ip i he
      · intro w hw f hf
        exfalso
        obtain ⟨h1, h2⟩ := mem_deleteFile.1 hf
        have := (h.files w hw f h1).1
        have hp : root ++ w = s.path := by rw [this]; exact h.path.symm
        have := h2 hp
        rw [← hp, fit.deletes w hw] at this
        cases this
    · exact ⟨h.roots, h.path, h.host, h.ip, h.time, h.files⟩
  · exact h

theorem renew_names {e : Env} {c : Bool} (hh : e.host ≠ []) :
    (renew e s fs c).1.host ≠ [] := by
  unfold renew
  split
  · dsimp only
    split
    · have : ∀ s : Server, s.updatePath.host = s.host := by
        intro s; unfold Server.updatePath; split <;> rfl
      show (Server.updatePath _).host ≠ []
      rw [this]; exact hh
    · rename_i hd
      have : e.host = s.host := Decidable.byContradiction fun h => hd (Or.inl h)
      show s.host ≠ []
      rw [← this]; exact hh
  · rename_i hc
    intro hn
    apply hc
    rw [hn]; rfl

theorem renew_settings {e : Env} {c : Bool} : (renew e s fs c).1.settingsTime = s.settingsTime := by
  unfold renew
  have : ∀ s : Server, s.updatePath.settingsTime = s.settingsTime := by
    intro s; unfold Server.updatePath; split <;> rfl
  split
  · dsimp only
    split
    · show (Server.updatePath _).settingsTime = _
      rw [this]
    · rfl
  · rfl

theorem renew_create {e : Env} {c : Bool} (h : (renew e s fs c).2.2 = false) : c = false := by
  revert h
  unfold renew
  split
  · dsimp only
    split
    · intro h; cases h
    · exact id
  · exact id

/-- When the names were asked for, they are those of the machine. -/
theorem renew_fresh {e : Env} {c : Bool} (hr : s.roots ≠ []) (h : ipEvery ≤ e.now - s.lastIP) :
    (renew e s fs c).1.host = e.host ∧ (renew e s fs c).1.domain = e.domain ∧
      (renew e s fs c).1.ip = e.ip.getD [] := by
  unfold renew
  rw [if_pos (by simp [h])]
  dsimp only
  split
  · have : ∀ s : Server, s.updatePath.host = s.host ∧ s.updatePath.domain = s.domain ∧
        s.updatePath.ip = s.ip := by
      intro s; unfold Server.updatePath; split <;> exact ⟨rfl, rfl, rfl⟩
    exact this _
  · rename_i hd
    refine ⟨?_, ?_, ?_⟩
    · exact Decidable.byContradiction fun h => hd (Or.inl fun h' => h h'.symm)
    · exact Decidable.byContradiction fun h => hd (Or.inr (Or.inl fun h' => h h'.symm))
    · exact Decidable.byContradiction fun h => hd (Or.inr (Or.inr fun h' => h h'.symm))

theorem refresh_pre {e : Env} (fit : Fits Own told root e) (ht : t ≤ e.settingsTime) {c : Bool}
    (h : Pre Own told root rest t s fs) :
    Pre Own told root rest e.settingsTime (refresh e s fs c).1 (refresh e s fs c).2 := by
  unfold refresh
  dsimp only
  split
  · refine ⟨h.roots, h.path, h.host, h.ip, Nat.le_trans h.time ht, ?_⟩
    intro w hw f hf
    obtain ⟨g, hg, rfl⟩ := mem_touch.1 hf
    obtain ⟨h1, h2⟩ := h.files w hw g hg
    refine ⟨h1, ?_⟩
    split <;> exact h2
  · split
    · refine ⟨h.roots, h.path, h.host, h.ip, Nat.le_refl _, ?_⟩
      intro w hw f hf
      rcases mem_write.1 hf with ⟨h1, h2⟩ | ⟨h1, rfl⟩
      · exact absurd (by rw [(h.files w hw f h1).1]; exact h.path.symm) h2
      · rw [h.path] at h1
        exact ⟨List.append_cancel_left h1, by rw [fit.told]⟩
    · exact ⟨h.roots, h.path, h.host, h.ip, Nat.le_trans h.time ht, h.files⟩

theorem announce_pre {e : Env} (fit : Fits Own told root e) (ht : t ≤ e.settingsTime)
    (h : Pre Own told root rest t s fs) :
    Pre Own told root rest e.settingsTime (announce e s fs).1 (announce e s fs).2 := by
  unfold announce
  split
  · dsimp only
    have := refresh_pre fit ht (c := (renew e s fs (decide (s.settingsTime < e.settingsTime))).2.2)
      (renew_pre fit ht (c := decide (s.settingsTime < e.settingsTime)) h)
    exact ⟨this.roots, this.path, this.host, this.ip, this.time, this.files⟩
  · exact ⟨h.roots, h.path, h.host, h.ip, Nat.le_trans h.time ht, h.files⟩

/-- After a due announcement the file is there, new. -/
theorem announce_due {e : Env} (hd : updateEvery ≤ e.now - s.lastUpdate) (ho : e.opens = true) :
    Exists (announce e s fs).2 (announce e s fs).1.path ∧
      ∀ f, ((announce e s fs).1.path, f) ∈ (announce e s fs).2 → f.time = e.wall := by
  unfold announce
  rw [if_pos hd]
  dsimp only
  generalize renew e s fs (decide (s.settingsTime < e.settingsTime)) = r
  obtain ⟨s, fs, c⟩ := r
  dsimp only
  unfold refresh
  dsimp only
  split
  · rename_i ht
    simp only [Bool.and_eq_true] at ht
    obtain ⟨g, hg⟩ := find_isSome.1 ht.2
    refine ⟨⟨_, mem_touch.2 ⟨g, hg, rfl⟩⟩, ?_⟩
    intro f hf
    obtain ⟨g, _, rfl⟩ := mem_touch.1 hf
    simp
  · refine ⟨⟨_, mem_write.2 (Or.inr ⟨rfl, rfl⟩)⟩, ?_⟩
    intro f hf
    rcases mem_write.1 hf with ⟨_, h2⟩ | ⟨_, rfl⟩
    · exact absurd rfl h2
    · rfl

theorem announce_settings {e : Env} (hd : updateEvery ≤ e.now - s.lastUpdate)
    (ho : e.opens = true) (hs : s.settingsTime ≤ e.settingsTime) :
    (announce e s fs).1.settingsTime = e.settingsTime := by
  unfold announce
  rw [if_pos hd]
  dsimp only
  have h1 := renew_settings (e := e) (s := s) (fs := fs) (c := decide (s.settingsTime < e.settingsTime))
  have h2 := renew_create (e := e) (s := s) (fs := fs) (c := decide (s.settingsTime < e.settingsTime))
  revert h1 h2
  generalize renew e s fs (decide (s.settingsTime < e.settingsTime)) = r
  obtain ⟨s', fs', c⟩ := r
  dsimp only
  intro h1 h2
  unfold refresh
  dsimp only
  split
  · rename_i ht
    simp only [Bool.and_eq_true, Bool.not_eq_true'] at ht
    have := h2 ht.1.1
    simp only [decide_eq_false_iff_not] at this
    show s'.settingsTime = _
    omega
  · rfl

theorem announce_host {e : Env} (hd : updateEvery ≤ e.now - s.lastUpdate) (hh : e.host ≠ []) :
    (announce e s fs).1.host ≠ [] := by
  unfold announce
  rw [if_pos hd]
  dsimp only
  have h1 := renew_names (s := s) (fs := fs) (c := decide (s.settingsTime < e.settingsTime)) hh
  revert h1
  generalize renew e s fs (decide (s.settingsTime < e.settingsTime)) = r
  obtain ⟨s', fs', c⟩ := r
  intro h1
  dsimp only at h1 ⊢
  unfold refresh
  dsimp only
  split
  · exact h1
  · split <;> exact h1

theorem refresh_names {e : Env} {c : Bool} : (refresh e s fs c).1.host = s.host ∧
    (refresh e s fs c).1.domain = s.domain ∧ (refresh e s fs c).1.ip = s.ip := by
  unfold refresh
  dsimp only
  split
  · exact ⟨rfl, rfl, rfl⟩
  · split <;> exact ⟨rfl, rfl, rfl⟩

theorem announce_fresh {e : Env} (hd : updateEvery ≤ e.now - s.lastUpdate) (hr : s.roots ≠ [])
    (h : ipEvery ≤ e.now - s.lastIP) :
    (announce e s fs).1.host = e.host ∧ (announce e s fs).1.domain = e.domain ∧
      (announce e s fs).1.ip = e.ip.getD [] := by
  unfold announce
  rw [if_pos hd]
  dsimp only
  obtain ⟨a, b, c⟩ := renew_fresh (fs := fs) (c := decide (s.settingsTime < e.settingsTime)) hr h
  obtain ⟨a', b', c'⟩ := refresh_names (e := e)
    (s := (renew e s fs (decide (s.settingsTime < e.settingsTime))).1)
    (fs := (renew e s fs (decide (s.settingsTime < e.settingsTime))).2.1)
    (c := (renew e s fs (decide (s.settingsTime < e.settingsTime))).2.2)
  exact ⟨a'.trans a, b'.trans b, c'.trans c⟩

theorem pre_updatePath (h : Inv Own told root rest t s fs) :
    Pre Own told root rest t s.updatePath fs := by
  rw [updatePath_eq h.roots]
  exact ⟨h.roots, rfl, h.host, h.ip, h.time, fun w hw f hf => (h.files w hw f hf).2⟩

theorem clean_server (e : Env) (s : Server) (fs : Fs) :
    ∃ x, (clean pl e s fs).1 = { s with lastClean := x } := by
  unfold clean
  split
  · exact ⟨s.lastClean, rfl⟩
  · split
    · exact ⟨e.now, rfl⟩
    · exact ⟨s.lastClean, rfl⟩

theorem set_true {e : Env} (hr : s.roots = root :: rest) :
    setAvailability pl e true s fs =
      clean pl e { (announce e s.updatePath fs).1 with available := true }
        (announce e s.updatePath fs).2 := by
  unfold setAvailability
  rw [hr]; rfl

theorem set_false {e : Env} (hr : s.roots = root :: rest) :
    setAvailability pl e false s fs =
      if s.available then
        clean pl e { s.updatePath with lastUpdate := e.now, available := false }
          (deleteFile e fs s.updatePath.path)
      else clean pl e { s.updatePath with available := false } fs := by
  unfold setAvailability
  rw [hr]
  have : s.updatePath.available = s.available := by
    unfold Server.updatePath; split <;> rfl
  simp only [List.isEmpty_cons, Bool.false_eq_true, if_false, this]
  split <;> rfl

theorem set_inv {e : Env} {available : Bool} (fit : Fits Own told root e)
    (ht : t ≤ e.settingsTime) (h : Inv Own told root rest t s fs) :
    Inv Own told root rest e.settingsTime (setAvailability pl e available s fs).1
      (setAvailability pl e available s fs).2 := by
  have hp := pre_updatePath h
  cases available with
  | true =>
    rw [set_true h.roots]
    have ha := announce_pre fit ht hp
    obtain ⟨x, hx⟩ := clean_server (pl := pl) e
      { (announce e s.updatePath fs).1 with available := true } (announce e s.updatePath fs).2
    rw [hx]
    exact ⟨ha.roots, ha.host, ha.ip, ha.time,
      fun w hw f hf => ⟨rfl, ha.files w hw f (mem_clean hf)⟩⟩
  | false =>
    rw [set_false h.roots]
    split
    · obtain ⟨x, hx⟩ := clean_server (pl := pl) e
        { s.updatePath with lastUpdate := e.now, available := false }
        (deleteFile e fs s.updatePath.path)
      rw [hx]
      refine ⟨hp.roots, hp.host, hp.ip, Nat.le_trans hp.time ht, ?_⟩
      intro w hw f hf
      exfalso
      obtain ⟨h1, h2⟩ := mem_deleteFile.1 (mem_clean hf)
      have := (hp.files w hw f h1).1
      have hq : root ++ w = s.updatePath.path := by rw [this]; exact hp.path.symm
      have := h2 hq
      rw [← hq, fit.deletes w hw] at this
      cases this
    · rename_i hn
      obtain ⟨x, hx⟩ := clean_server (pl := pl) e { s.updatePath with available := false } fs
      rw [hx]
      refine ⟨hp.roots, hp.host, hp.ip, Nat.le_trans hp.time ht, ?_⟩
      intro w hw f hf
      exact absurd (h.files w hw f (mem_clean hf)).1 hn

theorem runs_inv (h : Runs pl Own told root rest t s fs) : Inv Own told root rest t s fs := by
  induction h with
  | start now fs h =>
    exact ⟨rfl, fun h => absurd rfl h, fun h => absurd rfl h, Nat.le_refl _,
      fun w hw f hf => absurd ⟨f, hf⟩ (h w hw)⟩
  | call e available _ fit ht ih => exact set_inv fit ht ih
  | others fs' _ keep ih =>
    exact ⟨ih.roots, ih.host, ih.ip, ih.time, fun w hw f hf => ih.files w hw f (keep w hw f hf)⟩

end Verif.Broker
