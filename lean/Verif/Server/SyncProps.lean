import Verif.Server.SyncSpec
/-
C38: jobs on a worker wait for their toolchain, and start once it is complete.
-/
namespace Verif.Server

@[simp] theorem upd_same {α : Type} (f : Nat → α) (a : Nat) (b : α) : upd f a b a = b := by simp [upd]
theorem upd_ne {α : Type} {f : Nat → α} {a x : Nat} (b : α) (h : x ≠ a) : upd f a b x = f x := by simp [upd, h]

/-- not disconnecting or disconnected -/
def Thread.live : Thread → Bool
  | .leaving _ => false
  | .gone => false
  | _ => true

structure SInv (s : Sync) : Prop where
  sync_ok : ∀ t m, s.tools t = some m → m.sync = true → m.complete
  queued_ok : ∀ c j t, (c, j, t) ∈ s.queued → ∃ m, s.tools t = some m ∧ m.sync = true
  known_ok : ∀ t m, s.tools t = some m → t ∈ s.known
  waiting_known : ∀ c j t, s.waits c j t → ∃ m, s.tools t = some m
  waiting_sync : ∀ c j t m, s.waits c j t → s.tools t = some m → m.sync = true → ∃ d, s.thread d = .check t ∨ s.thread d = .manifestRead t
  read_ok : ∀ d t, s.thread d = .check t ∨ s.thread d = .manifestRead t ∨ s.thread d = .request t → ∃ m, s.tools t = some m
  check_ok : ∀ d t m, s.thread d = .check t → s.tools t = some m → m.sync = true
  asked_ok : ∀ c t, s.asked c t = true → (s.thread c).live = true → ∃ m, s.tools t = some m ∧ m.owner = some c ∧ m.files = [] ∧ m.sync = false
  noMix : ∀ t m, s.tools t = some m → .missing ∈ m.files → ¬ .syncing ∈ m.files
  file_ok : ∀ c t i, s.askedFile c t i = true → (s.thread c).live = true →
    ∃ m, s.tools t = some m ∧ m.owner = some c ∧ m.files[i]? = some .syncing ∧ m.sync = false

theorem SInv.initial : SInv .initial :=
  ⟨by simp [Sync.initial], by simp [Sync.initial], by simp [Sync.initial], by simp [Sync.initial, Sync.waits], by simp [Sync.initial, Sync.waits],
   by simp [Sync.initial], by simp [Sync.initial], by simp [Sync.initial], by simp [Sync.initial], by simp [Sync.initial]⟩

theorem SInv.setThread {s : Sync} (h : SInv s) (c : Nat) (p : Thread)
    (hl : p.live = true → (s.thread c).live = true)
    (hw : ∀ t m, s.thread c = .check t ∨ s.thread c = .manifestRead t → s.tools t = some m → m.sync = true →
      (p = .check t ∨ p = .manifestRead t) ∨ ∀ d j, ¬ s.waits d j t)
    (hr : ∀ t, p = .check t ∨ p = .manifestRead t ∨ p = .request t → ∃ m, s.tools t = some m)
    (hc : ∀ t m, p = .check t → s.tools t = some m → m.sync = true) :
    SInv (s.setThread c p) := by
  refine ⟨h.sync_ok, h.queued_ok, h.known_ok, h.waiting_known, ?_, ?_, ?_, ?_, h.noMix, ?_⟩
  · intro d j t m w ht hs
    obtain ⟨e, he⟩ := h.waiting_sync d j t m w ht hs
    by_cases hec : e = c
    · subst hec
      rcases hw t m he ht hs with hp | hn
      · exact ⟨e, by simpa [Sync.setThread] using hp⟩
      · exact absurd w (hn d j)
    · exact ⟨e, by simpa [Sync.setThread, upd_ne p hec] using he⟩
  · intro d t hd
    by_cases hdc : d = c
    · subst hdc; exact hr t (by simpa [Sync.setThread] using hd)
    · exact h.read_ok d t (by simpa [Sync.setThread, upd_ne p hdc] using hd)
  · intro d t m hd ht
    by_cases hdc : d = c
    · subst hdc; exact hc t m (by simpa [Sync.setThread] using hd) ht
    · exact h.check_ok d t m (by simpa [Sync.setThread, upd_ne p hdc] using hd) ht
  · intro d t ha hd
    refine h.asked_ok d t ha ?_
    by_cases hdc : d = c
    · subst hdc; exact hl (by simpa [Sync.setThread] using hd)
    · simpa [Sync.setThread, upd_ne p hdc] using hd
  · intro d t i ha hd
    refine h.file_ok d t i ha ?_
    by_cases hdc : d = c
    · subst hdc; exact hl (by simpa [Sync.setThread] using hd)
    · simpa [Sync.setThread, upd_ne p hdc] using hd

theorem SInv.setMan {s : Sync} (h : SInv s) {t : Nat} {m : Man} (ht : s.tools t = some m) (m' : Man)
    (hmono : m.sync = true → m'.sync = true) (hok : m'.sync = true → m'.complete)
    (hmix : .missing ∈ m'.files → ¬ .syncing ∈ m'.files)
    (hask : ∀ c, s.asked c t = true → (s.thread c).live = true → m'.owner = some c ∧ m'.files = [] ∧ m'.sync = false)
    (hfile : ∀ c i, s.askedFile c t i = true → (s.thread c).live = true → m'.owner = some c ∧ m'.files[i]? = some .syncing ∧ m'.sync = false)
    (hsync : m'.sync = true → m.sync = true ∨ ∃ d, s.thread d = .check t ∨ s.thread d = .manifestRead t) :
    SInv (s.setMan t m') := by
  have hold : ∀ u mu, (s.setMan t m').tools u = some mu → (u = t ∧ mu = m') ∨ (u ≠ t ∧ s.tools u = some mu) := by
    intro u mu hu
    by_cases e : u = t
    · subst e; left; simpa [Sync.setMan, eq_comm] using hu
    · right; exact ⟨e, by simpa [Sync.setMan, upd_ne _ e] using hu⟩
  have hnew : ∀ u mu, s.tools u = some mu → ∃ mu', (s.setMan t m').tools u = some mu' ∧ (mu.sync = true → mu'.sync = true) := by
    intro u mu hu
    by_cases e : u = t
    · subst e; rw [ht] at hu; cases hu; exact ⟨m', by simp [Sync.setMan], hmono⟩
    · exact ⟨mu, by simpa [Sync.setMan, upd_ne _ e] using hu, id⟩
  refine ⟨?_, ?_, ?_, ?_, ?_, ?_, ?_, ?_, ?_, ?_⟩
  · intro u mu hu hs
    rcases hold u mu hu with ⟨_, rfl⟩ | ⟨_, hu⟩
    · exact hok hs
    · exact h.sync_ok u mu hu hs
  · intro c j u hq
    obtain ⟨mu, hu, hs⟩ := h.queued_ok c j u hq
    obtain ⟨mu', hu', hs'⟩ := hnew u mu hu
    exact ⟨mu', hu', hs' hs⟩
  · intro u mu hu
    rcases hold u mu hu with ⟨rfl, rfl⟩ | ⟨_, hu⟩
    · exact h.known_ok _ m ht
    · exact h.known_ok u mu hu
  · intro c j u hw
    obtain ⟨mu, hu⟩ := h.waiting_known c j u hw
    obtain ⟨mu', hu', _⟩ := hnew u mu hu
    exact ⟨mu', hu'⟩
  · intro c j u mu hw hu hs
    rcases hold u mu hu with ⟨rfl, rfl⟩ | ⟨_, hu⟩
    · rcases hsync hs with hm | hd
      · exact h.waiting_sync c j _ m hw ht hm
      · exact hd
    · exact h.waiting_sync c j u mu hw hu hs
  · intro d u hd
    obtain ⟨mu, hu⟩ := h.read_ok d u hd
    obtain ⟨mu', hu', _⟩ := hnew u mu hu
    exact ⟨mu', hu'⟩
  · intro d u mu hd hu
    rcases hold u mu hu with ⟨rfl, rfl⟩ | ⟨_, hu⟩
    · exact hmono (h.check_ok d _ m hd ht)
    · exact h.check_ok d u mu hd hu
  · intro c u ha hl
    by_cases e : u = t
    · subst e; exact ⟨m', by simp [Sync.setMan], hask c ha hl⟩
    · obtain ⟨mu, hu, hr⟩ := h.asked_ok c u ha hl
      exact ⟨mu, by simpa [Sync.setMan, upd_ne _ e] using hu, hr⟩
  · intro u mu hu
    rcases hold u mu hu with ⟨rfl, rfl⟩ | ⟨_, hu⟩
    · exact hmix
    · exact h.noMix u mu hu
  · intro c u i ha hl
    by_cases e : u = t
    · subst e; exact ⟨m', by simp [Sync.setMan], hfile c i ha hl⟩
    · obtain ⟨mu, hu, hr⟩ := h.file_ok c u i ha hl
      exact ⟨mu, by simpa [Sync.setMan, upd_ne _ e] using hu, hr⟩

/-- the lists of clients may change if no job becomes a waiting one -/
theorem SInv.clients {s : Sync} (h : SInv s) (l : List Client) (hl : ∀ c j t, (∃ x ∈ l, x.id = c ∧ (j, t) ∈ x.waiting) → s.waits c j t) :
    SInv { s with clients := l } :=
  ⟨h.sync_ok, h.queued_ok, h.known_ok, fun c j t w => h.waiting_known c j t (hl c j t w), fun c j t m w => h.waiting_sync c j t m (hl c j t w),
   h.read_ok, h.check_ok, h.asked_ok, h.noMix, h.file_ok⟩

theorem SInv.received {s : Sync} (h : SInv s) (l : List (Nat × Nat × Nat)) : SInv { s with received := l } :=
  ⟨h.sync_ok, h.queued_ok, h.known_ok, h.waiting_known, h.waiting_sync, h.read_ok, h.check_ok, h.asked_ok, h.noMix, h.file_ok⟩

theorem SInv.queued {s : Sync} (h : SInv s) (l : List (Nat × Nat × Nat))
    (hl : ∀ c j t, (c, j, t) ∈ l → ∃ m, s.tools t = some m ∧ m.sync = true) : SInv { s with queued := s.queued ++ l } := by
  refine ⟨h.sync_ok, ?_, h.known_ok, h.waiting_known, h.waiting_sync, h.read_ok, h.check_ok, h.asked_ok, h.noMix, h.file_ok⟩
  intro c j t hm
  rcases List.mem_append.mp hm with hm | hm
  · exact h.queued_ok c j t hm
  · exact hl c j t hm

theorem SInv.ask {s : Sync} (h : SInv s) (c t : Nat) (b : Bool)
    (hb : b = true → ∃ m, s.tools t = some m ∧ m.owner = some c ∧ m.files = [] ∧ m.sync = false) : SInv (s.ask c t b) := by
  refine ⟨h.sync_ok, h.queued_ok, h.known_ok, h.waiting_known, h.waiting_sync, h.read_ok, h.check_ok, ?_, h.noMix, h.file_ok⟩
  intro d u ha hl
  by_cases e : d = c ∧ u = t
  · obtain ⟨rfl, rfl⟩ := e
    exact hb (by simpa [Sync.ask] using ha)
  · refine h.asked_ok d u ?_ hl
    by_cases e1 : d = c
    · subst e1
      have e2 : u ≠ t := fun e2 => e ⟨rfl, e2⟩
      simpa [Sync.ask, upd_ne _ e2] using ha
    · simpa [Sync.ask, upd_ne _ e1] using ha

theorem SInv.wait {s : Sync} (h : SInv s) (c j t : Nat) {m : Man} (ht : s.tools t = some m) (hs : m.sync = false) : SInv (s.wait c j t) := by
  have hw : ∀ d k u, (s.wait c j t).waits d k u → s.waits d k u ∨ (d = c ∧ k = j ∧ u = t) := by
    rintro d k u ⟨x, hx, rfl, hk⟩
    simp only [Sync.wait, List.mem_map] at hx
    obtain ⟨y, hy, rfl⟩ := hx
    unfold addWaiting at hk ⊢
    split at hk
    · next e =>
      simp only [if_pos e]
      rcases List.mem_append.mp hk with hk | hk
      · left; exact ⟨y, hy, rfl, hk⟩
      · right; simp at hk; exact ⟨e, hk⟩
    · next e => simp only [if_neg e]; left; exact ⟨y, hy, rfl, hk⟩
  refine ⟨h.sync_ok, h.queued_ok, h.known_ok, ?_, ?_, h.read_ok, h.check_ok, h.asked_ok, h.noMix, h.file_ok⟩
  · intro d k u w
    rcases hw d k u w with w | ⟨_, _, rfl⟩
    · exact h.waiting_known d k u w
    · exact ⟨m, ht⟩
  · intro d k u mu w hu hsu
    rcases hw d k u w with w | ⟨_, _, rfl⟩
    · exact h.waiting_sync d k u mu w hu hsu
    · have hu : s.tools _ = _ := hu
      rw [ht] at hu; cases hu; rw [hs] at hsu; cases hsu

/-- a tool that is not known yet -/
theorem SInv.newTool {s : Sync} (h : SInv s) {t : Nat} (c : Nat) (ht : s.tools t = none) :
    SInv { s.setMan t ⟨some c, [], false⟩ with known := s.known ++ [t] } := by
  have hold : ∀ u mu, upd s.tools t (some ⟨some c, [], false⟩) u = some mu → (u = t ∧ mu = ⟨some c, [], false⟩) ∨ s.tools u = some mu := by
    intro u mu hu
    by_cases e : u = t
    · subst e; left; simpa [eq_comm] using hu
    · right; rw [upd_ne _ e] at hu; exact hu
  have hnew : ∀ u mu, s.tools u = some mu → upd s.tools t (some ⟨some c, [], false⟩) u = some mu := by
    intro u mu hu
    by_cases e : u = t
    · subst e; rw [ht] at hu; cases hu
    · rw [upd_ne _ e]; exact hu
  refine ⟨?_, ?_, ?_, ?_, ?_, ?_, ?_, ?_, ?_, ?_⟩
  · intro u mu hu hs
    rcases hold u mu hu with ⟨_, rfl⟩ | hu
    · cases hs
    · exact h.sync_ok u mu hu hs
  · intro c j u hq
    obtain ⟨mu, hu, hs⟩ := h.queued_ok c j u hq
    exact ⟨mu, hnew u mu hu, hs⟩
  · intro u mu hu
    rcases hold u mu hu with ⟨rfl, rfl⟩ | hu
    · simp
    · exact List.mem_append_left _ (h.known_ok u mu hu)
  · intro c j u hw
    obtain ⟨mu, hu⟩ := h.waiting_known c j u hw
    exact ⟨mu, hnew u mu hu⟩
  · intro c j u mu hw hu hs
    rcases hold u mu hu with ⟨rfl, rfl⟩ | hu
    · cases hs
    · exact h.waiting_sync c j u mu hw hu hs
  · intro d u hd
    obtain ⟨mu, hu⟩ := h.read_ok d u hd
    exact ⟨mu, hnew u mu hu⟩
  · intro d u mu hd hu
    obtain ⟨m', hm'⟩ := h.read_ok d u (Or.inl hd)
    have := h.check_ok d u m' hd hm'
    have hx := hnew u m' hm'
    have hu : upd s.tools t (some ⟨some c, [], false⟩) u = some mu := hu
    rw [hx] at hu; cases hu; exact this
  · intro c u ha hl
    obtain ⟨mu, hu, hr⟩ := h.asked_ok c u ha hl
    exact ⟨mu, hnew u mu hu, hr⟩
  · intro u mu hu hm
    rcases hold u mu hu with ⟨rfl, rfl⟩ | hu
    · cases hm
    · exact h.noMix u mu hu hm
  · intro c u i ha hl
    obtain ⟨mu, hu, hr⟩ := h.file_ok c u i ha hl
    exact ⟨mu, hnew u mu hu, hr⟩

/-- the state after asking for the missing files -/
def reqFiles (s : Sync) (b t : Nat) (m : Man) : Sync :=
  { s.setMan t { m with owner := some b, files := m.files.map fun f => if f = .missing then .syncing else f } with
    askedFile := fun c u i => if c = b ∧ u = t ∧ m.files[i]? = some .missing then true else s.askedFile c u i }

theorem requestMissing_cases {dbg : Bool} {s s' : Sync} {b t : Nat} (h : requestMissing dbg s b t = .ok s') :
    ∃ m, s.tools t = some m ∧ ((¬ .missing ∈ m.files ∧ s' = s) ∨
      (.missing ∈ m.files ∧ (dbg = true → m.owner = none ∨ m.owner = some b) ∧ s' = reqFiles s b t m)) := by
  unfold requestMissing at h
  split at h
  · cases h
  · next m ht =>
    refine ⟨m, ht, ?_⟩
    split at h
    · next hm =>
      split at h
      · cases h
      · next hd =>
        cases h
        refine Or.inr ⟨hm, fun e => ?_, rfl⟩
        by_cases h1 : m.owner = none
        · exact Or.inl h1
        · by_cases h2 : m.owner = some b
          · exact Or.inr h2
          · exact absurd ⟨e, h1, h2⟩ hd
    · next hm => cases h; exact Or.inl ⟨hm, rfl⟩

theorem SInv.reqFiles {s : Sync} (h : SInv s) {b t : Nat} {m : Man} (ht : s.tools t = some m) (hm : .missing ∈ m.files) :
    SInv (reqFiles s b t m) := by
  have hns : m.sync = false := by
    cases e : m.sync with
    | false => rfl
    | true => have := (h.sync_ok t m ht e).2 _ hm; cases this
  have hmix := h.noMix t m ht hm
  have h1 : SInv (s.setMan t { m with owner := some b, files := m.files.map fun f => if f = .missing then .syncing else f }) := by
    refine h.setMan ht _ (by rw [hns]; intro e; cases e) (by dsimp only; rw [hns]; intro e; cases e) ?_ ?_ ?_ (by dsimp only; rw [hns]; intro e; cases e)
    · intro hx
      exfalso
      obtain ⟨f, _, hf⟩ := List.mem_map.mp hx
      split at hf
      · cases hf
      · next e => exact e hf
    · intro c ha hl
      obtain ⟨m', ht', _, hf, _⟩ := h.asked_ok c t ha hl
      rw [ht] at ht'; cases ht'
      rw [hf] at hm; cases hm
    · intro c i ha hl
      obtain ⟨m', ht', _, hf, _⟩ := h.file_ok c t i ha hl
      rw [ht] at ht'; cases ht'
      exact absurd (List.mem_of_getElem? hf) hmix
  refine ⟨h1.sync_ok, h1.queued_ok, h1.known_ok, h1.waiting_known, h1.waiting_sync, h1.read_ok, h1.check_ok, h1.asked_ok, h1.noMix, ?_⟩
  intro c u i ha hl
  have ha : (if c = b ∧ u = t ∧ m.files[i]? = some .missing then true else s.askedFile c u i) = true := ha
  split at ha
  · next e =>
    obtain ⟨rfl, rfl, e⟩ := e
    exact ⟨{ m with owner := some c, files := m.files.map fun f => if f = .missing then .syncing else f }, by simp [Verif.Server.reqFiles, Sync.setMan], rfl, by simp [List.getElem?_map, e], hns⟩
  · exact h1.file_ok c u i ha hl

theorem SInv.requestMissing {dbg : Bool} {s s' : Sync} {b t : Nat} (h : SInv s) (hs : requestMissing dbg s b t = .ok s') : SInv s' := by
  obtain ⟨m, ht, ⟨_, rfl⟩ | ⟨hm, _, rfl⟩⟩ := requestMissing_cases hs
  · exact h
  · exact h.reqFiles ht hm

/-- what asking for files leaves alone -/
theorem requestMissing_same {dbg : Bool} {s s' : Sync} {b t : Nat} (hs : requestMissing dbg s b t = .ok s') :
    s'.clients = s.clients ∧ s'.thread = s.thread ∧ s'.queued = s.queued ∧ s'.received = s.received ∧ s'.asked = s.asked ∧ s'.known = s.known := by
  obtain ⟨m, ht, ⟨_, rfl⟩ | ⟨hm, _, rfl⟩⟩ := requestMissing_cases hs
  · exact ⟨rfl, rfl, rfl, rfl, rfl, rfl⟩
  · exact ⟨rfl, rfl, rfl, rfl, rfl, rfl⟩

theorem SInv.handOver {dbg : Bool} {cancelled : List Nat} : ∀ {l : List (Nat × Nat)} {s s' : Sync}, SInv s → handOver dbg cancelled l s = .ok s' →
    SInv s' ∧ s'.clients = s.clients ∧ s'.thread = s.thread ∧ s'.queued = s.queued ∧ s'.received = s.received := by
  intro l
  induction l with
  | nil => intro s s' h hs; unfold Verif.Server.handOver at hs; cases hs; exact ⟨h, rfl, rfl, rfl, rfl⟩
  | cons x r ih =>
    obtain ⟨b, t⟩ := x
    intro s s' h hs
    unfold Verif.Server.handOver at hs
    split at hs
    · split at hs
      · next s₁ h₁ =>
        obtain ⟨a1, a2, a3, a4, a5⟩ := ih (h.requestMissing h₁) hs
        obtain ⟨b2, b3, b4, b5, _⟩ := requestMissing_same h₁
        exact ⟨a1, by rw [a2, b2], by rw [a3, b3], by rw [a4, b4], by rw [a5, b5]⟩
      · cases hs
      · cases hs
    · exact ih h hs

/-- giving up the tools a connection synchronises -/
theorem SInv.cancel {s : Sync} (h : SInv s) (c : Nat) (l : List Nat)
    (hl : ∀ t ∈ l, ∃ m, s.tools t = some m ∧ m.sync = false ∧ m.owner = some c) (hc : (s.thread c).live = false) :
    SInv { s with tools := fun t => if t ∈ l then (s.tools t).map Man.cancel else s.tools t } := by
  have hold : ∀ u mu, (if u ∈ l then (s.tools u).map Man.cancel else s.tools u) = some mu →
      ∃ mo, s.tools u = some mo ∧ ((u ∈ l ∧ mu = mo.cancel ∧ mo.sync = false ∧ mo.owner = some c) ∨ (u ∉ l ∧ mu = mo)) := by
    intro u mu hu
    split at hu
    · next e =>
      obtain ⟨m, hm, h1, h2⟩ := hl u e
      rw [hm] at hu; cases hu
      exact ⟨m, hm, Or.inl ⟨e, rfl, h1, h2⟩⟩
    · next e => exact ⟨mu, hu, Or.inr ⟨e, rfl⟩⟩
  have hnew : ∀ u mu, s.tools u = some mu → ∃ mu', (if u ∈ l then (s.tools u).map Man.cancel else s.tools u) = some mu' ∧ mu'.sync = mu.sync ∧ (u ∈ l → mu.owner = some c) ∧ (u ∉ l → mu' = mu) := by
    intro u mu hu
    by_cases e : u ∈ l
    · obtain ⟨m, hm, h1, h2⟩ := hl u e
      rw [hu] at hm; cases hm
      exact ⟨mu.cancel, by simp [e, hu], rfl, fun _ => h2, fun n => absurd e n⟩
    · exact ⟨mu, by simp [e, hu], rfl, fun x => absurd x e, fun _ => rfl⟩
  refine ⟨?_, ?_, ?_, ?_, ?_, ?_, ?_, ?_, ?_, ?_⟩
  · intro u mu hu hs
    obtain ⟨mo, ho, ⟨_, rfl, h1, _⟩ | ⟨_, rfl⟩⟩ := hold u mu hu
    · have : mo.sync = true := hs
      rw [h1] at this; cases this
    · exact h.sync_ok u _ ho hs
  · intro d j u hq
    obtain ⟨mu, hu, hs⟩ := h.queued_ok d j u hq
    obtain ⟨mu', hu', e, _⟩ := hnew u mu hu
    exact ⟨mu', hu', e.trans hs⟩
  · intro u mu hu
    obtain ⟨mo, ho, _⟩ := hold u mu hu
    exact h.known_ok u mo ho
  · intro d j u hw
    obtain ⟨mu, hu⟩ := h.waiting_known d j u hw
    obtain ⟨mu', hu', _⟩ := hnew u mu hu
    exact ⟨mu', hu'⟩
  · intro d j u mu hw hu hs
    obtain ⟨mo, ho, ⟨_, rfl, h1, _⟩ | ⟨_, rfl⟩⟩ := hold u mu hu
    · have : mo.sync = true := hs
      rw [h1] at this; cases this
    · exact h.waiting_sync d j u _ hw ho hs
  · intro d u hd
    obtain ⟨mu, hu⟩ := h.read_ok d u hd
    obtain ⟨mu', hu', _⟩ := hnew u mu hu
    exact ⟨mu', hu'⟩
  · intro d u mu hd hu
    obtain ⟨mo, ho, ⟨_, rfl, h1, _⟩ | ⟨_, rfl⟩⟩ := hold u mu hu
    · exact h.check_ok d u mo hd ho
    · exact h.check_ok d u _ hd ho
  · intro d u ha hd
    obtain ⟨mu, hu, h1, h2⟩ := h.asked_ok d u ha hd
    obtain ⟨mu', hu', _, h3, h4⟩ := hnew u mu hu
    by_cases e : u ∈ l
    · have ed : d = c := Option.some.inj (h1.symm.trans (h3 e))
      have hd : (s.thread d).live = true := hd
      rw [ed, hc] at hd; cases hd
    · have := h4 e; subst this
      exact ⟨mu', hu', h1, h2⟩
  · intro u mu hu hm
    obtain ⟨mo, ho, ⟨_, rfl, h1, _⟩ | ⟨_, rfl⟩⟩ := hold u mu hu
    · intro hx
      obtain ⟨f, _, hf⟩ := List.mem_map.mp hx
      split at hf
      · cases hf
      · next e => exact e hf
    · exact h.noMix u _ ho hm
  · intro d u i ha hd
    obtain ⟨mu, hu, h1, h2⟩ := h.file_ok d u i ha hd
    obtain ⟨mu', hu', _, h3, h4⟩ := hnew u mu hu
    by_cases e : u ∈ l
    · have ed : d = c := Option.some.inj (h1.symm.trans (h3 e))
      have hd : (s.thread d).live = true := hd
      rw [ed, hc] at hd; cases hd
    · have := h4 e; subst this
      exact ⟨mu', hu', h1, h2⟩

theorem mem_cancelled {s : Sync} {c t : Nat} (h : t ∈ s.known.filter fun t => match s.tools t with
        | none => false
        | some m => !m.sync && decide (m.owner = some c)) :
    ∃ m, s.tools t = some m ∧ m.sync = false ∧ m.owner = some c := by
  have := (List.mem_filter.mp h).2
  split at this
  · cases this
  · next m hm => exact ⟨m, hm, by simpa using this⟩

/-- what the invariant says when a manifest arrives -/
theorem SInv.manifest {s : Sync} (h : SInv s) {c t : Nat} (hi : s.thread c = .idle) (ha : s.asked c t = true) :
    ∃ m, s.tools t = some m ∧ m.owner = some c ∧ m.files = [] ∧ m.sync = false :=
  h.asked_ok c t ha (by rw [hi]; rfl)

theorem SInv.file {s : Sync} (h : SInv s) {c t i : Nat} (hi : s.thread c = .idle) (ha : s.askedFile c t i = true) :
    ∃ m, s.tools t = some m ∧ m.owner = some c ∧ m.files[i]? = some .syncing ∧ m.sync = false :=
  h.file_ok c t i ha (by rw [hi]; rfl)

theorem SInv.step {dbg : Bool} {s s' : Sync} {op : SOp} (h : SInv s) (hs : sstep dbg s op = .ok s') : SInv s' := by
  cases op with
  | connect c =>
    unfold sstep at hs; dsimp only at hs
    split at hs
    · next e =>
      cases hs
      refine SInv.clients (h.setThread c .idle (fun _ => by rw [e]; rfl) (fun t m x => ?_) (fun t x => ?_) (fun t m x => by cases x)) _ ?_
      · rw [e] at x; rcases x with x | x <;> cases x
      · rcases x with x | x | x <;> cases x
      · rintro d j t ⟨x, hx, rfl, hj⟩
        rcases List.mem_append.mp hx with hx | hx
        · exact ⟨x, hx, rfl, hj⟩
        · simp at hx; subst hx; cases hj
    · cases hs
  | reorder l =>
    unfold sstep at hs; dsimp only at hs
    split at hs
    · next e =>
      cases hs
      refine h.clients l ?_
      rintro d j t ⟨x, hx, rfl, hj⟩
      exact ⟨x, e.mem_iff.mp hx, rfl, hj⟩
    · cases hs
  | job c j t =>
    unfold sstep at hs; dsimp only at hs
    split at hs
    · next e =>
      split at hs
      · next m ht =>
        split at hs
        · next hsy =>
          cases hs
          refine (h.received (s.received ++ [(c, j, t)])).queued [(c, j, t)] ?_
          intro d k u hm
          simp at hm
          obtain ⟨rfl, rfl, rfl⟩ := hm
          exact ⟨m, ht, hsy⟩
        · next hsy =>
          have hsy : m.sync = false := by simpa using hsy
          split at hs
          · cases hs; exact (h.received _).wait c j t ht hsy
          · next ho =>
            have ho : m.owner = none := by simpa using ho
            have h1 : SInv (({ s with received := s.received ++ [(c, j, t)] } : Sync).setMan t { m with owner := some c }) := by
              refine (h.received (s.received ++ [(c, j, t)])).setMan ht { m with owner := some c } id (fun e => by rw [hsy] at e; cases e) (h.noMix t m ht) ?_ ?_ (fun e => by rw [hsy] at e; cases e)
              · intro d ha hd
                obtain ⟨m', ht', ho', _⟩ := h.asked_ok d t ha hd
                rw [ht] at ht'; cases ht'; rw [ho] at ho'; cases ho'
              · intro d i ha hd
                obtain ⟨m', ht', ho', _⟩ := h.file_ok d t i ha hd
                rw [ht] at ht'; cases ht'; rw [ho] at ho'; cases ho'
            have ht1 : (({ s with received := s.received ++ [(c, j, t)] } : Sync).setMan t { m with owner := some c }).tools t = some { m with owner := some c } := by
              simp [Sync.setMan]
            split at hs
            · next hf =>
              split at hs
              · next s₁ h₁ =>
                cases hs
                have h2 := h1.requestMissing h₁
                obtain ⟨m', ht', hc⟩ := requestMissing_cases h₁
                rw [ht1] at ht'; cases ht'
                rcases hc with ⟨_, rfl⟩ | ⟨_, _, rfl⟩
                · exact h2.wait c j t ht1 hsy
                · exact h2.wait c j t (m := { m with owner := some c, files := m.files.map fun f => if f = .missing then .syncing else f }) (by show upd _ t (some _) t = some _; rw [upd_same]) hsy
              · cases hs
              · cases hs
            · next hf =>
              cases hs
              have hf : m.files = [] := by simpa using hf
              exact (h1.ask c t true (fun _ => ⟨_, ht1, rfl, hf, hsy⟩)).wait c j t ht1 hsy
      · next ht =>
        cases hs
        have h1 := (h.received (s.received ++ [(c, j, t)])).newTool c ht
        have ht1 : ({ (({ s with received := s.received ++ [(c, j, t)] } : Sync).setMan t ⟨some c, [], false⟩) with known := s.known ++ [t] } : Sync).tools t = some ⟨some c, [], false⟩ := by
          simp [Sync.setMan]
        exact (h1.ask c t true (fun _ => ⟨_, ht1, rfl, rfl, rfl⟩)).wait c j t ht1 rfl
    · cases hs
  | manifest c t d =>
    unfold sstep at hs; dsimp only at hs
    split at hs
    · next e =>
      obtain ⟨m, ht, ho, hf, hsy⟩ := h.manifest e.1 e.2
      have h0 := h.ask c t false (fun x => by cases x)
      split at hs
      · cases hs
      · next m' ht' =>
        have ht' : s.tools t = some m' := ht'
        rw [ht] at ht'; cases ht'
        split at hs
        · cases hs
        · cases d with
          | none =>
            dsimp only at hs
            split at hs
            · cases hs
            · cases hs
              refine h0.setThread c .closing (fun _ => by show (s.thread c).live = true; rw [e.1]; rfl) (fun t m x => ?_) (fun t x => ?_) (fun t m x => by cases x)
              · have x : s.thread c = _ ∨ s.thread c = _ := x
                rw [e.1] at x; rcases x with x | x <;> cases x
              · rcases x with x | x | x <;> cases x
          | some present =>
            dsimp only at hs
            split at hs
            · cases hs
            · next hp =>
              cases hs
              have h1 : SInv ((s.ask c t false).setThread c (.manifestRead t)) := by
                refine h0.setThread c (.manifestRead t) (fun _ => by show (s.thread c).live = true; rw [e.1]; rfl) (fun u m x => ?_) (fun u x => ?_) (fun u m x => by cases x)
                · have x : s.thread c = _ ∨ s.thread c = _ := x
                  rw [e.1] at x; rcases x with x | x <;> cases x
                · rcases x with x | x | x
                  · cases x
                  · cases x; exact ⟨m, ht⟩
                  · cases x
              have hno : ∀ d, (s.ask c t false).asked d t = true → (((s.ask c t false).setThread c (.manifestRead t)).thread d).live = true → False := by
                intro d ha hd
                obtain ⟨m', ht', ho', _⟩ := h1.asked_ok d t ha hd
                have ht' : s.tools t = some m' := ht'
                rw [ht] at ht'; cases ht'
                rw [ho] at ho'; cases ho'
                simp [Sync.ask] at ha
              show SInv (((s.ask c t false).setThread c (.manifestRead t)).setMan t _)
              refine h1.setMan (m := m) ht _ (fun x => by rw [hsy] at x; cases x) ?_ ?_ (fun d ha hd => (hno d ha hd).elim) ?_ (fun _ => Or.inr ⟨c, Or.inr (by simp [Sync.setThread])⟩)
              · intro hx
                have hx : present.all id = true := by simpa [hsy] using hx
                refine ⟨by simpa using hp, ?_⟩
                intro f hfm
                obtain ⟨b, hb, rfl⟩ := List.mem_map.mp hfm
                have := List.all_eq_true.mp hx b hb
                have : b = true := this
                simp [this]
              · intro _ hx
                obtain ⟨b, hb, hbe⟩ := List.mem_map.mp hx
                split at hbe <;> cases hbe
              · intro d i ha hd
                obtain ⟨m', ht', _, hf', _⟩ := h1.file_ok d t i ha hd
                have ht' : s.tools t = some m' := ht'
                rw [ht] at ht'; cases ht'
                rw [hf] at hf'; simp at hf'
    · cases hs
  | afterManifest c =>
    unfold sstep at hs; dsimp only at hs
    split at hs
    · next t e =>
      split at hs
      · cases hs
      · next m ht =>
        cases hs
        refine h.setThread c _ (fun _ => by rw [e]; rfl) (fun u mu x hu hsu => ?_) (fun u x => ?_) (fun u mu x hu => ?_)
        · rw [e] at x
          rcases x with x | x
          · cases x
          · cases x
            rw [ht] at hu; cases hu
            left; left; simp [hsu]
        · split at x
          · rcases x with x | x | x <;> cases x
            exact ⟨m, ht⟩
          · rcases x with x | x | x <;> cases x
            exact ⟨m, ht⟩
        · split at x
          · next hsy => cases x; rw [ht] at hu; cases hu; exact hsy
          · cases x
    · cases hs
  | request c =>
    unfold sstep at hs; dsimp only at hs
    split at hs
    · next t e =>
      split at hs
      · next s₁ h₁ =>
        cases hs
        obtain ⟨_, et, _⟩ := requestMissing_same h₁
        refine (h.requestMissing h₁).setThread c .idle (fun _ => by rw [et, e]; rfl) (fun u m x => ?_) (fun u x => ?_) (fun u m x => by cases x)
        · rw [et, e] at x; rcases x with x | x <;> cases x
        · rcases x with x | x | x <;> cases x
      · cases hs
      · cases hs
    · cases hs
  | file c t i ok =>
    unfold sstep at hs; dsimp only at hs
    split at hs
    · next e =>
      obtain ⟨m, ht, ho, hf, hsy⟩ := h.file e.1 e.2
      have h0 : SInv { s with askedFile := fun c' t' i' => if c' = c ∧ t' = t ∧ i' = i then false else s.askedFile c' t' i' } := by
        refine ⟨h.sync_ok, h.queued_ok, h.known_ok, h.waiting_known, h.waiting_sync, h.read_ok, h.check_ok, h.asked_ok, h.noMix, ?_⟩
        intro d u k ha hd
        have ha : (if d = c ∧ u = t ∧ k = i then false else s.askedFile d u k) = true := ha
        split at ha
        · cases ha
        · exact h.file_ok d u k ha hd
      rw [ht] at hs
      dsimp only at hs
      split at hs
      · cases hs
      · rw [hf] at hs
        dsimp only at hs
        split at hs
        · cases hs
        · split at hs
          · cases hs
            refine h0.setThread c .closing (fun _ => by show (s.thread c).live = true; rw [e.1]; rfl) (fun u m x => ?_) (fun u x => ?_) (fun u m x => by cases x)
            · have x : s.thread c = _ ∨ s.thread c = _ := x
              rw [e.1] at x; rcases x with x | x <;> cases x
            · rcases x with x | x | x <;> cases x
          · have hmix : .missing ∈ m.files.set i .present → ¬ .syncing ∈ m.files.set i .present := by
              intro hx
              rcases List.mem_or_eq_of_mem_set hx with hx | hx
              · exact absurd (List.mem_of_getElem? hf) (h.noMix t m ht hx)
              · cases hx
            have hask : ∀ d, s.asked d t = true → (s.thread d).live = true → False := by
              intro d ha hd
              obtain ⟨m', ht', _, hf', _⟩ := h.asked_ok d t ha hd
              rw [ht] at ht'; cases ht'
              rw [hf'] at hf; simp at hf
            have hfile : ∀ d k, (if d = c ∧ t = t ∧ k = i then false else s.askedFile d t k) = true → (s.thread d).live = true →
                m.owner = some d ∧ (m.files.set i .present)[k]? = some .syncing := by
              intro d k ha hd
              split at ha
              · cases ha
              · next hn =>
                obtain ⟨m', ht', ho', hf', _⟩ := h.file_ok d t k ha hd
                rw [ht] at ht'; cases ht'
                refine ⟨ho', ?_⟩
                have hk : i ≠ k := by
                  rintro rfl
                  rw [ho] at ho'; cases ho'
                  exact hn ⟨rfl, rfl, rfl⟩
                rw [List.getElem?_set_ne hk]; exact hf'
            simp only [hsy, Bool.false_or, ne_eq, reduceCtorEq, not_false_eq_true, decide_true, Bool.true_and, if_false] at hs
            split at hs
            · next hnot =>
              cases hs
              refine h0.setMan ht _ (fun x => by rw [hsy] at x; cases x) (fun x => by cases x) hmix (fun d ha hd => (hask d ha hd).elim)
                (fun d k ha hd => ⟨(hfile d k ha hd).1, (hfile d k ha hd).2, rfl⟩) (fun x => by cases x)
            · next hall =>
              cases hs
              have hall : ∀ f ∈ m.files.set i .present, f = .present := by
                have : (m.files.set i .present).all (· = .present) = true := by simpa using hall
                intro f hfm
                have := List.all_eq_true.mp this f hfm
                simpa using this
              have h1 := SInv.setMan (m' := ⟨none, m.files.set i .present, true⟩) (SInv.setThread (s := { s with askedFile := fun c' t' i' => if c' = c ∧ t' = t ∧ i' = i then false else s.askedFile c' t' i' }) h0 c (.manifestRead t)
                (fun _ => by show (s.thread c).live = true; rw [e.1]; rfl)
                (fun u m x => by
                  have x : s.thread c = _ ∨ s.thread c = _ := x
                  rw [e.1] at x; rcases x with x | x <;> cases x)
                (fun u x => by
                  rcases x with x | x | x
                  · cases x
                  · cases x; exact ⟨m, ht⟩
                  · cases x) (fun u m x => by cases x)) (t := t) (m := m) ht (fun _ => rfl)
                (fun _ => ⟨by
                  intro hx
                  have hx : m.files.set i .present = [] := hx
                  have : (m.files.set i .present).length = 0 := by rw [hx]; rfl
                  rw [List.length_set] at this
                  have := List.eq_nil_of_length_eq_zero this
                  rw [this] at hf; simp at hf, hall⟩) hmix
                (fun d ha hd => (hask d ha (by
                  have hd : (upd s.thread c (.manifestRead t) d).live = true := hd
                  by_cases ed : d = c
                  · subst ed; rw [e.1]; rfl
                  · rwa [upd_ne _ ed] at hd)).elim)
                (fun d k ha hd => by
                  have hd : (upd s.thread c (.manifestRead t) d).live = true := hd
                  have hd : (s.thread d).live = true := by
                    by_cases ed : d = c
                    · subst ed; rw [e.1]; rfl
                    · rwa [upd_ne _ ed] at hd
                  have := hall _ (List.mem_of_getElem? (hfile d k ha hd).2)
                  cases this) (fun _ => Or.inr ⟨c, Or.inr (by simp [Sync.setThread])⟩)
              have h2 := h1.setThread c (.check t) (fun _ => by simp [Sync.setThread, Sync.setMan, Thread.live])
                (fun u mu x hu hsu => by
                  have x : upd s.thread c (.manifestRead t) c = .check u ∨ upd s.thread c (.manifestRead t) c = .manifestRead u := x
                  rw [upd_same] at x
                  rcases x with x | x
                  · cases x
                  · cases x; exact Or.inl (Or.inl rfl))
                (fun u x => by
                  rcases x with x | x | x
                  · cases x; exact ⟨_, by simp [Sync.setMan, Sync.setThread]; rfl⟩
                  · cases x
                  · cases x)
                (fun u mu x hu => by
                  cases x
                  have hu : upd s.tools t (some ⟨none, m.files.set i .present, true⟩) t = some mu := hu
                  rw [upd_same] at hu; cases hu; rfl)
              have e3 : upd (upd s.thread c (.manifestRead t)) c (.check t) = upd s.thread c (.check t) := by
                funext x; simp only [upd]; split <;> rfl
              simp only [Sync.setThread, Sync.setMan] at h2 ⊢
              rw [e3] at h2
              exact h2
    · cases hs
  | check c =>
    unfold sstep at hs; dsimp only at hs
    split at hs
    · next t e =>
      split at hs
      · cases hs
      · cases hs
        obtain ⟨m, ht⟩ := h.read_ok c t (Or.inl e)
        have hsy := h.check_ok c t m e ht
        have h1 := h.clients (s.clients.map fun x => { x with waiting := x.waiting.filter fun w => w.2 ≠ t }) (by
          rintro d j u ⟨x, hx, rfl, hj⟩
          obtain ⟨y, hy, rfl⟩ := List.mem_map.mp hx
          exact ⟨y, hy, rfl, (List.mem_filter.mp hj).1⟩)
        have h2 := h1.setThread c .idle (fun _ => by show (s.thread c).live = true; rw [e]; rfl)
          (fun u mu x _ _ => by
            have x : s.thread c = _ ∨ s.thread c = _ := x
            rw [e] at x
            rcases x with x | x
            · cases x
              right
              rintro d j ⟨y, hy, rfl, hj⟩
              obtain ⟨z, hz, rfl⟩ := List.mem_map.mp hy
              simpa using (List.mem_filter.mp hj).2
            · cases x)
          (fun u x => by rcases x with x | x | x <;> cases x) (fun u m x => by cases x)
        refine h2.queued _ ?_
        intro d j u hm
        obtain ⟨x, hx, hm⟩ := List.mem_flatMap.mp hm
        obtain ⟨w, hw, hwe⟩ := List.mem_map.mp hm
        have hw := (List.mem_filter.mp (List.mem_reverse.mp hw)).2
        cases hwe
        have hw : w.2 = t := by simpa using hw
        rw [hw]; exact ⟨m, ht, hsy⟩
    · cases hs
  | leave c =>
    unfold sstep at hs; dsimp only at hs
    split at hs
    · next e =>
      split at hs
      · cases hs
      · cases hs
        have h1 := h.setThread c (.leaving (s.known.filter fun t => match s.tools t with
          | none => false
          | some m => !m.sync && decide (m.owner = some c))) (fun x => by cases x)
          (fun u mu x _ _ => by rcases e with e | e <;> rw [e] at x <;> rcases x with x | x <;> cases x)
          (fun u x => by rcases x with x | x | x <;> cases x) (fun u m x => by cases x)
        exact h1.cancel c _ (fun t ht => mem_cancelled ht) (by simp [Sync.setThread, Thread.live])
    · cases hs
  | left c =>
    unfold sstep at hs; dsimp only at hs
    split at hs
    · next l e =>
      have h1 := h.clients (s.clients.filter fun x => x.id ≠ c) (by
        rintro d j u ⟨x, hx, rfl, hj⟩
        exact ⟨x, (List.mem_filter.mp hx).1, rfl, hj⟩)
      split at hs
      · next s₁ h₁ =>
        cases hs
        obtain ⟨h2, _, et, _⟩ := h1.handOver h₁
        refine h2.setThread c .gone (fun x => by cases x) (fun u mu x _ _ => ?_) (fun u x => ?_) (fun u m x => by cases x)
        · have et : s₁.thread = s.thread := et
          rw [et, e] at x; rcases x with x | x <;> cases x
        · rcases x with x | x | x <;> cases x
      · cases hs
      · cases hs
    · cases hs

theorem SReach.inv {dbg : Bool} {s : Sync} (h : SReach dbg s) : SInv s := by
  induction h with
  | init => exact SInv.initial
  | step op _ hs ih => exact ih.step hs

/-! ### No job is lost or run twice -/

def wl (l : List Client) : List (Nat × Nat × Nat) := l.flatMap fun x => x.waiting.map fun w => (x.id, w.1, w.2)

theorem waits_iff {s : Sync} {c j t : Nat} : s.waits c j t ↔ (c, j, t) ∈ s.waiting := by
  unfold Sync.waits Sync.waiting
  constructor
  · rintro ⟨x, hx, rfl, hj⟩
    exact List.mem_flatMap.mpr ⟨x, hx, List.mem_map.mpr ⟨(j, t), hj, rfl⟩⟩
  · intro h
    obtain ⟨x, hx, h⟩ := List.mem_flatMap.mp h
    obtain ⟨w, hw, e⟩ := List.mem_map.mp h
    cases e
    exact ⟨x, hx, rfl, hw⟩

theorem add_absent {c j t : Nat} : ∀ {l : List Client}, c ∉ l.map Client.id → l.map (addWaiting c j t) = l := by
  intro l h
  induction l with
  | nil => rfl
  | cons x r ih =>
    simp only [List.map_cons, List.mem_cons, not_or] at h
    rw [List.map_cons, ih h.2]
    have : ¬ x.id = c := fun e => h.1 e.symm
    rw [addWaiting, if_neg this]

theorem add_ids (c j t : Nat) (l : List Client) : (l.map (addWaiting c j t)).map Client.id = l.map Client.id := by
  rw [List.map_map]
  refine List.map_congr_left fun x _ => ?_
  simp only [Function.comp, addWaiting]
  split <;> rfl

theorem wl_add {c j t : Nat} : ∀ {l : List Client}, (l.map Client.id).Nodup → c ∈ l.map Client.id →
    (wl (l.map (addWaiting c j t))).Perm (wl l ++ [(c, j, t)]) := by
  intro l hn hc
  induction l with
  | nil => cases hc
  | cons x r ih =>
    simp only [List.map_cons, List.nodup_cons] at hn
    by_cases e : x.id = c
    · subst e
      rw [List.map_cons, add_absent hn.1]
      simp only [wl, List.flatMap_cons, addWaiting, if_pos, List.map_append, List.map_cons, List.map_nil, List.append_assoc]
      exact List.Perm.append_left _ (List.perm_append_comm)
    · have hc : c ∈ r.map Client.id := by
        rcases List.mem_cons.mp hc with hc | hc
        · exact absurd hc.symm e
        · exact hc
      rw [List.map_cons, addWaiting, if_neg e]
      simp only [wl, List.flatMap_cons, List.append_assoc]
      exact List.Perm.append_left _ (ih hn.2 hc)

theorem wl_check (t : Nat) : ∀ l : List Client,
    ((l.flatMap fun x => ((x.waiting.filter fun w => w.2 = t).reverse.map fun w => (x.id, w.1, w.2))) ++
      wl (l.map fun x => { x with waiting := x.waiting.filter fun w => w.2 ≠ t })).Perm (wl l) := by
  intro l
  induction l with
  | nil => exact List.Perm.refl _
  | cons x r ih =>
    simp only [wl, List.flatMap_cons, List.map_cons] at ih ⊢
    have h1 : ((x.waiting.filter fun w => w.2 = t).reverse.map (fun w => (x.id, w.1, w.2)) ++
        (x.waiting.filter fun w => w.2 ≠ t).map (fun w => (x.id, w.1, w.2))).Perm (x.waiting.map fun w => (x.id, w.1, w.2)) := by
      rw [← List.map_append]
      refine List.Perm.map _ ?_
      have := List.filter_append_perm (fun w : Nat × Nat => decide (w.2 = t)) x.waiting
      refine List.Perm.trans (List.Perm.append_right _ (List.reverse_perm _)) ?_
      have e : (x.waiting.filter fun w => decide (w.2 ≠ t)) = x.waiting.filter fun w => !decide (w.2 = t) :=
        List.filter_congr fun w _ => by simp
      rw [e]; exact this
    refine List.Perm.trans ?_ (List.Perm.append h1 ih)
    simp only [List.append_assoc]
    refine List.Perm.append_left _ ?_
    rw [← List.append_assoc, ← List.append_assoc]
    exact List.Perm.append_right _ List.perm_append_comm

theorem wl_left {c d j t : Nat} (h : d ≠ c) (l : List Client) : (wl (l.filter fun x => x.id ≠ c)).count (d, j, t) = (wl l).count (d, j, t) := by
  induction l with
  | nil => rfl
  | cons x r ih =>
    by_cases e : x.id = c
    · rw [List.filter_cons_of_neg (by simp [e])]
      have : ((x.waiting.map fun w => (x.id, w.1, w.2)).count (d, j, t)) = 0 := by
        refine List.count_eq_zero.mpr fun hm => ?_
        obtain ⟨w, _, hw⟩ := List.mem_map.mp hm
        cases hw; exact h e
      simp only [wl, List.flatMap_cons, List.count_append] at ih ⊢
      rw [ih, this, Nat.zero_add]
    · rw [List.filter_cons_of_pos (by simp [e])]
      simp only [wl, List.flatMap_cons, List.count_append] at ih ⊢
      rw [ih]

structure RInv (s : Sync) : Prop where
  nodup : (s.clients.map Client.id).Nodup
  ids : ∀ c, c ∈ s.clients.map Client.id ↔ s.thread c ≠ .fresh ∧ s.thread c ≠ .gone
  count : ∀ c j t, s.thread c ≠ .gone → s.received.count (c, j, t) = s.queued.count (c, j, t) + (wl s.clients).count (c, j, t)
  le : ∀ c j t, s.queued.count (c, j, t) ≤ s.received.count (c, j, t)

theorem RInv.initial : RInv .initial := ⟨List.nodup_nil, by simp [Sync.initial], by simp [Sync.initial, wl], by simp [Sync.initial]⟩

theorem RInv.same {s s' : Sync} (h : RInv s) (h1 : s'.clients = s.clients)
    (h2 : ∀ c, (s'.thread c = .fresh ↔ s.thread c = .fresh) ∧ (s'.thread c = .gone ↔ s.thread c = .gone))
    (h3 : s'.queued = s.queued) (h4 : s'.received = s.received) : RInv s' := by
  refine ⟨by rw [h1]; exact h.nodup, fun c => ?_, fun c j t hc => ?_, fun c j t => ?_⟩
  · rw [h1, h.ids c]; simp [(h2 c).1, (h2 c).2]
  · rw [h1, h3, h4]; exact h.count c j t (fun e => hc ((h2 c).2.mpr e))
  · rw [h3, h4]; exact h.le c j t

theorem upd_thread {s : Sync} {c : Nat} {p : Thread} (h1 : s.thread c ≠ .fresh) (h2 : s.thread c ≠ .gone) (h3 : p ≠ .fresh) (h4 : p ≠ .gone) (d : Nat) :
    (upd s.thread c p d = .fresh ↔ s.thread d = .fresh) ∧ (upd s.thread c p d = .gone ↔ s.thread d = .gone) := by
  by_cases e : d = c
  · subst e; rw [upd_same]; exact ⟨⟨fun x => absurd x h3, fun x => absurd x h1⟩, ⟨fun x => absurd x h4, fun x => absurd x h2⟩⟩
  · rw [upd_ne _ e]; exact ⟨Iff.rfl, Iff.rfl⟩

/-- a job is received and waits -/
theorem RInv.wait {s s' : Sync} (h : RInv s) {c j t : Nat} (hc : s.thread c = .idle) (h1 : s'.clients = s.clients.map (addWaiting c j t))
    (h2 : s'.thread = s.thread) (h3 : s'.queued = s.queued) (h4 : s'.received = s.received ++ [(c, j, t)]) : RInv s' := by
  refine ⟨by rw [h1, add_ids]; exact h.nodup, fun d => ?_, fun d k u hd => ?_, fun d k u => ?_⟩
  · rw [h1, add_ids, h2]; exact h.ids d
  · rw [h1, h3, h4, (wl_add h.nodup ((h.ids c).mpr (by rw [hc]; exact ⟨by simp, by simp⟩))).count_eq, List.count_append, List.count_append]
    have := h.count d k u (by rwa [h2] at hd)
    omega
  · rw [h3, h4, List.count_append]
    have := h.le d k u
    omega

theorem RInv.step {dbg : Bool} {s s' : Sync} {op : SOp} (hi : SInv s) (h : RInv s) (hs : sstep dbg s op = .ok s') : RInv s' := by
  cases op with
  | connect c =>
    unfold sstep at hs; dsimp only at hs
    split at hs
    · next e =>
      cases hs
      have hnot : c ∉ s.clients.map Client.id := fun hc => ((h.ids c).mp hc).1 e
      refine ⟨?_, fun d => ?_, fun d j t hd => ?_, h.le⟩
      · rw [List.map_append]
        refine List.nodup_append.mpr ⟨h.nodup, by simp, ?_⟩
        intro a ha b hb
        simp at hb; subst hb
        rintro rfl; exact hnot ha
      · rw [List.map_append, List.mem_append, h.ids d]
        show _ ↔ upd s.thread c .idle d ≠ .fresh ∧ upd s.thread c .idle d ≠ .gone
        by_cases ed : d = c
        · subst ed; simp
        · rw [upd_ne _ ed]; simp [ed]
      · have hd : upd s.thread c .idle d ≠ .gone := hd
        have : (wl (s.clients ++ [⟨c, []⟩])) = wl s.clients := by simp [wl]
        show _ = _ + (wl (s.clients ++ [⟨c, []⟩])).count _
        rw [this]
        refine h.count d j t ?_
        by_cases ed : d = c
        · subst ed; rw [e]; simp
        · rwa [upd_ne _ ed] at hd
    · cases hs
  | reorder l =>
    unfold sstep at hs; dsimp only at hs
    split at hs
    · next e =>
      cases hs
      refine ⟨(e.map _).nodup_iff.mpr h.nodup, fun d => ?_, fun d j t hd => ?_, h.le⟩
      · rw [← h.ids d]; exact (e.map _).mem_iff
      · show _ = _ + (wl l).count _
        have : (wl l).Perm (wl s.clients) := e.flatMap_right _
        rw [this.count_eq]
        exact h.count d j t hd
    · cases hs
  | job c j t =>
    unfold sstep at hs; dsimp only at hs
    split at hs
    · next e =>
      split at hs
      · next m ht =>
        split at hs
        · next hsy =>
          cases hs
          refine ⟨h.nodup, h.ids, fun d k u hd => ?_, fun d k u => ?_⟩
          · show (s.received ++ [(c, j, t)]).count _ = (s.queued ++ [(c, j, t)]).count _ + (wl s.clients).count _
            rw [List.count_append, List.count_append]
            have := h.count d k u hd
            omega
          · show (s.queued ++ [(c, j, t)]).count _ ≤ (s.received ++ [(c, j, t)]).count _
            rw [List.count_append, List.count_append]
            have := h.le d k u
            omega
        · split at hs
          · cases hs; exact h.wait e rfl rfl rfl rfl
          · split at hs
            · split at hs
              · next s₁ h₁ =>
                cases hs
                obtain ⟨a1, a2, a3, a4, _⟩ := requestMissing_same h₁
                exact h.wait (c := c) (j := j) (t := t) e (by show s₁.clients.map _ = _; rw [a1]; rfl) a2 a3 a4
              · cases hs
              · cases hs
            · cases hs; exact h.wait e rfl rfl rfl rfl
      · cases hs; exact h.wait e rfl rfl rfl rfl
    · cases hs
  | manifest c t d =>
    unfold sstep at hs; dsimp only at hs
    split at hs
    · next e =>
      have hup := fun p => upd_thread (s := s) (c := c) (p := p) (by rw [e.1]; simp) (by rw [e.1]; simp)
      split at hs
      · cases hs
      · split at hs
        · cases hs
        · cases d with
          | none =>
            dsimp only at hs
            split at hs
            · cases hs
            · cases hs; exact h.same rfl (hup _ (by simp) (by simp)) rfl rfl
          | some present =>
            dsimp only at hs
            split at hs
            · cases hs
            · cases hs; exact h.same rfl (hup _ (by simp) (by simp)) rfl rfl
    · cases hs
  | afterManifest c =>
    unfold sstep at hs; dsimp only at hs
    split at hs
    · next t e =>
      split at hs
      · cases hs
      · cases hs
        refine h.same rfl (upd_thread (s := s) (c := c) (by rw [e]; simp) (by rw [e]; simp) ?_ ?_) rfl rfl <;> split <;> simp
    · cases hs
  | request c =>
    unfold sstep at hs; dsimp only at hs
    split at hs
    · next t e =>
      split at hs
      · next s₁ h₁ =>
        cases hs
        obtain ⟨a1, a2, a3, a4, _⟩ := requestMissing_same h₁
        refine h.same a1 (fun d => ?_) a3 a4
        show (upd s₁.thread c .idle d = .fresh ↔ _) ∧ (upd s₁.thread c .idle d = .gone ↔ _)
        rw [a2]
        exact upd_thread (s := s) (c := c) (by rw [e]; simp) (by rw [e]; simp) (by simp) (by simp) d
      · cases hs
      · cases hs
    · cases hs
  | file c t i ok =>
    unfold sstep at hs; dsimp only at hs
    split at hs
    · next e =>
      have hup := fun p => upd_thread (s := s) (c := c) (p := p) (by rw [e.1]; simp) (by rw [e.1]; simp)
      split at hs
      · cases hs
      · split at hs
        · cases hs
        · split at hs
          · cases hs
          · split at hs
            · cases hs
            · split at hs
              · cases hs; exact h.same rfl (hup _ (by simp) (by simp)) rfl rfl
              · split at hs <;> split at hs
                · cases hs; exact h.same rfl (fun _ => ⟨Iff.rfl, Iff.rfl⟩) rfl rfl
                · cases hs; exact h.same rfl (hup _ (by simp) (by simp)) rfl rfl
                · cases hs; exact h.same rfl (fun _ => ⟨Iff.rfl, Iff.rfl⟩) rfl rfl
                · cases hs; exact h.same rfl (hup _ (by simp) (by simp)) rfl rfl
    · cases hs
  | check c =>
    unfold sstep at hs; dsimp only at hs
    split at hs
    · next t e =>
      have hup := upd_thread (s := s) (c := c) (p := .idle) (by rw [e]; simp) (by rw [e]; simp) (by simp) (by simp)
      have hp := wl_check t s.clients
      have hids : (s.clients.map fun x => ({ x with waiting := x.waiting.filter fun w => w.2 ≠ t } : Client)).map Client.id = s.clients.map Client.id := by
        rw [List.map_map]; rfl
      have hc : ∀ d j u, s.thread d ≠ .gone → s.received.count (d, j, u) = (s.queued ++ (s.clients.flatMap fun x => ((x.waiting.filter fun w => w.2 = t).reverse.map fun w => (x.id, w.1, w.2)))).count (d, j, u) +
          (wl (s.clients.map fun x => { x with waiting := x.waiting.filter fun w => w.2 ≠ t })).count (d, j, u) := by
        intro d j u hd
        rw [h.count d j u hd, ← hp.count_eq, List.count_append, List.count_append, Nat.add_assoc]
      split at hs
      · cases hs
      · cases hs
        refine ⟨by rw [hids]; exact h.nodup, fun d => ?_, fun d j u hd => hc d j u (fun x => hd ((hup d).2.mpr x)), fun d j u => ?_⟩
        · rw [hids, h.ids d]
          show _ ↔ upd s.thread c .idle d ≠ _ ∧ upd s.thread c .idle d ≠ _
          simp [(hup d).1, (hup d).2]
        · by_cases hd : s.thread d = .gone
          · have hz : (wl s.clients).count (d, j, u) = 0 := by
              refine List.count_eq_zero.mpr fun hm => ?_
              obtain ⟨x, hx, hm⟩ := List.mem_flatMap.mp hm
              obtain ⟨w, _, hw⟩ := List.mem_map.mp hm
              cases hw
              exact ((h.ids x.id).mp (List.mem_map.mpr ⟨x, hx, rfl⟩)).2 hd
            rw [← hp.count_eq, List.count_append] at hz
            show (s.queued ++ _).count _ ≤ s.received.count _
            rw [List.count_append]
            have := h.le d j u
            omega
          · have := hc d j u hd
            show (s.queued ++ _).count _ ≤ s.received.count _
            omega
    · cases hs
  | leave c =>
    unfold sstep at hs; dsimp only at hs
    split at hs
    · next e =>
      split at hs
      · cases hs
      · cases hs
        refine h.same rfl (upd_thread (s := s) (c := c) ?_ ?_ (by simp) (by simp)) rfl rfl <;> rcases e with e | e <;> rw [e] <;> simp
    · cases hs
  | left c =>
    unfold sstep at hs; dsimp only at hs
    split at hs
    · next l e =>
      have h1 := hi.clients (s.clients.filter fun x => x.id ≠ c) (by
        rintro d j u ⟨x, hx, rfl, hj⟩
        exact ⟨x, (List.mem_filter.mp hx).1, rfl, hj⟩)
      split at hs
      · next s₁ h₁ =>
        cases hs
        obtain ⟨_, a1, a2, a3, a4⟩ := h1.handOver h₁
        have a1 : s₁.clients = s.clients.filter fun x => x.id ≠ c := a1
        have a2 : s₁.thread = s.thread := a2
        have a3 : s₁.queued = s.queued := a3
        have a4 : s₁.received = s.received := a4
        refine ⟨?_, fun d => ?_, fun d j u hd => ?_, fun d j u => ?_⟩
        · show (s₁.clients.map _).Nodup
          rw [a1]
          exact List.Sublist.nodup (List.Sublist.map _ List.filter_sublist) h.nodup
        · show d ∈ s₁.clients.map _ ↔ upd s₁.thread c .gone d ≠ _ ∧ upd s₁.thread c .gone d ≠ _
          rw [a1, a2]
          have hd := h.ids d
          simp only [List.mem_map, List.mem_filter] at hd ⊢
          by_cases ed : d = c
          · subst ed
            rw [upd_same]
            constructor
            · rintro ⟨x, ⟨_, hx⟩, rfl⟩; simp at hx
            · rintro ⟨_, hx⟩; exact absurd rfl hx
          · rw [upd_ne _ ed, ← hd]
            constructor
            · rintro ⟨x, ⟨hx, _⟩, hxe⟩; exact ⟨x, hx, hxe⟩
            · rintro ⟨x, hx, hxe⟩; exact ⟨x, ⟨hx, by rw [hxe]; simpa using ed⟩, hxe⟩
        · have hd : upd s₁.thread c .gone d ≠ .gone := hd
          have ed : d ≠ c := by rintro rfl; exact hd (upd_same _ _ _)
          rw [upd_ne _ ed, a2] at hd
          show s₁.received.count _ = s₁.queued.count _ + (wl s₁.clients).count _
          rw [a1, a3, a4, wl_left ed]
          exact h.count d j u hd
        · show s₁.queued.count _ ≤ s₁.received.count _
          rw [a3, a4]; exact h.le d j u
      · cases hs
      · cases hs
    · cases hs

theorem SReach.rinv {dbg : Bool} {s : Sync} (h : SReach dbg s) : RInv s := by
  induction h with
  | init => exact RInv.initial
  | step op h hs ih => exact ih.step h.inv hs

end Verif.Server
