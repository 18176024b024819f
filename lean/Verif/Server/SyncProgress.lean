import Verif.Server.SyncProps
/-
C38, when disconnections are handled without interruption: who a waiting job waits for.
-/
namespace Verif.Server

/-- tool `t`, while the jobs in `rest` of the tools in `l` are still to be looked at -/
structure PLoc (s : Sync) (l : List Nat) (rest : List (Nat × Nat)) (t : Nat) : Prop where
  own : ∀ m c, s.tools t = some m → m.sync = false → m.owner = some c → ∃ j, s.waits c j t
  empty : ∀ m c, s.tools t = some m → m.sync = false → m.owner = some c → m.files = [] → s.asked c t = true ∨ s.thread c = .closing
  busy : ∀ m c, s.tools t = some m → m.sync = false → m.owner = some c → m.files ≠ [] →
    (s.thread c = .manifestRead t ∨ s.thread c = .request t) ∨
    (¬ .missing ∈ m.files ∧ .syncing ∈ m.files ∧ ∀ i : Nat, m.files[i]? = some .syncing → s.askedFile c t i = true ∨ s.thread c = .closing)
  free : ∀ m, s.tools t = some m → m.sync = false → m.owner = none →
    ¬ .syncing ∈ m.files ∧ (m.files = [] ∨ ∀ c j, s.waits c j t → t ∈ l ∧ (c, t) ∈ rest)
  part : ∀ m, s.tools t = some m → m.sync = false → m.files ≠ [] → ∃ f ∈ m.files, f ≠ .present
  read : ∀ m c, s.tools t = some m → m.sync = false → s.thread c = .manifestRead t ∨ s.thread c = .request t →
    m.owner = some c ∧ m.files ≠ [] ∧ ¬ .syncing ∈ m.files
  req : ∀ m c, s.tools t = some m → s.thread c = .request t → m.sync = false
  chk : ∀ m c, s.tools t = some m → m.sync = true → s.thread c = .manifestRead t ∨ s.thread c = .check t →
    (∃ j, s.waits c j t) ∧ ∀ d, s.thread d = .manifestRead t ∨ s.thread d = .check t → d = c

def PInv (s : Sync) (l : List Nat) (rest : List (Nat × Nat)) : Prop := ∀ t, PLoc s l rest t

theorem PLoc.frame {s s' : Sync} {l l' : List Nat} {rest rest' : List (Nat × Nat)} {t : Nat} (h : PLoc s l rest t)
    (h1 : s'.tools t = s.tools t) (h2 : ∀ c j, s'.waits c j t ↔ s.waits c j t) (h3 : ∀ c, s'.asked c t = s.asked c t)
    (h4 : ∀ c i, s'.askedFile c t i = s.askedFile c t i)
    (h5 : ∀ c, (s'.thread c = .manifestRead t ↔ s.thread c = .manifestRead t) ∧ (s'.thread c = .request t ↔ s.thread c = .request t) ∧
      (s'.thread c = .check t ↔ s.thread c = .check t) ∧ (s.thread c = .closing → s'.thread c = .closing))
    (h6 : ∀ c, t ∈ l → (c, t) ∈ rest → t ∈ l' ∧ (c, t) ∈ rest') : PLoc s' l' rest' t := by
  refine ⟨?_, ?_, ?_, ?_, ?_, ?_, ?_, ?_⟩
  · intro m c ht hs ho
    obtain ⟨j, hj⟩ := h.own m c (h1 ▸ ht) hs ho
    exact ⟨j, (h2 c j).mpr hj⟩
  · intro m c ht hs ho hf
    rw [h3]
    exact (h.empty m c (h1 ▸ ht) hs ho hf).imp id (h5 c).2.2.2
  · intro m c ht hs ho hf
    rcases h.busy m c (h1 ▸ ht) hs ho hf with hb | ⟨hb1, hb2, hb3⟩
    · left; exact hb.imp (h5 c).1.mpr (h5 c).2.1.mpr
    · right; refine ⟨hb1, hb2, fun i hi => ?_⟩
      rw [h4]
      exact (hb3 i hi).imp id (h5 c).2.2.2
  · intro m ht hs ho
    obtain ⟨a, b⟩ := h.free m (h1 ▸ ht) hs ho
    refine ⟨a, b.imp id fun b c j hw => ?_⟩
    obtain ⟨x, y⟩ := b c j ((h2 c j).mp hw)
    exact h6 c x y
  · intro m ht; exact h.part m (h1 ▸ ht)
  · intro m c ht hs hc
    exact h.read m c (h1 ▸ ht) hs (hc.imp (h5 c).1.mp (h5 c).2.1.mp)
  · intro m c ht hc; exact h.req m c (h1 ▸ ht) ((h5 c).2.1.mp hc)
  · intro m c ht hs hc
    obtain ⟨⟨j, hj⟩, hu⟩ := h.chk m c (h1 ▸ ht) hs (hc.imp (h5 c).1.mp (h5 c).2.2.1.mp)
    exact ⟨⟨j, (h2 c j).mpr hj⟩, fun d hd => hu d (hd.imp (h5 d).1.mp (h5 d).2.2.1.mp)⟩

theorem PInv.initial : PInv .initial [] [] := fun t =>
  ⟨by simp [Sync.initial], by simp [Sync.initial], by simp [Sync.initial], by simp [Sync.initial], by simp [Sync.initial], by simp [Sync.initial],
   by simp [Sync.initial], by simp [Sync.initial]⟩

/-- what a tool that is not `t` sees of a thread that moves -/
theorem thread_frame {s : Sync} {c t u : Nat} {p : Thread} (hu : u ≠ t)
    (h1 : s.thread c = .idle ∨ s.thread c = .manifestRead t ∨ s.thread c = .request t ∨ s.thread c = .check t)
    (h2 : p = .idle ∨ p = .manifestRead t ∨ p = .request t ∨ p = .check t ∨ p = .closing) (d : Nat) :
    (upd s.thread c p d = .manifestRead u ↔ s.thread d = .manifestRead u) ∧ (upd s.thread c p d = .request u ↔ s.thread d = .request u) ∧
      (upd s.thread c p d = .check u ↔ s.thread d = .check u) ∧ (s.thread d = .closing → upd s.thread c p d = .closing) := by
  by_cases e : d = c
  · subst e
    have hu' : ¬ t = u := fun e => hu e.symm
    rw [upd_same]
    rcases h1 with h1 | h1 | h1 | h1 <;> rw [h1] <;> rcases h2 with h2 | h2 | h2 | h2 | h2 <;> rw [h2] <;> simp [hu']
  · rw [upd_ne _ e]; exact ⟨Iff.rfl, Iff.rfl, Iff.rfl, id⟩

theorem waits_wait {s : Sync} (hr : RInv s) {c j t : Nat} (hc : s.thread c = .idle) (d k u : Nat) :
    (s.wait c j t).waits d k u ↔ s.waits d k u ∨ (d = c ∧ k = j ∧ u = t) := by
  rw [waits_iff, waits_iff]
  have hp := wl_add (j := j) (t := t) hr.nodup ((hr.ids c).mpr (by rw [hc]; exact ⟨by simp, by simp⟩))
  have : (s.wait c j t).waiting.Perm (s.waiting ++ [(c, j, t)]) := hp
  rw [this.mem_iff, List.mem_append]
  simp

/-- files that were asked for -/
theorem mem_reqFiles {m : List FileState} : .missing ∈ (m.map fun f => if f = .missing then .syncing else f) → False := by
  intro hx
  obtain ⟨f, _, hf⟩ := List.mem_map.mp hx
  split at hf
  · cases hf
  · next e => exact e hf

/-- asking connection `b` for the files of tool `t`, which nobody is asked for -/
theorem PLoc.reqFiles {s : Sync} {b t : Nat} {m : Man} (hi : SInv s) (ht : s.tools t = some m) (hm : .missing ∈ m.files) (hs : m.sync = false)
    (hw : ∃ j, s.waits b j t) (hno : ∀ d, ¬ (s.thread d = .manifestRead t ∨ s.thread d = .request t))
    {l' : List Nat} {rest' : List (Nat × Nat)} : PLoc (reqFiles s b t m) l' rest' t := by
  have hmix := hi.noMix t m ht hm
  have htn : ∀ m', (Verif.Server.reqFiles s b t m).tools t = some m' → m' = { m with owner := some b, files := m.files.map fun f => if f = .missing then .syncing else f } := by
    intro m' h'
    have h' : upd s.tools t _ t = some m' := h'
    rw [upd_same] at h'; cases h'; rfl
  refine ⟨?_, ?_, ?_, ?_, ?_, ?_, ?_, ?_⟩
  · intro m' c h' _ ho'
    rw [htn m' h'] at ho'; cases ho'
    exact hw
  · intro m' c h' _ _ hf
    rw [htn m' h'] at hf
    have hf : m.files.map _ = [] := hf
    rw [List.map_eq_nil_iff] at hf
    rw [hf] at hm; cases hm
  · intro m' c h' _ ho' hf
    rw [htn m' h'] at ho' ⊢; cases ho'
    right
    refine ⟨mem_reqFiles, List.mem_map.mpr ⟨.missing, hm, rfl⟩, fun i hii => ?_⟩
    left
    have hii : (m.files.map fun f => if f = .missing then .syncing else f)[i]? = some FileState.syncing := hii
    rw [List.getElem?_map] at hii
    cases e : m.files[i]? with
    | none => rw [e] at hii; cases hii
    | some f =>
      have hf : f = .missing := by
        rw [e] at hii
        simp only [Option.map_some, Option.some.injEq] at hii
        split at hii
        · assumption
        · subst hii; exact absurd (List.mem_of_getElem? e) hmix
      show (if b = b ∧ t = t ∧ m.files[i]? = some .missing then true else s.askedFile b t i) = true
      rw [e, hf]; simp
  · intro m' h' _ ho'
    rw [htn m' h'] at ho'; cases ho'
  · intro m' h' _ _
    rw [htn m' h']
    exact ⟨.syncing, List.mem_map.mpr ⟨.missing, hm, rfl⟩, by simp⟩
  · intro m' c _ _ hc
    exact absurd hc (hno c)
  · intro m' c _ hc
    exact absurd (Or.inr hc) (hno c)
  · intro m' c h' hs' _
    rw [htn m' h'] at hs'
    have : m.sync = true := hs'
    rw [hs] at this; cases this

theorem part_missing {s : Sync} {l : List Nat} {rest : List (Nat × Nat)} {t : Nat} {m : Man} (h : PLoc s l rest t) (ht : s.tools t = some m) (hs : m.sync = false)
    (hf : m.files ≠ []) (hns : ¬ .syncing ∈ m.files) : .missing ∈ m.files := by
  obtain ⟨f, hfm, hfp⟩ := h.part m ht hs hf
  cases f with
  | missing => exact hfm
  | syncing => exact absurd hfm hns
  | present => exact absurd rfl hfp

/-- tool `u` does not see what is done with tool `t` -/
theorem PLoc.other {s s' : Sync} {l l' : List Nat} {rest rest' : List (Nat × Nat)} {u t c : Nat} {p : Thread} (h : PLoc s l rest u) (hu : u ≠ t)
    (h0 : s.thread c = .idle ∨ s.thread c = .manifestRead t ∨ s.thread c = .request t ∨ s.thread c = .check t)
    (hp : p = .idle ∨ p = .manifestRead t ∨ p = .request t ∨ p = .check t ∨ p = .closing)
    (h1 : s'.tools u = s.tools u) (h2 : ∀ c j, s'.waits c j u ↔ s.waits c j u) (h3 : ∀ c, s'.asked c u = s.asked c u)
    (h4 : ∀ c i, s'.askedFile c u i = s.askedFile c u i) (h5 : s'.thread = upd s.thread c p)
    (h6 : ∀ c, u ∈ l → (c, u) ∈ rest → u ∈ l' ∧ (c, u) ∈ rest') : PLoc s' l' rest' u := by
  refine h.frame h1 h2 h3 h4 (fun d => ?_) h6
  rw [h5]
  exact thread_frame hu h0 hp d

theorem upd_self {α : Type} (f : Nat → α) (a : Nat) : upd f a (f a) = f := by
  funext x; simp only [upd]; split
  · next e => rw [e]
  · rfl

theorem ask_other (s : Sync) (c t : Nat) (b : Bool) {u : Nat} (hu : u ≠ t) (d : Nat) : (s.ask c t b).asked d u = s.asked d u := by
  show upd s.asked c (upd (s.asked c) t b) d u = s.asked d u
  by_cases e : d = c
  · subst e; rw [upd_same, upd_ne _ hu]
  · rw [upd_ne _ e]

theorem PInv.job {dbg : Bool} {s s' : Sync} {c j t : Nat} (hi : SInv s) (hr : RInv s) (h : PInv s [] []) (hs : sstep dbg s (.job c j t) = .ok s') : PInv s' [] [] := by
  unfold sstep at hs; dsimp only at hs
  split at hs
  · next e =>
    have hidle : ∀ d, d = c → ∀ u, ¬ (s.thread d = .manifestRead u ∨ s.thread d = .request u) := by
      rintro d rfl u; rw [e]; simp
    have hwaits : ∀ (q : List (Nat × Nat × Nat)) d k u, (({ s with received := q } : Sync).wait c j t).waits d k u ↔ s.waits d k u ∨ (d = c ∧ k = j ∧ u = t) :=
      fun q d k u => waits_wait hr e d k u
    have hth : s.thread = upd s.thread c .idle := by rw [← e, upd_self]
    split at hs
    · next m ht =>
      split at hs
      · next hsy =>
        cases hs
        intro u
        exact (h u).frame rfl (fun _ _ => Iff.rfl) (fun _ => rfl) (fun _ _ => rfl) (fun _ => ⟨Iff.rfl, Iff.rfl, Iff.rfl, id⟩) (fun _ x => by cases x)
      · next hsy =>
        have hsy : m.sync = false := by simpa using hsy
        have ht : s.tools t = some m := ht
        split at hs
        · next ho =>
          cases hs
          intro u
          by_cases hu : u = t
          · subst hu
            have hl := h u
            refine ⟨?_, hl.empty, hl.busy, ?_, hl.part, hl.read, hl.req, ?_⟩
            · intro m' d ht' hs' ho'
              obtain ⟨k, hk⟩ := hl.own m' d ht' hs' ho'
              exact ⟨k, (hwaits _ d k u).mpr (Or.inl hk)⟩
            · intro m' ht' hs' ho'
              have ht' : s.tools u = some m' := ht'
              rw [ht] at ht'; cases ht'
              exact absurd ho' ho
            · intro m' d ht' hs' _
              have ht' : s.tools u = some m' := ht'
              rw [ht] at ht'; cases ht'
              rw [hsy] at hs'; cases hs'
          · exact (h u).other hu (Or.inl e) (Or.inl rfl) rfl (fun d k => by rw [hwaits]; simp [hu]) (fun _ => rfl) (fun _ _ => rfl) hth (fun _ x => by cases x)
        · next ho =>
          have ho : m.owner = none := by simpa using ho
          have hfree := (h t).free m ht hsy ho
          have hnoread : ∀ d, ¬ (s.thread d = .manifestRead t ∨ s.thread d = .request t) := by
            intro d hd
            have := ((h t).read m d ht hsy hd).1
            rw [ho] at this; cases this
          split at hs
          · next hf =>
            have hm := part_missing (h t) ht hsy hf hfree.1
            split at hs
            · next s₁ h₁ =>
              cases hs
              have ht1 : (({ s with received := s.received ++ [(c, j, t)] } : Sync).setMan t { m with owner := some c }).tools t = some { m with owner := some c } := by
                simp [Sync.setMan]
              obtain ⟨m', ht', hc⟩ := requestMissing_cases h₁
              rw [ht1] at ht'; cases ht'
              rcases hc with ⟨hx, _⟩ | ⟨_, _, rfl⟩
              · exact absurd hm hx
              · intro u
                by_cases hu : u = t
                · subst hu
                  have hi1 : SInv ((({ s with received := s.received ++ [(c, j, u)] } : Sync).setMan u { m with owner := some c }).wait c j u) := by
                    refine SInv.wait (m := { m with owner := some c }) ?_ c j u ht1 hsy
                    refine (hi.received (s.received ++ [(c, j, u)])).setMan ht { m with owner := some c } id (fun e => by rw [hsy] at e; cases e) (hi.noMix u m ht) ?_ ?_ (fun e => by rw [hsy] at e; cases e)
                    · intro d ha hd
                      obtain ⟨m', ht', ho', _⟩ := hi.asked_ok d u ha hd
                      rw [ht] at ht'; cases ht'; rw [ho] at ho'; cases ho'
                    · intro d i ha hd
                      obtain ⟨m', ht', ho', _⟩ := hi.file_ok d u i ha hd
                      rw [ht] at ht'; cases ht'; rw [ho] at ho'; cases ho'
                  exact PLoc.reqFiles (l' := []) (rest' := []) (b := c) (t := u) (m := { m with owner := some c }) hi1 ht1 hm hsy ⟨j, (hwaits [] c j u).mpr (Or.inr ⟨rfl, rfl, rfl⟩)⟩ hnoread
                · refine (h u).other hu (Or.inl e) (Or.inl rfl) ?_ (fun d k => ?_) (fun _ => rfl) (fun d i => ?_) hth (fun _ x => by cases x)
                  · show upd (upd s.tools t _) t _ u = _
                    rw [upd_ne _ hu, upd_ne _ hu]
                  · refine Iff.trans (hwaits (s.received ++ [(c, j, t)]) d k u) ?_
                    simp [hu]
                  · show (if d = c ∧ u = t ∧ _ then true else s.askedFile d u i) = _
                    rw [if_neg (fun x => hu x.2.1)]
            · cases hs
            · cases hs
          · next hf =>
            have hf : m.files = [] := by simpa using hf
            cases hs
            intro u
            by_cases hu : u = t
            · subst hu
              have htn : ∀ m', upd s.tools u (some { m with owner := some c }) u = some m' → m' = { m with owner := some c } := by
                intro m' h'; rw [upd_same] at h'; cases h'; rfl
              refine ⟨?_, ?_, ?_, ?_, ?_, ?_, ?_, ?_⟩
              · intro m' d ht' hs' ho'
                rw [htn m' ht'] at ho'; cases ho'
                exact ⟨j, (hwaits [] c j u).mpr (Or.inr ⟨rfl, rfl, rfl⟩)⟩
              · intro m' d ht' hs' ho' _
                rw [htn m' ht'] at ho'; cases ho'
                left
                show upd s.asked c (upd (s.asked c) u true) c u = true
                rw [upd_same, upd_same]
              · intro m' d ht' hs' ho' hf'
                rw [htn m' ht'] at hf'; exact absurd hf hf'
              · intro m' ht' hs' ho'
                rw [htn m' ht'] at ho'; cases ho'
              · intro m' ht' hs' hf'
                rw [htn m' ht'] at hf'; exact absurd hf hf'
              · intro m' d _ _ hd; exact absurd hd (hnoread d)
              · intro m' d _ hd; exact absurd (Or.inr hd) (hnoread d)
              · intro m' d ht' hs' _
                rw [htn m' ht'] at hs'
                have : m.sync = true := hs'
                rw [hsy] at this; cases this
            · refine (h u).other hu (Or.inl e) (Or.inl rfl) ?_ (fun d k => ?_) (fun d => ?_) (fun d i => rfl) hth (fun _ x => by cases x)
              · show upd s.tools t _ u = _
                rw [upd_ne _ hu]
              · refine Iff.trans (hwaits (s.received ++ [(c, j, t)]) d k u) ?_
                simp [hu]
              · exact ask_other s c t true hu d
    · next ht =>
      cases hs
      have ht : s.tools t = none := ht
      intro u
      by_cases hu : u = t
      · subst hu
        have hnoread : ∀ d, ¬ (s.thread d = .check u ∨ s.thread d = .manifestRead u ∨ s.thread d = .request u) := by
          intro d hd
          obtain ⟨m, hm⟩ := hi.read_ok d u hd
          rw [ht] at hm; cases hm
        have htn : ∀ m', upd s.tools u (some ⟨some c, [], false⟩) u = some m' → m' = ⟨some c, [], false⟩ := by
          intro m' h'; rw [upd_same] at h'; cases h'; rfl
        refine ⟨?_, ?_, ?_, ?_, ?_, ?_, ?_, ?_⟩
        · intro m' d ht' hs' ho'
          rw [htn m' ht'] at ho'; cases ho'
          exact ⟨j, (hwaits [] c j u).mpr (Or.inr ⟨rfl, rfl, rfl⟩)⟩
        · intro m' d ht' hs' ho' _
          rw [htn m' ht'] at ho'; cases ho'
          left
          show upd s.asked c (upd (s.asked c) u true) c u = true
          rw [upd_same, upd_same]
        · intro m' d ht' hs' ho' hf'
          rw [htn m' ht'] at hf'; exact absurd rfl hf'
        · intro m' ht' hs' ho'
          rw [htn m' ht'] at ho'; cases ho'
        · intro m' ht' hs' hf'
          rw [htn m' ht'] at hf'; exact absurd rfl hf'
        · intro m' d _ _ hd; exact absurd (Or.inr hd) (hnoread d)
        · intro m' d _ hd; exact absurd (Or.inr (Or.inr hd)) (hnoread d)
        · intro m' d ht' hs' _
          rw [htn m' ht'] at hs'; cases hs'
      · refine (h u).other hu (Or.inl e) (Or.inl rfl) ?_ (fun d k => ?_) (fun d => ?_) (fun d i => rfl) hth (fun _ x => by cases x)
        · show upd s.tools t _ u = _
          rw [upd_ne _ hu]
        · refine Iff.trans (hwaits (s.received ++ [(c, j, t)]) d k u) ?_
          simp [hu]
        · exact ask_other s c t true hu d
  · cases hs

theorem PInv.manifest {dbg : Bool} {s s' : Sync} {c t : Nat} {d : Option (List Bool)} (hi : SInv s) (h : PInv s [] []) (hs : sstep dbg s (.manifest c t d) = .ok s') :
    PInv s' [] [] := by
  unfold sstep at hs; dsimp only at hs
  split at hs
  · next e =>
    obtain ⟨m, ht, ho, hf, hsy⟩ := hi.manifest e.1 e.2
    have hl := h t
    have hnoread : ∀ d, ¬ (s.thread d = .manifestRead t ∨ s.thread d = .request t) := by
      intro d hd
      exact (hl.read m d ht hsy hd).2.1 hf
    have hnochk : ∀ d, ¬ s.thread d = .check t := by
      intro d hd
      have := hi.check_ok d t m hd ht
      rw [hsy] at this; cases this
    split at hs
    · cases hs
    · next m' ht' =>
      have ht' : s.tools t = some m' := ht'
      rw [ht] at ht'; cases ht'
      split at hs
      · cases hs
      · cases d with
        | none =>
          dsimp only at hs
          split at hs
          · cases hs
          · cases hs
            intro u
            by_cases hu : u = t
            · subst hu
              refine ⟨hl.own, ?_, ?_, hl.free, hl.part, ?_, ?_, ?_⟩
              · intro m' d ht' _ ho' _
                have ht' : s.tools u = some m' := ht'
                rw [ht] at ht'; cases ht'
                rw [ho] at ho'; cases ho'
                right; exact upd_same _ _ _
              · intro m' d ht' _ ho' hf'
                have ht' : s.tools u = some m' := ht'
                rw [ht] at ht'; cases ht'
                exact absurd hf hf'
              · intro m' d ht' hs' hd
                have hd : upd s.thread c .closing d = _ ∨ upd s.thread c .closing d = _ := hd
                by_cases ed : d = c
                · subst ed; simp at hd
                · rw [upd_ne _ ed] at hd; exact hl.read m' d ht' hs' hd
              · intro m' d ht' hd
                have hd : upd s.thread c .closing d = _ := hd
                by_cases ed : d = c
                · subst ed; simp at hd
                · rw [upd_ne _ ed] at hd; exact hl.req m' d ht' hd
              · intro m' d ht' hs'
                have ht' : s.tools u = some m' := ht'
                rw [ht] at ht'; cases ht'
                rw [hsy] at hs'; cases hs'
            · exact (h u).other (c := c) (p := .closing) hu (Or.inl e.1) (by simp) rfl (fun _ _ => Iff.rfl) (fun d => ask_other s c t false hu d) (fun _ _ => rfl) rfl (fun _ x => by cases x)
        | some present =>
          dsimp only at hs
          split at hs
          · cases hs
          · next hp =>
            cases hs
            have hth : ∀ d p, p = .manifestRead t ∨ p = .request t ∨ p = .check t → upd s.thread c (.manifestRead t) d = p → d = c := by
              intro d p hp hd
              by_cases ed : d = c
              · exact ed
              · rw [upd_ne _ ed] at hd
                rcases hp with rfl | rfl | rfl
                · exact absurd (Or.inl hd) (hnoread d)
                · exact absurd (Or.inr hd) (hnoread d)
                · exact absurd hd (hnochk d)
            intro u
            by_cases hu : u = t
            · subst hu
              have htn : ∀ m', upd s.tools u (some { m with files := present.map fun b => if b then .present else .missing, sync := m.sync || present.all id }) u = some m' →
                  m' = { m with files := present.map fun b => if b then .present else .missing, sync := m.sync || present.all id } := by
                intro m' h'; rw [upd_same] at h'; cases h'; rfl
              have hne : (present.map fun b => if b then FileState.present else .missing) ≠ [] := by simpa using hp
              refine ⟨?_, ?_, ?_, ?_, ?_, ?_, ?_, ?_⟩
              · intro m' d ht' _ ho'
                rw [htn m' ht'] at ho'
                exact hl.own m d ht hsy ho'
              · intro m' d ht' _ _ hf'
                rw [htn m' ht'] at hf'; exact absurd hf' hne
              · intro m' d ht' _ ho' _
                rw [htn m' ht'] at ho'
                have ho' : m.owner = some d := ho'
                rw [ho] at ho'; cases ho'
                left; left; exact upd_same _ _ _
              · intro m' ht' _ ho'
                rw [htn m' ht'] at ho'
                have ho' : m.owner = none := ho'
                rw [ho] at ho'; cases ho'
              · intro m' ht' hs' _
                rw [htn m' ht'] at hs' ⊢
                have hs' : present.all id = false := by simpa [hsy] using hs'
                obtain ⟨b, hb, hbf⟩ := List.all_eq_false.mp hs'
                have hbf : b = false := by simpa using hbf
                subst hbf
                exact ⟨.missing, List.mem_map.mpr ⟨false, hb, rfl⟩, by simp⟩
              · intro m' d ht' _ hd
                have : d = c := by rcases hd with hd | hd <;> exact hth d _ (by simp) hd
                subst this
                rw [htn m' ht']
                refine ⟨ho, hne, fun hx => ?_⟩
                obtain ⟨b, hb, hbe⟩ := List.mem_map.mp hx
                split at hbe <;> cases hbe
              · intro m' d ht' hd
                have : d = c := hth d _ (by simp) hd
                subst this
                have hd : upd s.thread d (.manifestRead u) d = .request u := hd
                simp at hd
              · intro m' d ht' hs' hd
                have : d = c := by rcases hd with hd | hd <;> exact hth d _ (by simp) hd
                subst this
                refine ⟨hl.own m d ht hsy ho, fun d' hd' => ?_⟩
                rcases hd' with hd' | hd' <;> exact hth d' _ (by simp) hd'
            · refine (h u).other (c := c) (p := .manifestRead t) hu (Or.inl e.1) (by simp) ?_ (fun _ _ => Iff.rfl) (fun d => ask_other s c t false hu d) (fun _ _ => rfl) rfl (fun _ x => by cases x)
              show upd s.tools t _ u = _
              rw [upd_ne _ hu]
  · cases hs

theorem PInv.afterManifest {dbg : Bool} {s s' : Sync} {c : Nat} (h : PInv s [] []) (hs : sstep dbg s (.afterManifest c) = .ok s') :
    PInv s' [] [] := by
  unfold sstep at hs; dsimp only at hs
  split at hs
  · next t e =>
    split at hs
    · cases hs
    · next m ht =>
      cases hs
      have hl := h t
      intro u
      by_cases hu : u = t
      · subst hu
        cases hsy : m.sync with
        | true =>
          have hnot : ∀ m', s.tools u = some m' → m'.sync = false → False := by
            intro m' ht' hs'; rw [ht] at ht'; cases ht'; rw [hsy] at hs'; cases hs'
          obtain ⟨hw, huq⟩ := hl.chk m c ht hsy (Or.inl e)
          refine ⟨fun m' _ ht' hs' => (hnot m' ht' hs').elim, fun m' _ ht' hs' => (hnot m' ht' hs').elim, fun m' _ ht' hs' => (hnot m' ht' hs').elim,
            fun m' ht' hs' => (hnot m' ht' hs').elim, fun m' ht' hs' => (hnot m' ht' hs').elim, fun m' _ ht' hs' => (hnot m' ht' hs').elim, ?_, ?_⟩
          · intro m' d ht' hd
            have hd : upd s.thread c (.check u) d = .request u := hd
            by_cases ed : d = c
            · subst ed; simp at hd
            · rw [upd_ne _ ed] at hd; exact hl.req m' d ht' hd
          · intro m' d ht' hs' hd
            have key : ∀ d, upd s.thread c (.check u) d = .manifestRead u ∨ upd s.thread c (.check u) d = .check u → d = c := by
              intro d hd
              by_cases ed : d = c
              · exact ed
              · rw [upd_ne _ ed] at hd; exact huq d hd
            have := key d hd
            subst this
            exact ⟨hw, key⟩
        | false =>
          obtain ⟨ho, hf, hns⟩ := hl.read m c ht hsy (Or.inl e)
          have key : ∀ d, upd s.thread c (.request u) d = .manifestRead u ∨ upd s.thread c (.request u) d = .request u → s.thread d = .manifestRead u ∨ s.thread d = .request u := by
            intro d hd
            by_cases ed : d = c
            · subst ed; exact Or.inl e
            · rwa [upd_ne _ ed] at hd
          refine ⟨hl.own, ?_, ?_, hl.free, hl.part, fun m' d ht' hs' hd => hl.read m' d ht' hs' (key d hd), ?_, ?_⟩
          · intro m' d ht' hs' ho' hf'
            have ht' : s.tools u = some m' := ht'
            rw [ht] at ht'; cases ht'
            exact absurd hf' hf
          · intro m' d ht' hs' ho' hf'
            have ht' : s.tools u = some m' := ht'
            rw [ht] at ht'; cases ht'
            rw [ho] at ho'; cases ho'
            left; right; exact upd_same _ _ _
          · intro m' d ht' _
            have ht' : s.tools u = some m' := ht'
            rw [ht] at ht'; cases ht'; exact hsy
          · intro m' d ht' hs'
            have ht' : s.tools u = some m' := ht'
            rw [ht] at ht'; cases ht'; rw [hsy] at hs'; cases hs'
      · exact (h u).other (c := c) (p := if m.sync then .check t else .request t) hu (by simp [e]) (by split <;> simp) rfl (fun _ _ => Iff.rfl) (fun d => rfl) (fun _ _ => rfl) rfl (fun _ x => by cases x)
  · cases hs

theorem PInv.request {dbg : Bool} {s s' : Sync} {c : Nat} (hi : SInv s) (h : PInv s [] []) (hs : sstep dbg s (.request c) = .ok s') :
    PInv s' [] [] := by
  unfold sstep at hs; dsimp only at hs
  split at hs
  · next t e =>
    have hl := h t
    split at hs
    · next s₁ h₁ =>
      cases hs
      obtain ⟨m, ht, hc⟩ := requestMissing_cases h₁
      have hsy := hl.req m c ht e
      obtain ⟨ho, hf, hns⟩ := hl.read m c ht hsy (Or.inr e)
      have hm := part_missing hl ht hsy hf hns
      rcases hc with ⟨hx, _⟩ | ⟨_, _, rfl⟩
      · exact absurd hm hx
      · intro u
        by_cases hu : u = t
        · subst hu
          have hi1 : SInv (s.setThread c .idle) := hi.setThread c .idle (fun _ => by rw [e]; rfl)
            (fun v m x => by rw [e] at x; rcases x with x | x <;> cases x) (fun v x => by rcases x with x | x | x <;> cases x) (fun v m x => by cases x)
          refine PLoc.reqFiles (l' := []) (rest' := []) (b := c) (t := u) (m := m) hi1 ht hm hsy (hl.own m c ht hsy ho) ?_
          intro d hd
          have hd : upd s.thread c .idle d = _ ∨ upd s.thread c .idle d = _ := hd
          by_cases ed : d = c
          · subst ed; simp at hd
          · rw [upd_ne _ ed] at hd
            have := (hl.read m d ht hsy hd).1
            rw [ho] at this; cases this
            exact ed rfl
        · refine (h u).other (c := c) (p := .idle) hu (by simp [e]) (by simp) ?_ (fun _ _ => Iff.rfl) (fun d => rfl) (fun d i => ?_) rfl (fun _ x => by cases x)
          · show upd s.tools t _ u = _
            rw [upd_ne _ hu]
          · show (if d = c ∧ u = t ∧ _ then true else s.askedFile d u i) = _
            rw [if_neg (fun x => hu x.2.1)]
    · cases hs
    · cases hs
  · cases hs

theorem PInv.file {dbg : Bool} {s s' : Sync} {c t i : Nat} {ok : Bool} (hi : SInv s) (h : PInv s [] []) (hs : sstep dbg s (.file c t i ok) = .ok s') :
    PInv s' [] [] := by
  unfold sstep at hs; dsimp only at hs
  split at hs
  · next e =>
    obtain ⟨m, ht, ho, hf, hsy⟩ := hi.file e.1 e.2
    have hl := h t
    have hne : m.files ≠ [] := by intro x; rw [x] at hf; simp at hf
    have hin : .syncing ∈ m.files := List.mem_of_getElem? hf
    have hnoread : ∀ d, ¬ (s.thread d = .manifestRead t ∨ s.thread d = .request t) := by
      intro d hd
      exact (hl.read m d ht hsy hd).2.2 hin
    have hnochk : ∀ d, ¬ s.thread d = .check t := by
      intro d hd
      have := hi.check_ok d t m hd ht
      rw [hsy] at this; cases this
    have hbusy : ¬ .missing ∈ m.files ∧ .syncing ∈ m.files ∧ ∀ i : Nat, m.files[i]? = some .syncing → s.askedFile c t i = true ∨ s.thread c = .closing := by
      rcases hl.busy m c ht hsy ho hne with hb | hb
      · exact absurd hb (hnoread c)
      · exact hb
    have hother : ∀ u, u ≠ t → ∀ d k, (if d = c ∧ u = t ∧ k = i then false else s.askedFile d u k) = s.askedFile d u k := by
      intro u hu d k
      rw [if_neg (fun x => hu x.2.1)]
    rw [ht] at hs
    dsimp only at hs
    split at hs
    · cases hs
    · rw [hf] at hs
      dsimp only at hs
      split at hs
      · cases hs
      · split at hs
        · cases hs
          intro u
          by_cases hu : u = t
          · subst hu
            have key : ∀ d p, upd s.thread c .closing d = p → p ≠ .closing → s.thread d = p := by
              intro d p hd hp
              by_cases ed : d = c
              · subst ed; rw [upd_same] at hd; exact absurd hd.symm hp
              · rwa [upd_ne _ ed] at hd
            refine ⟨hl.own, ?_, ?_, hl.free, hl.part, ?_, ?_, ?_⟩
            · intro m' d ht' _ ho' hf'
              have ht' : s.tools u = some m' := ht'
              rw [ht] at ht'; cases ht'
              exact absurd hf' hne
            · intro m' d ht' _ ho' hf'
              have ht' : s.tools u = some m' := ht'
              rw [ht] at ht'; cases ht'
              rw [ho] at ho'; cases ho'
              right
              exact ⟨hbusy.1, hbusy.2.1, fun k hk => Or.inr (upd_same _ _ _)⟩
            · intro m' d ht' hs' hd
              exact hl.read m' d ht' hs' (hd.imp (fun x => key d _ x (by simp)) (fun x => key d _ x (by simp)))
            · intro m' d ht' hd
              exact hl.req m' d ht' (key d _ hd (by simp))
            · intro m' d ht' hs'
              have ht' : s.tools u = some m' := ht'
              rw [ht] at ht'; cases ht'
              rw [hsy] at hs'; cases hs'
          · exact (h u).other (c := c) (p := .closing) hu (Or.inl e.1) (by simp) rfl (fun _ _ => Iff.rfl) (fun d => rfl) (fun d k => hother u hu d k) rfl (fun _ x => by cases x)
        · have hmem : ∀ f, f ≠ .present → f ∈ m.files.set i .present → f ∈ m.files := by
            intro f hfp hfm
            rcases List.mem_or_eq_of_mem_set hfm with hx | hx
            · exact hx
            · exact absurd hx hfp
          simp only [hsy, Bool.false_or, ne_eq, reduceCtorEq, not_false_eq_true, decide_true, Bool.true_and, if_false] at hs
          split at hs
          · next hnot =>
            cases hs
            obtain ⟨f, hfm, hfp⟩ := List.all_eq_false.mp hnot
            have hfp : f ≠ .present := by simpa using hfp
            have hth : s.thread = upd s.thread c .idle := by rw [← e.1, upd_self]
            intro u
            by_cases hu : u = t
            · subst hu
              have htn : ∀ m', upd s.tools u (some ⟨m.owner, m.files.set i .present, false⟩) u = some m' → m' = ⟨m.owner, m.files.set i .present, false⟩ := by
                intro m' h'; rw [upd_same] at h'; cases h'; rfl
              have hne' : m.files.set i .present ≠ [] := by intro x; rw [x] at hfm; cases hfm
              refine ⟨?_, ?_, ?_, ?_, ?_, ?_, ?_, ?_⟩
              · intro m' d ht' _ ho'
                rw [htn m' ht'] at ho'; exact hl.own m d ht hsy ho'
              · intro m' d ht' _ _ hf'
                rw [htn m' ht'] at hf'; exact absurd hf' hne'
              · intro m' d ht' _ ho' _
                rw [htn m' ht'] at ho' ⊢
                have ho' : m.owner = some d := ho'
                rw [ho] at ho'; cases ho'
                right
                refine ⟨fun hx => hbusy.1 (hmem _ (by simp) hx), ?_, fun k hk => ?_⟩
                · cases f with
                  | missing => exact absurd (hmem _ (by simp) hfm) hbusy.1
                  | syncing => exact hfm
                  | present => exact absurd rfl hfp
                · have hk : (m.files.set i .present)[k]? = some .syncing := hk
                  have hki : i ≠ k := by
                    rintro rfl
                    rw [List.getElem?_set_self (by
                      rcases Nat.lt_or_ge i m.files.length with x | x
                      · exact x
                      · rw [List.getElem?_eq_none x] at hf; cases hf)] at hk
                    cases hk
                  rw [List.getElem?_set_ne hki] at hk
                  refine (hbusy.2.2 k hk).imp (fun x => ?_) id
                  show (if c = c ∧ u = u ∧ k = i then false else s.askedFile c u k) = true
                  rw [if_neg (fun y => hki y.2.2.symm)]; exact x
              · intro m' ht' _ ho'
                rw [htn m' ht'] at ho'
                have ho' : m.owner = none := ho'
                rw [ho] at ho'; cases ho'
              · intro m' ht' _ _
                rw [htn m' ht']; exact ⟨f, hfm, hfp⟩
              · intro m' d _ _ hd; exact absurd hd (hnoread d)
              · intro m' d _ hd; exact absurd (Or.inr hd) (hnoread d)
              · intro m' d ht' hs' _
                rw [htn m' ht'] at hs'; cases hs'
            · refine (h u).other (c := c) (p := .idle) hu (Or.inl e.1) (by simp) ?_ (fun _ _ => Iff.rfl) (fun d => rfl) (fun d k => hother u hu d k) hth (fun _ x => by cases x)
              show upd s.tools t _ u = _
              rw [upd_ne _ hu]
          · next hall =>
            cases hs
            intro u
            by_cases hu : u = t
            · subst hu
              have hnot : ∀ m', upd s.tools u (some ⟨none, m.files.set i .present, true⟩) u = some m' → m'.sync = false → False := by
                intro m' h' hs'; rw [upd_same] at h'; cases h'; cases hs'
              have key : ∀ d, upd s.thread c (.check u) d = .manifestRead u ∨ upd s.thread c (.check u) d = .check u → d = c := by
                intro d hd
                by_cases ed : d = c
                · exact ed
                · rw [upd_ne _ ed] at hd
                  rcases hd with hd | hd
                  · exact absurd (Or.inl hd) (hnoread d)
                  · exact absurd hd (hnochk d)
              refine ⟨fun m' _ ht' hs' => (hnot m' ht' hs').elim, fun m' _ ht' hs' => (hnot m' ht' hs').elim, fun m' _ ht' hs' => (hnot m' ht' hs').elim,
                fun m' ht' hs' => (hnot m' ht' hs').elim, fun m' ht' hs' => (hnot m' ht' hs').elim, fun m' _ ht' hs' => (hnot m' ht' hs').elim, ?_, ?_⟩
              · intro m' d ht' hd
                have hd : upd s.thread c (.check u) d = .request u := hd
                by_cases ed : d = c
                · subst ed; simp at hd
                · rw [upd_ne _ ed] at hd; exact absurd (Or.inr hd) (hnoread d)
              · intro m' d ht' hs' hd
                have := key d hd
                subst this
                exact ⟨hl.own m d ht hsy ho, key⟩
            · refine (h u).other (c := c) (p := .check t) hu (Or.inl e.1) (by simp) ?_ (fun _ _ => Iff.rfl) (fun d => rfl) (fun d k => hother u hu d k) rfl (fun _ x => by cases x)
              show upd s.tools t _ u = _
              rw [upd_ne _ hu]
  · cases hs

theorem waits_check {l : List Client} {t d j u : Nat} :
    (∃ x ∈ l.map (fun x => ({ x with waiting := x.waiting.filter fun w => w.2 ≠ t } : Client)), x.id = d ∧ (j, u) ∈ x.waiting) ↔
      (∃ x ∈ l, x.id = d ∧ (j, u) ∈ x.waiting) ∧ u ≠ t := by
  constructor
  · rintro ⟨x, hx, rfl, hj⟩
    obtain ⟨y, hy, rfl⟩ := List.mem_map.mp hx
    have := List.mem_filter.mp hj
    exact ⟨⟨y, hy, rfl, this.1⟩, by simpa using this.2⟩
  · rintro ⟨⟨x, hx, rfl, hj⟩, hu⟩
    exact ⟨_, List.mem_map.mpr ⟨x, hx, rfl⟩, rfl, List.mem_filter.mpr ⟨hj, by simpa using hu⟩⟩

theorem PInv.check {dbg : Bool} {s s' : Sync} {c : Nat} (hi : SInv s) (h : PInv s [] []) (hs : sstep dbg s (.check c) = .ok s') :
    PInv s' [] [] := by
  unfold sstep at hs; dsimp only at hs
  split at hs
  · next t e =>
    obtain ⟨m, ht⟩ := hi.read_ok c t (Or.inl e)
    have hsy := hi.check_ok c t m e ht
    have hl := h t
    obtain ⟨_, huq⟩ := hl.chk m c ht hsy (Or.inr e)
    split at hs
    · cases hs
    · cases hs
      intro u
      by_cases hu : u = t
      · subst hu
        have hnot : ∀ m', s.tools u = some m' → m'.sync = false → False := by
          intro m' ht' hs'; rw [ht] at ht'; cases ht'; rw [hsy] at hs'; cases hs'
        refine ⟨fun m' _ ht' hs' => (hnot m' ht' hs').elim, fun m' _ ht' hs' => (hnot m' ht' hs').elim, fun m' _ ht' hs' => (hnot m' ht' hs').elim,
          fun m' ht' hs' => (hnot m' ht' hs').elim, fun m' ht' hs' => (hnot m' ht' hs').elim, fun m' _ ht' hs' => (hnot m' ht' hs').elim, ?_, ?_⟩
        · intro m' d ht' hd
          have hd : upd s.thread c .idle d = .request u := hd
          by_cases ed : d = c
          · subst ed; simp at hd
          · rw [upd_ne _ ed] at hd; exact hl.req m' d ht' hd
        · intro m' d ht' hs' hd
          have hd : upd s.thread c .idle d = _ ∨ upd s.thread c .idle d = _ := hd
          by_cases ed : d = c
          · subst ed; simp at hd
          · rw [upd_ne _ ed] at hd; exact absurd (huq d hd) ed
      · refine (h u).other (c := c) (p := .idle) hu (by simp [e]) (by simp) rfl (fun d j => ?_) (fun d => rfl) (fun d k => rfl) rfl (fun _ x => by cases x)
        exact Iff.trans waits_check ⟨fun x => x.1, fun x => ⟨x, hu⟩⟩
  · cases hs

theorem PInv.connect {dbg : Bool} {s s' : Sync} {c : Nat} (h : PInv s [] []) (hs : sstep dbg s (.connect c) = .ok s') : PInv s' [] [] := by
  unfold sstep at hs; dsimp only at hs
  split at hs
  · next e =>
    cases hs
    intro t
    refine (h t).frame rfl (fun d j => ?_) (fun _ => rfl) (fun _ _ => rfl) (fun d => ?_) (fun _ x => by cases x)
    · constructor
      · rintro ⟨x, hx, rfl, hj⟩
        rcases List.mem_append.mp hx with hx | hx
        · exact ⟨x, hx, rfl, hj⟩
        · simp at hx; subst hx; cases hj
      · rintro ⟨x, hx, rfl, hj⟩
        exact ⟨x, List.mem_append_left _ hx, rfl, hj⟩
    · show (upd s.thread c .idle d = _ ↔ _) ∧ (upd s.thread c .idle d = _ ↔ _) ∧ (upd s.thread c .idle d = _ ↔ _) ∧ (_ → upd s.thread c .idle d = _)
      by_cases ed : d = c
      · subst ed; rw [upd_same, e]; simp
      · rw [upd_ne _ ed]; exact ⟨Iff.rfl, Iff.rfl, Iff.rfl, id⟩
  · cases hs

theorem PInv.reorder {dbg : Bool} {s s' : Sync} {l : List Client} (h : PInv s [] []) (hs : sstep dbg s (.reorder l) = .ok s') : PInv s' [] [] := by
  unfold sstep at hs; dsimp only at hs
  split at hs
  · next e =>
    cases hs
    intro t
    refine (h t).frame rfl (fun d j => ?_) (fun _ => rfl) (fun _ _ => rfl) (fun d => ⟨Iff.rfl, Iff.rfl, Iff.rfl, id⟩) (fun _ x => by cases x)
    constructor
    · rintro ⟨x, hx, rfl, hj⟩
      exact ⟨x, e.mem_iff.mp hx, rfl, hj⟩
    · rintro ⟨x, hx, rfl, hj⟩
      exact ⟨x, e.mem_iff.mpr hx, rfl, hj⟩
  · cases hs

/-- the tools given up by a connection -/
def Sync.mine (s : Sync) (c : Nat) : List Nat := s.known.filter fun t => match s.tools t with
  | none => false
  | some m => !m.sync && decide (m.owner = some c)

theorem mem_mine {s : Sync} (hi : SInv s) {c t : Nat} : t ∈ s.mine c ↔ ∃ m, s.tools t = some m ∧ m.sync = false ∧ m.owner = some c := by
  refine ⟨mem_cancelled, ?_⟩
  rintro ⟨m, ht, hs, ho⟩
  exact List.mem_filter.mpr ⟨hi.known_ok t m ht, by rw [ht]; simp [hs, ho]⟩

/-- the state between the two parts of a disconnection, the client already removed from the list -/
def Sync.between (s : Sync) (c : Nat) : Sync :=
  { s with
    tools := fun t => if t ∈ s.mine c then (s.tools t).map Man.cancel else s.tools t
    clients := s.clients.filter fun x => x.id ≠ c
    thread := upd s.thread c (.leaving (s.mine c)) }

theorem waits_between {s : Sync} {c d j t : Nat} : (s.between c).waits d j t ↔ s.waits d j t ∧ d ≠ c := by
  constructor
  · rintro ⟨x, hx, rfl, hj⟩
    obtain ⟨h1, h2⟩ := List.mem_filter.mp hx
    exact ⟨⟨x, h1, rfl, hj⟩, by simpa using h2⟩
  · rintro ⟨⟨x, hx, rfl, hj⟩, hd⟩
    exact ⟨x, List.mem_filter.mpr ⟨hx, by simpa using hd⟩, rfl, hj⟩

theorem mem_waitList {l : List Client} {c t : Nat} : (c, t) ∈ waitList l ↔ ∃ j, ∃ x ∈ l, x.id = c ∧ (j, t) ∈ x.waiting := by
  unfold waitList
  constructor
  · intro h
    obtain ⟨x, hx, h⟩ := List.mem_flatMap.mp h
    obtain ⟨w, hw, e⟩ := List.mem_map.mp h
    cases e
    exact ⟨w.1, x, hx, rfl, hw⟩
  · rintro ⟨j, x, hx, rfl, hj⟩
    exact List.mem_flatMap.mpr ⟨x, hx, List.mem_map.mpr ⟨(j, t), hj, rfl⟩⟩

/-- while a connection leaves, its tools have no owner -/
theorem PInv.between {s : Sync} {c : Nat} (hi : SInv s) (h : PInv s [] []) (hc : s.thread c = .idle ∨ s.thread c = .closing) :
    PInv (s.between c) (s.mine c) (waitList (s.between c).clients) := by
  have hth : ∀ d p, (∀ l, p ≠ .leaving l) → upd s.thread c (.leaving (s.mine c)) d = p → s.thread d = p ∧ d ≠ c := by
    intro d p hp hd
    by_cases ed : d = c
    · subst ed; rw [upd_same] at hd; exact absurd hd.symm (hp _)
    · rw [upd_ne _ ed] at hd; exact ⟨hd, ed⟩
  have hth' : ∀ d p, d ≠ c → s.thread d = p → upd s.thread c (.leaving (s.mine c)) d = p := by
    intro d p ed hd; rw [upd_ne _ ed]; exact hd
  have hidle : ∀ t, s.thread c ≠ .manifestRead t ∧ s.thread c ≠ .request t ∧ s.thread c ≠ .check t := by
    intro t; rcases hc with hc | hc <;> rw [hc] <;> simp
  intro t
  have hl := h t
  by_cases ht : t ∈ s.mine c
  · obtain ⟨m, htm, hs, ho⟩ := (mem_mine hi).mp ht
    have htn : ∀ m', (s.between c).tools t = some m' → m' = m.cancel := by
      intro m' h'
      have h' : (if t ∈ s.mine c then (s.tools t).map Man.cancel else s.tools t) = some m' := h'
      rw [if_pos ht, htm] at h'; cases h'; rfl
    have hno : ∀ d, ¬ (s.thread d = .manifestRead t ∨ s.thread d = .request t) := by
      intro d hd
      have := (hl.read m d htm hs hd).1
      rw [ho] at this; cases this
      rcases hd with hd | hd
      · exact (hidle t).1 hd
      · exact (hidle t).2.1 hd
    refine ⟨?_, ?_, ?_, ?_, ?_, ?_, ?_, ?_⟩
    · intro m' d h' _ ho'; rw [htn m' h'] at ho'; cases ho'
    · intro m' d h' _ ho'; rw [htn m' h'] at ho'; cases ho'
    · intro m' d h' _ ho'; rw [htn m' h'] at ho'; cases ho'
    · intro m' h' _ _
      rw [htn m' h']
      refine ⟨fun hx => ?_, Or.inr fun d j hw => ⟨ht, ?_⟩⟩
      · obtain ⟨f, _, hf⟩ := List.mem_map.mp hx
        split at hf
        · cases hf
        · next e => exact e hf
      · obtain ⟨x, hx, hid, hj⟩ := hw
        exact mem_waitList.mpr ⟨j, x, hx, hid, hj⟩
    · intro m' h' _ hf
      rw [htn m' h'] at hf ⊢
      have hf : m.files ≠ [] := fun e => hf (by show m.files.map _ = []; rw [e]; rfl)
      obtain ⟨f, hfm, hfp⟩ := hl.part m htm hs hf
      refine ⟨_, List.mem_map.mpr ⟨f, hfm, rfl⟩, ?_⟩
      split
      · simp
      · exact hfp
    · intro m' d _ _ hd
      exact absurd (hd.imp (fun x => (hth d _ (by simp) x).1) (fun x => (hth d _ (by simp) x).1)) (hno d)
    · intro m' d _ hd
      exact absurd (Or.inr (hth d _ (by simp) hd).1) (hno d)
    · intro m' d h' hs' _
      rw [htn m' h'] at hs'
      have : m.sync = true := hs'
      rw [hs] at this; cases this
  · have htn : (s.between c).tools t = s.tools t := by
      show (if t ∈ s.mine c then (s.tools t).map Man.cancel else s.tools t) = _
      rw [if_neg ht]
    have hown : ∀ m d, s.tools t = some m → m.sync = false → m.owner = some d → d ≠ c := by
      rintro m d htm hs ho rfl
      exact ht ((mem_mine hi).mpr ⟨m, htm, hs, ho⟩)
    refine ⟨?_, ?_, ?_, ?_, ?_, ?_, ?_, ?_⟩
    · intro m d h' hs ho
      rw [htn] at h'
      obtain ⟨j, hj⟩ := hl.own m d h' hs ho
      exact ⟨j, waits_between.mpr ⟨hj, hown m d h' hs ho⟩⟩
    · intro m d h' hs ho hf
      rw [htn] at h'
      exact (hl.empty m d h' hs ho hf).imp id (hth' d _ (hown m d h' hs ho))
    · intro m d h' hs ho hf
      rw [htn] at h'
      have hd := hown m d h' hs ho
      rcases hl.busy m d h' hs ho hf with hb | ⟨h1, h2, h3⟩
      · left; exact hb.imp (hth' d _ hd) (hth' d _ hd)
      · right; exact ⟨h1, h2, fun i hii => (h3 i hii).imp id (hth' d _ hd)⟩
    · intro m h' hs ho
      rw [htn] at h'
      obtain ⟨h1, h2⟩ := hl.free m h' hs ho
      refine ⟨h1, h2.imp id fun h2 d j hw => ?_⟩
      have := (h2 d j (waits_between.mp hw).1).1
      cases this
    · intro m h'; rw [htn] at h'; exact hl.part m h'
    · intro m d h' hs hd
      rw [htn] at h'
      exact hl.read m d h' hs (hd.imp (fun x => (hth d _ (by simp) x).1) (fun x => (hth d _ (by simp) x).1))
    · intro m d h' hd
      rw [htn] at h'
      exact hl.req m d h' (hth d _ (by simp) hd).1
    · intro m d h' hs hd
      rw [htn] at h'
      have hdc : d ≠ c := by rcases hd with x | x <;> exact (hth d _ (by simp) x).2
      obtain ⟨⟨j, hj⟩, hu⟩ := hl.chk m d h' hs (hd.imp (fun x => (hth d _ (by simp) x).1) (fun x => (hth d _ (by simp) x).1))
      exact ⟨⟨j, waits_between.mpr ⟨hj, hdc⟩⟩, fun d' hd' => hu d' (hd'.imp (fun x => (hth d' _ (by simp) x).1) (fun x => (hth d' _ (by simp) x).1))⟩

/-- handing over: no assertion fails, and nothing is left that nobody is asked for -/
theorem PInv.handOver {dbg : Bool} {l : List Nat} : ∀ {rest : List (Nat × Nat)} {s : Sync}, SInv s → PInv s l rest →
    (∀ t ∈ l, ∃ m, s.tools t = some m ∧ m.sync = false) → (∀ t ∈ l, ∀ d, ¬ (s.thread d = .manifestRead t ∨ s.thread d = .request t)) →
    (∀ x ∈ rest, ∃ j, s.waits x.1 j x.2) →
    ∃ s', handOver dbg l rest s = .ok s' ∧ PInv s' [] [] := by
  intro rest
  induction rest with
  | nil =>
    intro s hi h _ _ _
    refine ⟨s, rfl, fun t => ?_⟩
    exact (h t).frame rfl (fun _ _ => Iff.rfl) (fun _ => rfl) (fun _ _ => rfl) (fun _ => ⟨Iff.rfl, Iff.rfl, Iff.rfl, id⟩) (fun _ _ x => by cases x)
  | cons x r ih =>
    obtain ⟨b, t⟩ := x
    intro s hi h hk hn hw
    unfold Verif.Server.handOver
    have hskip : ∀ u, (u ∈ l → u ≠ t) → PLoc s l r u := by
      intro u hu
      refine (h u).frame rfl (fun _ _ => Iff.rfl) (fun _ => rfl) (fun _ _ => rfl) (fun _ => ⟨Iff.rfl, Iff.rfl, Iff.rfl, id⟩) (fun d hul hm => ⟨hul, ?_⟩)
      rcases List.mem_cons.mp hm with e | e
      · cases e; exact absurd rfl (hu hul)
      · exact e
    by_cases htl : t ∈ l
    · rw [if_pos htl]
      obtain ⟨m, ht, hs⟩ := hk t htl
      have hl := h t
      by_cases hm : .missing ∈ m.files
      · have ho : m.owner = none := by
          cases e : m.owner with
          | none => rfl
          | some d =>
            rcases hl.busy m d ht hs e (fun x => by rw [x] at hm; cases hm) with hb | hb
            · exact absurd hb (hn t htl d)
            · exact absurd hm hb.1
        have hreq : requestMissing dbg s b t = .ok (reqFiles s b t m) := by
          unfold requestMissing
          rw [ht]; dsimp only
          rw [if_pos hm, if_neg (by rw [ho]; simp)]
          rfl
        rw [hreq]; dsimp only
        refine ih (hi.requestMissing hreq) ?_ ?_ hn ?_
        · intro u
          by_cases hu : u = t
          · subst hu
            exact PLoc.reqFiles hi ht hm hs (hw _ List.mem_cons_self) (hn u htl)
          · refine (hskip u (fun _ => hu)).frame ?_ (fun _ _ => Iff.rfl) (fun _ => rfl) (fun d i => ?_) (fun _ => ⟨Iff.rfl, Iff.rfl, Iff.rfl, id⟩) (fun _ x y => ⟨x, y⟩)
            · show upd s.tools t _ u = _
              rw [upd_ne _ hu]
            · show (if d = b ∧ u = t ∧ _ then true else s.askedFile d u i) = _
              rw [if_neg (fun x => hu x.2.1)]
        · intro u hu
          by_cases e : u = t
          · subst e
            exact ⟨_, upd_same _ _ _, hs⟩
          · obtain ⟨mu, hmu, hsu⟩ := hk u hu
            exact ⟨mu, by show upd s.tools t _ u = _; rw [upd_ne _ e]; exact hmu, hsu⟩
        · intro x hx
          exact hw x (List.mem_cons_of_mem _ hx)
      · have hreq : requestMissing dbg s b t = .ok s := by
          unfold requestMissing
          rw [ht]; dsimp only
          rw [if_neg hm]
        rw [hreq]; dsimp only
        refine ih hi ?_ hk hn (fun x hx => hw x (List.mem_cons_of_mem _ hx))
        intro u
        by_cases hu : u = t
        · subst hu
          refine ⟨hl.own, hl.empty, hl.busy, ?_, hl.part, hl.read, hl.req, hl.chk⟩
          intro m' ht' hs' ho'
          have ht'' := ht'
          rw [ht] at ht'; cases ht'
          obtain ⟨h1, _⟩ := hl.free m ht hs ho'
          refine ⟨h1, Or.inl ?_⟩
          by_cases hf : m.files = []
          · exact hf
          · exact absurd (part_missing hl ht hs hf h1) hm
        · exact hskip u (fun _ => hu)
    · rw [if_neg htl]
      refine ih hi ?_ hk hn (fun x hx => hw x (List.mem_cons_of_mem _ hx))
      intro u
      exact hskip u (fun hu e => htl (e ▸ hu))

/-- a disconnection that is not interrupted: no assertion fails, and the invariant holds again -/
theorem PInv.disconnect {dbg : Bool} {s : Sync} {c : Nat} (hi : SInv s) (h : PInv s [] []) (hc : s.thread c = .idle ∨ s.thread c = .closing) :
    ∃ s₁ s₂, sstep dbg s (.leave c) = .ok s₁ ∧ sstep dbg s₁ (.left c) = .ok s₂ ∧ PInv s₂ [] [] := by
  have h1 : sstep dbg s (.leave c) = .ok ({ s with tools := fun t => if t ∈ s.mine c then (s.tools t).map Man.cancel else s.tools t }.setThread c (.leaving (s.mine c))) := by
    unfold sstep; dsimp only
    rw [if_pos hc]
    refine if_neg ?_
    rintro ⟨_, t, ht, m, htm, hf, hns⟩
    obtain ⟨m', htm', hs, ho⟩ := mem_cancelled ht
    rw [htm] at htm'; cases htm'
    rcases (h t).busy m c htm hs ho hf with hb | hb
    · rcases hc with hc | hc <;> rw [hc] at hb <;> rcases hb with x | x <;> cases x
    · exact hns hb.2.1
  have hi1 := hi.step h1
  have hi2 : SInv (s.between c) := hi1.clients (s.clients.filter fun x => x.id ≠ c) (by
    rintro d j u ⟨x, hx, rfl, hj⟩
    exact ⟨x, (List.mem_filter.mp hx).1, rfl, hj⟩)
  have hidle : ∀ t, s.thread c ≠ .manifestRead t ∧ s.thread c ≠ .request t ∧ s.thread c ≠ .check t := by
    intro t; rcases hc with hc | hc <;> rw [hc] <;> simp
  obtain ⟨s', hs', hp⟩ := PInv.handOver (dbg := dbg) hi2 (PInv.between hi h hc)
    (fun t ht => by
      obtain ⟨m, htm, hs, _⟩ := mem_cancelled ht
      refine ⟨m.cancel, ?_, hs⟩
      show (if t ∈ s.mine c then (s.tools t).map Man.cancel else s.tools t) = _
      rw [if_pos ht, htm]; rfl)
    (fun t ht d hd => by
      obtain ⟨m, htm, hs, ho⟩ := mem_cancelled ht
      have hd : upd s.thread c (.leaving (s.mine c)) d = _ ∨ upd s.thread c (.leaving (s.mine c)) d = _ := hd
      by_cases ed : d = c
      · subst ed; simp at hd
      · rw [upd_ne _ ed] at hd
        have := ((h t).read m d htm hs hd).1
        rw [ho] at this; cases this; exact ed rfl)
    (fun x hx => by
      obtain ⟨j, y, hy, h1, h2⟩ := mem_waitList.mp hx
      exact ⟨j, y, hy, h1, h2⟩)
  refine ⟨_, s'.setThread c .gone, h1, ?_, ?_⟩
  · unfold sstep; dsimp only
    have : ({ s with tools := fun t => if t ∈ s.mine c then (s.tools t).map Man.cancel else s.tools t }.setThread c (.leaving (s.mine c)) : Sync).thread c = .leaving (s.mine c) := upd_same _ _ _
    rw [this]; dsimp only
    have e : Verif.Server.handOver dbg (s.mine c) (waitList (s.between c).clients) (s.between c) = .ok s' := hs'
    unfold Sync.between at e
    unfold Sync.setThread
    dsimp only at e ⊢
    rw [e]
  · have hth : s'.thread = (s.between c).thread := (hi2.handOver hs').2.2.1
    have hthc : s'.thread c = .leaving (s.mine c) := by rw [hth]; exact upd_same _ _ _
    intro t
    refine (hp t).frame rfl (fun _ _ => Iff.rfl) (fun _ => rfl) (fun _ _ => rfl) (fun d => ?_) (fun _ x => by cases x)
    show (upd s'.thread c .gone d = _ ↔ _) ∧ (upd s'.thread c .gone d = _ ↔ _) ∧ (upd s'.thread c .gone d = _ ↔ _) ∧ (_ → upd s'.thread c .gone d = _)
    by_cases ed : d = c
    · subst ed; rw [upd_same, hthc]; simp
    · rw [upd_ne _ ed]; exact ⟨Iff.rfl, Iff.rfl, Iff.rfl, id⟩

theorem SReachA.reach {dbg : Bool} {s : Sync} (h : SReachA dbg s) : SReach dbg s := by
  induction h with
  | init => exact .init
  | step op _ _ _ hs ih => exact .step op ih hs
  | disconnect c _ h1 h2 ih => exact .step _ (.step _ ih h1) h2

theorem SReachA.pinv {dbg : Bool} {s : Sync} (h : SReachA dbg s) : PInv s [] [] := by
  induction h with
  | init => exact PInv.initial
  | step op h n1 n2 hs ih =>
    have hi := h.reach.inv
    have hr := h.reach.rinv
    cases op with
    | connect c => exact ih.connect hs
    | reorder l => exact ih.reorder hs
    | job c j t => exact ih.job hi hr hs
    | manifest c t d => exact ih.manifest hi hs
    | afterManifest c => exact ih.afterManifest hs
    | request c => exact ih.request hi hs
    | file c t i ok => exact ih.file hi hs
    | check c => exact ih.check hi hs
    | leave c => exact absurd rfl (n1 c)
    | left c => exact absurd rfl (n2 c)
  | @disconnect s s₁ s' c h h1 h2 ih =>
    have hc : s.thread c = .idle ∨ s.thread c = .closing := by
      unfold sstep at h1; dsimp only at h1
      split at h1
      · assumption
      · cases h1
    obtain ⟨t₁, t₂, e1, e2, hp⟩ := ih.disconnect (dbg := dbg) h.reach.inv hc
    rw [h1] at e1; cases e1
    rw [h2] at e2; cases e2
    exact hp

end Verif.Server
