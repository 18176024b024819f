import Verif.Cache.StoreSpec
/-! Invariant of the cache directory. -/
namespace Verif.Cache

/-- Nobody will change file `i`; it holds data stored under `k`. -/
def Frozen (fs : FS) (St : Key → Data → Prop) (k : Key) (i : Nat) (d : Data) : Prop :=
  i < fs.next ∧ St k d ∧ fs.ino i = d ∧ ∀ k', fs.dir (.tmp k') ≠ some i

def POk (fs : FS) (St : Key → Data → Prop) : Proc → Prop
  | .idle | .getOpen _ => True
  | .pubOpen k d | .pubFailed k d | .pubCleanup k d => St k d
  | .pubWrite k d i off => St k d ∧ fs.ino i = d.take off ∧ off ≤ d.length ∧ i < fs.next ∧
      (∀ l, fs.dir l = some i → l = .tmp k) ∧ ∀ j, fs.dir (.tmp k) = some j → j = i
  | .pubMove k d | .pubClear k d | .pubMove2 k d => St k d ∧ ∀ i, fs.dir (.tmp k) = some i → fs.ino i = d
  | .getSize k i => ∃ d, Frozen fs St k i d
  | .getRead k i size g => ∃ d, Frozen fs St k i d ∧ size = d.length ∧ g = d.take g.length

def writes : Proc → Option Nat
  | .pubWrite _ _ i _ => some i
  | _ => none

def uses : Proc → Option Nat
  | .pubWrite _ _ i _ | .getSize _ i | .getRead _ i _ _ => some i
  | _ => none

/-- Invariant. -/
structure Inv (St : Key → Data → Prop) (s : Sys) : Prop where
  excl : Exclusive s
  lt : ∀ l i, s.fs.dir l = some i → i < s.fs.next
  inj : ∀ l l' i, s.fs.dir l = some i → s.fs.dir l' = some i → l = l'
  entry : ∀ k i, s.fs.dir (.entry k) = some i → St k (s.fs.ino i)
  pok : ∀ p, POk s.fs St (s.proc p)
  wr : ∀ p q i, writes (s.proc p) = some i → uses (s.proc q) = some i → p = q
  log : ∀ k d, Ev.got k d ∈ s.log → St k d

theorem Frozen.mono {fs St St' k i d} (h : ∀ k d, St k d → St' k d) (f : Frozen fs St k i d) : Frozen fs St' k i d :=
  ⟨f.1, h _ _ f.2.1, f.2.2⟩

theorem POk.mono {fs : FS} {St St' : Key → Data → Prop} (h : ∀ k d, St k d → St' k d) :
    ∀ {pr : Proc}, POk fs St pr → POk fs St' pr
  | .idle, f | .getOpen _, f => f
  | .pubOpen _ _, f | .pubFailed _ _, f | .pubCleanup _ _, f => h _ _ f
  | .pubWrite _ _ _ _, f => ⟨h _ _ f.1, f.2⟩
  | .pubMove _ _, f | .pubClear _ _, f | .pubMove2 _ _, f => ⟨h _ _ f.1, f.2⟩
  | .getSize _ _, f => f.elim fun d hd => ⟨d, hd.mono h⟩
  | .getRead _ _ _ _, f => f.elim fun d hd => ⟨d, hd.1.mono h, hd.2⟩

theorem Inv.mono {St St' : Key → Data → Prop} {s : Sys} (h : ∀ k d, St k d → St' k d) (I : Inv St s) : Inv St' s where
  excl := I.excl
  lt := I.lt
  inj := I.inj
  entry k i e := h _ _ (I.entry k i e)
  pok p := (I.pok p).mono h
  wr := I.wr
  log k d e := h _ _ (I.log k d e)

/-- Fewer names: nothing gets worse. -/
theorem POk.shrink {fs fs' : FS} {St : Key → Data → Prop} (hd : ∀ l i, fs'.dir l = some i → fs.dir l = some i)
    (hi : fs'.ino = fs.ino) (hn : fs'.next = fs.next) : ∀ {pr : Proc}, POk fs St pr → POk fs' St pr
  | .idle, f | .getOpen _, f => f
  | .pubOpen _ _, f | .pubFailed _ _, f | .pubCleanup _ _, f => f
  | .pubWrite _ _ _ _, ⟨a, b, c, d, e, g⟩ =>
    ⟨a, hi ▸ b, c, hn ▸ d, fun l h => e l (hd _ _ h), fun j h => g j (hd _ _ h)⟩
  | .pubMove _ _, f | .pubClear _ _, f | .pubMove2 _ _, f => ⟨f.1, fun i h => hi ▸ f.2 i (hd _ _ h)⟩
  | .getSize _ _, ⟨d, f⟩ => ⟨d, hn ▸ f.1, f.2.1, hi ▸ f.2.2.1, fun k h => f.2.2.2 k (hd _ _ h)⟩
  | .getRead _ _ _ _, ⟨d, f, g⟩ => ⟨d, ⟨hn ▸ f.1, f.2.1, hi ▸ f.2.2.1, fun k h => f.2.2.2 k (hd _ _ h)⟩, g⟩

theorem setDir_none {fs : FS} {l : Loc} {x : Loc} {i : Nat} (h : (setDir fs l none).dir x = some i) :
    fs.dir x = some i := by
  simp only [setDir] at h
  split at h
  · cases h
  · exact h

/-- A step that only removes names and changes process `p` to `pr`. -/
theorem Inv.local {St : Key → Data → Prop} {s s' : Sys} (I : Inv St s) (p : Nat) (pr : Proc)
    (hex : Exclusive s')
    (hd : ∀ l i, s'.fs.dir l = some i → s.fs.dir l = some i) (hi : s'.fs.ino = s.fs.ino)
    (hn : s'.fs.next = s.fs.next)
    (hp : ∀ q, s'.proc q = if q = p then pr else s.proc q)
    (hpok : POk s'.fs St pr)
    (hw : ∀ i, writes pr = some i → writes (s.proc p) = some i)
    (hu : ∀ i, uses pr = some i → uses (s.proc p) = some i ∨ ∃ k, s.fs.dir (.entry k) = some i)
    (hl : ∀ k d, Ev.got k d ∈ s'.log → St k d) : Inv St s' where
  excl := hex
  lt l i h := hn ▸ I.lt l i (hd l i h)
  inj l l' i h h' := I.inj l l' i (hd _ _ h) (hd _ _ h')
  entry k i h := hi ▸ I.entry k i (hd _ _ h)
  pok q := by
    rw [hp]
    by_cases e : q = p
    · rw [if_pos e]; exact hpok
    · rw [if_neg e]; exact (I.pok q).shrink hd hi hn
  wr a b i h h' := by
    rw [hp] at h h'
    have h1 : writes (s.proc a) = some i := by
      by_cases e : a = p
      · subst e; rw [if_pos rfl] at h; exact hw i h
      · rw [if_neg e] at h; exact h
    by_cases e : b = p
    · subst e
      rw [if_pos rfl] at h'
      rcases hu i h' with h2 | ⟨k, hk⟩
      · exact I.wr a b i h1 h2
      · exfalso
        have := I.pok a
        revert h1 this
        cases s.proc a <;> simp only [writes, POk, reduceCtorEq, false_implies]
        intro h1 this
        obtain rfl := Option.some.inj h1
        exact absurd (this.2.2.2.2.1 _ hk) (by simp)
    · rw [if_neg e] at h'; exact I.wr a b i h1 h'
  log := hl

theorem take_append_chunk (d : Data) (off n : Nat) :
    d.take off ++ (d.drop off).take n = d.take (off + n) := by
  rw [List.take_add]

theorem writeAt_take (d : Data) (off n : Nat) (h : off + n ≤ d.length) :
    writeAt (d.take off) off ((d.drop off).take n) = d.take (off + n) := by
  unfold writeAt
  have e : (d.take off).length = off := by rw [List.length_take]; omega
  rw [List.take_of_length_le (by omega), e, Nat.sub_self, List.replicate_zero, List.append_nil, take_append_chunk,
    List.drop_eq_nil_of_le (by omega), List.append_nil]

end Verif.Cache
namespace Verif.Cache

theorem openTrunc_spec (fs : FS) (l : Loc) (hlt : ∀ l i, fs.dir l = some i → i < fs.next) :
    ∃ i fs', openTrunc fs l = (i, fs') ∧ fs'.dir l = some i ∧ (∀ x, x ≠ l → fs'.dir x = fs.dir x) ∧
      fs'.ino i = [] ∧ (∀ j, j ≠ i → fs'.ino j = fs.ino j) ∧ i < fs'.next ∧ fs.next ≤ fs'.next ∧
      (fs.dir l = some i ∨ (fs.dir l = none ∧ i = fs.next)) := by
  unfold openTrunc
  cases h : fs.dir l with
  | some i =>
    refine ⟨i, _, rfl, h, fun _ _ => rfl, ?_, ?_, hlt l i h, Nat.le_refl _, Or.inl rfl⟩
    · simp [setIno]
    · intro j hj; simp [setIno, hj]
  | none =>
    refine ⟨fs.next, _, rfl, ?_, ?_, ?_, ?_, ?_, ?_, Or.inr ⟨rfl, rfl⟩⟩
    · simp [setIno, setDir]
    · intro x hx; simp [setIno, setDir, hx]
    · simp [setIno]
    · intro j hj; simp [setIno, setDir, hj]
    · simp
    · simp

theorem uses_of_writes {pr : Proc} {i : Nat} (h : writes pr = some i) : uses pr = some i := by
  cases pr <;> simp_all [writes, uses]

theorem uses_lt {fs : FS} {St : Key → Data → Prop} {pr : Proc} {i : Nat} (f : POk fs St pr) (h : uses pr = some i) :
    i < fs.next := by
  cases pr <;> simp only [uses, reduceCtorEq, Option.some.injEq] at h <;> subst h
  · exact f.2.2.2.1
  · exact f.elim fun d hd => hd.1
  · exact f.elim fun d hd => hd.1.1

/-- A process that uses a file of the temporary name of `k` is writing it. -/
theorem uses_tmp {fs : FS} {St : Key → Data → Prop} {pr : Proc} {i : Nat} {k : Key} (f : POk fs St pr)
    (h : uses pr = some i) (hd : fs.dir (.tmp k) = some i) : Publishing pr k ∧ writes pr = some i := by
  cases pr <;> simp only [uses, reduceCtorEq, Option.some.injEq] at h <;> subst h
  · have := f.2.2.2.2.1 _ hd
    cases this
    exact ⟨rfl, rfl⟩
  · exact f.elim fun d hd' => absurd hd (hd'.2.2.2 k)
  · exact f.elim fun d hd' => absurd hd (hd'.1.2.2.2 k)

/-- Process `q` is not affected by changes of file `i`, which it does not use, and of the temporary name of `k`,
which it does not publish. -/
theorem POk.frame {fs fs' : FS} {St : Key → Data → Prop} {k : Key} {i : Nat} {pr : Proc}
    (hd : ∀ x, x ≠ .tmp k → fs'.dir x = fs.dir x) (hk : ∀ j, fs'.dir (.tmp k) = some j → j = i)
    (hi : ∀ j, j ≠ i → fs'.ino j = fs.ino j) (hn : fs.next ≤ fs'.next)
    (hu : uses pr ≠ some i) (hp : ¬ Publishing pr k) (hex : ∀ l, fs.dir l = some i → l = .tmp k)
    (f : POk fs St pr) : POk fs' St pr := by
  have frz : ∀ k' j d, j ≠ i → Frozen fs St k' j d → Frozen fs' St k' j d := by
    intro k' j d hj F
    refine ⟨Nat.lt_of_lt_of_le F.1 hn, F.2.1, (hi j hj).trans F.2.2.1, ?_⟩
    intro k2 h
    by_cases e : k2 = k
    · subst e; exact hj (hk j h)
    · rw [hd _ (by simpa using e)] at h
      exact F.2.2.2 k2 h
  cases pr with
  | idle | getOpen _ => trivial
  | pubOpen _ _ | pubFailed _ _ | pubCleanup _ _ => exact f
  | pubWrite k' d' i' off =>
    have hk' : k' ≠ k := hp
    have hi' : i' ≠ i := fun e => hu (by simp [uses, e])
    obtain ⟨a, b, c, d, e, g⟩ := f
    refine ⟨a, (hi _ hi').trans b, c, Nat.lt_of_lt_of_le d hn, ?_, ?_⟩
    · intro l h
      by_cases el : l = .tmp k
      · subst el; exact absurd (hk _ h) hi'
      · rw [hd l el] at h; exact e l h
    · intro j h
      rw [hd _ (by simpa using hk')] at h
      exact g j h
  | pubMove k' d' | pubClear k' d' | pubMove2 k' d' =>
    have hk' : k' ≠ k := hp
    refine ⟨f.1, ?_⟩
    intro j h
    rw [hd _ (by simpa using hk')] at h
    by_cases ej : j = i
    · subst ej
      exact absurd (hex _ h) (by simpa using hk')
    · rw [hi j ej]; exact f.2 j h
  | getSize k' j =>
    obtain ⟨d, F⟩ := f
    exact ⟨d, frz _ _ _ (fun e => hu (by simp [uses, e])) F⟩
  | getRead k' j size g =>
    obtain ⟨d, F, G⟩ := f
    exact ⟨d, frz _ _ _ (fun e => hu (by simp [uses, e])) F, G⟩

theorem Inv.open {St : Key → Data → Prop} {s : Sys} (I : Inv St s) (p : Nat) {k : Key} {d : Data}
    (hp : s.proc p = .pubOpen k d)
    (hex : Exclusive (s.set p (.pubWrite k d (openTrunc s.fs (.tmp k)).1 0) (openTrunc s.fs (.tmp k)).2)) :
    Inv St (s.set p (.pubWrite k d (openTrunc s.fs (.tmp k)).1 0) (openTrunc s.fs (.tmp k)).2) := by
  obtain ⟨i, fs', e, h1, h2, h3, h4, h5, h6, h7⟩ := openTrunc_spec s.fs (.tmp k) I.lt
  rw [e] at hex ⊢
  simp only at hex ⊢
  have own : ∀ l, s.fs.dir l = some i → l = .tmp k := by
    intro l h
    rcases h7 with h7 | ⟨-, rfl⟩
    · exact I.inj _ _ _ h h7
    · exact absurd (I.lt _ _ h) (Nat.lt_irrefl _)
  have nopub : ∀ q, q ≠ p → ¬ Publishing (s.proc q) k := by
    intro q hq h
    exact hq (I.excl q p k h (by rw [hp]; rfl))
  have nouse : ∀ q, q ≠ p → uses (s.proc q) ≠ some i := by
    intro q hq h
    rcases h7 with h7 | ⟨-, rfl⟩
    · exact nopub q hq (uses_tmp (I.pok q) h h7).1
    · exact absurd (uses_lt (I.pok q) h) (Nat.lt_irrefl _)
  have dirk : ∀ j, fs'.dir (.tmp k) = some j → j = i := by
    intro j h; rw [h1] at h; exact (Option.some.inj h).symm
  have dir' : ∀ l j, fs'.dir l = some j → (l = .tmp k ∧ j = i) ∨ (l ≠ .tmp k ∧ s.fs.dir l = some j) := by
    intro l j h
    by_cases el : l = .tmp k
    · subst el; exact Or.inl ⟨rfl, dirk j h⟩
    · rw [h2 l el] at h; exact Or.inr ⟨el, h⟩
  have hpok : POk s.fs St (s.proc p) := I.pok p
  rw [hp] at hpok
  constructor
  · exact hex
  · intro l j h
    rcases dir' l j h with ⟨-, rfl⟩ | ⟨-, h⟩
    · exact h5
    · exact Nat.lt_of_lt_of_le (I.lt l j h) h6
  · intro l l' j h h'
    rcases dir' l j h with ⟨rfl, rfl⟩ | ⟨hl, h2'⟩ <;> rcases dir' l' j h' with ⟨rfl, e'⟩ | ⟨hl', h''⟩
    · rfl
    · exact absurd (own _ h'') hl'
    · subst e'; exact absurd (own _ h2') hl
    · exact I.inj _ _ _ h2' h''
  · intro k' j h
    simp only [Sys.set] at h ⊢
    rcases dir' _ j h with ⟨h, -⟩ | ⟨-, h⟩
    · cases h
    · rw [h4 j (fun e => by subst e; exact absurd (own _ h) (by simp))]
      exact I.entry k' j h
  · intro q
    simp only [Sys.set]
    by_cases e : q = p
    · rw [if_pos e]
      refine ⟨hpok, by simpa using h3, Nat.zero_le _, h5, ?_, dirk⟩
      intro l h
      rcases dir' l i h with ⟨h, -⟩ | ⟨-, h⟩
      · exact h
      · exact own l h
    · rw [if_neg e]
      exact POk.frame h2 dirk h4 h6 (nouse q e) (nopub q e) own (I.pok q)
  · intro a b j h h'
    simp only [Sys.set] at h h'
    by_cases ea : a = p <;> by_cases eb : b = p
    · rw [ea, eb]
    · rw [if_pos ea] at h; rw [if_neg eb] at h'
      cases h
      exact absurd h' (nouse b eb)
    · rw [if_neg ea] at h; rw [if_pos eb] at h'
      cases h'
      exact absurd (uses_of_writes h) (nouse a ea)
    · rw [if_neg ea] at h; rw [if_neg eb] at h'
      exact I.wr a b j h h'
  · exact I.log

theorem Inv.write {St : Key → Data → Prop} {s : Sys} (I : Inv St s) (p : Nat) {k : Key} {d : Data} {i off n : Nat}
    (hp : s.proc p = .pubWrite k d i off) (hn : off + n ≤ d.length)
    (hex : Exclusive (s.set p (.pubWrite k d i (off + n))
      (setIno s.fs i (writeAt (s.fs.ino i) off ((d.drop off).take n))))) :
    Inv St (s.set p (.pubWrite k d i (off + n))
      (setIno s.fs i (writeAt (s.fs.ino i) off ((d.drop off).take n)))) := by
  have hpok : POk s.fs St (s.proc p) := I.pok p
  rw [hp] at hpok
  obtain ⟨a1, a2, a3, a4, a5, a6⟩ := hpok
  rw [a2, writeAt_take d off n hn] at hex ⊢
  have nopub : ∀ q, q ≠ p → ¬ Publishing (s.proc q) k := by
    intro q hq h
    exact hq (I.excl q p k h (by rw [hp]; rfl))
  have nouse : ∀ q, q ≠ p → uses (s.proc q) ≠ some i := by
    intro q hq h
    exact hq (I.wr p q i (by rw [hp]; rfl) h).symm
  have ino' : ∀ j, j ≠ i → (setIno s.fs i (d.take (off + n))).ino j = s.fs.ino j := by
    intro j h; simp [setIno, h]
  constructor
  · exact hex
  · exact I.lt
  · exact I.inj
  · intro k' j h
    simp only [Sys.set] at h ⊢
    rw [ino' j (fun e => by subst e; exact absurd (a5 _ h) (by simp))]
    exact I.entry k' j h
  · intro q
    simp only [Sys.set]
    by_cases e : q = p
    · rw [if_pos e]
      exact ⟨a1, by simp [setIno], hn, a4, a5, a6⟩
    · rw [if_neg e]
      exact POk.frame (fs := s.fs) (fun _ _ => rfl) a6 ino' (Nat.le_refl _) (nouse q e) (nopub q e) a5 (I.pok q)
  · intro a b j h h'
    simp only [Sys.set] at h h'
    by_cases ea : a = p <;> by_cases eb : b = p
    · rw [ea, eb]
    · rw [if_pos ea] at h; rw [if_neg eb] at h'
      cases h
      exact absurd h' (nouse b eb)
    · rw [if_neg ea] at h; rw [if_pos eb] at h'
      cases h'
      exact absurd (uses_of_writes h) (nouse a ea)
    · rw [if_neg ea] at h; rw [if_neg eb] at h'
      exact I.wr a b j h h'
  · exact I.log

theorem move_spec {fs fs' : FS} {k : Key} (h : move fs k = some fs') :
    ∃ i, fs.dir (.tmp k) = some i ∧ fs'.dir (.tmp k) = none ∧ fs'.dir (.entry k) = some i ∧
      (∀ x, x ≠ .tmp k → x ≠ .entry k → fs'.dir x = fs.dir x) ∧ fs'.ino = fs.ino ∧ fs'.next = fs.next := by
  unfold move at h
  cases e : fs.dir (.tmp k) with
  | none => rw [e] at h; cases h
  | some i =>
    rw [e] at h
    cases h
    refine ⟨i, rfl, by simp [setDir], by simp [setDir], ?_, rfl, rfl⟩
    intro x h1 h2
    simp [setDir, h1, h2]

theorem Inv.move {St : Key → Data → Prop} {s : Sys} (I : Inv St s) (p : Nat) {k : Key} {d : Data} {fs' : FS} (ev : Ev)
    (hpub : Publishing (s.proc p) k)
    (hd : St k d ∧ ∀ i, s.fs.dir (.tmp k) = some i → s.fs.ino i = d) (hm : move s.fs k = some fs')
    (hev : ∀ k d, ev ≠ .got k d) (hex : Exclusive (s.done p fs' ev)) : Inv St (s.done p fs' ev) := by
  obtain ⟨i, b1, b2, b3, b4, b5, b6⟩ := move_spec hm
  have nopub : ∀ q, q ≠ p → ¬ Publishing (s.proc q) k := by
    intro q hq h
    exact hq (I.excl q p k h hpub)
  have dir' : ∀ l j, fs'.dir l = some j → (l = .entry k ∧ j = i) ∨ (l ≠ .entry k ∧ l ≠ .tmp k ∧ s.fs.dir l = some j) := by
    intro l j h
    by_cases e1 : l = .entry k
    · subst e1; rw [b3] at h; exact Or.inl ⟨rfl, (Option.some.inj h).symm⟩
    · by_cases e2 : l = .tmp k
      · subst e2; rw [b2] at h; cases h
      · rw [b4 l e2 e1] at h; exact Or.inr ⟨e1, e2, h⟩
  have own : ∀ l, s.fs.dir l = some i → l = .tmp k := fun l h => I.inj _ _ _ h b1
  have frz : ∀ k' j d, Frozen s.fs St k' j d → Frozen fs' St k' j d := by
    intro k' j d F
    refine ⟨b6 ▸ F.1, F.2.1, b5 ▸ F.2.2.1, ?_⟩
    intro k2 h
    rcases dir' _ _ h with ⟨h, -⟩ | ⟨-, -, h⟩
    · cases h
    · exact F.2.2.2 k2 h
  constructor
  · exact hex
  · intro l j h
    show j < fs'.next
    rw [b6]
    rcases dir' l j h with ⟨-, rfl⟩ | ⟨-, -, h⟩
    · exact I.lt _ _ b1
    · exact I.lt _ _ h
  · intro l l' j h h'
    rcases dir' l j h with ⟨rfl, rfl⟩ | ⟨hl, hl2, h⟩ <;> rcases dir' l' j h' with ⟨rfl, e'⟩ | ⟨hl', hl2', h'⟩
    · rfl
    · exact absurd (own _ h') hl2'
    · subst e'; exact absurd (own _ h) hl2
    · exact I.inj _ _ _ h h'
  · intro k' j h
    show St k' (fs'.ino j)
    rw [b5]
    rcases dir' _ j h with ⟨h, rfl⟩ | ⟨-, -, h⟩
    · cases h
      rw [hd.2 _ b1]; exact hd.1
    · exact I.entry k' j h
  · intro q
    simp only [Sys.done]
    by_cases e : q = p
    · rw [if_pos e]; trivial
    · rw [if_neg e]
      have f := I.pok q
      have np := nopub q e
      cases hq : s.proc q with
      | idle | getOpen _ => trivial
      | pubOpen _ _ | pubFailed _ _ | pubCleanup _ _ => rw [hq] at f; exact f
      | pubWrite k' d' i' off =>
        rw [hq] at f np
        have hk' : k' ≠ k := np
        obtain ⟨c1, c2, c3, c4, c5, c6⟩ := f
        refine ⟨c1, b5 ▸ c2, c3, b6 ▸ c4, ?_, ?_⟩
        · intro l h
          rcases dir' l _ h with ⟨-, rfl⟩ | ⟨-, -, h⟩
          · have := c5 _ b1
            simp only [Loc.tmp.injEq] at this
            exact absurd this.symm hk'
          · exact c5 l h
        · intro j h
          rcases dir' _ j h with ⟨h, -⟩ | ⟨-, -, h⟩
          · cases h
          · exact c6 j h
      | pubMove k' d' | pubClear k' d' | pubMove2 k' d' =>
        rw [hq] at f
        refine ⟨f.1, ?_⟩
        intro j h
        rw [b5]
        rcases dir' _ j h with ⟨h, -⟩ | ⟨-, -, h⟩
        · cases h
        · exact f.2 j h
      | getSize k' j =>
        rw [hq] at f
        obtain ⟨d, F⟩ := f
        exact ⟨d, frz _ _ _ F⟩
      | getRead k' j size g =>
        rw [hq] at f
        obtain ⟨d, F, G⟩ := f
        exact ⟨d, frz _ _ _ F, G⟩
  · intro a b j h h'
    simp only [Sys.done] at h h'
    by_cases ea : a = p
    · rw [if_pos ea] at h; cases h
    · rw [if_neg ea] at h
      by_cases eb : b = p
      · rw [if_pos eb] at h'; cases h'
      · rw [if_neg eb] at h'
        exact I.wr a b j h h'
  · intro k' d' h
    simp only [Sys.done, List.mem_cons] at h
    rcases h with h | h
    · exact absurd h.symm (hev k' d')
    · exact I.log k' d' h


theorem read_prefix {d g : Data} {n size : Nat} (hs : size = d.length) (hg : g = d.take g.length) :
    g ++ (d.drop g.length).take (min n (size - g.length)) =
      d.take (g ++ (d.drop g.length).take (min n (size - g.length))).length := by
  have e : g ++ (d.drop g.length).take (min n (size - g.length)) = d.take (g.length + min n (size - g.length)) := by
    rw [List.take_add, ← hg]
  rw [e, List.length_take, List.take_eq_take_iff]
  omega

/-- Every call of a process preserves the invariant. -/
theorem Inv.call {St : Key → Data → Prop} {s s' : Sys} (I : Inv St s) (p : Nat) (r : Res)
    (h : call s p (s.proc p) r = some s') (hex : Exclusive s') : Inv St s' := by
  have f := I.pok p
  have frzEntry : ∀ k i, s.fs.dir (.entry k) = some i → Frozen s.fs St k i (s.fs.ino i) := fun k i hi =>
    ⟨I.lt _ _ hi, I.entry k i hi, rfl, fun k' hk' => absurd (I.inj _ _ _ hk' hi) (by simp)⟩
  have logs : ∀ (fs : FS) (e : Ev), (∀ k d, e = .got k d → St k d) → ∀ k d, Ev.got k d ∈ (s.done p fs e).log → St k d := by
    intro fs e he k d h
    simp only [Sys.done, List.mem_cons] at h
    rcases h with h | h
    · exact he k d h.symm
    · exact I.log k d h
  cases hp : s.proc p with
  | idle => rw [hp] at h; cases r <;> simp [Cache.call] at h
  | pubOpen k d =>
    rw [hp] at h f
    cases r with
    | ok => simp only [Cache.call, Option.some.injEq] at h; subst h; exact I.open p hp hex
    | fail =>
      simp only [Cache.call, Option.some.injEq] at h; subst h
      exact I.local p .idle hex (fun _ _ h => h) rfl rfl (fun _ => rfl) trivial (by simp [writes]) (by simp [uses])
        (logs _ _ (by simp))
    | some n => simp [Cache.call] at h
  | pubWrite k d i off =>
    rw [hp] at h f
    cases r with
    | ok =>
      simp only [Cache.call] at h
      split at h
      · rename_i e
        cases h
        refine I.local p (.pubMove k d) hex (fun _ _ h => h) rfl rfl (fun _ => rfl) ⟨f.1, ?_⟩ (by simp [writes])
          (by simp [uses]) I.log
        intro j hj
        have := f.2.2.2.2.2 j hj
        subst this
        show s.fs.ino j = d
        rw [f.2.1, e, List.take_length]
      · cases h
    | fail =>
      simp only [Cache.call, Option.some.injEq] at h; subst h
      exact I.local p (.pubFailed k d) hex (fun _ _ h => h) rfl rfl (fun _ => rfl) f.1 (by simp [writes])
        (by simp [uses]) I.log
    | some n =>
      simp only [Cache.call] at h
      split at h
      · rename_i e; cases h; exact I.write p hp e hex
      · cases h
  | pubFailed k d =>
    rw [hp] at h f
    cases r with
    | ok =>
      simp only [Cache.call, Option.some.injEq] at h; subst h
      exact I.local p .idle hex (fun _ _ h => setDir_none h) rfl rfl (fun _ => rfl) trivial (by simp [writes])
        (by simp [uses]) (logs _ _ (by simp))
    | fail =>
      simp only [Cache.call, Option.some.injEq] at h; subst h
      exact I.local p .idle hex (fun _ _ h => h) rfl rfl (fun _ => rfl) trivial (by simp [writes]) (by simp [uses])
        (logs _ _ (by simp))
    | some n => simp [Cache.call] at h
  | pubMove k d =>
    rw [hp] at h f
    cases r with
    | ok =>
      simp only [Cache.call, Option.map_eq_some_iff] at h
      obtain ⟨fs', hm, rfl⟩ := h
      exact I.move p _ (by rw [hp]; rfl) f hm (by simp) hex
    | fail =>
      simp only [Cache.call, Option.some.injEq] at h; subst h
      exact I.local p (.pubClear k d) hex (fun _ _ h => h) rfl rfl (fun _ => rfl) f (by simp [writes])
        (by simp [uses]) I.log
    | some n => simp [Cache.call] at h
  | pubClear k d =>
    rw [hp] at h f
    cases r with
    | ok =>
      simp only [Cache.call, Option.some.injEq] at h; subst h
      exact I.local p (.pubMove2 k d) hex (fun _ _ h => setDir_none h) rfl rfl (fun _ => rfl)
        ⟨f.1, fun i hi => f.2 i (setDir_none hi)⟩ (by simp [writes]) (by simp [uses]) I.log
    | fail =>
      simp only [Cache.call, Option.some.injEq] at h; subst h
      exact I.local p (.pubMove2 k d) hex (fun _ _ h => h) rfl rfl (fun _ => rfl) f (by simp [writes])
        (by simp [uses]) I.log
    | some n => simp [Cache.call] at h
  | pubMove2 k d =>
    rw [hp] at h f
    cases r with
    | ok =>
      simp only [Cache.call, Option.map_eq_some_iff] at h
      obtain ⟨fs', hm, rfl⟩ := h
      exact I.move p _ (by rw [hp]; rfl) f hm (by simp) hex
    | fail =>
      simp only [Cache.call, Option.some.injEq] at h; subst h
      exact I.local p (.pubCleanup k d) hex (fun _ _ h => h) rfl rfl (fun _ => rfl) f.1 (by simp [writes])
        (by simp [uses]) I.log
    | some n => simp [Cache.call] at h
  | pubCleanup k d =>
    rw [hp] at h f
    cases r with
    | ok =>
      simp only [Cache.call, Option.some.injEq] at h; subst h
      exact I.local p .idle hex (fun _ _ h => setDir_none h) rfl rfl (fun _ => rfl) trivial (by simp [writes])
        (by simp [uses]) (logs _ _ (by simp))
    | fail =>
      simp only [Cache.call, Option.some.injEq] at h; subst h
      exact I.local p .idle hex (fun _ _ h => h) rfl rfl (fun _ => rfl) trivial (by simp [writes]) (by simp [uses])
        (logs _ _ (by simp))
    | some n => simp [Cache.call] at h
  | getOpen k =>
    rw [hp] at h f
    cases r with
    | ok =>
      simp only [Cache.call, Option.map_eq_some_iff] at h
      obtain ⟨i, hi, rfl⟩ := h
      refine I.local p (.getSize k i) hex (fun _ _ h => h) rfl rfl (fun _ => rfl) ⟨_, frzEntry k i hi⟩ (by simp [writes])
        ?_ I.log
      intro j hj
      simp only [uses, Option.some.injEq] at hj
      subst hj
      exact Or.inr ⟨k, hi⟩
    | fail =>
      simp only [Cache.call, Option.some.injEq] at h; subst h
      exact I.local p .idle hex (fun _ _ h => h) rfl rfl (fun _ => rfl) trivial (by simp [writes]) (by simp [uses])
        (logs _ _ (by simp))
    | some n => simp [Cache.call] at h
  | getSize k i =>
    rw [hp] at h f
    cases r with
    | ok =>
      simp only [Cache.call, Option.some.injEq] at h; subst h
      obtain ⟨d, F⟩ := f
      refine I.local p (.getRead k i (s.fs.ino i).length []) hex (fun _ _ h => h) rfl rfl (fun _ => rfl)
        ⟨d, F, by rw [F.2.2.1], by simp⟩ (by simp [writes]) ?_ I.log
      intro j hj
      exact Or.inl (by rw [hp]; exact hj)
    | fail => simp [Cache.call] at h
    | some n => simp [Cache.call] at h
  | getRead k i size g =>
    rw [hp] at h f
    obtain ⟨d, F, hs, hg⟩ := f
    cases r with
    | ok =>
      simp only [Cache.call] at h
      split at h
      · rename_i e
        cases h
        refine I.local p .idle hex (fun _ _ h => h) rfl rfl (fun _ => rfl) trivial (by simp [writes]) (by simp [uses])
          (logs _ _ ?_)
        intro k' d' hkd
        cases hkd
        rw [hg, e, hs, List.take_length]
        exact F.2.1
      · cases h
    | fail =>
      simp only [Cache.call, Option.some.injEq] at h; subst h
      exact I.local p .idle hex (fun _ _ h => h) rfl rfl (fun _ => rfl) trivial (by simp [writes]) (by simp [uses])
        (logs _ _ (by simp))
    | some n =>
      simp only [Cache.call] at h
      split at h
      · cases h
        exact I.local p .idle hex (fun _ _ h => h) rfl rfl (fun _ => rfl) trivial (by simp [writes]) (by simp [uses])
          (logs _ _ (by simp))
      · cases h
        refine I.local p _ hex (fun _ _ h => h) rfl rfl (fun _ => rfl) ⟨d, F, hs, ?_⟩ (by simp [writes]) ?_ I.log
        · rw [F.2.2.1]
          exact read_prefix hs hg
        · intro j hj
          exact Or.inl (by rw [hp]; exact hj)

theorem Inv.step {St : Key → Data → Prop} {s s' : Sys} (I : Inv St s) (a : Act)
    (ha : ∀ p k d, a = .publish p k d → St k d)
    (h : step s a = some s') (hex : Exclusive s') : Inv St s' := by
  cases a with
  | publish p k d =>
    simp only [Cache.step] at h
    split at h
    · cases h
      exact I.local p (.pubOpen k d) hex (fun _ _ h => h) rfl rfl (fun _ => rfl) (ha p k d rfl) (by simp [writes])
        (by simp [uses]) I.log
    · cases h
  | retrieve p k =>
    simp only [Cache.step] at h
    split at h
    · cases h
      exact I.local p (.getOpen k) hex (fun _ _ h => h) rfl rfl (fun _ => rfl) trivial (by simp [writes])
        (by simp [uses]) I.log
    · cases h
  | step p r => exact I.call p r h hex
  | kill p =>
    simp only [Cache.step, Option.some.injEq] at h
    subst h
    exact I.local p .idle hex (fun _ _ h => h) rfl rfl (fun _ => rfl) trivial (by simp [writes]) (by simp [uses]) I.log
  | remove l =>
    simp only [Cache.step, Option.some.injEq] at h
    subst h
    refine I.local 0 (s.proc 0) hex (fun _ _ h => setDir_none h) rfl rfl ?_ ?_ (fun _ h => h) (fun _ h => Or.inl h) I.log
    · intro q
      by_cases e : q = 0
      · simp [e]
      · simp [e]
    · exact (I.pok 0).shrink (fun _ _ h => setDir_none h) rfl rfl

theorem inv_init (St : Key → Data → Prop) : Inv St init where
  excl p q k h := by simp [init, Publishing] at h
  lt l i h := by simp [init] at h
  inj l l' i h := by simp [init] at h
  entry k i h := by simp [init] at h
  pok p := trivial
  wr p q i h := by simp [init, writes] at h
  log k d h := by simp [init] at h

theorem inv_exec {l : List Act} {s : Sys} (h : ExclExec init l s) : Inv (Stored l) s := by
  induction h with
  | nil => exact inv_init _
  | snoc h hs hx ih =>
    refine Inv.step (ih.mono ?_) _ ?_ hs hx
    · intro k d hkd
      obtain ⟨p, hp⟩ := hkd
      exact ⟨p, List.mem_append_left _ hp⟩
    · intro p k d ha; exact ⟨p, by simp [ha]⟩

end Verif.Cache
