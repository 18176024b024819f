import Verif.Unity.Stamp
/-! Properties C47 (balance, examples), C48 (stable order) and C49 (changes are noticed). -/
namespace Verif.Unity

/-! ### C48 -/

theorem charsLt_lex : ∀ a b : Name, charsLt a b = lex (a.map fun x => (x.toNat : Int)) (b.map fun x => (x.toNat : Int))
  | [], [] => rfl
  | [], _ :: _ => rfl
  | _ :: _, [] => rfl
  | x :: a, y :: b => by
    simp only [charsLt, List.map_cons, lex, charsLt_lex a b]
    by_cases e : x = y
    · simp [e]
    · have : ¬ (x.toNat : Int) = (y.toNat : Int) := fun q => e (Char.toNat_inj.mp (by omega))
      rw [if_neg e, if_neg this]; simp

theorem takeWhile_noNul {a : Name} (h : '\x00' ∉ a) : a.takeWhile (· ≠ '\x00') = a := by
  induction a with
  | nil => rfl
  | cons x a ih =>
    have hx : x ≠ '\x00' := fun e => h (by simp [e])
    simp only [List.takeWhile_cons, hx, ne_eq, not_false_eq_true, decide_true, if_true]
    rw [ih fun q => h (by simp [q])]

theorem map_toNat_inj : ∀ {a b : Name}, (a.map fun x => (x.toNat : Int)) = (b.map fun x => (x.toNat : Int)) → a = b
  | [], [], _ => rfl
  | [], _ :: _, h => by simp at h
  | _ :: _, [], h => by simp at h
  | x :: a, y :: b, h => by
    simp only [List.map_cons, List.cons.injEq] at h
    rw [map_toNat_inj h.2, Char.toNat_inj.mp (by omega : x.toNat = y.toNat)]

/-- file names as found in a directory can be told apart -/
theorem nameLt_equiv {a b : Name} (ha : '\x00' ∉ a) (hb : '\x00' ∉ b) (h : nameLt a b = false) (h' : nameLt b a = false) :
    a = b := by
  unfold nameLt at h h'
  rw [takeWhile_noNul ha, takeWhile_noNul hb, charsLt_lex] at h h'
  exact map_toNat_inj (lex_total _ _ h h')

theorem nameLt_weak : Sort.StrictWeak (fun a b : Name × Bool => nameLt a.1 b.1) where
  asymm := fun a b h => by
    simp only [nameLt, charsLt_lex] at h ⊢; exact lex_asymm _ _ h
  negtrans := fun a b c h h' => by
    simp only [nameLt, charsLt_lex] at h h' ⊢; exact lex_negtrans _ _ _ h h'

/-- sorting forgets the order of the input when no two elements are equivalent -/
theorem sort_unique {α : Type} {lt : α → α → Bool} (W : Sort.StrictWeak lt) {l l' : List α} (hp : l.Perm l')
    (hd : ∀ a ∈ l, ∀ b ∈ l, lt a b = false → lt b a = false → a = b) :
    Sort.shellSort lt l = Sort.shellSort lt l' := by
  obtain ⟨s, h1, h2, h3⟩ := Sort.C35_shellSort_sorts lt W l
  obtain ⟨s', h1', h2', h3'⟩ := Sort.C35_shellSort_sorts lt W l'
  rw [h1, h1']
  have hss : s.Perm s' := h2.trans (hp.trans h2'.symm)
  have := List.Perm.eq_of_pairwise (le := fun x y => lt y x = false)
    (fun a b ha hb hab hba => hd a (h2.mem_iff.mp ha) b (hp.mem_iff.mpr (h2'.mem_iff.mp hb)) hba hab) h3 h3' hss
  rw [this]

/-- C48. A directory listing does not depend on the order in which the file system returns the files. -/
theorem C48_listing (found found' : List (Name × Bool)) (hp : found.Perm found')
    (hnul : ∀ f ∈ found, '\x00' ∉ f.1) (hd : ∀ a ∈ found, ∀ b ∈ found, a.1 = b.1 → a = b) :
    ∃ l, dirListFiles found = some l ∧ dirListFiles found' = some l ∧ l.Perm found ∧
      l.Pairwise (fun x y => nameLt y.1 x.1 = false) := by
  obtain ⟨s, h1, h2, h3⟩ := Sort.C35_shellSort_sorts _ nameLt_weak found
  refine ⟨s, h1, ?_, h2, h3⟩
  have := sort_unique nameLt_weak hp (fun a ha b hb hab hba => hd a ha b hb (nameLt_equiv (hnul a ha) (hnul b hb) hab hba))
  unfold dirListFiles
  rw [← this]; exact h1

/-- C48. The files of a unity are a permutation of its inputs in a fixed order: no file comes after one that the
order puts behind it. The order is a strict weak order in which only files with the same name up to case are
equivalent. -/
theorem C48_order (c : Config) (hr : ∀ x y, c.rank x = c.rank y → x = y) (deps : List Dep) (fs : List File)
    (h : collect c deps = some fs) :
    ∃ files, getFiles c deps = some files ∧ files.Perm fs ∧ files.Pairwise (fun f g => fileLt c.rank c.sl g f = false) ∧
      (∀ f g, fileLt c.rank c.sl f g = false → fileLt c.rank c.sl g f = false → f.name.map lower = g.name.map lower) := by
  obtain ⟨s, h1, h2, h3⟩ := Sort.C35_shellSort_sorts _ (fileLt_weak c.rank c.sl hr) fs
  refine ⟨s, ?_, h2, h3, fun f g => fileLt_equiv c.rank c.sl hr f g⟩
  unfold getFiles
  rw [h]; exact h1

/-- C48. The generated unity files, their names and the isolated files do not depend on the order in which the
files are found, nor on the order of the input directories, as long as no two names differ in case only. -/
theorem C48_order_independent (fl : Flt) (c : Config) (hr : ∀ x y, c.rank x = c.rank y → x = y) (deps deps' : List Dep)
    (fs fs' : List File) (h : collect c deps = some fs) (h' : collect c deps' = some fs') (hp : fs.Perm fs')
    (hd : ∀ f ∈ fs, ∀ g ∈ fs, f.name.map lower = g.name.map lower → f = g)
    (fromList : List Name) (noUnity clean : Bool) (canWrite : Name → Bool) (disk : Disk) :
    doBuild fl c deps fromList noUnity clean canWrite disk = doBuild fl c deps' fromList noUnity clean canWrite disk := by
  have : getFiles c deps = getFiles c deps' := by
    unfold getFiles
    rw [h, h']
    exact sort_unique (fileLt_weak c.rank c.sl hr) hp
      (fun a ha b hb hab hba => hd a ha b hb (fileLt_equiv c.rank c.sl hr a b hab hba))
  unfold doBuild
  rw [this]

/-! ### C47: balance -/

/-- exact arithmetic: a multiple of one over the number of unity files -/
def exactFlt : Flt where
  F := Int × Int
  zero := (0, 1)
  per := fun n k => (n, k)
  add := fun a b => (a.1 + b.1, b.2)
  dec := fun a => (a.1 - a.2, a.2)
  pos := fun a => decide (a.1 > 0)

theorem allot_nil (fl : Flt) (last : Bool) (r : fl.F) :
    allot fl last r [] = if fl.pos r || last then ([], fl.dec r, []) else ([], r, []) := rfl

theorem allot_cons (fl : Flt) (last : Bool) (r : fl.F) (f : File) (fs : List File) :
    allot fl last r (f :: fs) = if fl.pos r || last then
      (f :: (allot fl last (fl.dec r) fs).1, (allot fl last (fl.dec r) fs).2.1, (allot fl last (fl.dec r) fs).2.2)
      else ([], r, f :: fs) := rfl

theorem allot_exact {k : Int} (hk : 0 < k) : ∀ (files : List File) (r : Int), r ≤ k * files.length →
    ((allot exactFlt false (r, k) files).1.length : Int) = (if r ≤ 0 then 0 else (r + k - 1) / k) ∧
    (allot exactFlt false (r, k) files).2.1 = (r - k * (allot exactFlt false (r, k) files).1.length, k)
  | [], r, h => by
    have h0 : r ≤ 0 := by simpa using h
    have : (exactFlt.pos (r, k) || false) = false := by simp only [exactFlt]; simp; omega
    have e : allot exactFlt false (r, k) [] = ([], (r, k), []) := by
      have := allot_nil exactFlt false (r, k)
      rw [this, if_neg (by rw [‹(exactFlt.pos (r, k) || false) = false›]; decide)]; rfl
    rw [e, if_pos h0]
    simp
    rfl
  | f :: fs, r, h => by
    have e0 := allot_cons exactFlt false (r, k) f fs
    by_cases h0 : r ≤ 0
    · have : (exactFlt.pos (r, k) || false) = false := by simp only [exactFlt]; simp; omega
      rw [if_neg (by rw [this]; decide)] at e0
      rw [e0, if_pos h0]
      simp
      rfl
    · have : (exactFlt.pos (r, k) || false) = true := by simp only [exactFlt]; simp; omega
      rw [if_pos this] at e0
      rw [e0, if_neg h0]
      have ih := allot_exact hk fs (r - k) (by
        simp only [List.length_cons, Int.natCast_add, Int.mul_add] at h
        have : k * ((1 : Nat) : Int) = k := by simp
        omega)
      have e : exactFlt.dec (r, k) = (r - k, k) := rfl
      rw [e]
      obtain ⟨i1, i2⟩ := ih
      dsimp only
      constructor
      · rw [List.length_cons, Int.natCast_add, i1]
        by_cases h1 : r - k ≤ 0
        · rw [if_pos h1]
          have : (r + k - 1) / k = 1 := by
            have : r + k - 1 = (r - 1) + 1 * k := by omega
            rw [this, Int.add_mul_ediv_right _ _ (by omega), Int.ediv_eq_zero_of_lt (by omega) (by omega)]; rfl
          rw [this]; rfl
        · rw [if_neg h1]
          have : r + k - 1 = (r - k + k - 1) + 1 * k := by omega
          rw [this, Int.add_mul_ediv_right _ _ (by omega)]; rfl
      · rw [i2, List.length_cons, Int.natCast_add, Int.mul_add]
        have : k * ((1 : Nat) : Int) = k := by simp
        congr 1
        omega

/-- quotient rounded up -/
def ceilDiv (a k : Int) : Int := (a + k - 1) / k

theorem ceilDiv_ge {a k : Int} (hk : 0 < k) : a ≤ k * ceilDiv a k := by
  have := Int.emod_add_mul_ediv (a + k - 1) k
  have := Int.emod_lt_of_pos (a + k - 1) hk
  unfold ceilDiv; omega

theorem ceilDiv_lt {a k : Int} (hk : 0 < k) : k * ceilDiv a k < a + k := by
  have := Int.emod_add_mul_ediv (a + k - 1) k
  have := Int.emod_nonneg (a + k - 1) (show k ≠ 0 by omega)
  unfold ceilDiv; omega

theorem groups_exact (n k : Int) (hk : 0 < k) (hn : 0 ≤ n) : ∀ (m : Nat) (i d : Int) (files : List File), 0 ≤ i → i + m = k →
    (files.length : Int) = n - ceilDiv (i * n) k →
    ∀ j (h : j < (groups exactFlt (n, k) m (i * n - k * ceilDiv (i * n) k, d) files).length),
      ((groups exactFlt (n, k) m (i * n - k * ceilDiv (i * n) k, d) files)[j].length : Int) =
        ceilDiv ((i + j + 1) * n) k - ceilDiv ((i + j) * n) k
  | 0, _, _, _, _, _, _, j, h => by simp [groups] at h
  | 1, i, d, files, hi, hm, hl, j, h => by
    have hj : j = 0 := by
      have hg := groups_length exactFlt (n, k) 1 (i * n - k * ceilDiv (i * n) k, d) files
      have : j < 1 := Nat.lt_of_lt_of_eq h hg
      omega
    subst hj
    have e := allot_last exactFlt files (exactFlt.add (i * n - k * ceilDiv (i * n) k, d) (n, k))
    have hik : i + ((0 : Nat) : Int) + 1 = k := by omega
    have : ceilDiv (k * n) k = n := by
      unfold ceilDiv
      rw [show k * n + k - 1 = (k - 1) + k * n by omega, Int.add_mul_ediv_left _ _ (by omega),
        Int.ediv_eq_zero_of_lt (by omega) (by omega)]
      omega
    rw [hik, this]
    change (((allot exactFlt true _ files).1.length : Nat) : Int) = _
    rw [e.1, hl]; simp
  | m + 2, i, d, files, hi, hm, hl, j, h => by
    have g1 := ceilDiv_ge (a := i * n) hk
    have g2 := ceilDiv_lt (a := i * n) hk
    have hin : (i + 1) * n = i * n + n := by rw [Int.add_mul]; omega
    have hle : (i + 1) * n ≤ k * n := Int.mul_le_mul_of_nonneg_right (by omega) hn
    have ha := allot_exact hk files (i * n - k * ceilDiv (i * n) k + n) (by
      rw [hl, Int.mul_sub]; omega)
    have ht : (if i * n - k * ceilDiv (i * n) k + n ≤ 0 then (0 : Int) else
        (i * n - k * ceilDiv (i * n) k + n + k - 1) / k) = ceilDiv ((i + 1) * n) k - ceilDiv (i * n) k := by
      have e : ceilDiv ((i + 1) * n) k - ceilDiv (i * n) k = (i * n - k * ceilDiv (i * n) k + n + k - 1) / k := by
        have : (i + 1) * n + k - 1 = (i * n - k * ceilDiv (i * n) k + n + k - 1) + k * ceilDiv (i * n) k := by omega
        rw [show ceilDiv ((i + 1) * n) k = ((i + 1) * n + k - 1) / k from rfl, this, Int.add_mul_ediv_left _ _ (by omega)]
        omega
      rw [e]
      split
      · rw [Int.ediv_eq_zero_of_lt (by omega) (by omega)]
      · rfl
    rw [ht] at ha
    have hsplit := allot_split exactFlt false files (i * n - k * ceilDiv (i * n) k + n, k)
    have hfalse : (m + 1 == 0) = false := by simp
    have hgr : groups exactFlt (n, k) (m + 2) (i * n - k * ceilDiv (i * n) k, d) files =
        (allot exactFlt false (i * n - k * ceilDiv (i * n) k + n, k) files).1 ::
        groups exactFlt (n, k) (m + 1) (allot exactFlt false (i * n - k * ceilDiv (i * n) k + n, k) files).2.1
          (allot exactFlt false (i * n - k * ceilDiv (i * n) k + n, k) files).2.2 := rfl
    cases j with
    | zero =>
      simp only [hgr, List.getElem_cons_zero]
      rw [ha.1]
      simp
    | succ j =>
      simp only [hgr, List.getElem_cons_succ]
      have hr : (allot exactFlt false (i * n - k * ceilDiv (i * n) k + n, k) files).2.1 =
          ((i + 1) * n - k * ceilDiv ((i + 1) * n) k, k) := by
        rw [ha.2, ha.1, Int.mul_sub]
        congr 1
        omega
      have hrest : ((allot exactFlt false (i * n - k * ceilDiv (i * n) k + n, k) files).2.2.length : Int) =
          n - ceilDiv ((i + 1) * n) k := by
        have hq := congrArg List.length hsplit
        rw [List.length_append] at hq
        have := ha.1
        omega
      have hj : j < (groups exactFlt (n, k) (m + 1) ((i + 1) * n - k * ceilDiv ((i + 1) * n) k, k)
          (allot exactFlt false (i * n - k * ceilDiv (i * n) k + n, k) files).2.2).length := by
        have hg := groups_length exactFlt (n, k) (m + 2) (i * n - k * ceilDiv (i * n) k, d) files
        have hg' := groups_length exactFlt (n, k) (m + 1) ((i + 1) * n - k * ceilDiv ((i + 1) * n) k, k)
          (allot exactFlt false (i * n - k * ceilDiv (i * n) k + n, k) files).2.2
        have h2 : j + 1 < m + 2 := Nat.lt_of_lt_of_eq h hg
        exact Nat.lt_of_lt_of_eq (by omega : j < m + 1) hg'.symm
      have ih := groups_exact n k hk hn (m + 1) (i + 1) k _ (by omega) (by omega) hrest j hj
      simp only [hr]
      rw [ih]
      congr 2 <;> congr 1 <;> omega

/-- C47. Were the arithmetic exact, the files would be spread evenly: every unity file mentions `⌊n/k⌋` or `⌈n/k⌉` of
`n` files (commented out or not). -/
theorem C47_balanced_exact (c : Config) (deps : List Dep) (fromList : List Name) (noUnity clean : Bool)
    (canWrite : Name → Bool) (disk : Disk) (r : Result) (hforce : c.toIsolate = [])
    (h : doBuild exactFlt c deps fromList noUnity clean canWrite disk = some r) (hnum : 0 < c.num)
    (hpch : '\n' ∉ c.shown c.pch) (hnopch : c.pch = []) (hplain : ∀ n ∈ inputs c deps, '\n' ∉ c.shown n) :
    r.texts.length = c.num ∧ ∀ t ∈ r.texts, (inputs c deps).length / c.num ≤ (marks t).length ∧
      (marks t).length ≤ ((inputs c deps).length + c.num - 1) / c.num := by
  unfold doBuild at h
  split at h
  · cases h
  · next files hfiles =>
    have hfp := getFiles_perm c deps files hfiles
    have hff : filterForce c files = (files, []) := by unfold filterForce; rw [if_pos hforce]
    rw [hff] at h
    dsimp only at h
    have m := makeFiles_made _ _ _ _ _ _ h
    have hfl := groups_flatten exactFlt (exactFlt.per files.length c.num) c.num exactFlt.zero files hnum
    have hlen := groups_length exactFlt (exactFlt.per files.length c.num) c.num exactFlt.zero files
    have hN : (inputs c deps).length = files.length := by rw [← hfp.length_eq, List.length_map]
    have c0 : ceilDiv (0 * (files.length : Int)) c.num = 0 := by
      unfold ceilDiv; rw [Int.ediv_eq_zero_of_lt (by omega) (by omega)]
    have hz : exactFlt.zero = ((0 : Int) * (files.length : Int) - (c.num : Int) * ceilDiv (0 * (files.length : Int)) c.num, (1 : Int)) := by
      rw [c0]; simp [exactFlt]
    have hb := groups_exact (files.length) c.num (by omega) (by omega) c.num 0 1 files (by omega) (by omega) (by rw [c0]; omega)
    rw [← hz] at hb
    refine ⟨by rw [m.texts]; simpa using hlen, ?_⟩
    intro t ht
    rw [m.texts] at ht
    obtain ⟨g, hg, he⟩ := List.mem_map.mp (by simpa using ht)
    obtain ⟨j, hj, hgj⟩ := List.mem_iff_getElem.mp hg
    have hpl : ∀ f ∈ g, Plain c f.name := by
      intro f hf
      apply hplain
      refine hfp.mem_iff.mp (List.mem_map.mpr ⟨f, ?_, rfl⟩)
      rw [← hfl]
      exact List.mem_flatten.mpr ⟨g, hg, hf⟩
    have hcount : (marks t).length = g.length := by
      rw [← he, marks_text c fromList g hpch hpl, if_pos hnopch]; simp
    have hgl := hb j hj
    have hgj' : (groups exactFlt ((files.length : Int), (c.num : Int)) c.num exactFlt.zero files)[j] = g := hgj
    rw [hgj'] at hgl
    rw [hcount, hN]
    have hk : (0 : Int) < c.num := by omega
    have b1 := ceilDiv_ge (a := ((0 : Int) + j + 1) * files.length) hk
    have b2 := ceilDiv_lt (a := ((0 : Int) + j + 1) * files.length) hk
    have b3 := ceilDiv_ge (a := ((0 : Int) + j) * files.length) hk
    have b4 := ceilDiv_lt (a := ((0 : Int) + j) * files.length) hk
    have hmul : ((0 : Int) + j + 1) * files.length = ((0 : Int) + j) * files.length + files.length := by
      rw [Int.add_mul]; omega
    have hsub : (c.num : Int) * g.length = c.num * ceilDiv (((0 : Int) + j + 1) * files.length) c.num -
        c.num * ceilDiv (((0 : Int) + j) * files.length) c.num := by rw [hgl, Int.mul_sub]
    have u1 : (c.num : Int) * g.length < files.length + c.num := by omega
    have u2 : (files.length : Int) - c.num < c.num * g.length := by omega
    have u1' : c.num * g.length < files.length + c.num := by exact_mod_cast u1
    have u2' : files.length < c.num * g.length + c.num := by
      have : (files.length : Int) < c.num * g.length + c.num := by omega
      exact_mod_cast this
    constructor
    · refine Nat.le_of_lt_succ ((Nat.div_lt_iff_lt_mul hnum).mpr ?_)
      rw [Nat.succ_mul, Nat.mul_comm]; exact u2'
    · refine (Nat.le_div_iff_mul_le hnum).mpr ?_
      rw [Nat.mul_comm]; omega

theorem isoEntries_bound (c : Config) (fromList : List Name) (g : List File) (hm : c.maxIsolated ≠ 0) :
    (isoEntries c fromList false g).length ≤ c.maxIsolated := by
  unfold isoEntries
  simp only [Bool.or_false]
  by_cases h : g.countP (isolate c fromList) ≤ c.maxIsolated
  · refine Nat.le_trans ?_ h
    rw [List.countP_eq_length_filter]
    have : (isolated c fromList g) = isolate c fromList := by
      funext f; simp [isolated, h]
    change (g.filter (isolated c fromList g)).length ≤ _
    rw [this]; exact Nat.le_refl _
  · have : (isolated c fromList g) = fun _ => false := by
      funext f; simp [isolated, h, hm]
    have hz : g.filter (isolated c fromList g) = [] := by rw [this]; exact List.filter_eq_nil_iff.mpr (fun _ _ h => by cases h)
    change (g.filter (isolated c fromList g)).length ≤ _
    rw [hz]; exact Nat.zero_le _

/-- C47. A file is taken out of the unity files for a reason only: it is named by `.UnityInputIsolatedFiles`, or
listed in the isolate list, or writable while writable files are isolated. -/
theorem C47_isolated_reason (fl : Flt) (c : Config) (deps : List Dep) (fs : List File) (fromList : List Name) (clean : Bool)
    (canWrite : Name → Bool) (disk : Disk) (r : Result) (hnum : 0 < c.num) (hc : collect c deps = some fs)
    (h : doBuild fl c deps fromList false clean canWrite disk = some r) (e : Name × Name) (he : e ∈ r.isolated) :
    ∃ f ∈ fs, e = (f.name, f.origin) ∧
      ((∃ n ∈ c.toIsolate, endsWithFile c.linux c.sl f.name n = true) ∨ f.name ∈ fromList ∨
        (c.isolateWritable = true ∧ f.readOnly = false)) := by
  unfold doBuild at h
  split at h
  · cases h
  · next files hfiles =>
    have hfs : ∀ f, f ∈ files ↔ f ∈ fs := by
      unfold getFiles at hfiles
      rw [hc] at hfiles
      obtain ⟨b, hb, hp⟩ := Sort.C35_shellSort_perm (fileLt c.rank c.sl) fs
      dsimp only at hfiles
      rw [hb] at hfiles
      cases hfiles
      exact fun f => hp.mem_iff
    have hff := filterForce_perm c files
    have hforced : ∀ f ∈ (filterForce c files).2, forced c f = true := by
      unfold filterForce
      split
      · simp
      · split
        · simp
        · intro f hf; exact (List.mem_filter.mp hf).2
    dsimp only at h
    revert h hff hforced
    generalize (filterForce c files).1 = keep
    generalize (filterForce c files).2 = force
    intro h hff hforced
    have m := makeFiles_made _ _ _ _ _ _ h
    have hfl := groups_flatten fl (fl.per keep.length c.num) c.num fl.zero keep hnum
    revert m hfl
    generalize groups fl (fl.per keep.length c.num) c.num fl.zero keep = gs
    intro m hfl
    rw [m.isolated] at he
    rcases List.mem_append.mp he with q | q
    · obtain ⟨f, hf, hfe⟩ := List.mem_map.mp q
      refine ⟨f, (hfs f).mp (hff.mem_iff.mp (List.mem_append_right _ hf)), hfe.symm, Or.inl ?_⟩
      have := hforced f hf
      unfold forced at this
      exact List.any_eq_true.mp this
    · obtain ⟨g, hg, hq⟩ := List.mem_flatMap.mp q
      obtain ⟨f, hf, hfe⟩ := List.mem_map.mp hq
      unfold isoEntries at hf
      obtain ⟨hfg, hi⟩ := List.mem_filter.mp hf
      refine ⟨f, (hfs f).mp (hff.mem_iff.mp (List.mem_append_left _ ?_)), hfe.symm, Or.inr ?_⟩
      · rw [← hfl]; exact List.mem_flatten.mpr ⟨g, hg, hfg⟩
      · simp only [isolated, isolate, Bool.or_false, Bool.and_eq_true, Bool.or_eq_true, List.contains_iff_mem, Bool.not_eq_true'] at hi
        rcases hi.2 with hi | hi
        · exact Or.inr hi
        · exact Or.inl hi

/-- C47. `.UnityInputIsolateWritableFilesLimit` bounds the number of files taken out of each unity file. -/
theorem C47_isolated_limit (fl : Flt) (c : Config) (deps : List Dep) (fromList : List Name) (clean : Bool)
    (canWrite : Name → Bool) (disk : Disk) (r : Result) (hforce : c.toIsolate = []) (hm : c.maxIsolated ≠ 0)
    (h : doBuild fl c deps fromList false clean canWrite disk = some r) :
    r.isolated.length ≤ c.num * c.maxIsolated := by
  unfold doBuild at h
  split at h
  · cases h
  · next files hfiles =>
    have hff : filterForce c files = (files, []) := by unfold filterForce; rw [if_pos hforce]
    rw [hff] at h
    dsimp only at h
    have m := makeFiles_made _ _ _ _ _ _ h
    have hlen := groups_length fl (fl.per files.length c.num) c.num fl.zero files
    revert m hlen
    generalize groups fl (fl.per files.length c.num) c.num fl.zero files = gs
    intro m hlen
    rw [m.isolated, ← hlen]
    simp only [List.map_nil, List.nil_append]
    clear m hlen h
    induction gs with
    | nil => simp
    | cons g gs ih =>
      rw [List.flatMap_cons, List.length_append, List.length_map, List.length_cons, Nat.succ_mul]
      have := isoEntries_bound c fromList g hm
      omega

/-! ### C49 -/

/-- C49 (partial: no `.UnityInputIsolatedFiles`). Two builds of a unity with the same options and the same stamp,
where the hash did not collide on the two results, list the same unity files and the same isolated files. So when
the set of files to compile changes, the stamp changes, and whatever depends on the unity is rebuilt. -/
theorem C49_stamp_partial (fl : Flt) (c : Config) (deps deps' : List Dep) (fromList fromList' : List Name)
    (noUnity noUnity' clean clean' : Bool) (canWrite canWrite' : Name → Bool) (disk disk' : Disk) (r r' : Result)
    (h1 : Name → UInt64) (h2 : List UInt64 → UInt64)
    (hforce : c.toIsolate = []) (hnum : 0 < c.num) (hinj : ∀ a b, c.shown a = c.shown b → a = b)
    (hpch : '\n' ∉ c.shown c.pch)
    (hplain : ∀ n ∈ inputs c deps, '\n' ∉ c.shown n) (hplain' : ∀ n ∈ inputs c deps', '\n' ∉ c.shown n)
    (h : doBuild fl c deps fromList noUnity clean canWrite disk = some r)
    (h' : doBuild fl c deps' fromList' noUnity' clean' canWrite' disk' = some r')
    (hcoll : (h2 (r.texts.map h1)) ||| 1 = (h2 (r'.texts.map h1)) ||| 1 → r.texts = r'.texts)
    (hs : stamp h1 h2 noUnity r = stamp h1 h2 noUnity' r') :
    noUnity = noUnity' ∧ r.names = r'.names ∧ r.isolated.map (·.1) = r'.isolated.map (·.1) := by
  have hbit : ∀ (b : Bool) (x : UInt64), (if b then x ||| 1 else x &&& ~~~1) &&& 1 = if b then 1 else 0 := by
    intro b x
    cases b
    · apply UInt64.toBitVec_inj.mp
      simp only [Bool.false_eq_true, if_false, UInt64.toBitVec_and, UInt64.toBitVec_not]
      rw [BitVec.and_assoc]
      have : (~~~(1 : UInt64).toBitVec &&& (1 : UInt64).toBitVec) = 0#64 := by decide
      rw [this]; simp
    · apply UInt64.toBitVec_inj.mp
      simp only [if_true, UInt64.toBitVec_and, UInt64.toBitVec_or]
      ext i hi
      simp
      intro _; exact Or.inr (by assumption)
  have hor : ∀ (b : Bool) (x : UInt64), (if b then x ||| 1 else x &&& ~~~1) ||| 1 = x ||| 1 := by
    intro b x
    cases b
    · apply UInt64.toBitVec_inj.mp
      simp only [Bool.false_eq_true, if_false, UInt64.toBitVec_and, UInt64.toBitVec_not, UInt64.toBitVec_or]
      ext i hi
      simp only [BitVec.getElem_or, BitVec.getElem_and, BitVec.getElem_not]
      cases x.toBitVec[i] <;> cases (UInt64.toBitVec 1)[i] <;> rfl
    · apply UInt64.toBitVec_inj.mp
      simp only [if_true, UInt64.toBitVec_or]
      ext i hi
      simp only [BitVec.getElem_or]
      cases x.toBitVec[i] <;> cases (UInt64.toBitVec 1)[i] <;> rfl
  unfold stamp at hs
  dsimp only at hs
  have hnu : noUnity = noUnity' := by
    have := congrArg (· &&& 1) hs
    rw [hbit, hbit] at this
    revert this
    cases noUnity <;> cases noUnity' <;> decide
  have htx : r.texts = r'.texts := by
    apply hcoll
    have := congrArg (· ||| 1) hs
    rw [hor, hor] at this
    exact this
  subst hnu
  obtain ⟨gs, p1, p2, p3, p4⟩ := doBuild_groups hforce hnum hplain h
  obtain ⟨gs', q1, q2, q3, q4⟩ := doBuild_groups hforce hnum hplain' h'
  rw [p2, q2] at htx
  obtain ⟨z1, z2⟩ := names_of_groups (noUnity := noUnity) hinj hpch gs gs' 0 p1 q1 htx
  exact ⟨rfl, by rw [p3, q3, z1], by rw [p4, q4, z2]⟩

/-- C49. Switching `-nounity` on or off, or deleting a generated file, always regenerates the unity. -/
theorem C49_toggle (c : Config) (hasFiles : Bool) (names : List Name) (disk : Disk) (h1 : Name → UInt64)
    (h2 : List UInt64 → UInt64) (was now rest : Bool) (r : Result)
    (h : was ≠ now ∨ ∃ n ∈ names, disk n = none) :
    needToBuild c hasFiles names disk now (stamp h1 h2 was r) rest = true := by
  unfold needToBuild
  split
  · rfl
  · split
    · rfl
    · next hn =>
      have hw : was ≠ now := by
        rcases h with h | ⟨n, h3, h4⟩
        · exact h
        · exfalso; apply hn
          rw [List.any_eq_true]
          exact ⟨n, h3, by rw [h4]; rfl⟩
      rw [if_pos]
      intro he
      apply hw
      have hbit : (stamp h1 h2 was r &&& 1 == 1) = was := by
        unfold stamp
        dsimp only
        cases was
        · simp only [Bool.false_eq_true, if_false]
          have : (h2 (r.texts.map h1) &&& ~~~1) &&& 1 = 0 := by
            apply UInt64.toBitVec_inj.mp
            simp only [UInt64.toBitVec_and, UInt64.toBitVec_not]
            rw [BitVec.and_assoc]
            have : (~~~(1 : UInt64).toBitVec &&& (1 : UInt64).toBitVec) = 0#64 := by decide
            rw [this]; simp
          rw [this]; rfl
        · simp only [if_true]
          have : (h2 (r.texts.map h1) ||| 1) &&& 1 = 1 := by
            apply UInt64.toBitVec_inj.mp
            simp only [UInt64.toBitVec_and, UInt64.toBitVec_or]
            ext i hi
            simp only [BitVec.getElem_or, BitVec.getElem_and]
            cases (h2 (r.texts.map h1)).toBitVec[i] <;> cases (UInt64.toBitVec 1)[i] <;> rfl
          rw [this]; rfl
      rw [hbit] at he
      exact he.symm

/-! ### Examples and findings -/

def exCfg : Config where
  linux := true
  sl := '/'
  rank := fun x => x.toNat
  outputPath := "o/".toList
  outputPattern := "U*.cpp".toList
  num := 2
  maxIsolated := 0
  isolateWritable := true
  isolateListFile := []
  toIsolate := []
  pch := "p.h".toList
  shown := id

def exDeps : List Dep :=
  [.dirList "s/".toList [("s/c.cpp".toList, true), ("s/d/e.cpp".toList, true), ("s/b.cpp".toList, false), ("s/p.cpp".toList, true)],
   .objectList ["s/B2.cpp".toList], .file "z.cpp".toList (some true)]

example : inputs exCfg exDeps = ["s/c.cpp".toList, "s/d/e.cpp".toList, "s/b.cpp".toList, "s/B2.cpp".toList, "z.cpp".toList] := by
  decide +kernel

/-- the example of C47: five files in two unity files, one of them isolated because it is writable -/
example : ((doBuild exactFlt exCfg exDeps [] false false (fun _ => true) fun _ => none).map fun r =>
    (r.names, r.isolated, r.names.map (compiledBy exCfg r.disk))) =
    some (["o/U1.cpp".toList, "o/U2.cpp".toList], [("s/b.cpp".toList, "s/".toList)],
      [["z.cpp".toList, "s/B2.cpp".toList], ["s/c.cpp".toList, "s/d/e.cpp".toList]]) := by decide +kernel

/-- all hypotheses of C47 hold for it -/
example : ∃ r, doBuild exactFlt exCfg exDeps [] false false (fun _ => true) (fun _ => none) = some r ∧ 0 < exCfg.num ∧
    '*' ∈ exCfg.outputPath ++ exCfg.outputPattern ∧ '\n' ∉ exCfg.shown exCfg.pch ∧
    ∀ n ∈ inputs exCfg exDeps, '\n' ∉ exCfg.shown n := by
  have h : (doBuild exactFlt exCfg exDeps [] false false (fun _ => true) fun _ => none).isSome = true := by decide +kernel
  obtain ⟨r, hr⟩ := Option.isSome_iff_exists.mp h
  exact ⟨r, hr, by decide, by decide +kernel, by decide +kernel, by decide +kernel⟩

/-- the example of C48: the same files found in another order, in two directory lists swapped -/
example : ∃ fs fs', collect exCfg exDeps = some fs ∧ collect exCfg exDeps.reverse = some fs' ∧ fs.Perm fs' ∧ fs ≠ fs' ∧
    ∀ f ∈ fs, ∀ g ∈ fs, f.name.map lower = g.name.map lower → f = g := by
  have e : collect exCfg exDeps = some ((collect exCfg exDeps).getD []) := by decide +kernel
  have e' : collect exCfg exDeps.reverse = some ((collect exCfg exDeps.reverse).getD []) := by decide +kernel
  exact ⟨_, _, e, e', by decide +kernel, by decide +kernel, by decide +kernel⟩

/-- the example of `C48_listing` -/
example : dirListFiles [("b".toList, true), ("a".toList, false), ("B".toList, true)] =
    some [("B".toList, true), ("a".toList, false), ("b".toList, true)] := by decide +kernel

/-- Finding: two files whose names differ in case only are put in the order of the input directories. -/
theorem C48_case_matters : ∃ (c : Config) (deps deps' : List Dep), deps.Perm deps' ∧
    (doBuild exactFlt c deps [] false false (fun _ => true) fun _ => none).map (·.texts) ≠
    (doBuild exactFlt c deps' [] false false (fun _ => true) fun _ => none).map (·.texts) := by
  refine ⟨exCfg, [.file "A.cpp".toList (some true), .file "a.cpp".toList (some true)],
    [.file "a.cpp".toList (some true), .file "A.cpp".toList (some true)], List.Perm.swap _ _ _, ?_⟩
  decide +kernel

/-- Finding: nothing demands a `*` in `.UnityOutputPattern`. Without it all unity files have the same name, each
overwrites the one before, and only the files of the last one are compiled - once for every time it is listed. -/
theorem C47_no_star_loses_files : ∃ (c : Config) (deps : List Dep) (r : Result), 0 < c.num ∧
    doBuild exactFlt c deps [] false false (fun _ => true) (fun _ => none) = some r ∧
    "a.cpp".toList ∈ inputs c deps ∧ "a.cpp".toList ∉ compiled c r ∧
    (compiled c r).count "b.cpp".toList = 2 := by
  let c : Config := { exCfg with outputPattern := "U.cpp".toList }
  let deps : List Dep := [.file "a.cpp".toList (some true), .file "b.cpp".toList (some true)]
  have h : (doBuild exactFlt c deps [] false false (fun _ => true) fun _ => none).map (compiled c) =
      some ["b.cpp".toList, "b.cpp".toList] := by decide +kernel
  obtain ⟨r, hr, hc⟩ := Option.map_eq_some_iff.mp h
  exact ⟨c, deps, r, by decide, hr, by decide +kernel, by rw [hc]; decide +kernel, by rw [hc]; decide +kernel⟩

/-- Finding: a file named by `.UnityInputIsolatedFiles` appears in no unity file, so its appearance (or
disappearance) changes neither the texts nor the stamp, whatever the hash. Object lists that depend on the unity
take it for unchanged, and the new file is not compiled. -/
theorem C49_forced_unnoticed : ∃ (c : Config) (deps deps' : List Dep) (r r' : Result),
    doBuild exactFlt c deps [] false false (fun _ => true) (fun _ => none) = some r ∧
    doBuild exactFlt c deps' [] false false (fun _ => true) (fun _ => none) = some r' ∧
    (∀ h1 h2, stamp h1 h2 false r = stamp h1 h2 false r') ∧ r.names = r'.names ∧
    "s/x.cpp".toList ∉ compiled c r ∧ "s/x.cpp".toList ∈ compiled c r' := by
  let c : Config := { exCfg with toIsolate := ["x.cpp".toList] }
  let deps : List Dep := [.dirList "s/".toList [("s/a.cpp".toList, true)]]
  let deps' : List Dep := [.dirList "s/".toList [("s/a.cpp".toList, true), ("s/x.cpp".toList, true)]]
  have h : (doBuild exactFlt c deps [] false false (fun _ => true) fun _ => none).map (fun r => (compiled c r, r.names)) =
      some (["s/a.cpp".toList], ["o/U1.cpp".toList]) := by decide +kernel
  have h' : (doBuild exactFlt c deps' [] false false (fun _ => true) fun _ => none).map (fun r => (compiled c r, r.names)) =
      some (["s/a.cpp".toList, "s/x.cpp".toList], ["o/U1.cpp".toList]) := by decide +kernel
  have ht : (doBuild exactFlt c deps [] false false (fun _ => true) fun _ => none).map (·.texts) =
      (doBuild exactFlt c deps' [] false false (fun _ => true) fun _ => none).map (·.texts) := by decide +kernel
  obtain ⟨r, hr, hc⟩ := Option.map_eq_some_iff.mp h
  obtain ⟨r', hr', hc'⟩ := Option.map_eq_some_iff.mp h'
  rw [hr, hr'] at ht
  simp only [Option.map_some, Option.some.injEq] at ht
  simp only [Prod.mk.injEq] at hc hc'
  exact ⟨c, deps, deps', r, r', hr, hr', fun h1 h2 => by unfold stamp; rw [ht], by rw [hc.2, hc'.2],
    by rw [hc.1]; decide +kernel, by rw [hc'.1]; decide +kernel⟩

/-- C49 is about builds that really differ: here the same file becomes isolated -/
example : ∃ r r', doBuild exactFlt exCfg [.file "a.cpp".toList (some true)] [] false false (fun _ => true) (fun _ => none) = some r ∧
    doBuild exactFlt exCfg [.file "a.cpp".toList (some false)] [] false false (fun _ => true) (fun _ => none) = some r' ∧
    r.texts ≠ r'.texts ∧ r.names ≠ r'.names ∧ exCfg.toIsolate = [] ∧ (∀ a b, exCfg.shown a = exCfg.shown b → a = b) := by
  have h : (doBuild exactFlt exCfg [.file "a.cpp".toList (some true)] [] false false (fun _ => true) fun _ => none).map
      (fun r => (r.texts.length, r.names)) = some (2, ["o/U1.cpp".toList]) := by decide +kernel
  have h' : (doBuild exactFlt exCfg [.file "a.cpp".toList (some false)] [] false false (fun _ => true) fun _ => none).map
      (fun r => (r.texts.length, r.names)) = some (2, []) := by decide +kernel
  have ht : (doBuild exactFlt exCfg [.file "a.cpp".toList (some true)] [] false false (fun _ => true) fun _ => none).map (·.texts) ≠
      (doBuild exactFlt exCfg [.file "a.cpp".toList (some false)] [] false false (fun _ => true) fun _ => none).map (·.texts) := by
    decide +kernel
  obtain ⟨r, hr, hc⟩ := Option.map_eq_some_iff.mp h
  obtain ⟨r', hr', hc'⟩ := Option.map_eq_some_iff.mp h'
  rw [hr, hr'] at ht
  simp only [Option.map_some, ne_eq, Option.some.injEq] at ht
  simp only [Prod.mk.injEq] at hc hc'
  exact ⟨r, r', hr, hr', ht, by rw [hc.2, hc'.2]; decide +kernel, rfl, fun a b e => e⟩

end Verif.Unity
