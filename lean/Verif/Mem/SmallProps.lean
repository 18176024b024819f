import Verif.Mem.PoolProps
/-! Property C43: the small block allocator, the buckets of which share one address range. -/
namespace Verif.Mem

/-- address space reserved by the system: not null, aligned, in user space -/
structure BaseOk (base : Nat) : Prop where
  pos : 0 < base
  aligned : base % 16 = 0
  user : base + numPages * pageSize ≤ 2 ^ 63

/-- the memory handed out: pointers with the size that was asked for -/
abbrev Live := List (Nat × Nat)

/-- bucket serving a size -/
def bucketOf (size : Nat) : Nat := (max size 16 + 15) / 16 - 1

/-- pointers handed out by bucket `b` -/
def liveOf (live : Live) (b : Nat) : List Nat := (live.filter fun x => bucketOf x.2 = b).map (·.1)

def pageAddr (base i : Nat) : Nat := base + i * pageSize

structure SInv (base : Nat) (live : Live) (h : Heap) (s : Small) (pgs : Nat → List Nat) : Prop where
  start : s.start = base ∨ (s.start = notInit ∧ live = [] ∧ s.nextPage = 0 ∧ s.buckets = fun _ => Pool.init)
  bucket : ∀ b, b < 16 → Inv (bucketConfig b) ((pgs b).map (pageAddr base)) (liveOf live b) h (s.buckets b)
  sizes : ∀ x ∈ live, x.2 ≤ 256
  pages : ∀ b i, i ∈ pgs b → i < s.nextPage ∧ s.table i = b
  nodup : ∀ b, (pgs b).Nodup
  unused : ∀ i, s.nextPage ≤ i → s.table i = 0
  limit : s.nextPage ≤ numPages

theorem bucket_ok {b : Nat} (hb : b < 16) : (bucketConfig b).Ok := by
  constructor
  · have hps : pageSize = 65536 := rfl
    unfold Config.check
    simp only [Bool.and_eq_true, decide_eq_true_eq]
    rw [hps]
    simp only [bucketConfig]
    omega
  · exact ⟨4, rfl⟩

theorem Inv.perm {c : Config} {pages l l' : List Nat} {h : Heap} {s : Pool} (hi : Inv c pages l h s) (hp : l.Perm l') : Inv c pages l' h s := by
  obtain ⟨h1, ⟨free, h2, h3⟩, h4⟩ := hi
  exact ⟨h1, ⟨free, h2, (List.Perm.append_right free hp.symm).trans h3⟩, by rw [h4, hp.length_eq]⟩

theorem bucketOf_spec {n : Nat} (hn : n ≤ 256) : bucketOf n < 16 ∧ n ≤ (bucketConfig (bucketOf n)).blockSize := by
  unfold bucketOf bucketConfig
  simp only
  omega

/-- the bucket chosen by the code -/
theorem bucket_code {n : Nat} (hn : n ≤ 256) : (roundUp (BitVec.ofNat 64 (max n 16)) 16).toNat / 16 - 1 = bucketOf n := by
  obtain ⟨r, r1, r2, r3⟩ := roundUp_spec (max n 16) 4 (by omega) (by omega)
  have e : (roundUp (BitVec.ofNat 64 (max n 16)) 16) = roundUp (BitVec.ofNat 64 (max n 16)) (BitVec.ofNat 64 (2 ^ 4)) := rfl
  rw [e, r1]
  unfold bucketOf
  simp only [Nat.reducePow] at *
  omega

theorem liveOf_cons (live : Live) (p n b : Nat) : liveOf ((p, n) :: live) b = if bucketOf n = b then p :: liveOf live b else liveOf live b := by
  unfold liveOf
  rw [List.filter_cons]
  by_cases h : bucketOf n = b <;> simp [h]

theorem mem_liveOf {live : Live} {b p : Nat} : p ∈ liveOf live b ↔ ∃ n, (p, n) ∈ live ∧ bucketOf n = b := by
  simp [liveOf]

theorem pagesOk_of {base : Nat} (hb : BaseOk base) {l : List Nat} (hn : l.Nodup) (hl : ∀ i ∈ l, i < numPages) (b : Nat) :
    PagesOk (bucketConfig b) (l.map (pageAddr base)) := by
  obtain ⟨b1, b2, b3⟩ := hb
  constructor
  · rw [List.pairwise_map]
    apply List.Pairwise.imp _ hn
    intro i j hij
    unfold Apart pageAddr pageSize
    rcases Nat.lt_or_gt_of_ne hij with h | h <;> omega
  · intro p hp
    obtain ⟨i, hi, rfl⟩ := List.mem_map.1 hp
    have := hl i hi
    simp only [pageAddr, bucketConfig, pageSize, numPages] at *
    omega

theorem SInv.page_lt {base : Nat} {live : Live} {h : Heap} {s : Small} {pgs} (hi : SInv base live h s pgs) {b i : Nat} (hm : i ∈ pgs b) :
    i < numPages := by
  have := (hi.pages b i hm).1
  have := hi.limit
  omega

/-- where a block in use lies -/
theorem SInv.block {base : Nat} {live : Live} {h : Heap} {s : Small} {pgs} (hi : SInv base live h s pgs) {p n : Nat} (hm : (p, n) ∈ live) :
    p ≠ 0 ∧ p % 16 = 0 ∧ bucketOf n < 16 ∧ n ≤ (bucketConfig (bucketOf n)).blockSize ∧
    ∃ i, i ∈ pgs (bucketOf n) ∧ pageAddr base i ≤ p ∧ p + (bucketConfig (bucketOf n)).blockSize ≤ pageAddr base i + pageSize := by
  obtain ⟨hb, hsz⟩ := bucketOf_spec (show n ≤ 256 from hi.sizes _ hm)
  have hc := bucket_ok hb
  have hin := hi.bucket _ hb
  have hl : p ∈ liveOf live (bucketOf n) := mem_liveOf.2 ⟨n, hm, rfl⟩
  obtain ⟨h1, h2, h3, q, h4, h5, h6⟩ := allBlocks_mem hc hin.pagesOk (live_block hc hin hl)
  obtain ⟨i, hi1, rfl⟩ := List.mem_map.1 h4
  exact ⟨h1, h3, hb, hsz, i, hi1, h5, by have := hc.sizes.2.1; omega⟩

/-- memory changes confined to a page of another bucket do not matter -/
theorem SInv.other {base : Nat} {live : Live} {h h' : Heap} {s : Small} {pgs} (hi : SInv base live h s pgs) {b j : Nat} (hb : b < 16)
    (hj : j ∉ pgs b) (hf : ∀ a, (a < pageAddr base j ∨ pageAddr base j + pageSize ≤ a) → h' a = h a) :
    Inv (bucketConfig b) ((pgs b).map (pageAddr base)) (liveOf live b) h' (s.buckets b) := by
  apply write_spec (bucket_ok hb) (hi.bucket b hb)
  intro p hp a ha1 ha2 _
  obtain ⟨i, hi1, rfl⟩ := List.mem_map.1 hp
  apply hf
  have hne : i ≠ j := fun e => hj (e ▸ hi1)
  unfold pageAddr pageSize at *
  rcases Nat.lt_or_gt_of_ne hne with h | h <;> omega

/-! ## the world -/

structure SWorld where
  heap : Heap
  small : Small
  live : Live

/-- Allocations of any size and alignment, release of memory handed out, and writes of user code to the memory
it owns or that is not in the reserved range. -/
inductive SStep (base : Nat) : SWorld → SWorld → Prop where
  | alloc (w : SWorld) (size align : Nat) (h' : Heap) (s' : Small) (p : Nat)
      (run : w.small.alloc w.heap base size align = .ok (h', s', p)) :
      SStep base w ⟨h', s', if p = 0 then w.live else (p, size) :: w.live⟩
  | free (w : SWorld) (p size : Nat) (h' : Heap) (s' : Small) (r : Bool) (mem : (p, size) ∈ w.live)
      (run : w.small.free w.heap p = .ok (h', s', r)) : SStep base w ⟨h', s', w.live.erase (p, size)⟩
  | write (w : SWorld) (h' : Heap)
      (own : ∀ a, base ≤ a → a < base + numPages * pageSize → (∀ x ∈ w.live, a < x.1 ∨ x.1 + x.2 ≤ a) → h' a = w.heap a) :
      SStep base w ⟨h', w.small, w.live⟩

inductive SReach (base : Nat) (h : Heap) : SWorld → Prop where
  | init : SReach base h ⟨h, Small.init, []⟩
  | step {w w'} : SReach base h w → SStep base w w' → SReach base h w'

/-- the state after the lazy initialisation -/
theorem SInv.inited {base : Nat} (hb : BaseOk base) {live : Live} {h : Heap} {s : Small} {pgs} (hi : SInv base live h s pgs) :
    SInv base live h (if s.start = notInit then s.initBuckets base else s) pgs ∧
      (if s.start = notInit then s.initBuckets base else s).start = base ∧
      (if s.start = notInit then s.initBuckets base else s).nextPage = s.nextPage ∧
      (if s.start = notInit then s.initBuckets base else s).buckets = s.buckets := by
  have hne : base ≠ notInit := by
    have := hb.user
    simp only [numPages, pageSize, notInit] at *; omega
  rcases hi.start with h1 | ⟨h1, h2, h3, h4⟩
  · rw [if_neg (by rw [h1]; exact hne)]
    exact ⟨hi, h1, rfl, rfl⟩
  · rw [if_pos h1]
    obtain ⟨i1, i2, i3, i4, i5, i6, i7⟩ := hi
    refine ⟨⟨Or.inl rfl, ?_, i3, i4, i5, i6, i7⟩, rfl, rfl, h4.symm⟩
    intro b hb
    have := i2 b hb
    rw [h4] at this
    exact this

/-- the outcome of an allocation -/
theorem SInv.alloc {base : Nat} (hb : BaseOk base) {live : Live} {h : Heap} {s : Small} {pgs} (hi : SInv base live h s pgs) (size align : Nat) :
    ∃ h' s' p pgs', s.alloc h base size align = .ok (h', s', p) ∧
      SInv base (if p = 0 then live else (p, size) :: live) h' s' pgs' ∧
      (p = 0 → 256 < size ∨ 16 < align ∨ (s.nextPage = numPages ∧ (s.buckets (bucketOf size)).chain = 0)) ∧
      (p ≠ 0 → size ≤ 256 ∧ align ≤ 16) ∧
      (∀ x ∈ live, ∀ a, x.1 ≤ a → a < x.1 + x.2 → h' a = h a) := by
  unfold Small.alloc
  by_cases hsz : size > 256
  · rw [if_pos hsz]
    exact ⟨h, s, 0, pgs, rfl, by simpa using hi, fun _ => Or.inl hsz, fun h => absurd rfl h, fun _ _ _ _ _ => rfl⟩
  · rw [if_neg hsz]
    have hsz' : size ≤ 256 := by omega
    obtain ⟨hi, hst, hnp, hbk⟩ := hi.inited hb
    generalize hs1 : (if s.start = notInit then s.initBuckets base else s) = s1 at *
    obtain ⟨hbo, hfit⟩ := bucketOf_spec hsz'
    simp only [bucket_code hsz']
    generalize hbe : bucketOf size = b at *
    have hfit16 : ¬ (bucketConfig b).blockSize < max size 16 := by
      simp only [bucketConfig] at *; omega
    rw [if_neg hfit16]
    by_cases hal : (bucketConfig b).alignment < align
    · rw [if_pos hal]
      exact ⟨h, s1, 0, pgs, rfl, by simpa using hi, fun _ => Or.inr (Or.inl hal), fun h => absurd rfl h, fun _ _ _ _ _ => rfl⟩
    · rw [if_neg hal]
      have hal' : align ≤ 16 := by simp only [bucketConfig] at hal; omega
      have hc := bucket_ok hbo
      have hin := hi.bucket b hbo
      -- putting the parts together
      have fin : ∀ (s2 : Small) (h' : Heap) (pool : Pool) (p : Nat) (pgs' : Nat → List Nat), p ≠ 0 →
          s2.start = base → s2.buckets = s1.buckets →
          Inv (bucketConfig b) ((pgs' b).map (pageAddr base)) (p :: liveOf live b) h' pool →
          (∀ d, d < 16 → d ≠ b → Inv (bucketConfig d) ((pgs' d).map (pageAddr base)) (liveOf live d) h' (s1.buckets d)) →
          (∀ b i, i ∈ pgs' b → i < s2.nextPage ∧ s2.table i = b) → (∀ b, (pgs' b).Nodup) →
          (∀ i, s2.nextPage ≤ i → s2.table i = 0) → s2.nextPage ≤ numPages →
          SInv base (if p = 0 then live else (p, size) :: live) h' { s2 with buckets := fun i => if i = b then pool else s2.buckets i } pgs' := by
        intro s2 h' pool p pgs' hp0 f1 f2 f3 f4 f5 f6 f7 f8
        rw [if_neg hp0]
        refine ⟨Or.inl f1, ?_, ?_, f5, f6, f7, f8⟩
        · intro d hd
          rw [liveOf_cons, hbe]
          by_cases hdb : d = b
          · subst hdb
            simpa using f3
          · have hbd : ¬ b = d := fun e => hdb e.symm
            simp only [if_neg hbd, if_neg hdb, f2]
            exact f4 d hd hdb
        · intro x hx
          rcases List.mem_cons.1 hx with rfl | hx
          · exact hsz'
          · exact hi.sizes x hx
      obtain ⟨a1, a2, a3, a4⟩ := alloc_spec hc hin none (fun p hp => by cases hp)
      by_cases h0 : (s1.buckets b).chain = 0
      · rw [if_pos h0]
        unfold Small.allocateMemoryForPage
        by_cases hfull : s1.nextPage ≥ numPages
        · rw [if_pos hfull]
          dsimp only
          rw [a3 h0 rfl]
          refine ⟨h, s1, 0, pgs, ?_, by simpa using hi, fun _ => Or.inr (Or.inr ⟨?_, ?_⟩), fun h => absurd rfl h, fun _ _ _ _ _ => rfl⟩
          · have : (fun i => if i = b then s1.buckets b else s1.buckets i) = s1.buckets := by
              funext i
              by_cases e : i = b
              · simp [e]
              · simp [e]
            simp only [this]
          · rw [← hnp]; have := hi.limit; omega
          · rw [← hbk]; exact h0
        · rw [if_neg hfull]
          dsimp only
          rw [if_neg (by simp [hi.unused _ (Nat.le_refl _)]), if_neg (by omega)]
          dsimp only
          -- the new page
          have hnew : ∀ d, s1.nextPage ∉ pgs d := fun d hm => Nat.lt_irrefl _ (hi.pages d _ hm).1
          have hpg : PagesOk (bucketConfig b) ((pgs b).map (pageAddr base) ++ [pageAddr base s1.nextPage]) := by
            have := pagesOk_of hb (l := pgs b ++ [s1.nextPage]) (by
              rw [List.nodup_append]
              refine ⟨hi.nodup b, by simp, ?_⟩
              intro x hx y hy e
              simp only [List.mem_singleton] at hy
              subst hy; subst e
              exact hnew b hx) (by
              intro i hi1
              rcases List.mem_append.1 hi1 with h1 | h1
              · exact hi.page_lt h1
              · simp only [List.mem_singleton] at h1; omega) b
            simpa using this
          obtain ⟨_, _, _, c4⟩ := alloc_spec hc hin (some (pageAddr base s1.nextPage)) (fun p hp => by cases hp; exact hpg)
          obtain ⟨h', pool, e1, e2, e3, e4, e5⟩ := c4 h0 _ rfl
          have eaddr : s1.start + s1.nextPage * pageSize = pageAddr base s1.nextPage := by rw [hst]; rfl
          rw [eaddr, e1]
          refine ⟨h', _, _, fun d => if d = b then pgs b ++ [s1.nextPage] else pgs d, rfl, ?_, fun h => absurd h e3, fun _ => ⟨hsz', hal'⟩, ?_⟩
          · refine fin { s1 with nextPage := s1.nextPage + 1, table := fun i => if i = s1.nextPage then b else s1.table i } h' pool _ _ e3 hst rfl ?_ ?_ ?_ ?_ ?_ ?_
            · simpa using e4
            · intro d hd hdb
              simp only [if_neg hdb]
              exact hi.other hd (hnew d) e5
            · intro d i hm
              by_cases hdb : d = b
              · simp only [hdb, if_true] at hm
                rcases List.mem_append.1 hm with h1 | h1
                · have := hi.pages b i h1
                  have hne : i ≠ s1.nextPage := by omega
                  simp only [if_neg hne]
                  exact ⟨by omega, by rw [hdb]; exact this.2⟩
                · simp only [List.mem_singleton] at h1
                  simp [h1, hdb]
              · simp only [hdb, if_false] at hm
                have := hi.pages d i hm
                have hne : i ≠ s1.nextPage := by omega
                simp only [if_neg hne]
                exact ⟨by omega, this.2⟩
            · intro d
              by_cases hdb : d = b
              · simp only [hdb, if_true]
                rw [List.nodup_append]
                refine ⟨hi.nodup b, by simp, ?_⟩
                intro x hx y hy e
                simp only [List.mem_singleton] at hy
                subst hy; subst e
                exact hnew b hx
              · simp only [hdb, if_false]; exact hi.nodup d
            · intro i hle
              simp only at hle
              have hne : i ≠ s1.nextPage := by omega
              simp only [if_neg hne]
              exact hi.unused i (by omega)
            · simp only; omega
          · rintro ⟨p, n⟩ hx a ha1 ha2
            apply e5
            obtain ⟨_, _, _, q4, i, q5, q6, q7⟩ := hi.block hx
            have hne : i < s1.nextPage := (hi.pages _ i q5).1
            simp only [pageAddr, pageSize] at *
            left
            omega
      · rw [if_neg h0]
        dsimp only
        obtain ⟨pool, p, e1, e2, e3, e4⟩ := a1 h0
        rw [e1]
        refine ⟨h, _, p, pgs, rfl, ?_, fun h => absurd h e3, fun _ => ⟨hsz', hal'⟩, fun _ _ _ _ _ => rfl⟩
        exact fin s1 h pool p pgs e3 hst rfl e4 (fun d hd _ => hi.bucket d hd) hi.pages hi.nodup hi.unused hi.limit

/-- the outcome of a release -/
theorem SInv.free {base : Nat} (hb : BaseOk base) {live : Live} {h : Heap} {s : Small} {pgs} (hi : SInv base live h s pgs) {p n : Nat}
    (hm : (p, n) ∈ live) : ∃ h' s', s.free h p = .ok (h', s', true) ∧ SInv base (live.erase (p, n)) h' s' pgs ∧
      ∀ a, (a < p ∨ p + (bucketConfig (bucketOf n)).blockSize ≤ a) → h' a = h a := by
  obtain ⟨q1, q2, q3, q4, i, q5, q6, q7⟩ := hi.block hm
  obtain ⟨t1, t2⟩ := hi.pages _ i q5
  have hst : s.start = base := by
    rcases hi.start with h1 | ⟨_, h2, _⟩
    · exact h1
    · rw [h2] at hm; cases hm
  have hlim := hi.limit
  have huser := hb.user
  have hidx : (BitVec.ofNat 64 p - BitVec.ofNat 64 s.start).toNat / pageSize = i := by
    rw [hst, BitVec.toNat_sub, BitVec.toNat_ofNat, BitVec.toNat_ofNat]
    have hblk : 0 < (bucketConfig (bucketOf n)).blockSize := by simp only [bucketConfig]; omega
    simp only [pageAddr, pageSize, numPages] at *
    rw [Nat.mod_eq_of_lt (a := base) (by omega), Nat.mod_eq_of_lt (a := p) (by omega)]
    have : 2 ^ 64 - base + p = 2 ^ 64 + (p - base) := by omega
    rw [this, Nat.add_mod_left, Nat.mod_eq_of_lt (by omega)]
    omega
  unfold Small.free
  simp only [hidx]
  rw [if_neg (by omega), t2]
  have hc := bucket_ok q3
  obtain ⟨h', pool, e1, e2, e3⟩ := free_spec hc (hi.bucket _ q3) (mem_liveOf.2 ⟨n, hm, rfl⟩ : p ∈ liveOf live (bucketOf n))
  rw [e1]
  refine ⟨h', _, rfl, ⟨Or.inl hst, ?_, fun x hx => hi.sizes x (List.mem_of_mem_erase hx), hi.pages, hi.nodup, hi.unused, hi.limit⟩, e3⟩
  intro d hd
  have hperm : (liveOf live d).Perm (liveOf ((p, n) :: live.erase (p, n)) d) :=
    List.Perm.map _ (List.Perm.filter _ (List.perm_cons_erase hm))
  rw [liveOf_cons] at hperm
  by_cases hdb : bucketOf n = d
  · subst hdb
    rw [if_pos rfl] at hperm
    simp only [if_true]
    apply e2.perm
    have h1 : (p :: (liveOf live (bucketOf n)).erase p).Perm (p :: liveOf (live.erase (p, n)) (bucketOf n)) :=
      (List.perm_cons_erase (mem_liveOf.2 ⟨n, hm, rfl⟩)).symm.trans hperm
    exact h1.cons_inv
  · rw [if_neg hdb] at hperm
    have hdb' : ¬ d = bucketOf n := fun e => hdb e.symm
    simp only [if_neg hdb']
    refine (hi.other (h' := h') (j := i) hd ?_ ?_).perm hperm
    · intro hm'
      exact hdb (t2.symm.trans (hi.pages d i hm').2)
    · intro a ha
      exact e3 a (by omega)

theorem SReach.inv {base : Nat} (hb : BaseOk base) {h : Heap} {w : SWorld} (hr : SReach base h w) : ∃ pgs, SInv base w.live w.heap w.small pgs := by
  induction hr with
  | init =>
    refine ⟨fun _ => [], ⟨Or.inr ⟨rfl, rfl, rfl, rfl⟩, ?_, fun x hx => (by cases hx), fun b i hx => (by cases hx), fun _ => List.nodup_nil, fun _ _ => rfl, Nat.zero_le _⟩⟩
    intro b hb
    exact ⟨⟨List.Pairwise.nil, fun p hp => by cases hp⟩, ⟨[], rfl, List.Perm.refl _⟩, rfl⟩
  | @step w w' _ hs ih =>
    obtain ⟨pgs, ih⟩ := ih
    cases hs with
    | alloc size align h' s' p run =>
      obtain ⟨h2, s2, p2, pgs', e1, e2, _⟩ := ih.alloc hb size align
      rw [e1] at run
      cases run
      exact ⟨pgs', e2⟩
    | free p size h' s' r mem run =>
      obtain ⟨h2, s2, e1, e2, _⟩ := ih.free hb mem
      rw [e1] at run
      cases run
      exact ⟨pgs, e2⟩
    | write h' own =>
      refine ⟨pgs, ⟨ih.start, ?_, ih.sizes, ih.pages, ih.nodup, ih.unused, ih.limit⟩⟩
      intro b hb'
      apply write_spec (bucket_ok hb') (ih.bucket b hb')
      intro q hq a ha1 ha2 hl
      obtain ⟨i, hi, rfl⟩ := List.mem_map.1 hq
      have hlt := ih.page_lt hi
      apply own
      · unfold pageAddr at ha1; omega
      · simp only [pageAddr, pageSize, numPages] at *; omega
      · rintro ⟨p, n⟩ hx
        obtain ⟨_, _, _, q4, j, q5, q6, q7⟩ := ih.block hx
        by_cases hbn : bucketOf n = b
        · subst hbn
          have := hl p (mem_liveOf.2 ⟨n, hx, rfl⟩)
          dsimp only
          omega
        · have hne : i ≠ j := by
            intro e
            subst e
            exact hbn ((ih.pages _ i q5).2.symm.trans (ih.pages _ i hi).2)
          simp only [pageAddr, pageSize] at *
          rcases Nat.lt_or_gt_of_ne hne with h | h <;> omega

/-- C43. Memory handed out and not yet released never overlaps, is 16-byte aligned and not null, whatever
sizes were asked for. -/
theorem C43_disjoint {base : Nat} (hb : BaseOk base) {h : Heap} {w : SWorld} (hr : SReach base h w) :
    w.live.Pairwise (fun x y => x.1 ≠ y.1 ∧ (x.1 + x.2 ≤ y.1 ∨ y.1 + y.2 ≤ x.1)) ∧
    ∀ x ∈ w.live, x.1 ≠ 0 ∧ x.1 % 16 = 0 ∧ base ≤ x.1 ∧ x.1 + x.2 ≤ base + numPages * pageSize := by
  obtain ⟨pgs, hi⟩ := hr.inv hb
  constructor
  · -- within a bucket blocks are apart; different buckets use different pages
    have key : ∀ l : Live, l.Sublist w.live → l.Pairwise (fun x y => x.1 ≠ y.1 ∧ (x.1 + x.2 ≤ y.1 ∨ y.1 + y.2 ≤ x.1)) := by
      intro l
      induction l with
      | nil => intro _; exact List.Pairwise.nil
      | cons x l ih =>
        intro hsub
        refine List.pairwise_cons.2 ⟨?_, ih ((List.sublist_cons_self x l).trans hsub)⟩
        intro y hy
        have hx : x ∈ w.live := hsub.subset (by simp)
        have hyl : y ∈ w.live := hsub.subset (by simp [hy])
        obtain ⟨x1, x2, x3, x4, i, x5, x6, x7⟩ := hi.block hx
        obtain ⟨y1, y2, y3, y4, j, y5, y6, y7⟩ := hi.block hyl
        by_cases hbb : bucketOf x.2 = bucketOf y.2
        · have hc := bucket_ok x3
          obtain ⟨hpages, ⟨free, hch, hperm⟩, hact⟩ := hi.bucket _ x3
          have hap := (List.pairwise_append.1 (Inv.apart hc hpages hperm)).1
          have hs2 : (liveOf (x :: l) (bucketOf x.2)).Sublist (liveOf w.live (bucketOf x.2)) := (hsub.filter _).map _
          have hap2 := hap.sublist hs2
          rw [liveOf_cons, if_pos rfl] at hap2
          have := (List.pairwise_cons.1 hap2).1 y.1 (mem_liveOf.2 ⟨y.2, hy, hbb.symm⟩)
          have hsz := hc.sizes
          rw [← hbb] at y4
          rcases this with h | h
          · exact ⟨by omega, Or.inl (by omega)⟩
          · exact ⟨by omega, Or.inr (by omega)⟩
        · have hne : i ≠ j := by
            intro e
            subst e
            exact hbb ((hi.pages _ i x5).2.symm.trans (hi.pages _ i y5).2)
          have h1 : 0 < (bucketConfig (bucketOf x.2)).blockSize := by simp only [bucketConfig]; omega
          have h2 : 0 < (bucketConfig (bucketOf y.2)).blockSize := by simp only [bucketConfig]; omega
          simp only [pageAddr, pageSize] at *
          rcases Nat.lt_or_gt_of_ne hne with h | h
          · exact ⟨by omega, Or.inl (by omega)⟩
          · exact ⟨by omega, Or.inr (by omega)⟩
    exact key _ (List.Sublist.refl _)
  · intro x hx
    obtain ⟨x1, x2, x3, x4, i, x5, x6, x7⟩ := hi.block hx
    have hlt := hi.page_lt x5
    simp only [pageAddr, pageSize, numPages] at *
    exact ⟨x1, x2, by omega, by omega⟩

/-- C43. Allocation never fails an assertion, never touches memory in use, and refuses (null) only sizes above
256, alignments above 16, or when the address range is used up. -/
theorem C43_alloc {base : Nat} (hb : BaseOk base) {h : Heap} {w : SWorld} (hr : SReach base h w) (size align : Nat) :
    ∃ h' s' p, w.small.alloc w.heap base size align = .ok (h', s', p) ∧
      (p = 0 → 256 < size ∨ 16 < align ∨ w.small.nextPage = numPages) ∧ (p ≠ 0 → size ≤ 256 ∧ align ≤ 16) ∧
      (∀ x ∈ w.live, ∀ a, x.1 ≤ a → a < x.1 + x.2 → h' a = w.heap a) := by
  obtain ⟨pgs, hi⟩ := hr.inv hb
  obtain ⟨h', s', p, pgs', e1, e2, e3, e4, e5⟩ := hi.alloc hb size align
  refine ⟨h', s', p, e1, fun hp => ?_, e4, e5⟩
  rcases e3 hp with h | h | h
  · exact Or.inl h
  · exact Or.inr (Or.inl h)
  · exact Or.inr (Or.inr h.1)

/-- C43. Releasing memory obtained from it is recognised and does not touch other memory in use. -/
theorem C43_free {base : Nat} (hb : BaseOk base) {h : Heap} {w : SWorld} (hr : SReach base h w) (p n : Nat) (hm : (p, n) ∈ w.live) :
    ∃ h' s', w.small.free w.heap p = .ok (h', s', true) ∧
      ∀ x ∈ w.live, x ≠ (p, n) → ∀ a, x.1 ≤ a → a < x.1 + x.2 → h' a = w.heap a := by
  obtain ⟨pgs, hi⟩ := hr.inv hb
  obtain ⟨h', s', e1, e2, e3⟩ := hi.free hb hm
  refine ⟨h', s', e1, ?_⟩
  intro x hx hne a ha1 ha2
  apply e3
  -- all of the block released is apart from the other
  obtain ⟨x1, x2, x3, x4, i, x5, x6, x7⟩ := hi.block hx
  obtain ⟨y1, y2, y3, y4, j, y5, y6, y7⟩ := hi.block hm
  by_cases hbb : bucketOf x.2 = bucketOf n
  · have hc := bucket_ok y3
    obtain ⟨hpages, ⟨free, hch, hperm⟩, hact⟩ := (hi.bucket _ y3).perm (List.Perm.map _ (List.Perm.filter _ (List.perm_cons_erase hm)))
    have hap := (List.pairwise_append.1 (Inv.apart hc hpages hperm)).1
    have hcons := liveOf_cons (w.live.erase (p, n)) p n (bucketOf n)
    rw [if_pos rfl] at hcons
    unfold liveOf at hcons
    rw [hcons] at hap
    have hx' : x ∈ w.live.erase (p, n) := (List.mem_erase_of_ne hne).2 hx
    have := (List.pairwise_cons.1 hap).1 x.1 (mem_liveOf.2 ⟨x.2, hx', hbb⟩)
    have hsz := hc.sizes
    rw [hbb] at x4
    rcases this with h | h <;> omega
  · have hne2 : i ≠ j := by
      intro e
      subst e
      exact hbb ((hi.pages _ i x5).2.symm.trans (hi.pages _ i y5).2)
    simp only [pageAddr, pageSize] at *
    rcases Nat.lt_or_gt_of_ne hne2 with h | h <;> omega

/-- C43. Pointers to other memory in user space are declined, also before the first allocation. -/
theorem C43_foreign {base : Nat} (hb : BaseOk base) {h : Heap} {w : SWorld} (hr : SReach base h w) (p : Nat) (hu : p < 2 ^ 63)
    (hp : p < base ∨ base + numPages * pageSize ≤ p ∨ w.small.start = notInit) :
    w.small.free w.heap p = .ok (w.heap, w.small, false) := by
  obtain ⟨pgs, hi⟩ := hr.inv hb
  have huser := hb.user
  unfold Small.free
  have : (BitVec.ofNat 64 p - BitVec.ofNat 64 w.small.start).toNat / pageSize ≥ numPages := by
    rw [BitVec.toNat_sub, BitVec.toNat_ofNat, BitVec.toNat_ofNat]
    by_cases hn : w.small.start = notInit
    · rw [hn]
      unfold notInit
      rw [Nat.mod_eq_of_lt (a := p) (by omega), Nat.mod_eq_of_lt (a := 2 ^ 63) (by omega), Nat.mod_eq_of_lt (by omega)]
      simp only [numPages, pageSize]
      omega
    · have hst : w.small.start = base := by
        rcases hi.start with h1 | ⟨h1, _⟩
        · exact h1
        · exact absurd h1 hn
      rw [hst]
      simp only [numPages, pageSize] at *
      rw [Nat.mod_eq_of_lt (a := p) (by omega), Nat.mod_eq_of_lt (a := base) (by omega)]
      by_cases h1 : p < base
      · rw [Nat.mod_eq_of_lt (by omega)]; omega
      · have h2 : 2 ^ 64 - base + p = 2 ^ 64 + (p - base) := by omega
        rw [h2, Nat.add_mod_left, Nat.mod_eq_of_lt (by omega)]
        rcases hp with h | h | h
        · omega
        · omega
        · exact absurd h hn
  rw [if_pos this]

/-- two allocations from different buckets, release of the first, reuse -/
example : BaseOk 0x10000000 ∧
    (do
      let (h, s, a) ← Small.init.alloc (fun _ => 7) 0x10000000 256 8
      let (h, s, b) ← s.alloc h 0x10000000 250 16
      let (h, s, r) ← s.free h a
      let (_, _, r') ← s.free h 12345
      let (_, _, d) ← s.alloc h 0x10000000 256 8
      return (a, b, r, r', d) : Except Err _).toOption = some (0x10000000, 0x10000100, true, false, 0x10000000) := by
  refine ⟨⟨by decide, by decide, by decide⟩, by decide +kernel⟩

end Verif.Mem
