import Verif.Stats.Proof
/-!
C115: the summary of a build counts each target once.
-/
namespace Verif.Stats

private def b (x : Prop) [Decidable x] (v : Nat) : Nat := if x then v else 0

private def bump (nd : Node) (c : Counts) : Counts :=
  { processed := c.processed + 1#32
    built := c.built + BitVec.ofNat 32 (b (nd.built = true) 1)
    hits := c.hits + BitVec.ofNat 32 (b (nd.hit = true) 1)
    misses := c.misses + BitVec.ofNat 32 (b (nd.miss = true) 1)
    stores := c.stores + BitVec.ofNat 32 (b (nd.store = true) 1)
    lightHits := c.lightHits + BitVec.ofNat 32 (b (nd.light = true ∧ nd.hit = true) 1)
    lightMisses := c.lightMisses + BitVec.ofNat 32 (b (nd.light = true ∧ nd.hit = false ∧ nd.store = false) 1)
    lightStores := c.lightStores + BitVec.ofNat 32 (b (nd.light = true ∧ nd.hit = false ∧ nd.store = true) 1)
    time := c.time + BitVec.ofNat 32 nd.time.toNat
    failed := c.failed + BitVec.ofNat 32 (b (nd.failed = true) 1)
    caching := c.caching + BitVec.ofNat 32 (b (nd.store = true) nd.caching.toNat) }

private theorem count_type (g : Nat → Node) (n : Nat) (a : Acc) (t : Fin numTypes) :
    (countNode g n a).perType t =
      if (g n).type = t ∧ (g n).type ≠ proxyNode then bump (g n) (a.perType t) else a.perType t := by
  rw [countNode]
  by_cases hp : (g n).type = proxyNode
  · simp [hp]
  · simp only [if_neg hp]
    by_cases ht : t = (g n).type
    · subst ht
      simp only [if_true, hp, ne_eq, not_false_eq_true, and_self]
      rcases hb : (g n).built <;> rcases hf : (g n).failed <;> rcases hh : (g n).hit <;> rcases hm : (g n).miss <;>
        rcases hs : (g n).store <;> rcases hl : (g n).light <;> simp [bump, b, bit, hb, hf, hh, hm, hs, hl]
    · rw [if_neg ht, if_neg (fun h => ht h.1.symm)]

/-- a counter of a type -/
private theorem type_counter (g : Nat → Node) (t : Fin numTypes) (f : Counts → BitVec 32) (w : Node → Nat)
    (hf : ∀ nd c, f (bump nd c) = f c + BitVec.ofNat 32 (w nd)) (l : List Nat) (a : Acc) :
    f ((counted g a l).perType t) = f (a.perType t) + BitVec.ofNat 32 (l.map fun n => b ((g n).type = t ∧ (g n).type ≠ proxyNode) (w (g n))).sum := by
  apply counter g (fun a => f (a.perType t))
  intro n a
  rw [count_type]
  by_cases h : (g n).type = t ∧ (g n).type ≠ proxyNode
  · rw [if_pos h, hf, b, if_pos h]
  · rw [if_neg h, b, if_neg h]; simp

private theorem b_b (x y : Prop) [Decidable x] [Decidable y] (v : Nat) : b x (b y v) = b (x ∧ y) v := by
  unfold b; by_cases hx : x <;> by_cases hy : y <;> simp [hx, hy]

private theorem b_congr {x y : Prop} [Decidable x] [Decidable y] (h : x ↔ y) (v : Nat) : b x v = b y v := by
  unfold b; by_cases hx : x
  · rw [if_pos hx, if_pos (h.1 hx)]
  · rw [if_neg hx, if_neg (fun hy => hx (h.2 hy))]

private theorem num {g : Nat → Node} {root : Nat} {L M : List Nat} (h1 : Lists g root L) (h2 : Lists g root M) (q p : Node → Prop)
    [DecidablePred q] [DecidablePred p] (h : ∀ nd, q nd ↔ p nd) : BitVec.ofNat 32 (L.map fun n => b (q (g n)) 1).sum = number g M p := by
  rw [← number_eq h1 h2 p]
  congr 2
  apply List.map_congr_left
  intro n _
  exact b_congr (h _) 1

private theorem tim {g : Nat → Node} {root : Nat} {L M : List Nat} (h1 : Lists g root L) (h2 : Lists g root M) (q p : Node → Prop)
    [DecidablePred q] [DecidablePred p] (h : ∀ nd, q nd ↔ p nd) (time : Node → BitVec 32) :
    BitVec.ofNat 32 (L.map fun n => b (q (g n)) (time (g n)).toNat).sum = timeOf g M p time := by
  rw [← timeOf_eq h1 h2 p]
  congr 2
  apply List.map_congr_left
  intro n _
  exact b_congr (h _) _

private theorem run {g : Nat → Node} {N root : Nat} {sort : List Nat → List Nat} (hc : Closed g N) (hr : root < N) {a : Acc}
    (h : statistics g sort (N + 1) root = some a) : ∃ l, Lists g root l ∧ a = { counted g {} l with
      byTime := sort (counted g {} l).byTime
      totals := (List.finRange numTypes).foldl (fun t i => addTotals t ((counted g {} l).perType i)) (counted g {} l).totals } := by
  obtain ⟨l, h1, h2⟩ := gather_spec hc hr
  rw [statistics, h1] at h
  exact ⟨l, h2, (Option.some.inj h).symm⟩

/-- Gathering the statistics ends. -/
theorem C115_ends {g : Nat → Node} {N root : Nat} (hc : Closed g N) (hr : root < N) (sort : List Nat → List Nat) :
    ∃ a, statistics g sort (N + 1) root = some a := by
  obtain ⟨l, h1, _⟩ := gather_spec hc hr
  rw [statistics, h1]
  exact ⟨_, rfl⟩

/-- The row of a type: of the needed targets of the type, each counted once, how many there are, how many were built, and so on. -/
theorem C115_row {g : Nat → Node} {N root : Nat} {sort : List Nat → List Nat} {L : List Nat} {a : Acc} (hc : Closed g N) (hr : root < N)
    (hL : Lists g root L) (h : statistics g sort (N + 1) root = some a) {t : Fin numTypes} (ht : t ≠ proxyNode) :
    a.perType t =
      { processed := number g L fun n => n.type = t
        built := number g L fun n => n.type = t ∧ n.built = true
        failed := number g L fun n => n.type = t ∧ n.failed = true
        hits := number g L fun n => n.type = t ∧ n.hit = true
        misses := number g L fun n => n.type = t ∧ n.miss = true
        stores := number g L fun n => n.type = t ∧ n.store = true
        lightHits := number g L fun n => n.type = t ∧ n.light = true ∧ n.hit = true
        lightStores := number g L fun n => n.type = t ∧ n.light = true ∧ n.hit = false ∧ n.store = true
        lightMisses := number g L fun n => n.type = t ∧ n.light = true ∧ n.hit = false ∧ n.store = false
        time := timeOf g L (fun n => n.type = t) Node.time
        caching := timeOf g L (fun n => n.type = t ∧ n.store = true) Node.caching } := by
  obtain ⟨l, hl, rfl⟩ := run hc hr h
  have z : ∀ x : BitVec 32, 0#32 + x = x := by intro x; simp
  have hq : ∀ nd : Node, nd.type = t ∧ nd.type ≠ proxyNode ↔ nd.type = t := by
    intro nd; exact ⟨fun h => h.1, fun h => ⟨h, h ▸ ht⟩⟩
  have k := type_counter g t
  have e : ∀ (f : Counts → BitVec 32) (p : Node → Prop) [DecidablePred p], f {} = 0#32 →
      (∀ nd c, f (bump nd c) = f c + BitVec.ofNat 32 (b (p nd) 1)) →
      f ((counted g {} l).perType t) = number g L fun n => n.type = t ∧ p n := by
    intro f p _ h0 hf
    rw [k f _ hf, show f (({} : Acc).perType t) = 0#32 from h0, z]
    simp only [b_b]
    exact num hl hL (fun nd => (nd.type = t ∧ nd.type ≠ proxyNode) ∧ p nd) _ (fun nd => by rw [hq])
  show (counted g {} l).perType t = _
  have h1 : ((counted g {} l).perType t).processed = number g L fun n => n.type = t := by
    rw [k Counts.processed (fun _ => 1) (fun _ _ => rfl), show (({} : Acc).perType t).processed = 0#32 from rfl, z]
    exact num hl hL (fun nd => nd.type = t ∧ nd.type ≠ proxyNode) _ hq
  have h2 : ((counted g {} l).perType t).time = timeOf g L (fun n => n.type = t) Node.time := by
    rw [k Counts.time (fun nd => nd.time.toNat) (fun _ _ => rfl), show (({} : Acc).perType t).time = 0#32 from rfl, z]
    exact tim hl hL (fun nd => nd.type = t ∧ nd.type ≠ proxyNode) _ hq Node.time
  have h3 : ((counted g {} l).perType t).caching = timeOf g L (fun n => n.type = t ∧ n.store = true) Node.caching := by
    rw [k Counts.caching (fun nd => b (nd.store = true) nd.caching.toNat) (fun _ _ => rfl), show (({} : Acc).perType t).caching = 0#32 from rfl, z]
    simp only [b_b]
    exact tim hl hL (fun nd => (nd.type = t ∧ nd.type ≠ proxyNode) ∧ nd.store = true) _ (fun nd => by rw [hq]) Node.caching
  have h4 := e Counts.built (fun n => n.built = true) rfl (fun _ _ => rfl)
  have h5 := e Counts.failed (fun n => n.failed = true) rfl (fun _ _ => rfl)
  have h6 := e Counts.hits (fun n => n.hit = true) rfl (fun _ _ => rfl)
  have h7 := e Counts.misses (fun n => n.miss = true) rfl (fun _ _ => rfl)
  have h8 := e Counts.stores (fun n => n.store = true) rfl (fun _ _ => rfl)
  have h9 := e Counts.lightHits (fun n => n.light = true ∧ n.hit = true) rfl (fun _ _ => rfl)
  have h10 := e Counts.lightStores (fun n => n.light = true ∧ n.hit = false ∧ n.store = true) rfl (fun _ _ => rfl)
  have h11 := e Counts.lightMisses (fun n => n.light = true ∧ n.hit = false ∧ n.store = false) rfl (fun _ _ => rfl)
  generalize (counted g {} l).perType t = c at *
  cases c
  simp only at h1 h2 h3 h4 h5 h6 h7 h8 h9 h10 h11
  simp only [h1, h2, h3, h4, h5, h6, h7, h8, h9, h10, h11]

/-- Proxies aren't counted. -/
theorem C115_proxy {g : Nat → Node} {N root : Nat} {sort : List Nat → List Nat} {a : Acc} (hc : Closed g N) (hr : root < N)
    (h : statistics g sort (N + 1) root = some a) : a.perType proxyNode = {} := by
  obtain ⟨l, _, rfl⟩ := run hc hr h
  clear h
  show (counted g {} l).perType proxyNode = {}
  suffices ∀ l, (counted g {} l).perType proxyNode = {} from this l
  intro l
  induction l with
  | nil => rfl
  | cons n l ih =>
    show (countNode g n (counted g {} l)).perType proxyNode = {}
    rw [count_type, if_neg (fun h => h.2 h.1), ih]

/-- The totals are those of all needed targets but proxies. Failures and times aren't added up. -/
theorem C115_totals {g : Nat → Node} {N root : Nat} {sort : List Nat → List Nat} {L : List Nat} {a : Acc} (hc : Closed g N) (hr : root < N)
    (hL : Lists g root L) (h : statistics g sort (N + 1) root = some a) :
    a.totals =
      { processed := number g L fun n => n.type ≠ proxyNode
        built := number g L fun n => n.type ≠ proxyNode ∧ n.built = true
        failed := 0
        hits := number g L fun n => n.type ≠ proxyNode ∧ n.hit = true
        misses := number g L fun n => n.type ≠ proxyNode ∧ n.miss = true
        stores := number g L fun n => n.type ≠ proxyNode ∧ n.store = true
        lightHits := number g L fun n => n.type ≠ proxyNode ∧ n.light = true ∧ n.hit = true
        lightStores := number g L fun n => n.type ≠ proxyNode ∧ n.light = true ∧ n.hit = false ∧ n.store = true
        lightMisses := number g L fun n => n.type ≠ proxyNode ∧ n.light = true ∧ n.hit = false ∧ n.store = false
        time := 0
        caching := timeOf g L (fun n => n.type ≠ proxyNode ∧ n.store = true) Node.caching } := by
  obtain ⟨l, hl, rfl⟩ := run hc hr h
  have z : ∀ x : BitVec 32, 0#32 + x = x := by intro x; simp
  have htot : (counted g {} l).totals = {} := by
    clear h hl
    induction l with
    | nil => rfl
    | cons n l ih =>
      show (countNode g n (counted g {} l)).totals = {}
      rw [countNode]
      split
      · exact ih
      · exact ih
  show (List.finRange numTypes).foldl (fun t i => addTotals t ((counted g {} l).perType i)) (counted g {} l).totals = _
  rw [htot]
  have key : ∀ (f : Counts → BitVec 32) (w : Node → Nat), f {} = 0#32 → (∀ t c, f (addTotals t c) = f t + f c) →
      (∀ nd c, f (bump nd c) = f c + BitVec.ofNat 32 (w nd)) →
      f ((List.finRange numTypes).foldl (fun t i => addTotals t ((counted g {} l).perType i)) {}) =
        BitVec.ofNat 32 (l.map fun n => b ((g n).type ≠ proxyNode) (w (g n))).sum := by
    intro f w h0 hadd hf
    rw [total f hadd _ (fun i => (l.map fun n => b ((g n).type = i ∧ (g n).type ≠ proxyNode) (w (g n))).sum), h0, z]
    · rw [← sum_types g l fun n => b ((g n).type ≠ proxyNode) (w (g n))]
      congr 3
      funext i
      congr 2
      funext n
      rw [← b_b]; rfl
    · intro i
      rw [type_counter g i f w hf, show f (({} : Acc).perType i) = 0#32 from h0, z]
  have e : ∀ (f : Counts → BitVec 32) (p : Node → Prop) [DecidablePred p], f {} = 0#32 → (∀ t c, f (addTotals t c) = f t + f c) →
      (∀ nd c, f (bump nd c) = f c + BitVec.ofNat 32 (b (p nd) 1)) →
      f ((List.finRange numTypes).foldl (fun t i => addTotals t ((counted g {} l).perType i)) {}) =
        number g L fun n => n.type ≠ proxyNode ∧ p n := by
    intro f p _ h0 hadd hf
    rw [key f _ h0 hadd hf]
    simp only [b_b]
    exact num hl hL (fun nd => nd.type ≠ proxyNode ∧ p nd) _ (fun nd => Iff.rfl)
  have zero : ∀ (f : Counts → BitVec 32), f {} = 0#32 → (∀ t c, f (addTotals t c) = f t) →
      f ((List.finRange numTypes).foldl (fun t i => addTotals t ((counted g {} l).perType i)) {}) = 0#32 := by
    intro f h0 hadd
    suffices ∀ (ts : List (Fin numTypes)) (t : Counts), f (ts.foldl (fun t i => addTotals t ((counted g {} l).perType i)) t) = f t by
      rw [this, h0]
    intro ts
    induction ts with
    | nil => intro t; rfl
    | cons i ts ih => intro t; rw [List.foldl_cons, ih, hadd]
  have h1 := by
    have := key Counts.processed (fun _ => 1) rfl (fun _ _ => rfl) (fun _ _ => rfl)
    exact this.trans <| num hl hL (fun nd => nd.type ≠ proxyNode) (fun n => n.type ≠ proxyNode) (fun _ => Iff.rfl)
  have h2 := zero Counts.time rfl (fun _ _ => rfl)
  have h3 := by
    have := key Counts.caching (fun nd => b (nd.store = true) nd.caching.toNat) rfl (fun _ _ => rfl) (fun _ _ => rfl)
    simp only [b_b] at this
    exact this.trans <| tim hl hL (fun nd => nd.type ≠ proxyNode ∧ nd.store = true) (fun n => n.type ≠ proxyNode ∧ n.store = true) (fun _ => Iff.rfl) Node.caching
  have h4 := e Counts.built (fun n => n.built = true) rfl (fun _ _ => rfl) (fun _ _ => rfl)
  have h5 := zero Counts.failed rfl (fun _ _ => rfl)
  have h6 := e Counts.hits (fun n => n.hit = true) rfl (fun _ _ => rfl) (fun _ _ => rfl)
  have h7 := e Counts.misses (fun n => n.miss = true) rfl (fun _ _ => rfl) (fun _ _ => rfl)
  have h8 := e Counts.stores (fun n => n.store = true) rfl (fun _ _ => rfl) (fun _ _ => rfl)
  have h9 := e Counts.lightHits (fun n => n.light = true ∧ n.hit = true) rfl (fun _ _ => rfl) (fun _ _ => rfl)
  have h10 := e Counts.lightStores (fun n => n.light = true ∧ n.hit = false ∧ n.store = true) rfl (fun _ _ => rfl) (fun _ _ => rfl)
  have h11 := e Counts.lightMisses (fun n => n.light = true ∧ n.hit = false ∧ n.store = false) rfl (fun _ _ => rfl) (fun _ _ => rfl)
  generalize (List.finRange numTypes).foldl (fun t i => addTotals t ((counted g {} l).perType i)) {} = c at *
  cases c
  simp only at h1 h2 h3 h4 h5 h6 h7 h8 h9 h10 h11
  simp only [h1, h2, h3, h4, h5, h6, h7, h8, h9, h10, h11]
  rfl

/-- The time on this machine is that of all of them, and that of workers the time of the last build of those built there. -/
theorem C115_time {g : Nat → Node} {N root : Nat} {sort : List Nat → List Nat} {L : List Nat} {a : Acc} (hc : Closed g N) (hr : root < N)
    (hL : Lists g root L) (h : statistics g sort (N + 1) root = some a) :
    a.localTime = timeOf g L (fun n => n.type ≠ proxyNode) Node.time ∧
      a.remoteTime = timeOf g L (fun n => n.type ≠ proxyNode ∧ n.remote = true) Node.lastBuild := by
  obtain ⟨l, hl, rfl⟩ := run hc hr h
  have z : ∀ x : BitVec 32, 0#32 + x = x := by intro x; simp
  constructor
  · show (counted g {} l).localTime = _
    rw [counter g Acc.localTime (fun n => b ((g n).type ≠ proxyNode) (g n).time.toNat), show ({} : Acc).localTime = 0#32 from rfl, z]
    · exact tim hl hL (fun nd => nd.type ≠ proxyNode) _ (fun _ => Iff.rfl) Node.time
    · intro n a
      rw [countNode]
      by_cases hp : (g n).type = proxyNode
      · simp [hp, b]
      · simp [hp, b]
  · show (counted g {} l).remoteTime = _
    rw [counter g Acc.remoteTime (fun n => b ((g n).type ≠ proxyNode ∧ (g n).remote = true) (g n).lastBuild.toNat),
      show ({} : Acc).remoteTime = 0#32 from rfl, z]
    · exact tim hl hL (fun nd => nd.type ≠ proxyNode ∧ nd.remote = true) _ (fun _ => Iff.rfl) Node.lastBuild
    · intro n a
      rw [countNode]
      by_cases hp : (g n).type = proxyNode
      · simp [hp, b]
      · cases hm : (g n).remote <;> simp [hp, hm, b]

/-- The list of the most expensive: up to twenty needed targets, none twice and no files, that took time, the longest first; those
that aren't in it took no longer than any that is, and are missing only if there are twenty. -/
theorem C115_expensive {g : Nat → Node} {N root : Nat} {sort : List Nat → List Nat} {L : List Nat} {a : Acc} (hc : Closed g N) (hr : root < N)
    (hs : Sorts g sort) (hL : Lists g root L) (h : statistics g sort (N + 1) root = some a) :
    (expensive a).length ≤ 20 ∧ (expensive a).Nodup ∧
      (∀ n ∈ expensive a, n ∈ L ∧ (g n).type ≠ proxyNode ∧ (g n).type ≠ fileNode ∧ 0 < (g n).time) ∧
      (expensive a).Pairwise (fun m n => (g n).time ≤ (g m).time) ∧
      (∀ n ∈ L, (g n).type ≠ proxyNode → (g n).type ≠ fileNode → 0 < (g n).time → n ∉ expensive a →
        (expensive a).length = 20 ∧ ∀ m ∈ expensive a, (g n).time ≤ (g m).time) := by
  obtain ⟨l, hl, rfl⟩ := run hc hr h
  rw [expensive]
  simp only
  have hbt := byTime_spec g {} l
  rw [show ({} : Acc).byTime = [] from rfl, List.nil_append] at hbt
  rw [hbt]
  generalize hq : (l.reverse.filter fun n => decide ((g n).type ≠ proxyNode ∧ 0 < (g n).time ∧ (g n).type ≠ fileNode)) = q
  have hmem : ∀ n, n ∈ q ↔ n ∈ L ∧ (g n).type ≠ proxyNode ∧ 0 < (g n).time ∧ (g n).type ≠ fileNode := by
    intro n
    rw [← hq, List.mem_filter, List.mem_reverse, hl.2, ← hL.2, decide_eq_true_eq]
  have hnd : q.Nodup := by
    rw [← hq]
    apply List.Pairwise.filter
    exact List.pairwise_reverse.2 (hl.1.imp fun h => Ne.symm h)
  have hp := hs.perm q
  have ho := hs.ordered q
  generalize sort q = r at *
  have hrnd : r.Nodup := hp.nodup_iff.2 hnd
  have hlen : (r.take (min r.length 20)).length = min r.length 20 := by rw [List.length_take]; omega
  refine ⟨by rw [hlen]; omega, hrnd.sublist (List.take_sublist _ _), ?_, ho.sublist (List.take_sublist _ _), ?_⟩
  · intro n hn
    have := (hmem n).1 (hp.mem_iff.1 (List.mem_of_mem_take hn))
    exact ⟨this.1, this.2.1, this.2.2.2, this.2.2.1⟩
  · intro n hn h1 h2 h3 hno
    have hnr : n ∈ r := hp.mem_iff.2 ((hmem n).2 ⟨hn, h1, h3, h2⟩)
    rw [← List.take_append_drop (min r.length 20) r, List.mem_append] at hnr
    have hd : n ∈ r.drop (min r.length 20) := hnr.resolve_left hno
    have hgt : min r.length 20 < r.length := by
      have := List.length_pos_of_mem hd
      rw [List.length_drop] at this; omega
    refine ⟨by rw [hlen]; omega, ?_⟩
    intro m hm
    rw [← List.take_append_drop (min r.length 20) r, List.pairwise_append] at ho
    exact ho.2.2 m hm n hd

/-- There is a summary if one is wanted, and the build is good or one is wanted also if it isn't. -/
theorem C115_shown (showSummary noSummaryOnError wantsReport buildOk : Bool) :
    ((shown showSummary noSummaryOnError wantsReport buildOk).1 = true ↔ showSummary = true ∧ (buildOk = true ∨ noSummaryOnError = false)) ∧
      ((shown showSummary noSummaryOnError wantsReport buildOk).2 = true ↔ wantsReport = true) := by
  cases showSummary <;> cases noSummaryOnError <;> cases wantsReport <;> cases buildOk <;> decide

private def lightMiss : Nat → Node := fun _ => { type := 6, built := true, miss := true, store := true, light := true }

/-- An object that used the light cache, wasn't found in the cache and was stored is no miss of the light cache, though it is a miss. -/
theorem C115_light_false : ((statistics lightMiss id 2 0).map fun a => (a.totals.misses, a.totals.lightMisses, a.totals.lightStores)) =
    some (1#32, 0#32, 1#32) := by decide +kernel

private def long : Nat → Node := fun n => { type := 6, time := 0x80000000#32, static_ := if n = 0 then [1] else [] }

/-- Times that add up to 2^32 milliseconds, 50 days, begin again at zero. -/
theorem C115_days_false : ((statistics long id 3 0).map fun a => a.localTime) = some 0#32 := by decide +kernel

end Verif.Stats
