import Verif.Client.Spec
namespace Verif.Client

def isReq : WMsg → Bool
  | .requestJob => true
  | _ => false

def isAns : CMsg → Bool
  | .job _ => true
  | .noJob => true
  | _ => false

def askOf : WMsg → Option Nat
  | .requestManifest t => some t
  | _ => none

def askFOf : WMsg → Option (Nat × Nat)
  | .requestFile t i => some (t, i)
  | _ => none

def manOf : CMsg → Option Nat
  | .manifest t => some t
  | _ => none

def fileOf : CMsg → Option (Nat × Nat)
  | .file t i => some (t, i)
  | _ => none

def pending (k : Conn) : Nat := k.status.toList.length + min 1 k.sendQ.length

/-- The books of a connection agree with those of its worker. -/
structure Books (nf : Nat → Nat) (k : Conn) : Prop where
  req : k.requested = k.inc.countP isReq + k.pend.countP isAns
  jobs : k.jobs.Perm (k.pend.filterMap jobOf ++ k.held.map Prod.fst ++ k.inc.filterMap resultOf)
  asked : k.asked.Perm (k.inc.filterMap askOf ++ k.pend.filterMap manOf)
  askedF : k.askedF.Perm (k.inc.filterMap askFOf ++ k.pend.filterMap fileOf)
  wait : ∀ t ∈ k.asked, ∃ h ∈ k.held, h.1.tool = t ∧ h.2 = true
  waitF : ∀ f ∈ k.askedF, f.2 < nf f.1 ∧ ∃ h ∈ k.held, h.1.tool = f.1 ∧ h.2 = true

structure KInv (nf : Nat → Nat) (k : Conn) : Prop where
  books : k.phase ≠ .down → Books nf k
  fresh : k.phase = .starting → k.out = []
  gone : k.phase = .down → k.jobs = []
  wake : pending k ≤ k.sem + k.owed

theorem newConn_ok (nf w) : KInv nf (newConn w) := by
  refine ⟨fun _ => ⟨?_, ?_, ?_, ?_, ?_, ?_⟩, ?_, ?_, ?_⟩ <;> simp [newConn, Conn.pend, pending]

/-- A change that only moves messages along. -/
theorem Books.same {nf k k'} (h : Books nf k) (e1 : k'.requested = k.requested) (e2 : k'.inc = k.inc)
    (e3 : k'.jobs = k.jobs) (e4 : k'.held = k.held) (e5 : k'.asked = k.asked) (e6 : k'.askedF = k.askedF)
    (p1 : k'.pend.countP isAns = k.pend.countP isAns) (p2 : k'.pend.filterMap jobOf = k.pend.filterMap jobOf)
    (p3 : k'.pend.filterMap manOf = k.pend.filterMap manOf) (p4 : k'.pend.filterMap fileOf = k.pend.filterMap fileOf) :
    Books nf k' := by
  refine ⟨?_, ?_, ?_, ?_, ?_, ?_⟩
  · rw [e1, e2, p1]; exact h.req
  · rw [e3, e4, e2, p2]; exact h.jobs
  · rw [e5, e2, p3]; exact h.asked
  · rw [e6, e2, p4]; exact h.askedF
  · rw [e5, e4]; exact h.wait
  · rw [e6, e4]; exact h.waitF

/-- What a step of one connection may do. -/
def Fine (nf : Nat → Nat) (k : Conn) : Out Conn → Prop
  | .ok k' => KInv nf k' ∧ k'.jobs = k.jobs ∧ k'.w = k.w
  | .off => True
  | .assert => False

theorem offer_fine {nf k} (h : KInv nf k) (n) : Fine nf k (.ok (offer k n)) := by
  refine ⟨⟨fun hp => (h.books hp).same rfl rfl rfl rfl rfl rfl rfl rfl rfl rfl, h.fresh, h.gone, ?_⟩, rfl, rfl⟩
  have hw := h.wake
  simp only [pending, offer, Option.toList_some, List.length_singleton] at *
  have : k.status.toList.length ≤ 1 := by cases k.status <;> simp
  omega

theorem signal_fine {nf k} (h : KInv nf k) (h0 : k.owed ≠ 0) :
    Fine nf k (.ok { k with owed := k.owed - 1, sem := k.sem + 1 }) := by
  refine ⟨⟨fun hp => (h.books hp).same rfl rfl rfl rfl rfl rfl rfl rfl rfl rfl, h.fresh, h.gone, ?_⟩, rfl, rfl⟩
  have := h.wake
  simp only [pending] at *
  omega

theorem greet_fine {nf k} (h : KInv nf k) (h0 : k.phase = .starting) (num) :
    Fine nf k (.ok { k with phase := .up, told := num, out := [.connection num] }) := by
  have ho := h.fresh h0
  refine ⟨⟨fun _ => (h.books (by rw [h0]; exact nofun)).same rfl rfl rfl rfl rfl rfl ?_ ?_ ?_ ?_, nofun, nofun, h.wake⟩, rfl, rfl⟩
  all_goals simp [Conn.pend, ho, isAns, jobOf, List.filterMap_cons, manOf, List.filterMap_cons, fileOf, List.filterMap_cons]

theorem take_fine {nf k} (h : KInv nf k) : Fine nf k (take k) := by
  unfold take
  split
  · rename_i c
    obtain ⟨c1, c2, c3⟩ := c
    have hw := h.wake
    have hb := h.books (by rw [c1]; exact nofun)
    split
    · rename_i n hs
      refine ⟨⟨fun _ => hb.same rfl rfl rfl rfl rfl rfl ?_ ?_ ?_ ?_, ?_, h.gone, ?_⟩, rfl, rfl⟩
      · simp [Conn.pend, c3, isAns]
      · simp [Conn.pend, c3, jobOf, List.filterMap_cons]
      · simp [Conn.pend, c3, manOf, List.filterMap_cons]
      · simp [Conn.pend, c3, fileOf, List.filterMap_cons]
      · intro e; rw [c1] at e; exact nomatch e
      · simp only [pending, hs, Option.toList_some, Option.toList_none, List.length_singleton, List.length_nil] at *
        omega
    · rename_i hs
      refine ⟨⟨fun _ => hb.same rfl rfl rfl rfl rfl rfl ?_ ?_ ?_ ?_, ?_, h.gone, ?_⟩, rfl, rfl⟩
      · simp [Conn.pend, c3]
      · simp [Conn.pend, c3]
      · simp [Conn.pend, c3]
      · simp [Conn.pend, c3]
      · intro e; rw [c1] at e; exact nomatch e
      · simp [pending, hs]
  · trivial

theorem send_fine {nf k} (h : KInv nf k) : Fine nf k (send k) := by
  unfold send
  split
  · rename_i c1
    have hb := h.books (by rw [c1]; exact nofun)
    split
    · trivial
    · rename_i m ms hs
      refine ⟨⟨fun _ => hb.same rfl rfl rfl rfl rfl rfl ?_ ?_ ?_ ?_, ?_, h.gone, h.wake⟩, rfl, rfl⟩
      · simp [Conn.pend, hs]
      · simp [Conn.pend, hs]
      · simp [Conn.pend, hs]
      · simp [Conn.pend, hs]
      · intro e; rw [c1] at e; exact nomatch e
  · trivial

theorem wRequest_fine {nf k} (h : KInv nf k) (c1 : k.phase = .up) :
    Fine nf k (.ok { k with requested := k.requested + 1, inc := k.inc ++ [.requestJob] }) := by
  have hb := h.books (by rw [c1]; exact nofun)
  refine ⟨⟨fun _ => ⟨?_, ?_, ?_, ?_, hb.wait, hb.waitF⟩, h.fresh, h.gone, h.wake⟩, rfl, rfl⟩
  · have := hb.req
    simp only [Conn.pend, List.countP_append, List.countP_cons, List.countP_nil, isReq, if_true] at *
    omega
  · simpa [resultOf, List.filterMap_cons, Conn.pend] using hb.jobs
  · simpa [askOf, List.filterMap_cons, Conn.pend] using hb.asked
  · simpa [askFOf, List.filterMap_cons, Conn.pend] using hb.askedF

theorem wAsk_fine {nf k} (h : KInv nf k) (t) : Fine nf k (wAsk k t) := by
  unfold wAsk
  split
  · rename_i c
    obtain ⟨c1, c2⟩ := c
    have hb := h.books (by rw [c1]; exact nofun)
    refine ⟨⟨fun _ => ⟨?_, ?_, ?_, ?_, ?_, hb.waitF⟩, h.fresh, h.gone, h.wake⟩, rfl, rfl⟩
    · simpa [isReq, Conn.pend] using hb.req
    · simpa [resultOf, List.filterMap_cons, Conn.pend] using hb.jobs
    · apply List.perm_iff_count.2
      intro a
      have := hb.asked.count_eq a
      simp [askOf, List.filterMap_cons, Conn.pend, List.count_cons] at *
      omega
    · simpa [askFOf, List.filterMap_cons, Conn.pend] using hb.askedF
    · intro x hx
      rcases List.mem_cons.1 hx with e | hx
      · rw [e]; exact c2
      · exact hb.wait x hx
  · trivial

theorem wAskFile_fine {nf k} (h : KInv nf k) (t i) : Fine nf k (wAskFile nf k t i) := by
  unfold wAskFile
  split
  · rename_i c
    obtain ⟨c1, c3, c2⟩ := c
    have hb := h.books (by rw [c1]; exact nofun)
    refine ⟨⟨fun _ => ⟨?_, ?_, ?_, ?_, hb.wait, ?_⟩, h.fresh, h.gone, h.wake⟩, rfl, rfl⟩
    · simpa [isReq, Conn.pend] using hb.req
    · simpa [resultOf, List.filterMap_cons, Conn.pend] using hb.jobs
    · simpa [askOf, List.filterMap_cons, Conn.pend] using hb.asked
    · apply List.perm_iff_count.2
      intro a
      have := hb.askedF.count_eq a
      simp only [askFOf, Conn.pend, List.count_cons, List.filterMap_append, List.filterMap_cons, List.filterMap_nil,
        List.count_append, List.count_nil] at *
      omega
    · intro x hx
      rcases List.mem_cons.1 hx with e | hx
      · rw [e]; exact ⟨c3, c2⟩
      · exact hb.waitF x hx
  · trivial

theorem wStart_fine {nf k} (h : KInv nf k) (t) : Fine nf k (wStart k t) := by
  unfold wStart
  split
  · rename_i c
    obtain ⟨c1, c2, c3⟩ := c
    have hb := h.books (by rw [c1]; exact nofun)
    have keep : ∀ t', t' ≠ t → (∃ x ∈ k.held, x.1.tool = t' ∧ x.2 = true) →
        ∃ x ∈ k.held.map (fun h => if h.1.tool = t then (h.1, false) else h), x.1.tool = t' ∧ x.2 = true := by
      intro t' hne ⟨x, hx, e1, e2⟩
      refine ⟨x, List.mem_map.2 ⟨x, hx, ?_⟩, e1, e2⟩
      rw [if_neg (by rw [e1]; exact hne)]
    refine ⟨⟨fun _ => ⟨hb.req, ?_, hb.asked, hb.askedF, ?_, ?_⟩, h.fresh, h.gone, h.wake⟩, rfl, rfl⟩
    · have : (k.held.map (fun h => if h.1.tool = t then (h.1, false) else h)).map Prod.fst = k.held.map Prod.fst := by
        rw [List.map_map]
        apply List.map_congr_left
        intro a _
        simp only [Function.comp]
        split <;> rfl
      simp only [this]
      exact hb.jobs
    · intro x hx
      exact keep x (fun e => c2 (e ▸ hx)) (hb.wait x hx)
    · intro f hf
      exact ⟨(hb.waitF f hf).1, keep f.1 (c3 f hf) (hb.waitF f hf).2⟩
  · trivial

theorem wFinish_fine {nf k} (h : KInv nf k) (j ok sys) : Fine nf k (wFinish k j ok sys) := by
  unfold wFinish
  split
  · rename_i c
    obtain ⟨c1, c2⟩ := c
    have hb := h.books (by rw [c1]; exact nofun)
    have keep : ∀ t', (∃ x ∈ k.held, x.1.tool = t' ∧ x.2 = true) →
        ∃ x ∈ k.held.erase (j, false), x.1.tool = t' ∧ x.2 = true := by
      intro t' ⟨x, hx, e1, e2⟩
      refine ⟨x, (List.mem_erase_of_ne ?_).2 hx, e1, e2⟩
      intro e
      rw [e] at e2
      exact nomatch e2
    refine ⟨⟨fun _ => ⟨?_, ?_, ?_, ?_, ?_, ?_⟩, h.fresh, h.gone, h.wake⟩, rfl, rfl⟩
    · simpa [isReq, Conn.pend] using hb.req
    · apply List.perm_iff_count.2
      intro a
      have e1 := hb.jobs.count_eq a
      have e2 := ((List.perm_cons_erase c2).map Prod.fst).count_eq a
      simp only [resultOf, Conn.pend, List.count_cons, List.filterMap_append, List.filterMap_cons, List.filterMap_nil,
        List.count_append, List.count_nil, List.map_cons] at *
      omega
    · simpa [askOf, List.filterMap_cons, Conn.pend] using hb.asked
    · simpa [askFOf, List.filterMap_cons, Conn.pend] using hb.askedF
    · intro x hx; exact keep x (hb.wait x hx)
    · intro f hf; exact ⟨(hb.waitF f hf).1, keep f.1 (hb.waitF f hf).2⟩
  · trivial

theorem wRecv_fine {nf k} (h : KInv nf k) (waits) : Fine nf k (wRecv waits k) := by
  unfold wRecv
  split
  · rename_i c1
    have hb := h.books (by rw [c1]; exact nofun)
    have hns : ∀ {P : Prop}, k.phase = .starting → P := fun e => by rw [c1] at e; exact nomatch e
    split
    · trivial
    · rename_i m ms hm
      have hp : k.pend = m :: (ms ++ k.sending ++ k.sendQ) := by simp [Conn.pend, hm]
      obtain ⟨hreq, hjobs, hasked, haskedF, hwait, hwaitF⟩ := hb
      rw [hp] at hreq hjobs hasked haskedF
      cases m with
      | connection n =>
          exact ⟨⟨fun _ => ⟨by simpa [isAns, Conn.pend] using hreq, by simpa [jobOf, List.filterMap_cons, Conn.pend] using hjobs, by simpa [manOf, List.filterMap_cons, Conn.pend] using hasked,
            by simpa [fileOf, List.filterMap_cons, Conn.pend] using haskedF, hwait, hwaitF⟩, fun e => hns e, h.gone, h.wake⟩, rfl, rfl⟩
      | status n =>
          exact ⟨⟨fun _ => ⟨by simpa [isAns, Conn.pend] using hreq, by simpa [jobOf, List.filterMap_cons, Conn.pend] using hjobs, by simpa [manOf, List.filterMap_cons, Conn.pend] using hasked,
            by simpa [fileOf, List.filterMap_cons, Conn.pend] using haskedF, hwait, hwaitF⟩, fun e => hns e, h.gone, h.wake⟩, rfl, rfl⟩
      | noJob =>
          simp only [List.countP_cons, isAns, if_true] at hreq
          simp only
          split
          · rename_i z; exfalso; omega
          · refine ⟨⟨fun _ => ⟨?_, by simpa [jobOf, List.filterMap_cons, Conn.pend] using hjobs, by simpa [manOf, List.filterMap_cons, Conn.pend] using hasked,
              by simpa [fileOf, List.filterMap_cons, Conn.pend] using haskedF, hwait, hwaitF⟩, fun e => hns e, h.gone, h.wake⟩, rfl, rfl⟩
            simp only [Conn.pend]; omega
      | job j =>
          simp only [List.countP_cons, isAns, if_true] at hreq
          simp only
          split
          · rename_i z; exfalso; omega
          · refine ⟨⟨fun _ => ⟨?_, ?_, by simpa [manOf, List.filterMap_cons, Conn.pend] using hasked, by simpa [fileOf, List.filterMap_cons, Conn.pend] using haskedF, ?_, ?_⟩,
              fun e => hns e, h.gone, h.wake⟩, rfl, rfl⟩
            · simp only [Conn.pend]; omega
            · apply List.perm_iff_count.2
              intro a
              have e1 := hjobs.count_eq a
              simp only [jobOf, Conn.pend, List.count_cons, List.filterMap_cons,
                List.count_append, List.count_nil, List.map_append, List.map_cons, List.map_nil] at *
              omega
            · intro x hx
              obtain ⟨y, hy, e⟩ := hwait x hx
              exact ⟨y, List.mem_append.2 (.inl hy), e⟩
            · intro f hf
              obtain ⟨h1, y, hy, e⟩ := hwaitF f hf
              exact ⟨h1, y, List.mem_append.2 (.inl hy), e⟩
      | manifest t =>
          have hin : t ∈ k.asked := hasked.mem_iff.2 (by simp [manOf, List.filterMap_cons])
          simp only [hin, if_true]
          refine ⟨⟨fun _ => ⟨by simpa [isAns, Conn.pend] using hreq, by simpa [jobOf, List.filterMap_cons, Conn.pend] using hjobs, ?_,
            by simpa [fileOf, List.filterMap_cons, Conn.pend] using haskedF, ?_, hwaitF⟩, fun e => hns e, h.gone, h.wake⟩, rfl, rfl⟩
          · apply List.perm_iff_count.2
            intro a
            have e1 := hasked.count_eq a
            have e2 := (List.perm_cons_erase hin).count_eq a
            simp only [manOf, Conn.pend, List.count_cons, List.filterMap_cons, List.count_append] at *
            omega
          · intro x hx; exact hwait x (List.mem_of_mem_erase hx)
      | file t i =>
          have hin : (t, i) ∈ k.askedF := haskedF.mem_iff.2 (by simp [fileOf, List.filterMap_cons])
          simp only [hin, if_true]
          refine ⟨⟨fun _ => ⟨by simpa [isAns, Conn.pend] using hreq, by simpa [jobOf, List.filterMap_cons, Conn.pend] using hjobs, by simpa [manOf, List.filterMap_cons, Conn.pend] using hasked,
            ?_, hwait, ?_⟩, fun e => hns e, h.gone, h.wake⟩, rfl, rfl⟩
          · apply List.perm_iff_count.2
            intro a
            have e1 := haskedF.count_eq a
            have e2 := (List.perm_cons_erase hin).count_eq a
            simp only [fileOf, Conn.pend, List.count_cons, List.filterMap_cons, List.count_append] at *
            omega
          · intro x hx; exact hwaitF x (List.mem_of_mem_erase hx)
  · trivial

end Verif.Client
