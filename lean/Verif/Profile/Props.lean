import Verif.Profile.Metrics
/-!
C119: the profile of a build is JSON and shows what was recorded.
-/
namespace Verif.Profile
open Spec
open Verif.Compdb (Plain escape esc escChar pstr pstr_esc escape_plain)

/-! ### Recording -/

/-- `RecordLocal` and `RecordRemote` -/
def step (p : Prof) : Op → Prof
  | .local thread start stop step target => recordLocal p thread start stop step target
  | .remote id name thread start stop step target => recordRemote p id name thread start stop step target

/-- a build -/
def run (ops : List Op) : Prof := ops.foldl step ⟨[], []⟩

theorem step_events (p : Prof) (op : Op) : (step p op).events = p.events ++ [op.event] := by cases op <;> rfl

theorem run_append (a : List Op) (op : Op) : run (a ++ [op]) = step (run a) op := by
  rw [run, List.foldl_append]
  rfl

/-- Every event is in the profile once, in the order of recording. -/
theorem C119_events (ops : List Op) : (run ops).events = ops.map Op.event := by
  have : ∀ (ops : List Op) (p : Prof), (ops.foldl step p).events = p.events ++ ops.map Op.event := by
    intro ops
    induction ops with
    | nil => intro p; simp
    | cons op ops ih =>
      intro p
      rw [List.foldl_cons, ih, step_events, List.append_assoc, List.map_cons]
      rfl
  exact this ops _

/-- `w` has a place for the thread -/
def Has (ws : List Worker) (id thread : Nat) : Prop := ∃ w, ws[id]? = some w ∧ thread ≤ w.maxThread

theorem has_step {p : Prof} {op : Op} {id thread : Nat} (h : Has p.workers id thread) : Has (step p op).workers id thread := by
  obtain ⟨w, h1, h2⟩ := h
  cases op with
  | «local» => exact ⟨w, h1, h2⟩
  | remote id' name thread' _ _ _ _ =>
    show Has (if p.workers.length ≤ id' then _ else _) id thread
    split
    · refine ⟨w, ?_, h2⟩
      have := (List.getElem?_eq_some_iff.1 h1).1
      rw [List.append_assoc, List.getElem?_append_left this, h1]
    · by_cases e : id' = id
      · subst e
        refine ⟨{ w with maxThread := max w.maxThread thread' }, ?_, Nat.le_trans h2 (Nat.le_max_left ..)⟩
        rw [List.getElem?_modify, h1]
        simp
      · refine ⟨w, ?_, h2⟩
        rw [List.getElem?_modify, h1]
        simp [e]

theorem has_new (p : Prof) (id : Nat) (name : Text) (thread : Nat) (a b : Int) (s t : Text) :
    Has (step p (.remote id name thread a b s t)).workers id thread := by
  show Has (if p.workers.length ≤ id then _ else _) id thread
  split
  · rename_i h
    refine ⟨⟨thread, name⟩, ?_, Nat.le_refl _⟩
    rw [List.getElem?_append_right (by simp; omega)]
    have : id - (p.workers ++ List.replicate (id - p.workers.length) (⟨0, []⟩ : Worker)).length = 0 := by simp; omega
    rw [this]
    rfl
  · rename_i h
    obtain ⟨w, hw⟩ : ∃ w, p.workers[id]? = some w := ⟨_, List.getElem?_eq_getElem (by omega)⟩
    refine ⟨{ w with maxThread := max w.maxThread thread }, ?_, Nat.le_max_right ..⟩
    rw [List.getElem?_modify, hw]
    simp

theorem run_has (ops : List Op) : ∀ e ∈ (run ops).events, ∀ id : Nat, e.machine = id → Has (run ops).workers id e.thread := by
  rcases List.eq_nil_or_concat ops with rfl | ⟨ops', op, rfl⟩
  · intro e he
    cases he
  · have ih := run_has ops'
    rw [List.concat_eq_append, run_append]
    intro e he id hid
    rw [step_events] at he
    rcases List.mem_append.1 he with he | he
    · exact has_step (ih e he id hid)
    · rw [List.mem_singleton.1 he] at hid ⊢
      cases op with
      | «local» => exact absurd hid (by show ¬ (-1 : Int) = id; omega)
      | remote id' name thread a b s t =>
        have : id' = id := by
          have : (id' : Int) = id := hid
          omega
        subst this
        exact has_new ..
termination_by ops.length
decreasing_by subst_vars; simp

theorem mem_workers {tn : Nat → Text} {ws : List Worker} {id : Nat} {w : Worker} (h : ws[id]? = some w) {x : J} (hx : x ∈ worker tn id w) :
    x ∈ workers tn ws := by
  rw [workers, List.mem_flatMap]
  exact ⟨(w, id), List.mem_zipIdx_iff_getElem?.2 h, hx⟩

/-- The machine and the thread of every event have a name in the profile. Threads of workers count from 1000. -/
theorem C119_named (ops : List Op) (tn : Nat → Text) : ∀ e ∈ (run ops).events, ∀ id : Nat, e.machine = id →
    (∃ n, naming "process_name".toList id 0 n ∈ workers tn (run ops).workers) ∧
    (1000 ≤ e.thread → naming "thread_name".toList id e.thread (tn (e.thread - 1000)) ∈ workers tn (run ops).workers) := by
  intro e he id hid
  obtain ⟨w, h1, h2⟩ := run_has ops e he id hid
  refine ⟨⟨_, mem_workers h1 (List.mem_cons_self ..)⟩, fun h => mem_workers h1 (List.mem_cons_of_mem _ ?_)⟩
  refine List.mem_map.2 ⟨e.thread - 1000, List.mem_range.2 (by omega), ?_⟩
  rw [show 1000 + (e.thread - 1000) = e.thread from by omega]

/-- A worker has its own name if no other had the same or a higher number before; see `C119_name_false` and `C119_ids_false`. -/
theorem C119_name_partial (before after : List Op) (id : Nat) (name : Text) (thread : Nat) (a b : Int) (s t : Text)
    (h : ∀ op ∈ before, ∀ i n th x y s t, op = .remote i n th x y s t → i < id) :
    (run (before ++ .remote id name thread a b s t :: after)).workers[id]?.map Worker.name = some name := by
  have hl : ∀ ops : List Op, (∀ op ∈ ops, ∀ i n th x y s t, op = .remote i n th x y s t → i < id) → (run ops).workers.length ≤ id := by
    intro ops
    have : ∀ (ops : List Op) (p : Prof), p.workers.length ≤ id → (∀ op ∈ ops, ∀ i n th x y s t, op = .remote i n th x y s t → i < id) →
        (ops.foldl step p).workers.length ≤ id := by
      intro ops
      induction ops with
      | nil => intro p hp _; exact hp
      | cons op ops ih =>
        intro p hp hops
        rw [List.foldl_cons]
        refine ih _ ?_ fun o ho => hops o (List.mem_cons_of_mem _ ho)
        cases op with
        | «local» => exact hp
        | remote i n th x y s t =>
          have := hops _ (List.mem_cons_self ..) _ _ _ _ _ _ _ rfl
          show (if p.workers.length ≤ i then _ else _ : List Worker).length ≤ id
          split
          · simp
            omega
          · rw [List.length_modify]
            exact hp
    exact this ops ⟨[], []⟩ (Nat.zero_le _)
  have keep : ∀ (ops : List Op) (p : Prof), p.workers[id]?.map Worker.name = some name → (ops.foldl step p).workers[id]?.map Worker.name = some name := by
    intro ops
    induction ops with
    | nil => intro p hp; exact hp
    | cons op ops ih =>
      intro p hp
      rw [List.foldl_cons]
      refine ih _ ?_
      obtain ⟨w, hw, hn⟩ := Option.map_eq_some_iff.1 hp
      cases op with
      | «local» => exact hp
      | remote i n th x y s t =>
        show (if p.workers.length ≤ i then _ else _ : List Worker)[id]?.map Worker.name = some name
        split
        · have := (List.getElem?_eq_some_iff.1 hw).1
          rw [List.append_assoc, List.getElem?_append_left this]
          exact hp
        · rw [List.getElem?_modify, hw]
          by_cases e : i = id <;> simp [e, hn]
  rw [run, List.foldl_append, List.foldl_cons]
  refine keep _ _ ?_
  have hb : (before.foldl step ⟨[], []⟩).workers.length ≤ id := hl before h
  generalize before.foldl step ⟨[], []⟩ = p at hb
  show (if p.workers.length ≤ id then _ else _ : List Worker)[id]?.map Worker.name = some name
  rw [if_pos hb, List.getElem?_append_right (by simp; omega)]
  have : id - (p.workers ++ List.replicate (id - p.workers.length) (⟨0, []⟩ : Worker)).length = 0 := by simp; omega
  rw [this]
  rfl

/-! ### The file -/

/-- texts of values, one by one -/
def All (vs : List J) (ts : List Text) : Prop := vs.length = ts.length ∧ ∀ (i : Nat) (v : J) (t : Text), vs[i]? = some v → ts[i]? = some t → Den v t

theorem All.append {a b : List J} {s t : List Text} (h1 : All a s) (h2 : All b t) : All (a ++ b) (s ++ t) := by
  refine ⟨by rw [List.length_append, List.length_append, h1.1, h2.1], ?_⟩
  intro i v x hv hx
  by_cases h : i < a.length
  · rw [List.getElem?_append_left h] at hv
    rw [List.getElem?_append_left (h1.1 ▸ h)] at hx
    exact h1.2 i v x hv hx
  · rw [List.getElem?_append_right (Nat.not_lt.1 h)] at hv
    rw [List.getElem?_append_right (h1.1 ▸ Nat.not_lt.1 h), ← h1.1] at hx
    exact h2.2 _ v x hv hx

theorem All.nil : All [] [] := ⟨rfl, fun i v t h => by simp at h⟩

theorem All.cons {v : J} {t : Text} {a : List J} {s : List Text} (h1 : Den v t) (h2 : All a s) : All (v :: a) (t :: s) := by
  refine ⟨by rw [List.length_cons, List.length_cons, h2.1], ?_⟩
  intro i v' x hv hx
  cases i with
  | zero =>
    cases Option.some.inj hv
    cases Option.some.inj hx
    exact h1
  | succ i => exact h2.2 i v' x hv hx

theorem All.map {α : Type} {f : α → J} {g : α → Text} : ∀ {l : List α}, (∀ x ∈ l, Den (f x) (g x)) → All (l.map f) (l.map g)
  | [], _ => All.nil
  | x :: l, h => All.cons (h x (List.mem_cons_self ..)) (All.map fun y hy => h y (List.mem_cons_of_mem _ hy))

theorem All.flatMap {α : Type} {f : α → List J} {g : α → List Text} : ∀ {l : List α}, (∀ x ∈ l, All (f x) (g x)) → All (l.flatMap f) (l.flatMap g)
  | [], _ => All.nil
  | x :: l, h => by
    rw [List.flatMap_cons, List.flatMap_cons]
    exact All.append (h x (List.mem_cons_self ..)) (All.flatMap fun y hy => h y (List.mem_cons_of_mem _ hy))

/-- names of threads -/
def tname (n : Nat) : Text := "Thread ".toList ++ two n

theorem tname_spec (n : Nat) : ThreadName n (tname n) := by
  refine ⟨digits n, (digits_isNat n).1, ?_⟩
  unfold tname two
  by_cases h : n < 10
  · simp only [if_pos h, List.append_assoc, List.singleton_append]
  · simp only [if_neg h, List.append_nil]

theorem clean_append {a b : Text} (ha : Clean a) (hb : Clean b) : Clean (a ++ b) := fun c hc =>
  (List.mem_append.1 hc).elim (ha c) (hb c)

theorem digit_clean {c : Char} (h1 : '0' ≤ c) (h2 : c ≤ '9') : 32 ≤ c.toNat ∧ c ≠ '"' ∧ c ≠ '\\' := by
  have e1 : 48 ≤ c.toNat := h1
  have e2 : c.toNat ≤ 57 := h2
  refine ⟨by omega, ?_, ?_⟩
  · rintro rfl
    exact absurd e1 (by decide)
  · rintro rfl
    exact absurd e2 (by decide)

theorem digits_clean (n : Nat) : Clean (digits n) := fun c hc =>
  have := (digits_isNat n).1.2.1 c hc
  digit_clean this.1 this.2

theorem tname_clean (n : Nat) : Clean (tname n) := by
  refine clean_append (by decide +kernel) ?_
  rw [two]
  split
  · intro c hc
    rcases List.mem_cons.1 hc with rfl | hc
    · exact by decide
    · exact digits_clean n c hc
  · exact digits_clean n

theorem program_str {signed : Bool} {p a : Text} (hp : Plain signed p) (ha : Plain signed a) :
    IsStr (p ++ ' ' :: a) (escape signed p ++ [' '] ++ escape signed a) := by
  have hpa : Plain signed (p ++ ' ' :: a) := by
    intro c hc
    rcases List.mem_append.1 hc with hc | hc
    · exact hp c hc
    · rcases List.mem_cons.1 hc with rfl | hc
      · exact ⟨by decide, by decide, fun _ => by decide⟩
      · exact ha c hc
  have e : escape signed p ++ [' '] ++ escape signed a = escape signed (p ++ ' ' :: a) := by
    rw [escape_plain hp, escape_plain ha, escape_plain hpa, esc, esc, esc, List.flatMap_append, List.flatMap_cons]
    have : escChar signed ' ' = [' '] := by cases signed <;> decide
    rw [this, List.append_assoc]
  rw [e]
  exact esc_str hpa

theorem headings_all {signed : Bool} {o : Setup} (hc : Clean o.cpu) (hp : Plain signed o.program) (ha : Plain signed o.args) :
    All (Spec.headings o tname) (headings signed o) := by
  refine All.append (.cons (meta_den _ _ (by decide +kernel) key) (.cons (meta_den _ _ (by decide +kernel) key) (.cons (meta_den _ _ (by decide +kernel) (clean_str (clean_append (by decide +kernel) hc)))
    (.cons (meta_den _ _ (by decide +kernel) (program_str hp ha)) (.cons (meta_den _ _ (by decide +kernel) key) .nil))))) ?_
  have e : ((List.range o.threads).map fun i => naming "thread_name".toList (-1) (i + 1) (tname (i + 1))) =
      (List.range' 1 o.threads).map fun i => naming "thread_name".toList (-1) i (tname i) := by
    rw [List.range_eq_range', ← List.map_add_range' (a := 1) (s := 0), List.map_map]
    exact List.map_congr_left fun x _ => by simp [Nat.add_comm]
  rw [e]
  exact All.map fun i _ => meta_den _ _ (by decide +kernel) (clean_str (tname_clean i))

theorem workers_all {ws : List Worker} (h : ∀ w ∈ ws, Clean w.name) : All (workers tname ws) (workerText ws) := by
  refine All.flatMap ?_
  rintro ⟨w, pid⟩ hw
  have hw' : w ∈ ws := List.mem_of_getElem? (List.mem_zipIdx_iff_getElem?.1 hw)
  refine .cons (meta_den _ _ (by decide +kernel) (clean_str (clean_append (by decide +kernel) (h w hw')))) ?_
  have e : ((List.range (w.maxThread + 1 - 1000)).map fun i => naming "thread_name".toList pid (1000 + i) (tname i)) =
      (List.range' 1000 (w.maxThread + 1 - 1000)).map fun i => naming "thread_name".toList pid i (tname (i - 1000)) := by
    rw [List.range_eq_range', ← List.map_add_range' (a := 1000) (s := 0), List.map_map]
    exact List.map_congr_left fun x _ => by simp
  show All ((List.range (w.maxThread + 1 - 1000)).map fun i => naming "thread_name".toList pid (1000 + i) (tname i)) _
  rw [e]
  exact All.map fun i _ => meta_den _ _ (by decide +kernel) (clean_str (tname_clean _))

theorem metrics_all (us : Int → Nat) (gib : Nat → Nat) (d : Bool) (ms : List Metrics) :
    All (groups us gib (rounds d ⟨0, 0, 0, 0⟩ ms)).flatten (metricsText us gib d ms) := by
  rw [groups, ← List.flatMap_def, metricsText]
  exact All.flatMap fun x _ => All.map fun y _ => stat_den us gib x.1 y

theorem final_elems (us : Int → Nat) (e : Ends) : ∃ t, finalText us e = t ++ [']'] ∧ Elems (finals us e) t := by
  have h : ∀ (name : String) (a b : Int), Clean name.toList → Den (duration name.toList (us a) (us (b - a)) (-1) 0 none)
      ("{\"name\":\"".toList ++ name.toList ++ "\",\"ph\":\"X\",\"ts\":".toList ++ digits (us a) ++ ",\"dur\":".toList ++ digits (us (b - a)) ++
        ",\"pid\":-1,\"tid\":0}".toList) := by
    intro name a b hn
    refine recast (duration_den' (signed := true) (us a) (us (b - a)) (-1) 0 hn (.inl ⟨rfl, rfl⟩)) ?_
    have e1 : int (-1) = ['-', '1'] := by
      show '-' :: digits 1 = _
      rw [digits]
      rfl
    have e2 : digits 0 = ['0'] := by
      rw [digits]
      rfl
    have e3 : ",\"pid\":".toList ++ ['-', '1'] ++ ",\"tid\":".toList ++ ['0'] ++ ([] ++ "}".toList) = ",\"pid\":-1,\"tid\":0}".toList := by decide +kernel
    simp only [e1, e2, ← e3, List.append_assoc]
  refine ⟨_, ?_, .more (h "CaptureProfileJSON" e.captureStart e.captureEnd (by decide +kernel))
    (.more (h "Shutdown" e.captureEnd e.saveStart (by decide +kernel)) (.one (h "WriteProfileJSON" e.saveStart e.saveEnd (by decide +kernel))))⟩
  unfold finalText
  simp only [List.append_assoc, List.cons_append, List.nil_append]

/-- What was in the file before doesn't matter. -/
theorem saveJSON_eq (us : Int → Nat) (buffer : Text) (e : Ends) (old : Text) : saveJSON us buffer e old = buffer ++ finalText us e := by
  simp only [saveJSON, writeAt, List.take_zero, List.nil_append, Nat.zero_add]
  rw [List.take_left, List.take_append_of_le_length (by rw [List.length_append]; exact Nat.le_refl _), List.take_of_length_le (by rw [List.length_append]; exact Nat.le_refl _)]

/-- what is recorded can be written without escapes, where there are none -/
structure Writable (signed : Bool) (o : Setup) (p : Prof) : Prop where
  cpu : Clean o.cpu
  program : Plain signed o.program
  args : Plain signed o.args
  workers : ∀ w ∈ p.workers, Clean w.name
  steps : ∀ e ∈ p.events, Clean e.step
  targets : ∀ e ∈ p.events, ∀ t, e.target = some t → Plain signed t

/-- The file is JSON and holds the headings, the workers, every event in order, numbers that show the metrics, and the end, whatever was in the
file before. Names with bytes from 128 on are left out where `char` is signed, see C96; names of workers and of the processor are not escaped. -/
theorem C119_json_partial {signed : Bool} (us : Int → Nat) (gib : Nat → Nat) {o : Setup} {p : Prof} (ms : List Metrics) (e : Ends) (old : Text)
    (h : Writable signed o p) : ∃ tn M, (∀ n, ThreadName n (tn n)) ∧ Counters us gib o.distributed ms M ∧
      Den (.arr (Spec.headings o tn ++ workers tn p.workers ++ p.events.map (event us) ++ M ++ [cpuMark (us e.captureStart)] ++ finals us e))
        (saveJSON us (serialize signed us gib o p ms e.captureStart) e old) := by
  refine ⟨tname, _, tname_spec, counters us gib o.distributed ms, ?_⟩
  obtain ⟨t, ht, hf⟩ := final_elems us e
  have hall := ((((headings_all h.cpu h.program h.args).append (workers_all h.workers)).append
    (All.map (f := event us) (g := eventText signed us) fun x hx =>
      duration_den' (us x.start) (us (x.stop - x.start)) x.machine x.thread (h.steps x hx) (target_cases (h.targets x hx)))).append
    (metrics_all us gib o.distributed ms)).append (All.cons (cpu_den us e.captureStart) All.nil)
  have := Den.arr (elems_append hf hall.1 hall.2)
  refine recast this ?_
  rw [saveJSON_eq, ht, serialize]
  simp only [List.cons_append, List.append_assoc]

/-! ### What does not hold -/

/-- If a job of a worker with a higher number comes back first, a worker has no name. -/
theorem C119_name_false : ¬ ∀ (ops : List Op) (id : Nat) (name : Text) (thread : Nat) (a b : Int) (s t : Text),
    (∀ op ∈ ops, ∀ n th x y s t, op = .remote id n th x y s t → n = name) → .remote id name thread a b s t ∈ ops →
    (run ops).workers[id]?.map Worker.name = some name := by
  intro h
  have := h [.remote 1 ['b'] 1000 0 1 [] [], .remote 0 ['a'] 1000 0 1 [] []] 0 ['a'] 1000 0 1 [] [] (by
    intro op hop n th x y s t e
    rcases List.mem_cons.1 hop with rfl | hop
    · cases e
    · rw [List.mem_singleton.1 hop] at e
      cases e
      rfl) (by simp)
  exact absurd this (by decide)

/-- All workers have the same number, so that the profile shows jobs of different workers as jobs of one. -/
theorem C119_ids_false : ¬ ∀ workers : List Text, workers.Nodup → (uniqueIds workers).Nodup := by
  intro h
  exact absurd (h [['a'], ['b']] (by decide)) (by decide)

/-! ### A case that meets the hypotheses -/

private def ops : List Op :=
  [.local 0 0 5 "Initialize".toList none, .remote 2 "10.0.0.3".toList 1001 10 20 "Compile".toList "C:\\a\"b.obj".toList, .local 1 6 9 "Object".toList (some "a.obj".toList)]

private def setup : Setup := ⟨"x64".toList, "fbuild".toList, "-profile all".toList, 4, true⟩

example : Writable true setup (run ops) where
  cpu := by decide +kernel
  program := by intro c hc; revert c; decide +kernel
  args := by intro c hc; revert c; decide +kernel
  workers := by
    intro w hw
    have e : (run ops).workers = [⟨0, []⟩, ⟨0, []⟩, ⟨1001, "10.0.0.3".toList⟩] := by rfl
    rw [e] at hw
    simp only [List.mem_cons, List.not_mem_nil, or_false] at hw
    rcases hw with rfl | rfl | rfl <;> decide +kernel
  steps := by
    rw [C119_events]
    intro e he
    simp only [ops, List.map_cons, List.map_nil, List.mem_cons, List.not_mem_nil, or_false] at he
    rcases he with rfl | rfl | rfl <;> decide +kernel
  targets := by
    rw [C119_events]
    intro e he t ht
    simp only [ops, List.map_cons, List.map_nil, List.mem_cons, List.not_mem_nil, or_false] at he
    rcases he with rfl | rfl | rfl
    · cases ht
    · cases ht; intro c hc; revert c; decide +kernel
    · cases ht; intro c hc; revert c; decide +kernel

example : (run ops).workers[2]?.map Worker.name = some "10.0.0.3".toList :=
  C119_name_partial [.local 0 0 5 "Initialize".toList none] [.local 1 6 9 "Object".toList (some "a.obj".toList)] 2 _ 1001 10 20 _ _ (by
    intro op hop i n th x y s t e
    rw [List.mem_singleton.1 hop] at e
    cases e)

end Verif.Profile
