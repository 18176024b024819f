import Verif.Sln.Spec
/-
C101: reading what was written.
-/
namespace Verif.Sln

/-! ### parts of lines -/

theorem strip_append (p t : Text) : strip p (p ++ t) = some t := by
  induction p with
  | nil => rfl
  | cons a p ih => simp [strip, ih]

theorem until_append {c : Char} {a : Text} (h : c ∉ a) (t : Text) : until? c (a ++ c :: t) = some (a, t) := by
  induction a with
  | nil => simp [until?]
  | cons x a ih =>
    have hx : x ≠ c := fun e => h (by simp [e])
    simp [until?, hx, ih (fun hm => h (by simp [hm]))]

theorem Plain.quote {t : Text} (h : Plain t) : '"' ∉ t := fun hm => (h _ hm).1 rfl
theorem Plain.eq {t : Text} (h : Plain t) : '=' ∉ t := fun hm => (h _ hm).2.2.2 rfl
theorem plain_append {a b : Text} : Plain (a ++ b) ↔ Plain a ∧ Plain b := by
  simp only [Plain, List.mem_append, or_imp]
  exact forall_and
theorem plain_cons {c : Char} {b : Text} : Plain (c :: b) ↔ (c ≠ '"' ∧ c ≠ '\r' ∧ c ≠ '\n' ∧ c ≠ '=') ∧ Plain b := by
  simp only [Plain, List.mem_cons, forall_eq_or_imp]
theorem plain_nil : Plain [] := by intro c h; cases h
theorem Plain.sub {a b : Text} (h : Plain b) (hs : ∀ c ∈ a, c ∈ b) : Plain a := fun c hc => h c (hs c hc)

theorem readPair_line {k : Text} (hk : Plain k) (v : Text) : readPair (k ++ eqs ++ v) = some (k, v) := by
  have h1 : k ++ eqs ++ v = (k ++ [' ']) ++ '=' :: (' ' :: v) := by simp [eqs]
  have h2 : '=' ∉ k ++ [' '] := by
    simp only [List.mem_append, List.mem_singleton, not_or]
    exact ⟨hk.eq, by decide⟩
  rw [h1]
  simp only [readPair, until_append h2, bind, Option.bind, strip, ↓reduceIte]
  simp

theorem readHead_line {a b c d : Text} (ha : Plain a) (hb : Plain b) (hc : Plain c) (hd : Plain d) :
    readHead (a ++ projEq ++ b ++ qsep ++ c ++ qsep ++ d ++ quote) = some ⟨a, b, c, d, []⟩ := by
  have e1 : projEq = '"' :: ") = \"".toList := by decide
  have e2 : qsep = '"' :: ", \"".toList := by decide
  have h1 : a ++ projEq ++ b ++ qsep ++ c ++ qsep ++ d ++ quote =
      a ++ '"' :: (") = \"".toList ++ (b ++ '"' :: (", \"".toList ++ (c ++ '"' :: (", \"".toList ++ (d ++ '"' :: [])))))) := by
    rw [e1, e2]; simp only [List.append_assoc, List.cons_append, Sln.quote]
  rw [h1, readHead]
  generalize ") = \"".toList = x
  generalize ", \"".toList = y
  simp only [readFields, until_append ha.quote, until_append hb.quote, until_append hc.quote, until_append hd.quote, strip_append, bind, Option.bind, ↓reduceIte]

/-! ### steps -/

theorem e_project : projOpen = kProject := by rfl
theorem e_end : endProject = kEndProject := by rfl
theorem e_global : sGlobal = kGlobal := by rfl
theorem e_endGlobal : sEndGlobal = kEndGlobal := by rfl
theorem e_section : projectSection = kSection := by rfl
theorem e_endSection : endProjectSection = kEndSection := by rfl
theorem e_globalSection : globalSection = kGlobalSection := by rfl
theorem e_endGlobalSection : endGlobalSection = kEndGlobalSection := by rfl
theorem e_tabs : tabs = kTabs := by rfl
theorem e_closing (t : Text) : closing ++ t = ')' :: t := by rfl

theorem n_endSection : strip kTabs kEndSection = none := by decide
theorem n_endGlobalSection : strip kTabs kEndGlobalSection = none := by decide
theorem n_section (t : Text) : kSection ++ t ≠ kEndProject := by
  intro h
  have : (kSection ++ t).head? = kEndProject.head? := by rw [h]
  rw [show (kSection ++ t).head? = some '\t' from rfl, show kEndProject.head? = some 'E' from rfl] at this
  exact absurd this (by decide)
theorem n_globalSection (t : Text) : kGlobalSection ++ t ≠ kEndGlobal := by
  intro h
  have : (kGlobalSection ++ t).head? = kEndGlobal.head? := by rw [h]
  rw [show (kGlobalSection ++ t).head? = some '\t' from rfl, show kEndGlobal.head? = some 'E' from rfl] at this
  exact absurd this (by decide)
theorem n_global : strip kProject kGlobal = none := by decide

theorem steps_append (s : St) (a b : List Text) : steps s (a ++ b) = (steps s a).bind (steps · b) := by
  induction a generalizing s with
  | nil => rfl
  | cons l a ih =>
    simp only [List.cons_append, steps]
    cases step s l with
    | none => rfl
    | some s' => exact ih s'

theorem steps_entryPairs (es : List Entry) (e : Entry) (n : Text) : ∀ (ps acc : List (Text × Text)), (∀ p ∈ ps, Plain p.1) →
    steps (.entrySection es e n acc) (ps.map pairLine) = some (.entrySection es e n (acc ++ ps))
  | [], acc, _ => by simp [steps]
  | p :: ps, acc, h => by
    have h1 : step (.entrySection es e n acc) (pairLine p) = some (.entrySection es e n (acc ++ [p])) := by
      have h2 : strip kTabs (pairLine p) = some (p.1 ++ eqs ++ p.2) := by
        have : pairLine p = kTabs ++ (p.1 ++ eqs ++ p.2) := by rw [pairLine, e_tabs]; simp only [List.append_assoc]
        rw [this, strip_append]
      simp only [step, h2, readPair_line (h p (by simp))]
      rfl
    simp only [List.map_cons, steps, h1, Option.bind]
    rw [steps_entryPairs es e n ps _ (fun q hq => h q (by simp [hq]))]
    simp

theorem steps_globPairs (es : List Entry) (gs : List (Text × List (Text × Text))) (n : Text) : ∀ (ps acc : List (Text × Text)), (∀ p ∈ ps, Plain p.1) →
    steps (.globSection es gs n acc) (ps.map pairLine) = some (.globSection es gs n (acc ++ ps))
  | [], acc, _ => by simp [steps]
  | p :: ps, acc, h => by
    have h1 : step (.globSection es gs n acc) (pairLine p) = some (.globSection es gs n (acc ++ [p])) := by
      have h2 : strip kTabs (pairLine p) = some (p.1 ++ eqs ++ p.2) := by
        have : pairLine p = kTabs ++ (p.1 ++ eqs ++ p.2) := by rw [pairLine, e_tabs]; simp only [List.append_assoc]
        rw [this, strip_append]
      simp only [step, h2, readPair_line (h p (by simp))]
      rfl
    simp only [List.map_cons, steps, h1, Option.bind]
    rw [steps_globPairs es gs n ps _ (fun q hq => h q (by simp [hq]))]
    simp

/-- a section of a project -/
theorem steps_entrySection (es : List Entry) (e : Entry) {n : Text} (hn : ')' ∉ n) (tail : Text) (ps : List (Text × Text)) (h : ∀ p ∈ ps, Plain p.1) :
    steps (.entry es e) ([projectSection ++ n ++ closing ++ tail] ++ ps.map pairLine ++ [endProjectSection]) =
      some (.entry es { e with sections := e.sections ++ [(n, ps)] }) := by
  have h1 : step (.entry es e) (projectSection ++ n ++ closing ++ tail) = some (.entrySection es e n []) := by
    have a2 : projectSection ++ n ++ closing ++ tail = kSection ++ (n ++ ')' :: tail) := by
      rw [e_section, List.append_assoc, List.append_assoc, e_closing]
    rw [a2]
    simp only [step, n_section, ↓reduceIte, strip_append, until_append hn]
    rfl
  have h2 : step (.entrySection es e n ps) endProjectSection = some (.entry es { e with sections := e.sections ++ [(n, ps)] }) := by
    rw [e_endSection]
    simp only [step, n_endSection, ↓reduceIte]
  rw [steps_append, steps_append]
  simp only [steps, h1, Option.bind]
  rw [steps_entryPairs es e n ps [] h]
  simp only [List.nil_append, h2]

/-- a section of `Global` -/
theorem steps_section (es : List Entry) (gs : List (Text × List (Text × Text))) {n : Text} (hn : ')' ∉ n) (tail : Text) (ps : List (Text × Text)) (h : ∀ p ∈ ps, Plain p.1) :
    steps (.glob es gs) (section_ n tail ps) = some (.glob es (gs ++ [(n, ps)])) := by
  have h1 : step (.glob es gs) (globalSection ++ n ++ closing ++ tail) = some (.globSection es gs n []) := by
    have a2 : globalSection ++ n ++ closing ++ tail = kGlobalSection ++ (n ++ ')' :: tail) := by
      rw [e_globalSection, List.append_assoc, List.append_assoc, e_closing]
    rw [a2]
    simp only [step, n_globalSection, ↓reduceIte, strip_append, until_append hn]
    rfl
  have h2 : step (.globSection es gs n ps) endGlobalSection = some (.glob es (gs ++ [(n, ps)])) := by
    rw [e_endGlobalSection]
    simp only [step, n_endGlobalSection, ↓reduceIte]
  rw [section_, steps_append, steps_append]
  simp only [steps, h1, Option.bind]
  rw [steps_globPairs es gs n ps [] h]
  simp only [List.nil_append, h2]

/-- the first and the last line of a project -/
theorem step_head (es : List Entry) {a b c d : Text} (ha : Plain a) (hb : Plain b) (hc : Plain c) (hd : Plain d) :
    step (.top es) (projectLine a b c d) = some (.entry es ⟨a, b, c, d, []⟩) := by
  have : projectLine a b c d = kProject ++ (a ++ projEq ++ b ++ qsep ++ c ++ qsep ++ d ++ quote) := by
    simp only [projectLine, e_project, List.append_assoc]
  rw [this]
  simp only [step, strip_append, readHead_line ha hb hc hd]
  rfl

theorem step_end (es : List Entry) (e : Entry) : step (.entry es e) endProject = some (.top (es ++ [e])) := by
  rw [e_end]
  simp only [step, ↓reduceIte]

/-- other lines -/
theorem step_other (es : List Entry) {l : Text} (h : ∀ c, l.head? = some c → c ≠ 'P' ∧ c ≠ 'G') : step (.top es) l = some (.top es) := by
  have h1 : strip kProject l = none := by
    rw [show kProject = 'P' :: "roject(\"".toList by rfl]
    cases l with
    | nil => rfl
    | cons c l =>
      have := (h c rfl).1
      simp only [strip, Ne.symm this, ↓reduceIte]
  have h2 : l ≠ kGlobal := by
    intro e
    have := (h 'G' (by rw [e]; rfl)).2
    exact this rfl
  simp only [step, h1, h2, ↓reduceIte]

/-- a project with its sections -/
theorem steps_block (es : List Entry) {a b c d : Text} (ha : Plain a) (hb : Plain b) (hc : Plain c) (hd : Plain d) (secs : List (Text × Text × List (Text × Text)))
    (h : ∀ s ∈ secs, ')' ∉ s.1 ∧ ∀ p ∈ s.2.2, Plain p.1) :
    steps (.top es) ([projectLine a b c d] ++ secs.flatMap (fun s => [projectSection ++ s.1 ++ closing ++ s.2.1] ++ s.2.2.map pairLine ++ [endProjectSection]) ++ [endProject]) =
      some (.top (es ++ [⟨a, b, c, d, secs.map fun s => (s.1, s.2.2)⟩])) := by
  have key : ∀ (secs : List (Text × Text × List (Text × Text))) (e : Entry), (∀ s ∈ secs, ')' ∉ s.1 ∧ ∀ p ∈ s.2.2, Plain p.1) →
      steps (.entry es e) (secs.flatMap fun s => [projectSection ++ s.1 ++ closing ++ s.2.1] ++ s.2.2.map pairLine ++ [endProjectSection]) =
      some (.entry es { e with sections := e.sections ++ secs.map fun s => (s.1, s.2.2) }) := by
    intro secs
    induction secs with
    | nil => intro e _; simp [steps]
    | cons s secs ih =>
      intro e h
      obtain ⟨h1, h2⟩ := h s (by simp)
      rw [List.flatMap_cons, steps_append, steps_entrySection es e h1 _ _ h2]
      simp only [Option.bind]
      rw [ih _ (fun q hq => h q (by simp [hq]))]
      simp
  rw [steps_append, steps_append]
  simp only [steps, step_head es ha hb hc hd, Option.bind]
  rw [key secs _ h]
  simp only [step_end, List.nil_append]

/-! ### lines -/

theorem splitLines_line : ∀ (l cur : Text), (∀ c ∈ l, c ≠ '\r') → ∀ t, splitLines cur (l ++ '\r' :: '\n' :: t) = (splitLines [] t).map ((cur ++ l) :: ·)
  | [], cur, _, t => by simp [splitLines]
  | c :: l, cur, h, t => by
    have hc : c ≠ '\r' := h c (by simp)
    rw [List.cons_append, splitLines]
    · rw [splitLines_line l (cur ++ [c]) (fun d hd => h d (by simp [hd])) t]
      simp
    · intro t' e
      exact fun _ => hc e

theorem splitLines_lines : ∀ (ls : List Text), (∀ l ∈ ls, ∀ c ∈ l, c ≠ '\r') → splitLines [] (ls.flatMap (· ++ ['\r', '\n'])) = some ls
  | [], _ => rfl
  | l :: ls, h => by
    have : (l :: ls).flatMap (· ++ ['\r', '\n']) = l ++ '\r' :: '\n' :: ls.flatMap (· ++ ['\r', '\n']) := by simp
    rw [this, splitLines_line l [] (h l (by simp)), splitLines_lines ls (fun m hm => h m (by simp [hm]))]
    rfl

end Verif.Sln
