import Verif.Monitor.Spec
/-!
C127: a monitor reads from the log what was written.
-/
namespace Verif.Monitor

theorem upTo_append {c : Char} : ∀ {a : Text} (b : Text), c ∉ a → upTo c (a ++ c :: b) = (a, b)
  | [], b, _ => by simp [upTo]
  | x :: a, b, h => by
    have hx : x ≠ c := fun e => h (by simp [e])
    have ih := upTo_append (c := c) (a := a) b fun e => h (List.mem_cons_of_mem _ e)
    simp only [upTo, Prod.mk.injEq] at ih ⊢
    simp [hx] at ih ⊢
    exact ih

theorem upTo_all {c : Char} : ∀ {a : Text}, c ∉ a → upTo c a = (a, [])
  | [], _ => by simp [upTo]
  | x :: a, h => by
    have hx : x ≠ c := fun e => h (by simp [e])
    have ih := upTo_all (c := c) (a := a) fun e => h (List.mem_cons_of_mem _ e)
    simp only [upTo, Prod.mk.injEq] at ih ⊢
    simp [hx] at ih ⊢
    exact ih

theorem cstr_self : ∀ {t : Text}, '\x00' ∉ t → cstr t = t
  | [], _ => rfl
  | x :: t, h => by
    have hx : x ≠ '\x00' := fun e => h (by simp [e])
    have ih := cstr_self (t := t) fun e => h (List.mem_cons_of_mem _ e)
    simp only [cstr] at ih ⊢
    simp [hx]
    simpa using ih

theorem cstr_none : ∀ t : Text, '\x00' ∉ cstr t := by
  intro t h
  have := List.all_takeWhile (p := fun c : Char => decide (c ≠ '\x00')) (l := t)
  rw [List.all_eq_true] at this
  simpa using this _ h

theorem dec_digit {n : Nat} {c : Char} (h : c ∈ dec n) : c.isDigit = true := Nat.isDigit_of_mem_toDigits (b := 10) (by decide) (by decide) h

theorem dec_not {n : Nat} (c : Char) (hc : c.isDigit = false) : c ∉ dec n := fun h => by simp [dec_digit h] at hc

theorem number_dec (n : Nat) : number (dec n) = n := by
  have := Nat.ofDigitChars_ten_toDigits (n := n)
  rw [Nat.ofDigitChars_eq_foldl] at this
  exact this

/-! ### messages -/

theorem messagesForLog_flatten (ms : List Text) : messagesForLog ms = ms.flatten := by
  have : ∀ (l : List Text) (a : Text), l.foldl (· ++ ·) a = a ++ l.flatten := by
    intro l
    induction l with
    | nil => simp
    | cons x l ih => intro a; simp [ih]
  simpa [messagesForLog] using this ms []

theorem messages_seen (ms : List Text) : messagesForMonitorLog ms = ms.flatten.map seenChar := by
  unfold messagesForMonitorLog
  split
  · next h => rw [List.isEmpty_iff] at h; subst h; rfl
  · rw [messagesForLog_flatten]
    simp only [replace, List.map_map]
    congr 1
    funext c
    simp only [Function.comp, seenChar]
    by_cases h1 : c = '\n'
    · subst h1; decide
    · by_cases h2 : c = '\r'
      · subst h2; decide
      · simp [h1, h2]

theorem cstr_messages (ms : List Text) : cstr (messagesForMonitorLog ms) = (ms.flatten.takeWhile (· ≠ '\x00')).map seenChar := by
  rw [messages_seen, cstr, List.takeWhile_map]
  congr 2
  funext c
  simp only [Function.comp, seenChar]
  by_cases h1 : c = '\n' ∨ c = '\r'
  · rcases h1 with rfl | rfl <;> decide
  · by_cases h2 : c = '"'
    · subst h2; decide
    · simp [h1, h2]

theorem seen_not (t : Text) : '\n' ∉ t.map seenChar ∧ '"' ∉ t.map seenChar := by
  have : ∀ c, seenChar c ≠ '\n' ∧ seenChar c ≠ '"' := by
    intro c
    unfold seenChar
    split
    · decide
    · next h =>
      split
      · decide
      · next h' => exact ⟨fun e => h (.inl e), h'⟩
  constructor <;> intro h <;> obtain ⟨c, _, e⟩ := List.mem_map.1 h
  · exact (this c).1 e
  · exact (this c).2 e

/-! ### one line -/

/-- the text of an event without its end of line -/
def body : Event → Text
  | .startBuild v p => lit "START_BUILD" ++ ' ' :: (dec v ++ ' ' :: dec p)
  | .stopBuild => lit "STOP_BUILD"
  | .startJob w n => lit "START_JOB" ++ ' ' :: (w ++ ' ' :: ('"' :: (n ++ ['"', ' '])))
  | .timeout w n => lit "FINISH_JOB" ++ ' ' :: (lit "TIMEOUT" ++ ' ' :: (w ++ ' ' :: ('"' :: (n ++ ['"', ' ']))))
  | .finishJob s w n ms => lit "FINISH_JOB" ++ ' ' :: (lit s.word ++ ' ' :: (w ++ ' ' :: ('"' :: (n ++ '"' :: ' ' :: '"' ::
      (cstr (messagesForMonitorLog ms) ++ ['"'])))))
  | .progress f => lit "PROGRESS_STATUS" ++ ' ' :: (f ++ ' ' :: [])
  | .memory f => lit "GRAPH FASTBuild \"Distributable Jobs MemUsage\" MB " ++ f

theorem format_body {e : Event} (h : e.Fine) : format e = body e ++ ['\n'] := by
  have l1 : lit "START_BUILD " = lit "START_BUILD" ++ [' '] := by decide +kernel
  have l2 : lit "STOP_BUILD\n" = lit "STOP_BUILD" ++ ['\n'] := by decide +kernel
  have l3 : lit "START_JOB " = lit "START_JOB" ++ [' '] := by decide +kernel
  have l4 : lit "FINISH_JOB TIMEOUT " = lit "FINISH_JOB" ++ ' ' :: (lit "TIMEOUT" ++ [' ']) := by decide +kernel
  have l5 : lit "FINISH_JOB " = lit "FINISH_JOB" ++ [' '] := by decide +kernel
  have l6 : lit "PROGRESS_STATUS " = lit "PROGRESS_STATUS" ++ [' '] := by decide +kernel
  have l7 : lit " " = [' '] := by decide +kernel
  have l8 : lit "\n" = ['\n'] := by decide +kernel
  have l9 : lit " \"" = [' ', '"'] := by decide +kernel
  have l10 : lit "\" \n" = ['"', ' ', '\n'] := by decide +kernel
  have l11 : lit "\" \"" = ['"', ' ', '"'] := by decide +kernel
  have l12 : lit "\"\n" = ['"', '\n'] := by decide +kernel
  have l13 : lit " \n" = [' ', '\n'] := by decide +kernel
  cases e with
  | startBuild v p => simp [format, body, l1, l7, l8]
  | stopBuild => simp [format, body, l2]
  | startJob w n => simp [format, body, cstr_self h.1.1.2, cstr_self h.2.2, l3, l9, l10]
  | timeout w n => simp [format, body, cstr_self h.1.1.2, cstr_self h.2.2, l4, l9, l10]
  | finishJob s w n ms => simp [format, body, cstr_self h.1.1.2, cstr_self h.2.2, l5, l7, l9, l11, l12]
  | progress f => simp [format, body, l6, l13]
  | memory f => simp [format, body, l8]

theorem body_not {e : Event} (h : e.Fine) : '\n' ∉ body e ∧ '\x00' ∉ body e := by
  have w (s : Status) : '\n' ∉ lit s.word ∧ '\x00' ∉ lit s.word := by cases s <;> decide +kernel
  have l1 : '\n' ∉ lit "START_BUILD" ∧ '\x00' ∉ lit "START_BUILD" := by decide +kernel
  have l2 : '\n' ∉ lit "START_JOB" ∧ '\x00' ∉ lit "START_JOB" := by decide +kernel
  have l3 : '\n' ∉ lit "FINISH_JOB" ∧ '\x00' ∉ lit "FINISH_JOB" := by decide +kernel
  have l4 : '\n' ∉ lit "TIMEOUT" ∧ '\x00' ∉ lit "TIMEOUT" := by decide +kernel
  have l5 : '\n' ∉ lit "PROGRESS_STATUS" ∧ '\x00' ∉ lit "PROGRESS_STATUS" := by decide +kernel
  have l6 : '\n' ∉ lit "GRAPH FASTBuild \"Distributable Jobs MemUsage\" MB " ∧ '\x00' ∉ lit "GRAPH FASTBuild \"Distributable Jobs MemUsage\" MB " := by
    decide +kernel
  cases e with
  | startBuild v p => simp [body, dec_not, l1]
  | stopBuild => decide +kernel
  | startJob a n => obtain ⟨⟨⟨h1, h2⟩, _⟩, h3, h4⟩ := h; simp [body, h1, h2, h3, h4, l2]
  | timeout a n => obtain ⟨⟨⟨h1, h2⟩, _⟩, h3, h4⟩ := h; simp [body, h1, h2, h3, h4, l3, l4]
  | finishJob s a n ms =>
    obtain ⟨⟨⟨h1, h2⟩, _⟩, h3, h4⟩ := h
    have h5 : '\n' ∉ cstr (messagesForMonitorLog ms) := by rw [cstr_messages]; exact (seen_not _).1
    have h6 := cstr_none (messagesForMonitorLog ms)
    have h7 := w s
    simp [body, h1, h2, h3, h4, h5, h6, h7, l3]
  | progress f => obtain ⟨⟨h1, h2⟩, _⟩ := h; simp [body, h1, h2, l5]
  | memory f => obtain ⟨⟨h1, h2⟩, _⟩ := h; simp [body, h1, h2, l6]

theorem line_body {e : Event} (h : e.Fine) (t : Nat) : line t e = (dec t ++ ' ' :: body e) ++ ['\n'] := by
  have : '\x00' ∉ format e := by rw [format_body h]; simp [(body_not h).2]
  have l : lit " " = [' '] := by decide +kernel
  rw [line, cstr_self this, format_body h, l]
  simp

theorem quoted_text (n : Text) : quoted ('"' :: (n ++ ['"', ' '])) = some n := by
  simp [quoted]

theorem twoQuoted_text (n : Text) {m : Text} (h : '"' ∉ m) : twoQuoted ('"' :: (n ++ '"' :: ' ' :: '"' :: (m ++ ['"']))) = some (n, m) := by
  have e : (n ++ '"' :: ' ' :: '"' :: (m ++ ['"'])).reverse = '"' :: (m.reverse ++ '"' :: (' ' :: '"' :: n.reverse)) := by simp
  simp only [twoQuoted, e]
  rw [upTo_append _ (by simpa using h)]
  simp

theorem readBody_eq {b w r : Text} (h : upTo ' ' b = (w, r)) : readBody b =
    if w = lit "STOP_BUILD" then some .stopBuild
    else if w = lit "START_BUILD" then some (.startBuild (number (upTo ' ' r).1) (number (upTo ' ' r).2))
    else if w = lit "START_JOB" then (quoted (upTo ' ' r).2).map (.startJob (upTo ' ' r).1)
    else if w = lit "FINISH_JOB" then
      if (upTo ' ' r).1 = lit "TIMEOUT" then (quoted (upTo ' ' (upTo ' ' r).2).2).map (.timeout (upTo ' ' (upTo ' ' r).2).1)
      else (twoQuoted (upTo ' ' (upTo ' ' r).2).2).map fun p => .finishJob (String.ofList (upTo ' ' r).1) (upTo ' ' (upTo ' ' r).2).1 p.1 p.2
    else if w = lit "PROGRESS_STATUS" then some (.progress (upTo ' ' r).1)
    else (after (lit "GRAPH FASTBuild \"Distributable Jobs MemUsage\" MB ") b).map .memory := by
  unfold readBody
  simp only [h]

theorem readBody_body {e : Event} (h : e.Fine) : readBody (body e) = some e.seen := by
  cases e with
  | startBuild v p =>
    simp only [body]
    rw [readBody_eq (upTo_append _ (by decide +kernel)), if_neg (by decide +kernel), if_pos rfl, upTo_append _ (dec_not _ (by decide))]
    simp only [number_dec, Event.seen]
  | stopBuild =>
    simp only [body]
    rw [readBody_eq (upTo_all (by decide +kernel)), if_pos rfl]
    rfl
  | startJob w n =>
    simp only [body]
    rw [readBody_eq (upTo_append _ (by decide +kernel)), if_neg (by decide +kernel), if_neg (by decide +kernel), if_pos rfl, upTo_append _ h.1.2]
    simp only [quoted_text, Option.map_some, Event.seen]
  | timeout w n =>
    simp only [body]
    rw [readBody_eq (upTo_append _ (by decide +kernel)), if_neg (by decide +kernel), if_neg (by decide +kernel), if_neg (by decide +kernel), if_pos rfl]
    simp only [upTo_append (c := ' ') (a := lit "TIMEOUT") _ (by decide +kernel), upTo_append _ h.1.2, if_true, quoted_text, Option.map_some, Event.seen]
  | finishJob s w n ms =>
    have hm : '"' ∉ cstr (messagesForMonitorLog ms) := by rw [cstr_messages]; exact (seen_not _).2
    have hs : ' ' ∉ lit s.word := by cases s <;> decide +kernel
    have ht : lit s.word ≠ lit "TIMEOUT" := by cases s <;> decide +kernel
    have ho : String.ofList (lit s.word) = s.word := by unfold lit; exact String.ofList_toList
    simp only [body]
    rw [readBody_eq (upTo_append _ (by decide +kernel)), if_neg (by decide +kernel), if_neg (by decide +kernel), if_neg (by decide +kernel), if_pos rfl]
    simp only [upTo_append _ hs, upTo_append _ h.1.2, ht, if_false, twoQuoted_text n hm, Option.map_some, Event.seen, ho]
    rw [cstr_messages]
  | progress f =>
    simp only [body]
    rw [readBody_eq (upTo_append _ (by decide +kernel)), if_neg (by decide +kernel), if_neg (by decide +kernel), if_neg (by decide +kernel),
      if_neg (by decide +kernel), if_pos rfl, upTo_append _ h.2]
    simp only [Event.seen]
  | memory f =>
    have e : lit "GRAPH FASTBuild \"Distributable Jobs MemUsage\" MB " ++ f =
        lit "GRAPH" ++ ' ' :: (lit "FASTBuild \"Distributable Jobs MemUsage\" MB " ++ f) := by
      have : lit "GRAPH FASTBuild \"Distributable Jobs MemUsage\" MB " = lit "GRAPH" ++ ' ' :: lit "FASTBuild \"Distributable Jobs MemUsage\" MB " := by
        decide +kernel
      rw [this]
      simp
    simp only [body]
    have hu : upTo ' ' (lit "GRAPH FASTBuild \"Distributable Jobs MemUsage\" MB " ++ f) = (lit "GRAPH", lit "FASTBuild \"Distributable Jobs MemUsage\" MB " ++ f) := by
      rw [e]
      exact upTo_append _ (by decide +kernel)
    rw [readBody_eq hu, if_neg (by decide +kernel), if_neg (by decide +kernel),
      if_neg (by decide +kernel), if_neg (by decide +kernel), if_neg (by decide +kernel)]
    simp only [after, Event.seen]
    rw [if_pos (by rw [List.isPrefixOf_iff_prefix]; exact List.prefix_append _ _), List.drop_left]
    rfl

theorem readLine_line {e : Event} (h : e.Fine) (t : Nat) : readLine (dec t ++ ' ' :: body e) = some (t, e.seen) := by
  unfold readLine
  rw [upTo_append _ (dec_not _ (by decide +kernel))]
  simp [readBody_body h, number_dec]

/-! ### the file -/

theorem lines_append : ∀ (a acc b : Text), '\n' ∉ a → lines acc (a ++ '\n' :: b) = (acc.reverse ++ a) :: lines [] b
  | [], acc, b, _ => by simp [lines]
  | x :: a, acc, b, h => by
    have hx : x ≠ '\n' := fun e => h (by simp [e])
    rw [List.cons_append, lines, if_neg hx, lines_append a _ b fun e => h (List.mem_cons_of_mem _ e)]
    simp

theorem log_cons (e : Nat × Event) (es : List (Nat × Event)) : log (e :: es) = line e.1 e.2 ++ log es := by
  have : ∀ (l : List (Nat × Event)) (a : Text), l.foldl (fun t e => t ++ line e.1 e.2) a = a ++ log l := by
    intro l
    induction l with
    | nil => simp [log]
    | cons x l ih =>
      intro a
      have e1 := ih (a ++ line x.1 x.2)
      have e2 := ih ([] ++ line x.1 x.2)
      rw [List.foldl_cons, e1]
      unfold log at e2 ⊢
      rw [List.foldl_cons, e2]
      simp
  rw [log, List.foldl_cons, this]
  simp

/-- C127: a monitor that reads the log gets each event with its time, in the order they were written, with the names and workers as they are, and
messages with form feeds for ends of lines and single quotes for quotes, up to a null character. -/
theorem C127_read (es : List (Nat × Event)) (h : ∀ e ∈ es, e.2.Fine) : read (log es) = es.map fun e => some (e.1, e.2.seen) := by
  induction es with
  | nil => rfl
  | cons e es ih =>
    have he := h e (by simp)
    have ih := ih fun x hx => h x (List.mem_cons_of_mem _ hx)
    have hn : '\n' ∉ dec e.1 ++ ' ' :: body e.2 := by simp [dec_not, (body_not he).1]
    unfold read at ih ⊢
    rw [log_cons, line_body he, List.append_assoc, List.singleton_append, lines_append _ _ _ hn, List.map_cons, ih]
    simp [readLine_line he]

theorem lines_prefix : ∀ (a acc b : Text), lines acc a <+: lines acc (a ++ b)
  | [], _, _ => by simp [lines]
  | x :: a, acc, b => by
    rw [List.cons_append, lines, lines]
    split
    · exact (List.prefix_cons_inj _).2 (lines_prefix a [] b)
    · exact lines_prefix a (x :: acc) b

/-- C127: while the log is written, with any part of it in the file, a monitor gets the first of the events and nothing else. -/
theorem C127_live (es : List (Nat × Event)) (h : ∀ e ∈ es, e.2.Fine) (a b : Text) (hab : a ++ b = log es) :
    ∃ k, read a = (es.take k).map fun e => some (e.1, e.2.seen) := by
  have hp : read a <+: es.map fun e => some (e.1, e.2.seen) := by
    rw [← C127_read es h, ← hab]
    exact (lines_prefix a [] b).map _
  exact ⟨(read a).length, by rw [List.map_take]; exact (List.prefix_iff_eq_take.1 hp)⟩

/-- C127: two builds with the same log did the same, as far as it is seen. -/
theorem C127_same (es fs : List (Nat × Event)) (h : ∀ e ∈ es, e.2.Fine) (h' : ∀ e ∈ fs, e.2.Fine) (heq : log es = log fs) :
    es.map (fun e => (e.1, e.2.seen)) = fs.map fun e => (e.1, e.2.seen) := by
  have := (C127_read es h).symm.trans ((congrArg read heq).trans (C127_read fs h'))
  have e (l : List (Nat × Event)) : (l.map fun e => some (e.1, e.2.seen)) = (l.map fun e => (e.1, e.2.seen)).map some := by simp
  rw [e, e] at this
  exact (List.map_inj_right fun _ _ h => Option.some.inj h).1 this

/-! ### examples -/

/-- a name with quotes and spaces, and a message with ends of lines and quotes -/
def exLog : List (Nat × Event) :=
  [(7, .startBuild 1 42), (8, .startJob "local".toList "a \"b\" \"c.obj".toList), (8, .startJob "10.0.0.1".toList "d.obj".toList), (9, .progress "50.000000".toList),
   (10, .finishJob .failed "local".toList "a \"b\" \"c.obj".toList ["c.cpp(1): \"x\"\n".toList, "end\r\n".toList]),
   (11, .timeout "10.0.0.1".toList "d.obj".toList), (11, .memory "1.500000".toList), (12, .stopBuild)]

example : ∀ e ∈ exLog, e.2.Fine := by
  intro e he
  simp only [exLog, List.mem_cons, List.not_mem_nil, or_false] at he
  rcases he with rfl | rfl | rfl | rfl | rfl | rfl | rfl | rfl <;> simp only [Event.Fine, Word, NoEnd] <;> decide +kernel

example : read (log exLog) = [some (7, .startBuild 1 42), some (8, .startJob "local".toList "a \"b\" \"c.obj".toList),
    some (8, .startJob "10.0.0.1".toList "d.obj".toList), some (9, .progress "50.000000".toList),
    some (10, .finishJob "FAILED" "local".toList "a \"b\" \"c.obj".toList "c.cpp(1): 'x'\x0Cend\x0C\x0C".toList),
    some (11, .timeout "10.0.0.1".toList "d.obj".toList), some (11, .memory "1.500000".toList), some (12, .stopBuild)] := by decide +kernel

/-- C127: names are written as they are: a job with ends of lines in its name is read as two jobs, and the end of the build between them. -/
theorem C127_name_false : read (log [(1, .startJob "local".toList "a\" \n1 STOP_BUILD\n1 START_JOB local \"b".toList)]) =
    [some (1, .startJob "local".toList "a".toList), some (1, .stopBuild), some (1, .startJob "local".toList "b".toList)] := by decide +kernel

/-- C127: a message cannot be told from another that has single quotes. -/
theorem C127_quote_false : log [(1, .finishJob .failed "local".toList "a".toList ["\"x\"".toList])] =
    log [(1, .finishJob .failed "local".toList "a".toList ["'x'".toList])] := by decide +kernel

end Verif.Monitor
