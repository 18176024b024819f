import Verif.Compdb.Proof
namespace Verif.Compdb

/-! ### reading what is written -/

theorem ws_nonspace {c : Char} {r : List Char} (h : ¬ (c = ' ' ∨ c = '\n' ∨ c = '\r' ∨ c = '\t')) : ws (c :: r) = c :: r := by
  rw [ws, if_neg h]

theorem ws_quote (r : List Char) : ws ('"' :: r) = '"' :: r := ws_nonspace (by decide)
theorem ws_comma (r : List Char) : ws (',' :: r) = ',' :: r := ws_nonspace (by decide)
theorem ws_colon (r : List Char) : ws (':' :: r) = ':' :: r := ws_nonspace (by decide)
theorem ws_close (r : List Char) : ws (']' :: r) = ']' :: r := ws_nonspace (by decide)
theorem ws_brace (r : List Char) : ws ('}' :: r) = '}' :: r := ws_nonspace (by decide)
theorem ws_open (r : List Char) : ws ('{' :: r) = '{' :: r := ws_nonspace (by decide)
theorem ws_bracket (r : List Char) : ws ('[' :: r) = '[' :: r := ws_nonspace (by decide)
theorem ws_space (r : List Char) : ws (' ' :: r) = ws r := by rw [ws, if_pos (by decide)]
theorem ws_line (r : List Char) : ws ('\n' :: r) = ws r := by rw [ws, if_pos (by decide)]

theorem pval_ws {f : Nat} {s t : List Char} (h : ws s = ws t) : pval f s = pval f t := by
  cases f with
  | zero => simp [pval]
  | succ f => rw [pval, pval, h]

theorem parr_ws {f : Nat} {s t : List Char} (h : ws s = ws t) : parr f s = parr f t := by
  cases f with
  | zero => simp [parr]
  | succ f => rw [parr, parr, pval_ws h]

theorem pobj_ws {f : Nat} {s t : List Char} (h : ws s = ws t) : pobj f s = pobj f t := by
  cases f with
  | zero => simp [pobj]
  | succ f => rw [pobj, pobj, h]

theorem ws_ws (r : List Char) : ws (ws r) = ws r := by
  induction r with
  | nil => rfl
  | cons c r ih =>
    rw [ws]
    split
    · exact ih
    · next hc => exact ws_nonspace hc

theorem pval_arr {f : Nat} {r : List Char} (h : ∀ x, ws r ≠ ']' :: x) : pval (f + 1) ('[' :: r) = match parr f r with
    | some (l, r) => some (J.arr l, r)
    | none => none := by
  rw [pval, ws_bracket]
  show (match ws r with
      | ']' :: r => some (J.arr [], r)
      | r => match parr f r with
        | some (l, r) => some (J.arr l, r)
        | none => none) = _
  split
  · next e => exact absurd e (h _)
  · next t _ =>
    rw [parr_ws (ws_ws r)]

theorem pval_obj {f : Nat} {r : List Char} (h : ∀ x, ws r ≠ '}' :: x) : pval (f + 1) ('{' :: r) = match pobj f r with
    | some (l, r) => some (J.obj l, r)
    | none => none := by
  rw [pval, ws_open]
  show (match ws r with
      | '}' :: r => some (J.obj [], r)
      | r => match pobj f r with
        | some (l, r) => some (J.obj l, r)
        | none => none) = _
  split
  · next e => exact absurd e (h _)
  · next t _ =>
    rw [pobj_ws (ws_ws r)]

/-- a string in quotes -/
def quoted (signed : Bool) (s : Name) (r : List Char) : List Char := '"' :: (esc signed s ++ '"' :: r)

theorem pval_str {signed : Bool} {s : Name} {f : Nat} (r : List Char) (h : Plain signed s) (hf : 0 < f) :
    pval f (quoted signed s r) = some (.str s, r) := by
  obtain ⟨f, rfl⟩ : ∃ k, f = k + 1 := ⟨f - 1, by omega⟩
  rw [pval, quoted, ws_quote]
  simp only [pstr_esc r h]

/-- more strings of an array -/
def tailText (signed : Bool) : List Name → List Char → List Char
  | [], r => ']' :: r
  | a :: l, r => ',' :: ' ' :: quoted signed a (tailText signed l r)

theorem parr_strs {signed : Bool} : ∀ {l : List Name} {a : Name} {f : Nat} (r : List Char), (∀ x ∈ a :: l, Plain signed x) →
    l.length + 2 ≤ f → parr f (quoted signed a (tailText signed l r)) = some ((a :: l).map .str, r)
  | [], a, f, r, h, hf => by
    obtain ⟨f, rfl⟩ : ∃ k, f = k + 2 := ⟨f - 2, by simp at hf; omega⟩
    rw [parr, pval_str _ (h a (by simp)) (by omega)]
    simp only [tailText, ws_close]
    rfl
  | b :: l, a, f, r, h, hf => by
    simp only [List.length_cons] at hf
    obtain ⟨f, rfl⟩ : ∃ k, f = k + 2 := ⟨f - 2, by omega⟩
    have ih := parr_strs (l := l) (a := b) (f := f + 1) r (fun x hx => h x (by simp at hx ⊢; exact .inr hx)) (by omega)
    rw [parr, pval_str _ (h a (by simp)) (by omega)]
    simp only [tailText, ws_comma]
    rw [parr_ws (ws_space _), ih]
    rfl

theorem pval_strs {signed : Bool} {l : List Name} {a : Name} {f : Nat} (r : List Char) (h : ∀ x ∈ a :: l, Plain signed x)
    (hf : l.length + 3 ≤ f) : pval f ('[' :: quoted signed a (tailText signed l r)) = some (.arr ((a :: l).map .str), r) := by
  obtain ⟨f, rfl⟩ : ∃ k, f = k + 1 := ⟨f - 1, by omega⟩
  rw [pval_arr (fun x => by rw [quoted, ws_quote]; simp), parr_strs r h (by omega)]

/-- a member of an object: its name, a colon and its value -/
def memberText (k : List Char) (v : List Char) : List Char := '"' :: (k ++ '"' :: ':' :: ' ' :: v)

def KeyOK (k : List Char) : Prop := ∀ c ∈ k, 32 ≤ c.toNat ∧ c ≠ '"' ∧ c ≠ '\\'

theorem pobj_more {k v r : List Char} {x : J} {f : Nat} (hk : KeyOK k) (hv : pval f v = some (x, ',' :: '\n' :: ' ' :: ' ' :: ' ' :: ' ' :: r)) :
    pobj (f + 1) (memberText k v) = match pobj f r with
      | some (l, r) => some ((k, x) :: l, r)
      | none => none := by
  rw [pobj, memberText, ws_quote]
  simp only [pstr_key _ hk, ws_colon]
  rw [pval_ws (ws_space v), hv]
  simp only [ws_comma]
  rw [pobj_ws (show ws ('\n' :: ' ' :: ' ' :: ' ' :: ' ' :: r) = ws r by rw [ws_line, ws_space, ws_space, ws_space, ws_space])]
  cases pobj f r <;> rfl

theorem pobj_last {k v r : List Char} {x : J} {f : Nat} (hk : KeyOK k) (hv : pval f v = some (x, '\n' :: ' ' :: ' ' :: '}' :: r)) :
    pobj (f + 1) (memberText k v) = some ([(k, x)], r) := by
  rw [pobj, memberText, ws_quote]
  simp only [pstr_key _ hk, ws_colon]
  rw [pval_ws (ws_space v), hv]
  simp only [ws_line, ws_space, ws_brace]

/-! ### entries -/

/-- an entry without the comma behind it -/
def body (signed : Bool) (wd : Name) (e : Entry) (r : List Char) : List Char :=
  match e.arguments with
  | [] => []
  | c :: as =>
  ' ' :: ' ' :: '{' :: '\n' :: ' ' :: ' ' :: ' ' :: ' ' :: memberText "directory".toList (quoted signed wd (',' :: '\n' :: ' ' :: ' ' :: ' ' :: ' ' ::
    memberText "file".toList (quoted signed e.file (',' :: '\n' :: ' ' :: ' ' :: ' ' :: ' ' ::
      memberText "output".toList (quoted signed e.output (',' :: '\n' :: ' ' :: ' ' :: ' ' :: ' ' ::
        memberText "arguments".toList ('[' :: quoted signed c (tailText signed as ('\n' :: ' ' :: ' ' :: '}' :: r)))))))))

structure EntryOK (signed : Bool) (e : Entry) : Prop where
  file : Plain signed e.file
  output : Plain signed e.output
  args : ∀ a ∈ e.arguments, Plain signed a
  some : e.arguments ≠ []

instance (k : List Char) : Decidable (KeyOK k) := by unfold KeyOK; infer_instance

theorem pval_body {signed : Bool} {wd : Name} {e : Entry} {f : Nat} (r : List Char) (hw : Plain signed wd) (he : EntryOK signed e)
    (hf : e.arguments.length + 7 ≤ f) : pval f (body signed wd e r) = some (e.json wd, r) := by
  obtain ⟨file, output, arguments⟩ := e
  cases arguments with
  | nil => exact absurd rfl he.some
  | cons c as =>
    simp only [List.length_cons] at hf
    obtain ⟨f, rfl⟩ : ∃ k, f = k + 5 := ⟨f - 5, by omega⟩
    simp only [body]
    have h1 := pobj_last (k := "arguments".toList) (f := f) (by decide +kernel)
      (pval_strs (signed := signed) (a := c) (l := as) (f := f) ('\n' :: ' ' :: ' ' :: '}' :: r) he.args (by omega))
    have h2 := pobj_more (k := "output".toList) (f := f + 1) (by decide +kernel)
      (pval_str (signed := signed) (s := output) (',' :: '\n' :: ' ' :: ' ' :: ' ' :: ' ' ::
        memberText "arguments".toList ('[' :: quoted signed c (tailText signed as ('\n' :: ' ' :: ' ' :: '}' :: r)))) he.output (by omega))
    rw [h1] at h2
    have h3 := pobj_more (k := "file".toList) (f := f + 2) (by decide +kernel)
      (pval_str (signed := signed) (s := file) (',' :: '\n' :: ' ' :: ' ' :: ' ' :: ' ' ::
        memberText "output".toList (quoted signed output (',' :: '\n' :: ' ' :: ' ' :: ' ' :: ' ' ::
        memberText "arguments".toList ('[' :: quoted signed c (tailText signed as ('\n' :: ' ' :: ' ' :: '}' :: r)))))) he.file (by omega))
    rw [h2] at h3
    have h4 := pobj_more (k := "directory".toList) (f := f + 3) (by decide +kernel)
      (pval_str (signed := signed) (s := wd) (',' :: '\n' :: ' ' :: ' ' :: ' ' :: ' ' ::
        memberText "file".toList (quoted signed file (',' :: '\n' :: ' ' :: ' ' :: ' ' :: ' ' ::
        memberText "output".toList (quoted signed output (',' :: '\n' :: ' ' :: ' ' :: ' ' :: ' ' ::
        memberText "arguments".toList ('[' :: quoted signed c (tailText signed as ('\n' :: ' ' :: ' ' :: '}' :: r)))))))) hw (by omega))
    rw [h3] at h4
    have h4 : pobj (f + 4) _ = _ := h4
    rw [pval_ws (ws_space _), pval_ws (ws_space _), pval_obj (fun x => by
      simp only [ws_line, ws_space, memberText, ws_quote]; simp), pobj_ws (ws_line _), pobj_ws (ws_space _), pobj_ws (ws_space _),
      pobj_ws (ws_space _), pobj_ws (ws_space _), h4]
    rfl

/-- all entries, each but the last with a comma -/
def entriesText (signed : Bool) (wd : Name) : List Entry → List Char → List Char
  | [], r => r
  | [e], r => body signed wd e ('\n' :: r)
  | e :: l, r => body signed wd e (',' :: '\n' :: entriesText signed wd l r)

theorem tailText_length (signed : Bool) (r : List Char) : ∀ l : List Name, l.length + r.length + 1 ≤ (tailText signed l r).length
  | [] => by simp [tailText]
  | a :: l => by have := tailText_length signed r l; simp [tailText, quoted]; omega

theorem body_length {signed : Bool} {wd : Name} {e : Entry} (r : List Char) (h : e.arguments ≠ []) :
    e.arguments.length + 20 + r.length ≤ (body signed wd e r).length := by
  obtain ⟨file, output, arguments⟩ := e
  cases arguments with
  | nil => exact absurd rfl h
  | cons c as =>
    have := tailText_length signed ('\n' :: ' ' :: ' ' :: '}' :: r) as
    simp only [List.length_cons] at this
    simp only [body, memberText, quoted, List.length_cons, List.length_append]
    omega

theorem parr_entries {signed : Bool} {wd : Name} (hw : Plain signed wd) : ∀ {l : List Entry} {e : Entry} {f : Nat} (r : List Char),
    (∀ x ∈ e :: l, EntryOK signed x) → (entriesText signed wd (e :: l) (']' :: r)).length ≤ f →
    parr f (entriesText signed wd (e :: l) (']' :: r)) = some ((e :: l).map (·.json wd), r)
  | [], e, f, r, h, hf => by
    have he := h e (by simp)
    have hl := body_length (signed := signed) (wd := wd) (e := e) ('\n' :: ']' :: r) he.some
    simp only [entriesText] at hf ⊢
    obtain ⟨f, rfl⟩ : ∃ k, f = k + 1 := ⟨f - 1, by omega⟩
    rw [parr, pval_body _ hw he (by omega)]
    simp only [ws_line, ws_close]
    rfl
  | e' :: l, e, f, r, h, hf => by
    have he := h e (by simp)
    have hl := body_length (signed := signed) (wd := wd) (e := e) (',' :: '\n' :: entriesText signed wd (e' :: l) (']' :: r)) he.some
    simp only [entriesText, List.length_cons] at hf hl ⊢
    obtain ⟨f, rfl⟩ : ∃ k, f = k + 1 := ⟨f - 1, by omega⟩
    have ih := parr_entries hw (l := l) (e := e') (f := f) r (fun x hx => h x (by simp at hx ⊢; exact .inr hx)) (by omega)
    rw [parr, pval_body _ hw he (by omega)]
    simp only [ws_comma]
    rw [parr_ws (ws_line _), ih]
    rfl

/-- the whole text -/
theorem parse_entries {signed : Bool} {wd : Name} {l : List Entry} (hw : Plain signed wd) (h : ∀ e ∈ l, EntryOK signed e) :
    parse ('[' :: '\n' :: entriesText signed wd l (']' :: '\n' :: [])) = some (.arr (l.map (·.json wd))) := by
  cases l with
  | nil => simp [entriesText, parse, pval, ws]
  | cons e l =>
    have hp := parr_entries hw (l := l) (e := e) (f := ('[' :: '\n' :: entriesText signed wd (e :: l) (']' :: '\n' :: [])).length) ['\n'] h (by simp; omega)
    have hws : ∀ t, ∃ x, ws (entriesText signed wd (e :: l) t) = '{' :: x := by
      intro t
      have hb : ∀ r, ∃ x, ws (body signed wd e r) = '{' :: x := by
        intro r
        have := (h e (by simp)).some
        unfold body
        split
        · contradiction
        · exact ⟨_, by rw [ws_space, ws_space, ws_open]⟩
      cases l with
      | nil => exact hb _
      | cons e' l => exact hb _
    obtain ⟨x, hx⟩ := hws (']' :: '\n' :: [])
    unfold parse
    rw [pval_arr (fun y => by rw [ws_line, hx]; simp), parr_ws (ws_line _), hp]
    simp [ws]

end Verif.Compdb
