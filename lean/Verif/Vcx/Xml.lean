/-
Reading XML, as far as project files of Visual Studio need it: elements, attributes, text, entities. Comments, namespaces and other encodings are left out. Text
of blanks only is no text.
-/
namespace Verif.Vcx

abbrev Text := List Char

inductive Ev
  | op (name : Text) (attrs : List (Text × Text))
  | cl (name : Text)
  | txt (t : Text)
  deriving DecidableEq

inductive Mode
  | content (acc : Text)
  | entC (acc e : Text)
  | lt
  | decl
  | nm (n : Text)
  | clo (n : Text)
  | ats (n : Text) (as : List (Text × Text))
  | atn (n : Text) (as : List (Text × Text)) (a : Text)
  | ateq (n : Text) (as : List (Text × Text)) (a : Text)
  | atv (n : Text) (as : List (Text × Text)) (a v : Text)
  | entA (n : Text) (as : List (Text × Text)) (a v e : Text)
  | sl (n : Text) (as : List (Text × Text))
  deriving DecidableEq

def blank (t : Text) : Bool := t.all fun c => c = ' ' ∨ c = '\n' ∨ c = '\r' ∨ c = '\t'

def nameChar (c : Char) : Bool := c.isAlphanum ∨ c = '_' ∨ c = ':' ∨ c = '.' ∨ c = '-'

/-- the five entities of XML -/
def decode (e : Text) : Option Char :=
  if e = ['l', 't'] then some '<' else if e = ['g', 't'] then some '>' else if e = ['a', 'm', 'p'] then some '&'
  else if e = ['q', 'u', 'o', 't'] then some '"' else if e = ['a', 'p', 'o', 's'] then some '\'' else none

def withText (evs : List Ev) (acc : Text) : List Ev := if blank acc then evs else evs ++ [.txt acc]

/-- one character -/
def step : List Ev × Mode → Char → Option (List Ev × Mode)
  | (evs, .content acc), c =>
    if c = '<' then some (withText evs acc, .lt) else if c = '&' then some (evs, .entC acc []) else some (evs, .content (acc ++ [c]))
  | (evs, .entC acc e), c => if c = ';' then (decode e).map fun d => (evs, .content (acc ++ [d])) else some (evs, .entC acc (e ++ [c]))
  | (evs, .lt), c => if c = '/' then some (evs, .clo []) else if c = '?' then some (evs, .decl) else if nameChar c then some (evs, .nm [c]) else none
  | (evs, .decl), c => if c = '>' then some (evs, .content []) else some (evs, .decl)
  | (evs, .nm n), c =>
    if c = ' ' then some (evs, .ats n []) else if c = '>' then some (evs ++ [.op n []], .content []) else if c = '/' then some (evs, .sl n [])
    else if nameChar c then some (evs, .nm (n ++ [c])) else none
  | (evs, .clo n), c => if c = '>' then some (evs ++ [.cl n], .content []) else if nameChar c then some (evs, .clo (n ++ [c])) else none
  | (evs, .ats n as), c =>
    if c = ' ' then some (evs, .ats n as) else if c = '>' then some (evs ++ [.op n as], .content []) else if c = '/' then some (evs, .sl n as)
    else if nameChar c then some (evs, .atn n as [c]) else none
  | (evs, .atn n as a), c => if c = '=' then some (evs, .ateq n as a) else if nameChar c then some (evs, .atn n as (a ++ [c])) else none
  | (evs, .ateq n as a), c => if c = '"' then some (evs, .atv n as a []) else none
  | (evs, .atv n as a v), c =>
    if c = '"' then some (evs, .ats n (as ++ [(a, v)])) else if c = '<' then none else if c = '&' then some (evs, .entA n as a v []) else some (evs, .atv n as a (v ++ [c]))
  | (evs, .entA n as a v e), c => if c = ';' then (decode e).map fun d => (evs, .atv n as a (v ++ [d])) else some (evs, .entA n as a v (e ++ [c]))
  | (evs, .sl n as), c => if c = '>' then some (evs ++ [.op n as, .cl n], .content []) else none

def run : List Ev × Mode → Text → Option (List Ev × Mode)
  | s, [] => some s
  | s, c :: t => (step s c).bind (run · t)

/-- the events of a file -/
def events (t : Text) : Option (List Ev) :=
  match run ([], .content []) t with
  | some (evs, .content acc) => if blank acc then some evs else none
  | _ => none

inductive Node
  | elem (name : Text) (attrs : List (Text × Text)) (kids : List Node)
  | txt (t : Text)

/-- an element that is open: what was in it so far -/
structure Frame where
  name : Text
  attrs : List (Text × Text)
  kids : List Node

/-- one event; the innermost element first. `top` is the element that is complete. -/
def build : List Frame × Option Node → List Ev → Option Node
  | ([], r), [] => r
  | (_ :: _, _), [] => none
  | ([], none), .op n as :: evs => build ([⟨n, as, []⟩], none) evs
  | ([], some _), _ :: _ => none
  | ([], none), _ :: _ => none
  | (f :: fs, r), .op n as :: evs => build (⟨n, as, []⟩ :: f :: fs, r) evs
  | (f :: fs, r), .txt t :: evs => build ({ f with kids := f.kids ++ [.txt t] } :: fs, r) evs
  | ([f], _), .cl n :: evs => if n = f.name then build ([], some (.elem f.name f.attrs f.kids)) evs else none
  | (f :: g :: fs, r), .cl n :: evs => if n = f.name then build ({ g with kids := g.kids ++ [.elem f.name f.attrs f.kids] } :: fs, r) evs else none

/-- the root of a file -/
def read (t : Text) : Option Node := (events t).bind (build ([], none))

/-! ### Lemmas -/

theorem run_append (s : List Ev × Mode) (a b : Text) : run s (a ++ b) = (run s a).bind (run · b) := by
  induction a generalizing s with
  | nil => rfl
  | cons c a ih =>
    rw [List.cons_append, run, run]
    cases step s c with
    | none => rfl
    | some s' => exact ih s'

theorem run_trans {s s' : List Ev × Mode} {a b : Text} (h : run s a = some s') : run s (a ++ b) = run s' b := by
  rw [run_append, h]; rfl

theorem run_cons {s s' : List Ev × Mode} {c : Char} {b : Text} (h : step s c = some s') : run s (c :: b) = run s' b := by
  rw [run, h]; rfl

/-- a name -/
def Name (n : Text) : Prop := n ≠ [] ∧ ∀ c ∈ n, nameChar c = true
instance (n : Text) : Decidable (Name n) := inferInstanceAs (Decidable (_ ∧ _))

/-- an attribute's value as it stands in the file -/
def Safe (v : Text) : Prop := ∀ c ∈ v, c ≠ '"' ∧ c ≠ '<' ∧ c ≠ '&'
instance (v : Text) : Decidable (Safe v) := inferInstanceAs (Decidable (∀ c ∈ v, _))

theorem nameChar_ne {c : Char} (h : nameChar c = true) : c ≠ ' ' ∧ c ≠ '>' ∧ c ≠ '/' ∧ c ≠ '=' ∧ c ≠ '?' ∧ c ≠ '<' := by
  refine ⟨?_, ?_, ?_, ?_, ?_, ?_⟩ <;> rintro rfl <;> exact absurd h (by decide)

theorem run_nm {evs : List Ev} (t : Text) (ht : ∀ c ∈ t, nameChar c = true) : ∀ n, run (evs, .nm n) t = some (evs, .nm (n ++ t)) := by
  induction t with
  | nil => intro n; simp [run]
  | cons c t ih =>
    intro n
    obtain ⟨h1, h2, h3, _⟩ := nameChar_ne (ht c (by simp))
    rw [run_cons (s' := (evs, .nm (n ++ [c]))) (by simp [step, h1, h2, h3, ht c (by simp)]), ih (fun x hx => ht x (by simp [hx]))]
    simp

theorem run_clo {evs : List Ev} (t : Text) (ht : ∀ c ∈ t, nameChar c = true) : ∀ n, run (evs, .clo n) t = some (evs, .clo (n ++ t)) := by
  induction t with
  | nil => intro n; simp [run]
  | cons c t ih =>
    intro n
    obtain ⟨_, h2, _⟩ := nameChar_ne (ht c (by simp))
    rw [run_cons (s' := (evs, .clo (n ++ [c]))) (by simp [step, h2, ht c (by simp)]), ih (fun x hx => ht x (by simp [hx]))]
    simp

theorem run_atn {evs : List Ev} {n : Text} {as : List (Text × Text)} (t : Text) (ht : ∀ c ∈ t, nameChar c = true) :
    ∀ a, run (evs, .atn n as a) t = some (evs, .atn n as (a ++ t)) := by
  induction t with
  | nil => intro n; simp [run]
  | cons c t ih =>
    intro a
    obtain ⟨_, _, _, h2, _⟩ := nameChar_ne (ht c (by simp))
    rw [run_cons (s' := (evs, .atn n as (a ++ [c]))) (by simp [step, h2, ht c (by simp)]), ih (fun x hx => ht x (by simp [hx]))]
    simp

theorem run_atv {evs : List Ev} {n a : Text} {as : List (Text × Text)} (t : Text) (ht : Safe t) :
    ∀ v, run (evs, .atv n as a v) t = some (evs, .atv n as a (v ++ t)) := by
  induction t with
  | nil => intro v; simp [run]
  | cons c t ih =>
    intro v
    obtain ⟨h1, h2, h3⟩ := ht c (by simp)
    rw [run_cons (s' := (evs, .atv n as a (v ++ [c]))) (by simp [step, h1, h2, h3]), ih (fun x hx => ht x (by simp [hx]))]
    simp

/-- blanks between elements -/
theorem run_blank {evs : List Ev} (t : Text) (ht : blank t = true) : ∀ acc, run (evs, .content acc) t = some (evs, .content (acc ++ t)) := by
  induction t with
  | nil => intro v; simp [run]
  | cons c t ih =>
    intro acc
    simp only [blank, List.all_cons, Bool.and_eq_true, decide_eq_true_eq] at ht
    have h1 : c ≠ '<' ∧ c ≠ '&' := by
      rcases ht.1 with h | h | h | h <;> subst h <;> decide
    rw [run_cons (s' := (evs, .content (acc ++ [c]))) (by simp [step, h1.1, h1.2]), ih ht.2]
    simp

theorem withText_blank {evs : List Ev} {t : Text} (h : blank t = true) : withText evs t = evs := by rw [withText, if_pos h]

/-! ### Printing -/

/-- ` name="value"` -/
def attr (a : Text × Text) : Text := ' ' :: a.1 ++ '=' :: '"' :: a.2 ++ ['"']

/-- `<name attributes>` -/
def openTag (n : Text) (as : List (Text × Text)) : Text := '<' :: n ++ as.flatMap attr ++ ['>']
def closeTag (n : Text) : Text := '<' :: '/' :: n ++ ['>']
/-- `<name attributes />` -/
def emptyTag (n : Text) (as : List (Text × Text)) : Text := '<' :: n ++ as.flatMap attr ++ [' ', '/', '>']

theorem run_attrs {evs : List Ev} {n : Text} (as : List (Text × Text)) (h : ∀ a ∈ as, Name a.1 ∧ Safe a.2) :
    ∀ bs rest, run (evs, .ats n bs) (as.flatMap attr ++ rest) = run (evs, .ats n (bs ++ as)) rest := by
  induction as with
  | nil => intro bs rest; simp
  | cons a as ih =>
    intro bs rest
    obtain ⟨⟨h1, h2⟩, h3⟩ := h a (by simp)
    obtain ⟨c, w, hw⟩ : ∃ c w, a.1 = c :: w := by
      cases e : a.1 with | nil => exact absurd e h1 | cons c w => exact ⟨c, w, rfl⟩
    rw [hw] at h2
    have hc := h2 c (by simp)
    obtain ⟨n1, n2, n3, _⟩ := nameChar_ne hc
    have e : (a :: as).flatMap attr ++ rest = ' ' :: c :: (w ++ ('=' :: '"' :: (a.2 ++ ('"' :: (as.flatMap attr ++ rest))))) := by
      rw [List.flatMap_cons, attr, hw]; simp
    rw [e, run_cons (s' := (evs, .ats n bs)) rfl, run_cons (s' := (evs, .atn n bs [c])) (by simp [step, n1, n2, n3, hc]),
      run_trans (run_atn w (fun x hx => h2 x (by simp [hx])) _), run_cons (s' := (evs, .ateq n bs ([c] ++ w))) rfl, run_cons (s' := (evs, .atv n bs ([c] ++ w) [])) rfl,
      run_trans (run_atv _ h3 _), run_cons (s' := (evs, .ats n (bs ++ [(a.1, a.2)]))) (by simp [step, hw]), ih (fun x hx => h x (by simp [hx]))]
    simp

theorem run_head {evs : List Ev} {acc n : Text} (hn : Name n) (rest : Text) :
    run (evs, .content acc) ('<' :: n ++ rest) = run (withText evs acc, .nm n) rest := by
  obtain ⟨h1, h2⟩ := hn
  cases n with
  | nil => exact absurd rfl h1
  | cons c w =>
    have hc := h2 c (by simp)
    obtain ⟨_, _, n3, _, n5, _⟩ := nameChar_ne hc
    rw [List.cons_append, List.cons_append, run_cons (s' := (withText evs acc, .lt)) (by simp [step]), run_cons (s' := (withText evs acc, .nm [c])) (by simp [step, n3, n5, hc]),
      run_trans (run_nm w (fun x hx => h2 x (by simp [hx])) _)]
    rfl

/-- a tag with attributes, up to its end -/
theorem run_tag {evs : List Ev} {acc n : Text} {as : List (Text × Text)} (hn : Name n) (h : ∀ a ∈ as, Name a.1 ∧ Safe a.2) (hne : as ≠ []) (rest : Text) :
    run (evs, .content acc) ('<' :: n ++ as.flatMap attr ++ rest) = run (withText evs acc, .ats n as) rest := by
  rw [List.append_assoc, run_head hn]
  have h2 := run_attrs (evs := withText evs acc) (n := n) as h [] rest
  rw [List.nil_append] at h2
  rw [← h2]
  cases as with
  | nil => exact absurd rfl hne
  | cons a as =>
    rw [List.flatMap_cons, attr]
    simp only [List.cons_append]
    rw [run_cons (s' := (withText evs acc, .ats n [])) (by simp [step]), run_cons (s' := (withText evs acc, .ats n [])) (by simp [step])]

theorem run_open {evs : List Ev} {acc n : Text} {as : List (Text × Text)} (hn : Name n) (h : ∀ a ∈ as, Name a.1 ∧ Safe a.2) :
    run (evs, .content acc) (openTag n as) = some (withText evs acc ++ [.op n as], .content []) := by
  unfold openTag
  cases as with
  | nil =>
    rw [List.flatMap_nil, List.append_nil, run_head hn]
    simp [run, step]
  | cons a as =>
    rw [run_tag hn h (by simp)]
    simp [run, step]

theorem run_close {evs : List Ev} {acc n : Text} (hn : Name n) : run (evs, .content acc) (closeTag n) = some (withText evs acc ++ [.cl n], .content []) := by
  unfold closeTag
  rw [List.cons_append, List.cons_append, run_cons (s' := (withText evs acc, .lt)) (by simp [step]), run_cons (s' := (withText evs acc, .clo [])) (by simp [step]),
    run_trans (run_clo n hn.2 _)]
  simp [run, step]

theorem run_empty {evs : List Ev} {acc n : Text} {as : List (Text × Text)} (hn : Name n) (h : ∀ a ∈ as, Name a.1 ∧ Safe a.2) :
    run (evs, .content acc) (emptyTag n as) = some (withText evs acc ++ [.op n as, .cl n], .content []) := by
  unfold emptyTag
  cases as with
  | nil =>
    rw [List.flatMap_nil, List.append_nil, run_head hn]
    simp [run, step]
  | cons a as =>
    rw [run_tag hn h (by simp)]
    simp [run, step]

/-- events that add nodes to the innermost element -/
def Builds (evs : List Ev) (ns : List Node) : Prop :=
  ∀ (f : Frame) (fs : List Frame) (r : Option Node) (rest : List Ev), build (f :: fs, r) (evs ++ rest) = build ({ f with kids := f.kids ++ ns } :: fs, r) rest

theorem Builds.nil : Builds [] [] := by intro f fs r rest; simp
theorem Builds.append {a b : List Ev} {m n : List Node} (h1 : Builds a m) (h2 : Builds b n) : Builds (a ++ b) (m ++ n) := by
  intro f fs r rest
  rw [List.append_assoc, h1, h2]
  simp
theorem Builds.txt (t : Text) : Builds [.txt t] [.txt t] := by
  intro f fs r rest
  rw [List.cons_append, build]; rfl
theorem Builds.elem {n : Text} {as : List (Text × Text)} {evs : List Ev} {ns : List Node} (h : Builds evs ns) : Builds (.op n as :: evs ++ [.cl n]) [.elem n as ns] := by
  intro f fs r rest
  rw [List.cons_append, List.cons_append, build, List.append_assoc, h, List.cons_append, List.nil_append, build, if_pos rfl]
  simp
theorem Builds.flatMap {α : Type} {l : List α} {f : α → List Ev} {g : α → List Node} (h : ∀ a ∈ l, Builds (f a) (g a)) : Builds (l.flatMap f) (l.flatMap g) := by
  induction l with
  | nil => exact .nil
  | cons a l ih =>
    rw [List.flatMap_cons, List.flatMap_cons]
    exact (h a (by simp)).append (ih fun b hb => h b (by simp [hb]))

theorem build_root {n : Text} {as : List (Text × Text)} {evs : List Ev} {ns : List Node} (h : Builds evs ns) :
    build ([], none) (.op n as :: evs ++ [.cl n]) = some (.elem n as ns) := by
  rw [List.cons_append, build, h, build, if_pos rfl, build]
  simp

end Verif.Vcx
