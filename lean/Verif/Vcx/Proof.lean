import Verif.Vcx.Model
import Verif.Sln.Init
/-
Lines and their events.
-/
namespace Verif.Vcx

/-- text of an element: without `<` and `&` -/
def SafeText (t : Text) : Prop := ∀ c ∈ t, c ≠ '<' ∧ c ≠ '&'
instance (v : Text) : Decidable (SafeText v) := inferInstanceAs (Decidable (∀ c ∈ v, _))

def AttrsOk (as : List (String × Text)) : Prop := ∀ a ∈ as, Name a.1.toList ∧ Safe a.2
instance (as : List (String × Text)) : Decidable (AttrsOk as) := inferInstanceAs (Decidable (∀ a ∈ as, _))

/-- `t` in the file is read as `v` -/
def Reads (t v : Text) : Prop := ∀ evs acc, run (evs, .content acc) t = some (evs, .content (acc ++ v))

theorem reads_safe {t : Text} (h : SafeText t) : Reads t t := by
  intro evs acc
  induction t generalizing acc with
  | nil => simp [run]
  | cons c t ih =>
    obtain ⟨h1, h2⟩ := h c (by simp)
    rw [run_cons (s' := (evs, .content (acc ++ [c]))) (by simp [step, h1, h2]), ih (fun x hx => h x (by simp [hx]))]
    simp

theorem reads_append {a b v w : Text} (h1 : Reads a v) (h2 : Reads b w) : Reads (a ++ b) (v ++ w) := by
  intro evs acc
  rw [run_trans (h1 evs acc), h2]
  simp

theorem reads_escapeChar (c : Char) : Reads (escapeChar c) [c] := by
  intro evs acc
  unfold escapeChar
  split
  · rename_i h; subst h; rfl
  · split
    · rename_i h; subst h; rfl
    · split
      · rename_i h; subst h; rfl
      · rename_i h1 h2 h3
        simp [run, step, h2, h3]

/-- A value that was escaped is read as it was. -/
theorem reads_escape (v : Text) : Reads (escape v) v := by
  induction v with
  | nil => intro evs acc; simp [run, escape]
  | cons c v ih =>
    have := reads_append (reads_escapeChar c) ih
    rw [List.singleton_append] at this
    exact this

/-- the text of an element, if it is not blank -/
def textEv (t : Text) : List Ev := if blank t then [] else [.txt t]
def textNode (t : Text) : List Node := if blank t then [] else [.txt t]

theorem withText_eq (evs : List Ev) (t : Text) : withText evs t = evs ++ textEv t := by
  unfold withText textEv
  split <;> simp

/-- lines, the events that they are read as -/
def Prints (ls : List Line) (evs : List Ev) : Prop :=
  ∀ evs0 acc, blank acc = true → ∃ acc', blank acc' = true ∧ run (evs0, .content acc) (ls.flatMap print) = some (evs0 ++ evs, .content acc')

theorem blank_append {a b : Text} : blank (a ++ b) = true ↔ blank a = true ∧ blank b = true := by
  simp [blank, List.all_append]

theorem blank_spaces (n : Nat) : blank (spaces n) = true := by
  simp only [blank, spaces, List.all_eq_true]
  intro c hc
  rw [List.eq_of_mem_replicate hc]
  decide

theorem Prints.nil : Prints [] [] := by
  intro evs0 acc h
  exact ⟨acc, h, by simp [run]⟩

theorem Prints.append {a b : List Line} {x y : List Ev} (h1 : Prints a x) (h2 : Prints b y) : Prints (a ++ b) (x ++ y) := by
  intro evs0 acc h
  obtain ⟨acc1, hb1, e1⟩ := h1 evs0 acc h
  obtain ⟨acc2, hb2, e2⟩ := h2 (evs0 ++ x) acc1 hb1
  refine ⟨acc2, hb2, ?_⟩
  rw [List.flatMap_append, run_trans e1, e2, List.append_assoc]

/-- a line: blanks, something that is read, the end of the line -/
theorem prints_one {l : Line} {ind : Nat} {body : Text} {evs : List Ev} (hl : printLine l = spaces ind ++ body)
    (h : ∀ evs0 acc, blank acc = true → run (evs0, .content acc) body = some (evs0 ++ evs, .content [])) : Prints [l] evs := by
  intro evs0 acc hb
  refine ⟨['\n'], by decide, ?_⟩
  rw [List.flatMap_cons, List.flatMap_nil, List.append_nil, print, hl, List.append_assoc, run_trans (run_blank _ (blank_spaces ind) acc),
    run_trans (h evs0 _ (blank_append.2 ⟨hb, blank_spaces ind⟩))]
  rfl

theorem attrs_ok {as : List (String × Text)} (h : AttrsOk as) : ∀ a ∈ attrs as, Name a.1 ∧ Safe a.2 := by
  intro a ha
  obtain ⟨b, hb, rfl⟩ := List.mem_map.1 ha
  exact h b hb

theorem prints_op {i : Nat} {n : String} {as : List (String × Text)} (hn : Name n.toList) (h : AttrsOk as) : Prints [.op i n as] [.op n.toList (attrs as)] :=
  prints_one rfl fun evs0 acc hb => by rw [run_open hn (attrs_ok h), withText_blank hb]

theorem prints_cl {i : Nat} {n : String} (hn : Name n.toList) : Prints [.cl i n] [.cl n.toList] :=
  prints_one rfl fun evs0 acc hb => by rw [run_close hn, withText_blank hb]

theorem prints_em {i : Nat} {n : String} {as : List (String × Text)} (hn : Name n.toList) (h : AttrsOk as) : Prints [.em i n as] [.op n.toList (attrs as), .cl n.toList] :=
  prints_one rfl fun evs0 acc hb => by rw [run_empty hn (attrs_ok h), withText_blank hb]

theorem prints_raw {i : Nat} {n : String} {t v : Text} (hn : Name n.toList) (h : Reads t v) : Prints [.raw i n t] (.op n.toList [] :: textEv v ++ [.cl n.toList]) :=
  prints_one (ind := i) (body := openTag n.toList [] ++ t ++ closeTag n.toList) (by simp [printLine]) fun evs0 acc hb => by
    rw [List.append_assoc, run_trans (run_open hn (by simp)), withText_blank hb, run_trans (h _ _), run_close hn, List.nil_append, withText_eq]
    simp

/-- lines, and the nodes that they are read as -/
def Lines (ls : List Line) (ns : List Node) : Prop := ∃ evs, Prints ls evs ∧ Builds evs ns

theorem Lines.nil : Lines [] [] := ⟨[], .nil, .nil⟩
theorem Lines.append {a b : List Line} {x y : List Node} : Lines a x → Lines b y → Lines (a ++ b) (x ++ y) := by
  rintro ⟨e1, p1, b1⟩ ⟨e2, p2, b2⟩
  exact ⟨e1 ++ e2, p1.append p2, b1.append b2⟩
theorem Lines.flatMap {α : Type} {l : List α} {f : α → List Line} {g : α → List Node} (h : ∀ a ∈ l, Lines (f a) (g a)) : Lines (l.flatMap f) (l.flatMap g) := by
  induction l with
  | nil => exact .nil
  | cons a l ih =>
    rw [List.flatMap_cons, List.flatMap_cons]
    exact (h a (by simp)).append (ih fun b hb => h b (by simp [hb]))

theorem Lines.em {i : Nat} {n : String} {as : List (String × Text)} (hn : Name n.toList) (h : AttrsOk as) : Lines [.em i n as] [.elem n.toList (attrs as) []] :=
  ⟨_, prints_em hn h, Builds.elem (evs := []) .nil⟩

theorem builds_text (t : Text) : Builds (textEv t) (textNode t) := by
  unfold textEv textNode
  split
  · exact .nil
  · exact .txt t

theorem Lines.raw {i : Nat} {n : String} {t v : Text} (hn : Name n.toList) (h : Reads t v) : Lines [.raw i n t] [.elem n.toList [] (textNode v)] :=
  ⟨_, prints_raw hn h, Builds.elem (builds_text v)⟩

theorem Lines.blk {i : Nat} {n : String} {as : List (String × Text)} {body : List Line} {ns : List Node} (hn : Name n.toList) (h : AttrsOk as) :
    Lines body ns → Lines (blk i n as body) [.elem n.toList (attrs as) ns] := by
  rintro ⟨evs, hp, hb⟩
  exact ⟨_, ((prints_op hn h).append hp).append (prints_cl hn), hb.elem⟩

/-- the whole file -/
theorem read_file {as : List (String × Text)} {body : List Line} {ns : List Node} (h : AttrsOk as) :
    Lines body ns → read (fileText as body) = some (.elem "Project".toList (attrs as) ns) := by
  rintro ⟨evs, hp, hb⟩
  have hn : Name "Project".toList := by decide
  obtain ⟨acc, h1, e⟩ := ((prints_op (i := 0) hn h).append hp) [] ['\n'] (by decide)
  rw [List.singleton_append] at e
  have hh : run ([], .content []) header = some ([], .content ['\n']) := by decide +kernel
  have key : events (fileText as body) = some (.op "Project".toList (attrs as) :: evs ++ [.cl "Project".toList]) := by
    unfold events fileText
    rw [List.append_assoc, List.append_assoc, run_trans hh, ← List.append_assoc, ← List.flatMap_cons, run_trans e]
    have : printLine (.cl 0 "Project") = closeTag "Project".toList := rfl
    rw [this, run_close hn, withText_blank h1]
    simp [blank]
  rw [read, key]
  exact build_root hb

end Verif.Vcx
