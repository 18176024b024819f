import Verif.Compdb.Props
/-
C96: the arguments of an entry are those the compiler is given, with findings and examples.
-/
namespace Verif.Compdb
open Verif.Args (Hole NoHole findHole findHole_spec)
open Verif.Str (removeQuotes)

/-! ### quotes and placeholders -/

theorem removeQuotes_append {c : Char} (hc : c ≠ '"') (v : List Char) : ∀ u : List Char, removeQuotes (u ++ c :: v) = removeQuotes u ++ removeQuotes (c :: v)
  | [] => rfl
  | a :: u => by
    rw [List.cons_append, removeQuotes.eq_def (a :: (u ++ c :: v)), removeQuotes.eq_def (a :: u)]
    simp only
    split
    · exact removeQuotes_append hc v u
    · split
      · match u with
        | [] =>
          simp only [List.nil_append]
          split
          · next h => simp at h; exact absurd h.1 hc
          · simp [removeQuotes]
        | b :: u =>
          simp only [List.cons_append]
          by_cases hb : b = '"'
          · subst hb
            simp only [removeQuotes_append hc v u, List.cons_append]
          · have := removeQuotes_append hc v (b :: u)
            split
            · next h => simp at h; exact absurd h.1 hb
            · split
              · next h => simp at h; exact absurd h.1 hb
              · simp only [List.cons_append] at this
                simp only [this, List.cons_append]
      · rw [removeQuotes_append hc v u, List.cons_append]

theorem removeQuotes_plain {v : List Char} : ∀ {w : List Char}, (∀ c ∈ w, c ≠ '"') → w.getLast? ≠ some '\\' → removeQuotes (w ++ v) = w ++ removeQuotes v
  | [], _, _ => rfl
  | a :: w, h, hl => by
    have ha := h a (by simp)
    have hl' : w.getLast? ≠ some '\\' := by
      cases w with
      | nil => simp
      | cons b w => simpa [List.getLast?_cons_cons] using hl
    have ih := removeQuotes_plain (v := v) (w := w) (fun c hc => h c (by simp [hc])) hl'
    rw [List.cons_append, removeQuotes.eq_def]
    simp only [if_neg ha]
    split
    · next hb =>
      subst hb
      match w with
      | [] => simp at hl
      | b :: w =>
        have := h b (by simp)
        simp only [List.cons_append]
        split
        · next e => simp at e; exact absurd e.1 this
        · simp only [List.cons_append] at ih; rw [ih]
    · rw [ih, List.cons_append]

/-- no `%` is followed by a quote -/
def Clear (t : List Char) : Prop := ∀ u v, t ≠ u ++ '%' :: '"' :: v

theorem Clear.tail {a : Char} {t : List Char} (h : Clear (a :: t)) : Clear t := fun u v e => h (a :: u) v (by rw [e, List.cons_append])

theorem rq_pct (x : List Char) : removeQuotes ('%' :: x) = '%' :: removeQuotes x := by
  rw [removeQuotes.eq_def]; simp

theorem rq_quote (x : List Char) : removeQuotes ('"' :: x) = removeQuotes x := by
  rw [removeQuotes.eq_def]; simp

theorem findHole_removeQuotes {n : Char} (hn : n = '1' ∨ n = '2') : ∀ {t : List Char}, Clear t →
    findHole n (removeQuotes t) = (findHole n t).map fun (u, v) => (removeQuotes u, removeQuotes v)
  | [], _ => by simp [removeQuotes, findHole]
  | [a], h => by
    have hr : ∀ x : List Char, x.length ≤ 1 → findHole n x = none := by
      intro x hx
      match x, hx with
      | [], _ => rfl
      | [_], _ => rfl
    have : findHole n [a] = none := rfl
    rw [this, hr]
    · rfl
    · rw [removeQuotes.eq_def]
      simp only
      split
      · simp [removeQuotes]
      · split
        · simp [removeQuotes]
        · simp [removeQuotes]
  | a :: b :: t, h => by
    have hnq : n ≠ '"' := by rcases hn with rfl | rfl <;> decide
    have hnb : n ≠ '\\' := by rcases hn with rfl | rfl <;> decide
    have ih := findHole_removeQuotes hn (t := b :: t) h.tail
    have ih2 := findHole_removeQuotes hn (t := t) h.tail.tail
    rw [findHole_cons n a b t]
    by_cases ha : a = '%'
    · subst ha
      have hb : b ≠ '"' := by rintro rfl; exact h [] t rfl
      have hp : removeQuotes ('%' :: b :: t) = '%' :: removeQuotes (b :: t) := by
        rw [removeQuotes.eq_def]
        simp
      rw [hp]
      by_cases hbn : b = n
      · subst hbn
        have : removeQuotes (b :: t) = b :: removeQuotes t := by
          rw [removeQuotes.eq_def]
          simp [hnq, hnb]
        rw [this, findHole_cons]
        simp [removeQuotes]
      · -- the next character is not `n`
        have hd : ∀ y, removeQuotes (b :: t) ≠ n :: y := by
          intro y e
          rw [removeQuotes.eq_def] at e
          simp only [if_neg hb] at e
          split at e
          · split at e
            · simp at e; exact hnq e.1.symm
            · next hbb _ _ => simp at e; exact hnb (e.1 ▸ hbb)
          · simp at e; exact hbn e.1
        rw [if_neg (by simp [hbn])]
        cases hx : removeQuotes (b :: t) with
        | nil =>
          rw [hx] at ih
          have : findHole n (b :: t) = none := by
            cases hf : findHole n (b :: t) with
            | none => rfl
            | some p => rw [hf] at ih; simp [findHole] at ih
          rw [this]
          rfl
        | cons x y =>
          rw [findHole_cons, if_neg (by rintro ⟨_, rfl⟩; exact hd y hx), ← hx, ih]
          cases findHole n (b :: t) with
          | none => rfl
          | some p => simp [rq_pct]
    · rw [if_neg (by simp [ha])]
      by_cases hq : a = '"'
      · subst hq
        have hp : removeQuotes ('"' :: b :: t) = removeQuotes (b :: t) := by
          rw [removeQuotes.eq_def]
          simp
        rw [hp, ih]
        cases findHole n (b :: t) with
        | none => rfl
        | some p => simp [rq_quote]
      · by_cases hs : a = '\\' ∧ b = '"'
        · obtain ⟨rfl, rfl⟩ := hs
          have hp : removeQuotes ('\\' :: '"' :: t) = '"' :: removeQuotes t := by
            rw [removeQuotes.eq_def]
            simp
          have hp2 : findHole n ('"' :: t) = (findHole n t).map fun (u, v) => ('"' :: u, v) :=
            findHole_skip (p := ['"']) (w := t) (by decide)
          rw [hp, show '"' :: removeQuotes t = ['"'] ++ removeQuotes t from rfl, findHole_skip (by decide), ih2, hp2]
          cases findHole n t with
          | none => rfl
          | some p => simp [removeQuotes]
        · have hp : ∀ x, (∀ y, x = '"' :: y → a ≠ '\\') → removeQuotes (a :: x) = a :: removeQuotes x := by
            intro x hx
            rw [removeQuotes.eq_def]
            simp only [if_neg hq]
            split
            · next hb =>
              split
              · next y => exact absurd hb (hx y rfl)
              · rfl
            · rfl
          rw [hp (b :: t) (fun y e => by simp at e; exact fun h' => hs ⟨h', e.1⟩), show a :: removeQuotes (b :: t) = [a] ++ removeQuotes (b :: t) from rfl,
            findHole_skip (by simp [Ne.symm ha]), ih]
          cases hf : findHole n (b :: t) with
          | none => rfl
          | some p =>
            obtain ⟨u, v⟩ := p
            have hu : ∀ y, u = '"' :: y → a ≠ '\\' := by
              rintro y rfl h'
              have := ((findHole_spec n (b :: t)).1 _ _ hf).1
              simp at this
              exact hs ⟨h', this.1⟩
            simp only [Option.map_some, List.cons_append, List.nil_append]
            rw [hp u hu]

theorem findHole_of {n : Char} {t u v : List Char} (h : Hole n t u v) : findHole n t = some (u, v) := by
  cases hf : findHole n t with
  | none => exact absurd h.1 ((findHole_spec n t).2 hf u v)
  | some p =>
    obtain ⟨u', v'⟩ := p
    have h' := (findHole_spec n t).1 u' v' hf
    have l1 := h.2 u' v' h'.1
    have l2 := h'.2 u v h.1
    have e := h.1.symm.trans h'.1
    have := List.append_inj e (by omega)
    simp at this
    rw [this.1, this.2]

theorem findHole_not {n : Char} {t : List Char} (h : NoHole n t) : findHole n t = none := by
  cases hf : findHole n t with
  | none => rfl
  | some p => exact absurd ((findHole_spec n t).1 _ _ hf).1 (h _ _)

/-- a path without quotes that does not end in a backslash -/
def Path (p : List Char) : Prop := p ≠ [] ∧ (∀ c ∈ p, c ≠ '"') ∧ p.getLast? ≠ some '\\'

theorem removeQuotes_fill {u p v : List Char} (h : Path p) : removeQuotes (u ++ p ++ v) = removeQuotes u ++ p ++ removeQuotes v := by
  obtain ⟨h0, h1, h2⟩ := h
  cases p with
  | nil => exact absurd rfl h0
  | cons c p =>
    rw [List.append_assoc, List.cons_append, removeQuotes_append (h1 c (by simp)), ← List.cons_append, removeQuotes_plain h1 h2,
      List.append_assoc]

/-- What the compiler is given for a token is, without its quotes, what the entry has for it. For all drivers, if the token has
none of `%3` and `%4` of Microsoft's compiler and no quote behind a `%`. -/
theorem C96_same {d : Verif.Args.Driver} {c : Verif.Args.Ctx} {t w : List Char} (ho : c.override = []) (hr : c.relBase = [])
    (hs : Path c.src) (hobj : Path c.obj) (hc : Clear t) (h3 : NoHole '3' t) (h4 : NoHole '4' t) (hsl : ¬ Verif.Args.Slashed d t)
    (h : Verif.Args.Becomes d c t [w]) : ArgOf c.src c.obj (removeQuotes t) (removeQuotes w) := by
  have hin : c.input = c.src := by simp [Verif.Args.Ctx.input, ho, hr]
  have hout : c.output = c.obj := by simp [Verif.Args.Ctx.output, hr]
  have key : removeQuotes w = argFor c.src c.obj (removeQuotes t) := by
    generalize hws : [w] = ws at h
    cases h with
    | ignored _ _ => cases hws
    | filled _ hf =>
      unfold argFor
      rw [findHole_removeQuotes (.inl rfl) hc, findHole_removeQuotes (.inr rfl) hc]
      cases hf with
      | slashed _ _ h => exact absurd h hsl
      | pch _ _ h _ => exact absurd h.1 (h3 _ _)
      | usings _ _ _ h => exact absurd h.1 (h4 _ _)
      | input _ _ h =>
        simp only [List.cons.injEq, and_true] at hws
        rw [findHole_of h, hws, hin]
        simp only [Option.map_some]
        exact removeQuotes_fill hs
      | output _ _ h1 h =>
        simp only [List.cons.injEq, and_true] at hws
        rw [findHole_not h1, findHole_of h, hws, hout]
        simp only [Option.map_some, Option.map_none]
        exact removeQuotes_fill hobj
      | kept _ _ h1 h2 =>
        simp only [List.cons.injEq, and_true] at hws
        rw [findHole_not h1, findHole_not h2, hws]
        rfl
  rw [key]
  exact argFor_spec _ _ _

/-! ### findings -/

/-- the value of a JSON string with these bytes inside -/
def value (signed : Bool) (s : Name) : Option Name := (pstr (escape signed s ++ ['"'])).map (·.1)

/-- The letter ü (two bytes in UTF-8) in a path becomes U+FFFF and more where `char` has a sign: the path in the database is
another one. -/
theorem C96_not_ascii : value true [Char.ofNat 0xC3, Char.ofNat 0xBC] = some (Char.ofNat 0xFFFF :: "FFC3".toList ++ Char.ofNat 0xFFFF :: "FFBC".toList) ∧
    value false [Char.ofNat 0xC3, Char.ofNat 0xBC] = some [Char.ofNat 0xC3, Char.ofNat 0xBC] := by decide +kernel

def exCfg : Verif.Dirs.ObjConfig :=
  { linux := true, sl := '/', outputPath := "/o/".toList, outputPrefix := [], keepBaseExtension := false, filesRoot := [],
    extension := ".o".toList, id := 0 }

/-- An object list with `.CompilerInputObjectLists` fails an assertion (and without assertions, its files are left out). -/
theorem C96_object_lists (signed : Bool) (wd : Name) (g : Graph) (r : Nat) (d : Nd) (l : ListNd) (fs : List Name) (i : Srcs) (hg : Closed g [r])
    (hd : g[r]? = some d) (hl : d.list = some l) (hi : l.inputs = .cons (.list fs i) .nil) : generate signed wd g [r] = none := by
  cases h : generate signed wd g [r] with
  | none => rfl
  | some t =>
    have := ((C96_defined (signed := signed) (wd := wd) hg).1 ⟨t, h⟩ r r d l (by simp) (.refl r) hd hl).1
    rw [hi] at this
    simp [Alternates] at this

/-! ### an example -/

/-- an executable of a library with a directory of two files, a unity and a file of its own -/
def exList : ListNd :=
  { compiler := "/bin/gcc".toList, msvc := false, options := "-c \"%1\" -o \"%2\" -DX=\\\"a\\\"".toList, cfg := exCfg, files := ["/s/z.c".toList],
    inputs := .cons (.dir "/s/a/".toList ["/s/a/b/x.c".toList, "/s/a/y\\.c".toList]) (.cons (.unity (.cons (.file "/u/u.c".toList) .nil)) .nil) }

def exGraph : Graph := [⟨[1, 2], none⟩, ⟨[2], some exList⟩, ⟨[], none⟩]

theorem exClosed : Closed exGraph [0] := by
  refine ⟨?_, by decide⟩
  intro n d h m hm
  match n, h with
  | 0, h => cases h; revert m; decide
  | 1, h => cases h; revert m; decide
  | 2, h => cases h; cases hm

theorem exPlain : PlainList true exList := by
  refine ⟨?_, ?_, ?_, ?_, ?_, ?_⟩ <;> (unfold Plain; decide +kernel)

example : ∃ t, generate true "/w".toList exGraph [0] = some t ∧ ∃ order ess, order.Nodup ∧ (∀ n, n ∈ order ↔ ∃ r ∈ [0], Dfs.Reach (succ exGraph) r n) ∧
    Pairs (NodeEntries exGraph) order ess ∧ parse t = some (.arr (ess.flatten.map (·.json "/w".toList))) := by
  have hd : ∃ t, generate true "/w".toList exGraph [0] = some t := by
    have : (generate true "/w".toList exGraph [0]).isSome = true := by decide +kernel
    exact Option.isSome_iff_exists.1 this
  obtain ⟨t, ht⟩ := hd
  refine ⟨t, ht, C96_database_partial exClosed (by unfold Plain; decide +kernel) ?_ ht⟩
  intro n d l h hl
  match n, h with
  | 0, h => cases h; cases hl
  | 1, h => cases h; cases hl; exact exPlain
  | 2, h => cases h; cases hl

/-- the text -/
example : (generate true "/w".toList [⟨[], some { exList with files := [], inputs := .cons (.file "/s/q\".c".toList) .nil }⟩] [0]).map String.ofList = some ("[
  {
    \"directory\": \"/w\",
    \"file\": \"/s/q\\\".c\",
    \"output\": \"/o/q\\\".o\",
    \"arguments\": [\"/bin/gcc\", \"-c\", \"/s/q\\\".c\", \"-o\", \"/o/q\\\".o\", \"-DX=\\\"a\\\"\"]
  }
]
") := by decide +kernel

/-- hypotheses of `C96_same` -/
example (c : Verif.Args.Ctx) (hs : c.src = "/s/a b.cpp".toList) (hobj : c.obj = "/o/x.o".toList) (ho : c.override = []) (hr : c.relBase = [])
    (hcol : c.colored = false) :
    ArgOf c.src c.obj "-o%1".toList "-o/s/a b.cpp".toList := by
  have no : ∀ n : Char, n = '3' ∨ n = '4' → NoHole n "-o\"%1\"".toList := by
    intro n hn u v e
    have : ∀ k, ("-o\"%1\"".toList.drop k).head? = some '%' → ("-o\"%1\"".toList.drop k).tail.head? = some n → False := by
      intro k
      match k with
      | 0 | 1 | 2 | 4 | 5 => intro h; simp at h
      | 3 => intro _ h; simp at h; rcases hn with rfl | rfl <;> simp at h
      | k + 6 => intro h; simp at h
    refine this u.length ?_ ?_ <;> rw [e] <;> simp
  have hole : Hole '1' "-o\"%1\"".toList "-o\"".toList "\"".toList := by
    refine (findHole_spec '1' _).1 _ _ ?_
    decide +kernel
  have hin : c.input = c.src := by simp [Verif.Args.Ctx.input, ho, hr]
  have b : Verif.Args.Becomes (.gcc true) c "-o\"%1\"".toList ["-o\"".toList ++ c.input ++ "\"".toList] :=
    .filled (by simp [Verif.Args.commonRules, Verif.Args.Free, hcol]) (.input (fun h => by cases h.1) (fun h => by cases h) hole)
  have := C96_same ho hr (by rw [hs]; refine ⟨?_, ?_, ?_⟩ <;> decide +kernel) (by rw [hobj]; refine ⟨?_, ?_, ?_⟩ <;> decide +kernel) ?_ (no _ (.inl rfl)) (no _ (.inr rfl))
    (fun h => by cases h.1) b
  · have e1 : removeQuotes "-o\"%1\"".toList = "-o%1".toList := by decide +kernel
    have e2 : removeQuotes ("-o\"".toList ++ c.input ++ "\"".toList) = "-o/s/a b.cpp".toList := by rw [hin, hs]; decide +kernel
    rwa [e1, e2] at this
  · intro u v e
    have : ∀ k, ("-o\"%1\"".toList.drop k).head? = some '%' → ("-o\"%1\"".toList.drop k).tail.head? = some '"' → False := by
      intro k
      match k with
      | 0 | 1 | 2 | 4 | 5 => intro h; simp at h
      | 3 => intro _ h; simp at h
      | k + 6 => intro h; simp at h
    refine this u.length ?_ ?_ <;> rw [e] <;> simp

end Verif.Compdb
