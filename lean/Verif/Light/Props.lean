import Verif.Light.Sound
/-
C73 to C76: the light cache.
-/
namespace Verif.Light
open Verif.Str

/-! ## C73: the parser -/

/-- C73. The parser ends on every text. -/
theorem C73_ends (text : List Char) : ∃ r, parse text = some r := parse_some text

/-- C73 (partial). An include of a path which a compiler may see is recorded, or an error is reported. What is missing:
includes behind a comment on the same line, and texts with the sequences excluded by `Tame`. -/
theorem C73_include_partial (text : List Char) (r : Parsed) (q : List Char) (t : IncType) (ht : Tame text) (h : parse text = some r)
    (hs : SeesInclude text q t) : r.ok = false ∨ (q, t) ∈ r.includes := by
  obtain ⟨w, g, s, h1, h2, h3, h4⟩ := hs
  have := parse_finds ht h1 h
  rw [directive_path h2 h3 h4] at this
  exact this

/-- C73 (partial). So is an include of a macro. -/
theorem C73_macro_partial (text : List Char) (r : Parsed) (m : List Char) (ht : Tame text) (h : parse text = some r)
    (hs : SeesMacro text m) : r.ok = false ∨ (m, IncType.macro) ∈ r.includes := by
  obtain ⟨w, g, s, x, h1, h2, h3, h4⟩ := hs
  have := parse_finds ht h1 h
  rw [directive_macro h2 h3 h4] at this
  exact this

/-- C73 (partial). And the definition of a macro as a path. -/
theorem C73_define_partial (text : List Char) (r : Parsed) (m p : List Char) (t : IncType) (ht : Tame text) (h : parse text = some r)
    (hs : Defines text m p t) : r.ok = false ∨ (m, p, t) ∈ r.incDefs := by
  obtain ⟨w, g1, s1, g2, s2, h1, h2, h3, h4, h5, h6⟩ := hs
  have := parse_finds ht h1 h
  rw [directive_def h2 h3 h4 h5 h6] at this
  exact this

/-! ### Decidable forms of the hypotheses, for the examples -/

/-- does the sequence occur -/
def occurs (p : List Char) : List Char → Bool
  | [] => p.isPrefixOf []
  | c :: s => p.isPrefixOf (c :: s) || occurs p s

theorem occurs_iff (p : List Char) : ∀ s : List Char, occurs p s = true ↔ p <:+: s
  | [] => by
    rw [occurs, List.isPrefixOf_iff_prefix]
    constructor
    · exact fun h => h.isInfix
    · rintro ⟨a, b, h⟩
      simp only [List.append_eq_nil_iff] at h
      rw [h.1.2]
      exact List.nil_prefix
  | c :: s => by
    rw [occurs, Bool.or_eq_true, List.isPrefixOf_iff_prefix, occurs_iff p s, List.infix_cons_iff]

theorem tame_of (text : List Char) (h : (text.contains '\x00' || occurs ['/', '*', '/'] text || occurs ['"', '/', '*'] text ||
    occurs ['>', '/', '*'] text) = false) : Tame text := by
  simp only [Bool.or_eq_false_iff] at h
  obtain ⟨⟨⟨h1, h2⟩, h3⟩, h4⟩ := h
  refine ⟨?_, ?_, ?_, ?_⟩
  · intro hm
    rw [List.contains_iff_mem.2 hm] at h1
    simp at h1
  · rw [← occurs_iff, h2]; simp
  · rw [← occurs_iff, h3]; simp
  · rw [← occurs_iff, h4]; simp

theorem Steps.trans {a b c : Lex × List Char} (h1 : Steps a b) (h2 : Steps b c) : Steps a c := by
  induction h1 with
  | refl => exact h2
  | head s _ ih => exact .head s (ih h2)

/-- a line without quotes, slashes and angle brackets is passed -/
theorem steps_line : ∀ (l s : List Char) (st : Lex), st = .start ∨ st = .plain →
    (l.all fun c => !isEol c && !opens c && c != '/') = true → Steps (st, l ++ '\n' :: s) (.start, s)
  | [], s, st, hst, _ => .head (.eol st '\n' s (by rcases hst with rfl | rfl <;> simp) (by decide)) (.refl _)
  | c :: l, s, st, hst, h => by
    simp only [List.all_cons, Bool.and_eq_true, Bool.not_eq_true', bne_iff_ne, ne_eq] at h
    obtain ⟨⟨⟨h1, h2⟩, h3⟩, h4⟩ := h
    have nb : ¬ blockOpens (c :: (l ++ '\n' :: s)) := not_opens_of_ne h3
    have nl : ¬ lineOpens (c :: (l ++ '\n' :: s)) := by rintro ⟨r, e⟩; simp only [List.cons.injEq] at e; exact h3 e.1
    have hl : (l.all fun c => !isEol c && !opens c && c != '/') = true := by simpa using h4
    by_cases hw : st = .start ∧ isWs c
    · obtain ⟨rfl, hw⟩ := hw
      exact .head (.space c _ hw) (steps_line l s .start (Or.inl rfl) hl)
    · refine .head (.text st c _ hst h1 ?_ h2 nb nl) (steps_line l s .plain (Or.inr rfl) hl)
      rintro rfl
      simpa using hw

/-- a line with a string is passed -/
theorem steps_any : ∀ (l s : List Char), (l.all fun c => !isEol c) = true → Steps (.any, l ++ '\n' :: s) (.start, s)
  | [], s, _ => .head (.eol .any '\n' s (by simp) (by decide)) (.refl _)
  | c :: l, s, h => by
    simp only [List.all_cons, Bool.and_eq_true, Bool.not_eq_true'] at h
    exact .head (.any c _ h.1) (steps_any l s h.2)

theorem steps_quoted : ∀ (l r s : List Char) (c : Char) (st : Lex), st = .start ∨ st = .plain →
    (l.all fun c => !isEol c && !opens c && c != '/') = true → opens c = true → (r.all fun c => !isEol c) = true →
    Steps (st, l ++ c :: r ++ '\n' :: s) (.start, s)
  | [], r, s, c, st, hst, _, hc, hr => .head (.opens st c _ hst (Or.inl hc)) (steps_any r s hr)
  | x :: l, r, s, c, st, hst, h, hc, hr => by
    simp only [List.all_cons, Bool.and_eq_true, Bool.not_eq_true', bne_iff_ne, ne_eq] at h
    obtain ⟨⟨⟨h1, h2⟩, h3⟩, h4⟩ := h
    have nb : ¬ blockOpens (x :: (l ++ c :: r ++ '\n' :: s)) := not_opens_of_ne h3
    have nl : ¬ lineOpens (x :: (l ++ c :: r ++ '\n' :: s)) := by rintro ⟨_, e⟩; simp only [List.cons.injEq] at e; exact h3 e.1
    have hl : (l.all fun c => !isEol c && !opens c && c != '/') = true := by simpa using h4
    by_cases hw : st = .start ∧ isWs x
    · obtain ⟨rfl, hw⟩ := hw
      exact .head (.space x _ hw) (steps_quoted l r s c .start (Or.inl rfl) hl hc hr)
    · refine .head (.text st x _ hst h1 ?_ h2 nb nl) (steps_quoted l r s c .plain (Or.inr rfl) hl hc hr)
      rintro rfl
      simpa using hw

example : Tame "int a; // x\n  #  include /* c */ <b.h> // d\n#define H \"c.h\"\n#include H\n".toList ∧
    SeesInclude "int a;\n# include <b.h>\n".toList "b.h".toList .angle ∧ SeesInclude "a = \"/*\";\n#include \"c.h\"".toList "c.h".toList .quote := by
  refine ⟨tame_of _ (by decide), ?_, ?_⟩
  · refine ⟨" ".toList, " ".toList, "<b.h>\n".toList, ?_, by decide, .ws _ (by decide), .angle "b.h".toList "\n".toList (by decide)⟩
    exact steps_line "int a;".toList _ .start (Or.inl rfl) (by decide)
  · refine ⟨[], " ".toList, "\"c.h\"".toList, ?_, by decide, .ws _ (by decide), .quote "c.h".toList [] (by decide)⟩
    exact steps_quoted "a = ".toList "/*\";".toList _ '"' .start (Or.inl rfl) (by decide) (by decide) (by decide)

example : (parse "a = \"/*\";\n#include \"c.h\"\n/* #include \"d.h\" */\n#include /* c */ <e.h>\n".toList).map (·.includes) =
    some [("c.h".toList, .quote), ("e.h".toList, .angle)] := by decide +kernel

/-- C73 fails: a directive behind a comment on the same line, and one with a comment behind the `#`, are not seen. -/
theorem C73_behind_comment : parse "/* c */ #include \"a.h\"\n".toList = some {} ∧ parse "# /* c */ include \"a.h\"\n".toList = some {} := by
  decide +kernel

/-- C73 fails: `#include_next` is read as the include of a macro `_next`, which is not defined and so ignored. -/
theorem C73_include_next : parse "#include_next <a.h>\n".toList = some { includes := [("_next".toList, .macro)] } := by decide +kernel

/-- C73 fails: with `/*/` the parser and a compiler see comments in different places. Here the include is outside
of a comment. -/
theorem C73_slash : SeesInclude "a /* b\n/*/\n#include \"a.h\"\n/* */\n".toList "a.h".toList .quote ∧
    parse "a /* b\n/*/\n#include \"a.h\"\n/* */\n".toList = some {} := by
  refine ⟨⟨[], " ".toList, "\"a.h\"\n/* */\n".toList, ?_, by decide, .ws _ (by decide), .quote "a.h".toList "\n/* */\n".toList (by decide)⟩, by decide +kernel⟩
  have t1 : ∀ s, ¬ blockOpens ('a' :: s) := fun s => not_opens_of_ne (by decide)
  refine .head (.text .start 'a' _ (Or.inl rfl) (by decide) (fun _ => by decide) (by decide) (t1 _) (by rintro ⟨r, e⟩; cases e)) ?_
  refine .head (.text .plain ' ' _ (Or.inr rfl) (by decide) (fun h => by cases h) (by decide) (not_opens_of_ne (by decide)) (by rintro ⟨r, e⟩; cases e)) ?_
  refine .head (.comment .plain _ (by simp)) ?_
  refine .head (.inside ' ' _ (not_closes_of_ne (by decide))) ?_
  refine .head (.inside 'b' _ (not_closes_of_ne (by decide))) ?_
  refine .head (.inside '\n' _ (not_closes_of_ne (by decide))) ?_
  refine .head (.inside '/' _ (not_closes_of_ne (by decide))) ?_
  refine .head (.close _) ?_
  exact .head (.eol .plain '\n' _ (by simp) (by decide)) (.refl _)

/-- C73 fails: a line comment goes on behind a backslash, but its second line is taken for a comment which hides
the include. -/
theorem C73_continued : parse "// a \\\n/* b\n#include \"a.h\"\n/* */\n".toList = some {} := by decide +kernel

/-! ## C74: the files visited -/

/-- C74. What is visited exists and is visited once, and the directory of a name is the part up to its last slash. -/
theorem C74_files (w : World) (s : Settings) (fuel : Nat) (cache : List Entry) (roots : List (List Char)) (st : State) (hf : Fresh w cache)
    (ho : ∀ e ∈ cache, e.parsed.ok = true) (h : process w s fuel cache roots = some st) :
    (names st.all).Nodup ∧ ∀ e ∈ st.all, w.fs e.name = some e.content := by
  obtain ⟨hinv, _, _⟩ := process_closed (k := False) (cons_of_fresh hf) ho h
  refine ⟨hinv.nodup, ?_⟩
  intro e he
  obtain ⟨a, b, _⟩ := hinv.all e he
  obtain ⟨c1, c2, _⟩ := hinv.cache e a
  rw [b] at c1
  obtain ⟨x, hx⟩ := Option.isSome_iff_exists.1 c1.symm
  rw [hx] at c2 ⊢
  rw [c2]; rfl

theorem C74_directory (d b : List Char) (hb : ∀ c ∈ b, isSlash c = false) (hd : ∀ c, d.getLast? = some c → isSlash c = true) : dirOf (d ++ b) = d := by
  rw [dirOf, List.reverse_append, List.dropWhile_append_of_pos (by simpa using hb)]
  cases hr : d.reverse with
  | nil => simpa using hr
  | cons c r =>
    have e : d = r.reverse ++ [c] := by
      have := congrArg List.reverse hr
      simpa using this
    have hc : isSlash c = true := hd c (by rw [e]; simp)
    rw [List.dropWhile_cons, if_neg (by simp [hc]), ← hr]
    simp

/-- C74. The search ends if there are finitely many files, and more fuel changes nothing. -/
theorem C74_ends (w : World) (s : Settings) (cache : List Entry) (L roots : List (List Char)) (hL : ∀ f, (w.fs f).isSome → f ∈ L) (hf : Fresh w cache)
    (ho : ∀ e ∈ cache, e.parsed.ok = true) : ∃ st, ∀ k, process w s (2 * L.length + 2 + k) cache roots = some st := by
  obtain ⟨st, h⟩ := search_ends (s := s) hL hf ho roots
  exact ⟨st, process_mono h⟩

/-- C74 (partial). If the light cache reports no error, every file which a compiler may open was visited. What is
missing: includes through the directories of other files, macros from other files or with several values,
and what the parser does not see. -/
theorem C74_closed_partial (w : World) (s : Settings) (fuel : Nat) (cache : List Entry) (roots : List (List Char)) (st : State) (hf : Fresh w cache)
    (ho : ∀ e ∈ cache, e.parsed.ok = true) (h : process w s fuel cache roots = some st) (hok : st.failed = false)
    (htame : ∀ f ∈ names st.all, ∀ text, w.fs f = some text → Tame text) (hloc : Local w (names st.all)) (hone : OneValue w (names st.all))
    (S : List (List Char)) (f : List Char) (hop : Opens w s.paths roots S f) : f ∈ names st.all :=
  (opens_visited hf ho h hok htame hloc hone hop).2

/-! ### Examples -/

/-- a disk with some files -/
def disk (l : List (String × String)) (n : List Char) : Option (List Char) :=
  (l.find? (fun f => decide (f.1.toList = n))).map (·.2.toList)

def unix (l : List (String × String)) : World :=
  { platform := .linux, workingDir := "/w".toList, fs := disk l, relative := fun b n => n.drop b.length }

def plain : Settings := { paths := ["/i/".toList], basePath := [] }

/-- the names of the files visited, and whether there was no error -/
def visited (w : World) (s : Settings) (fuel : Nat) (root : String) : Option (List (List Char) × Bool) :=
  (process w s fuel [] [root.toList]).map fun st => (names st.all, !st.failed)

theorem visited_some {w : World} {s : Settings} {fuel : Nat} {root : String} {l : List (List Char)} {b : Bool} (h : visited w s fuel root = some (l, b)) :
    ∃ st, process w s fuel [] [root.toList] = some st ∧ names st.all = l ∧ st.failed = !b := by
  rw [visited] at h
  cases hp : process w s fuel [] [root.toList] with
  | none => rw [hp] at h; simp at h
  | some st =>
    rw [hp] at h
    simp only [Option.map_some, Option.some.injEq, Prod.mk.injEq] at h
    exact ⟨st, rfl, h.1, by rw [← h.2]; simp⟩

/-- a source file with two headers, one of them found along the include path -/
def good : World := unix [("/w/a.cpp", "#include \"b.h\"\n#include <c.h>\n"), ("/w/b.h", "#define H \"d.h\"\n#include H\n"), ("/w/d.h", ""), ("/i/c.h", "int c;\n")]

example : visited good plain 10 "/w/a.cpp" = some (["/w/a.cpp".toList, "/w/b.h".toList, "/w/d.h".toList, "/i/c.h".toList], true) := by decide +kernel

theorem good_opens : Opens good plain.paths ["/w/a.cpp".toList] ["/w/a.cpp".toList] "/w/b.h".toList := by
  refine Opens.path (S := []) (text := "#include \"b.h\"\n#include <c.h>\n".toList) (q := "b.h".toList) (t := .quote)
    (Opens.root (r := "/w/a.cpp".toList) (by simp) (by decide +kernel)) (by decide +kernel) ?_ (by decide +kernel)
  exact ⟨[], " ".toList, "\"b.h\"\n#include <c.h>\n".toList, Steps.refl _, by decide, .ws _ (by decide),
    .quote "b.h".toList "\n#include <c.h>\n".toList (by decide)⟩

/-- C74 fails: of two definitions of a macro only the first is followed, although the comment in the code says
that all must be. -/
theorem C74_two_values :
    let w := unix [("/w/a.cpp", "#ifdef A\n#define H \"b.h\"\n#else\n#define H \"c.h\"\n#endif\n#include H\n"), ("/w/b.h", ""), ("/w/c.h", "")]
    Opens w plain.paths ["/w/a.cpp".toList] ["/w/a.cpp".toList] "/w/c.h".toList ∧
      visited w plain 10 "/w/a.cpp" = some (["/w/a.cpp".toList, "/w/b.h".toList], true) := by
  intro w
  refine ⟨?_, by decide +kernel⟩
  have hroot : Opens w plain.paths ["/w/a.cpp".toList] [] "/w/a.cpp".toList := Opens.root (r := "/w/a.cpp".toList) (by simp) (by decide +kernel)
  refine Opens.named (m := "H".toList) (p := "c.h".toList) (t := .quote) hroot (text := "#ifdef A\n#define H \"b.h\"\n#else\n#define H \"c.h\"\n#endif\n#include H\n".toList)
    (by decide +kernel) ?_ hroot (text' := "#ifdef A\n#define H \"b.h\"\n#else\n#define H \"c.h\"\n#endif\n#include H\n".toList) (by decide +kernel) ?_ (by decide +kernel)
  · refine ⟨[], " ".toList, "H\n".toList, "\n".toList, ?_, by decide, .ws _ (by decide), Names.mk 'H' [] "\n".toList (by decide) (by simp) (by simp; decide)⟩
    refine (steps_line "#ifdef A".toList _ .start (Or.inl rfl) (by decide)).trans ?_
    refine (steps_quoted "#define H ".toList "b.h\"".toList _ '"' .start (Or.inl rfl) (by decide) (by decide) (by decide)).trans ?_
    refine (steps_line "#else".toList _ .start (Or.inl rfl) (by decide)).trans ?_
    refine (steps_quoted "#define H ".toList "c.h\"".toList _ '"' .start (Or.inl rfl) (by decide) (by decide) (by decide)).trans ?_
    exact steps_line "#endif".toList _ .start (Or.inl rfl) (by decide)
  · refine ⟨[], " ".toList, "H \"c.h\"\n#endif\n#include H\n".toList, " ".toList, "\"c.h\"\n#endif\n#include H\n".toList, ?_, by decide, .ws _ (by decide), .ws _ (by decide),
      Names.mk 'H' [] " \"c.h\"\n#endif\n#include H\n".toList (by decide) (by simp) (by simp; decide), .quote "c.h".toList "\n#endif\n#include H\n".toList (by decide)⟩
    refine (steps_line "#ifdef A".toList _ .start (Or.inl rfl) (by decide)).trans ?_
    refine (steps_quoted "#define H ".toList "b.h\"".toList _ '"' .start (Or.inl rfl) (by decide) (by decide) (by decide)).trans ?_
    exact steps_line "#else".toList _ .start (Or.inl rfl) (by decide)

/-- C74 fails: a macro defined by a header between two includes of another header is not followed, as the other header is
looked at only once. -/
theorem C74_defined_later :
    visited (unix [("/w/a.cpp", "#include \"x.h\"\n#include \"c.h\"\n#include \"x.h\"\n"), ("/w/x.h", "#ifdef M\n#include M\n#endif\n"), ("/w/c.h", "#define M \"m.h\"\n"),
      ("/w/m.h", "")]) plain 10 "/w/a.cpp" = some (["/w/a.cpp".toList, "/w/x.h".toList, "/w/c.h".toList], true) := by decide +kernel

/-- C74 fails: a header included from two directories, each with its own version of a file, is followed for the first only. -/
theorem C74_two_parents :
    let w := unix [("/w/a.cpp", "#include \"p/p.h\"\n#include \"q/q.h\"\n"), ("/w/p/p.h", "#include \"../s/s.h\"\n"), ("/w/q/q.h", "#include \"../s/s.h\"\n"),
      ("/w/s/s.h", "#include \"v.h\"\n"), ("/w/p/v.h", ""), ("/w/q/v.h", "")]
    first w.fs (places w plain.paths ["/w/s/s.h".toList, "/w/q/q.h".toList, "/w/a.cpp".toList] "v.h".toList .quote) = some "/w/q/v.h".toList ∧
      visited w plain 10 "/w/a.cpp" = some (["/w/a.cpp".toList, "/w/p/p.h".toList, "/w/s/s.h".toList, "/w/p/v.h".toList, "/w/q/q.h".toList], true) := by
  decide +kernel

/-- C74 fails for GCC and Clang, which do not look into the directories of the including files: they read the file from the
include path, the light cache another one. -/
theorem C74_gcc :
    let w := unix [("/w/a.cpp", "#include \"s/s.h\"\n"), ("/w/s/s.h", "#include \"v.h\"\n"), ("/w/v.h", ""), ("/i/v.h", "")]
    first w.fs (places w plain.paths ["/w/s/s.h".toList] "v.h".toList .quote) = some "/i/v.h".toList ∧
      visited w plain 10 "/w/a.cpp" = some (["/w/a.cpp".toList, "/w/s/s.h".toList, "/w/v.h".toList], true) := by decide +kernel

/-! ## C75: equal keys -/

/-- C75 (partial). If two file systems give the same key, without collisions of the hashes used, the files recorded and their contents are
the same, and a compiler may open the same files in both, with the same files around them. The hypotheses are those of C74. -/
theorem C75_sound_partial (h : Hashes) (w1 w2 : World) (hp : w1.platform = w2.platform) (hd : w1.workingDir = w2.workingDir)
    (fuel1 fuel2 : Nat) (cache1 cache2 : List Entry) (useRel : Bool)
    (args : List Char) (builtIn : List (List Char)) (root : List Char) (key : Nat) (deps1 deps2 : List (List Char)) (c1 c2 : List Entry)
    (f1 : Filled w1 useRel cache1) (f2 : Filled w2 useRel cache2)
    (r1 : hash h w1 fuel1 cache1 useRel args builtIn root = some (.hashed key deps1, c1))
    (r2 : hash h w2 fuel2 cache2 useRel args builtIn root = some (.hashed key deps2, c2))
    (hname : ∀ a ∈ deps1, ∀ b ∈ deps2, h.name (label w1 useRel a) = h.name (label w2 useRel b) → a = b)
    (hcont : ∀ a ∈ deps1, ∀ b ∈ deps2, h.content (contentOf w1 a) = h.content (contentOf w2 b) → contentOf w1 a = contentOf w2 b)
    (hall : h.all (numbersOf h w1 useRel deps1) = h.all (numbersOf h w2 useRel deps2) → numbersOf h w1 useRel deps1 = numbersOf h w2 useRel deps2)
    (t1 : ∀ f ∈ deps1, ∀ text, w1.fs f = some text → Tame text) (l1 : Local w1 deps1) (o1 : OneValue w1 deps1)
    (t2 : ∀ f ∈ deps2, ∀ text, w2.fs f = some text → Tame text) (l2 : Local w2 deps2) (o2 : OneValue w2 deps2) :
    deps1 = deps2 ∧ (∀ f ∈ deps1, (w1.fs f).isSome ∧ w1.fs f = w2.fs f) ∧
      ∀ S f, Opens w1 (includePaths w1.platform args builtIn) (rootsOf args root) S f ↔
        Opens w2 (includePaths w2.platform args builtIn) (rootsOf args root) S f := by
  obtain ⟨s1, p1, k1, rfl, n1, e1, kk1⟩ := hash_hashed r1
  obtain ⟨s2, p2, k2, rfl, n2, e2, kk2⟩ := hash_hashed r2
  have ok1 : ∀ e ∈ cache1, e.parsed.ok = true := fun e he => (f1.2 e he).1
  have ok2 : ∀ e ∈ cache2, e.parsed.ok = true := fun e he => (f2.2 e he).1
  obtain ⟨i1, _, _⟩ := process_closed (cons_of_filled f1) ok1 p1
  obtain ⟨i2, _, _⟩ := process_closed (cons_of_filled f2) ok2 p2
  have m1 := numbers_eq (fun e he => i1.cache e (i1.all e he).1) e1
  have m2 := numbers_eq (fun e he => i2.cache e (i2.all e he).1) e2
  have hk : h.all (numbersOf h w1 useRel (names s1.all)) = h.all (numbersOf h w2 useRel (names s2.all)) := by
    rw [← m1, ← m2, ← kk1, ← kk2]
  obtain ⟨hdeps, hsame⟩ := numbers_inj hname hcont (hall hk)
  have x1 := (C74_files w1 _ fuel1 cache1 _ s1 f1.1 ok1 p1).2
  have x2 := (C74_files w2 _ fuel2 cache2 _ s2 f2.1 ok2 p2).2
  have hfs : ∀ f ∈ names s1.all, (w1.fs f).isSome ∧ w1.fs f = w2.fs f := by
    intro f hf
    have hs := hsame f hf
    have hf2 := hf
    rw [hdeps] at hf2
    obtain ⟨a, ha1, rfl⟩ := mem_names.1 hf
    obtain ⟨b, hb1, hb2⟩ := mem_names.1 hf2
    have ya := x1 a ha1
    have yb := x2 b hb1
    rw [hb2] at yb
    rw [contentOf, contentOf, ya, yb] at hs
    simp only [Option.getD_some] at hs
    rw [ya, yb, hs]
    exact ⟨rfl, rfl⟩
  refine ⟨hdeps, hfs, ?_⟩
  have v1 : ∀ S f, Opens w1 (includePaths w1.platform args builtIn) (rootsOf args root) S f → f ∈ names s1.all :=
    fun S f ho => C74_closed_partial w1 (settings w1 useRel args builtIn) fuel1 cache1 _ s1 f1.1 ok1 p1 k1 t1 l1 o1 S f ho
  have v2 : ∀ S f, Opens w2 (includePaths w2.platform args builtIn) (rootsOf args root) S f → f ∈ names s2.all :=
    fun S f ho => C74_closed_partial w2 (settings w2 useRel args builtIn) fuel2 cache2 _ s2 f2.1 ok2 p2 k2 t2 l2 o2 S f ho
  rw [hp] at v1 ⊢
  rw [← hdeps] at v2
  intro S f
  constructor
  · exact opens_agree hp hd v1 v2 hfs
  · refine opens_agree hp.symm hd.symm v2 v1 ?_
    intro f hf
    obtain ⟨a, b⟩ := hfs f hf
    exact ⟨by rw [← b]; exact a, b.symm⟩

/-- the names and contents of the files visited -/
def digest (st : State) : List (List Char × List Char × Option (List Char)) × Bool := (st.all.map fun e => (e.name, e.content, e.rel), st.failed)

instance : DecidableEq (List Char × List Char × Option (List Char)) := inferInstance

/-- The key depends only on the names and contents of the files visited. -/
theorem hash_congr (h : Hashes) {w1 w2 : World} {fuel : Nat} {cache1 cache2 : List Entry} {useRel : Bool} {args : List Char} {builtIn : List (List Char)} {root : List Char}
    (he : (process w1 (settings w1 useRel args builtIn) fuel cache1 (rootsOf args root)).map digest =
      (process w2 (settings w2 useRel args builtIn) fuel cache2 (rootsOf args root)).map digest) :
    (hash h w1 fuel cache1 useRel args builtIn root).map (·.1) = (hash h w2 fuel cache2 useRel args builtIn root).map (·.1) := by
  have key : ∀ l1 l2 : List Entry, (l1.map fun e => (e.name, e.content, e.rel)) = (l2.map fun e => (e.name, e.content, e.rel)) →
      numbers h useRel l1 = numbers h useRel l2 ∧ l1.map (·.name) = l2.map (·.name) ∧ (l1 = [] ↔ l2 = []) := by
    intro l1
    induction l1 with
    | nil => intro l2 hl; cases l2 with
      | nil => simp
      | cons b l2 => simp at hl
    | cons a l1 ih =>
      intro l2 hl
      cases l2 with
      | nil => simp at hl
      | cons b l2 =>
        simp only [List.map_cons, List.cons.injEq, Prod.mk.injEq] at hl
        obtain ⟨⟨a1, a2, a3⟩, a4⟩ := hl
        obtain ⟨b1, b2, b3⟩ := ih l2 a4
        simp only [numbers, a1, a2, a3, b1, List.map_cons, b2]
        simp
  rw [hash, hash]
  split
  · rfl
  · simp only
    simp only [settings, rootsOf] at he
    cases h1 : process w1 { paths := includePaths w1.platform args builtIn, basePath := if useRel then withSlash w1.platform w1.workingDir else [] } fuel cache1
        (extract forcePrefixes args ++ [root]) with
    | none =>
      cases h2 : process w2 { paths := includePaths w2.platform args builtIn, basePath := if useRel then withSlash w2.platform w2.workingDir else [] } fuel cache2
          (extract forcePrefixes args ++ [root]) with
      | none => rfl
      | some s2 => rw [h1, h2] at he; simp at he
    | some s1 =>
      cases h2 : process w2 { paths := includePaths w2.platform args builtIn, basePath := if useRel then withSlash w2.platform w2.workingDir else [] } fuel cache2
          (extract forcePrefixes args ++ [root]) with
      | none => rw [h1, h2] at he; simp at he
      | some s2 =>
        rw [h1, h2] at he
        simp only [Option.map_some, Option.some.injEq, digest, Prod.mk.injEq] at he
        obtain ⟨e1, e2⟩ := he
        obtain ⟨k1, k2, k3⟩ := key _ _ e1
        simp only [k1, k2, e2, k3]
        split
        · rfl
        · cases numbers h useRel s2.all <;> rfl

example : (process good (settings good false "-I/i".toList []) 10 [] (rootsOf "-I/i".toList "/w/a.cpp".toList)).map (fun st => (names st.all, st.failed)) =
    some (["/w/a.cpp".toList, "/w/b.h".toList, "/w/d.h".toList, "/i/c.h".toList], false) := by decide +kernel

/-- C75 fails: a header forced with the option `-include` of GCC and Clang is not seen. The key is the same for two versions of it. -/
theorem C75_forced_include (h : Hashes) :
    (hash h (unix [("/w/a.cpp", "int a;\n"), ("/w/f.h", "#define A 1\n")]) 10 [] false "-include /w/f.h -c /w/a.cpp".toList [] "/w/a.cpp".toList).map (·.1) =
    (hash h (unix [("/w/a.cpp", "int a;\n"), ("/w/f.h", "#define A 2\n")]) 10 [] false "-include /w/f.h -c /w/a.cpp".toList [] "/w/a.cpp".toList).map (·.1) := by
  apply hash_congr
  decide +kernel

/-- C75 fails: a macro defined on the command line is taken for one not defined, and the file is ignored. -/
theorem C75_command_line (h : Hashes) :
    (hash h (unix [("/w/a.cpp", "#include H\n"), ("/w/h.h", "#define A 1\n")]) 10 [] false "-DH=\\\"h.h\\\" -c /w/a.cpp".toList [] "/w/a.cpp".toList).map (·.1) =
    (hash h (unix [("/w/a.cpp", "#include H\n"), ("/w/h.h", "#define A 2\n")]) 10 [] false "-DH=\\\"h.h\\\" -c /w/a.cpp".toList [] "/w/a.cpp".toList).map (·.1) := by
  apply hash_congr
  decide +kernel

/-- C75 fails: with `-iquote` and `-I` the first is searched last. -/
theorem C75_order : includePaths .linux "-iquote/q -I/i".toList [] = ["/i/".toList, "/q/".toList] := by decide +kernel

/-! ## C76: the shared cache -/

/-- C76 (partial). The outcome for an object does not depend on the objects before it, if their files had no errors, the file system did not change,
and all of them used relative paths or none of them. -/
theorem C76_cache_partial (h : Hashes) (w : World) (fuel : Nat) (cache : List Entry) (useRel : Bool) (args : List Char) (builtIn : List (List Char)) (root : List Char)
    (hf : Filled w useRel cache) :
    (hash h w fuel cache useRel args builtIn root).map (·.1) = (hash h w fuel [] useRel args builtIn root).map (·.1) := by
  have hs : Sim w (settings w useRel args builtIn) { cache := cache } { cache := [] } := by
    refine ⟨rfl, rfl, rfl, rfl, ?_, by simp⟩
    intro e he
    refine ⟨cons_of_filled hf e he, fun hk => ?_⟩
    rw [(hf.2 e he).1] at hk
    simp at hk
  have := sim_fold (go := fun st r => processInclude w (settings w useRel args builtIn) fuel st r .quote)
    (fun a b i hab => sim_process w _ fuel a b i .quote hab) (rootsOf args root) _ _ hs
  refine hash_congr h ?_
  rw [process, process]
  revert this
  generalize (rootsOf args root).foldlM (fun st r => processInclude w (settings w useRel args builtIn) fuel st r .quote) { cache := cache } = x
  generalize (rootsOf args root).foldlM (fun st r => processInclude w (settings w useRel args builtIn) fuel st r .quote) { cache := [] } = y
  intro this
  match x, y, this with
  | none, none, _ => rfl
  | some a, some b, this => simp only [Option.map_some, digest]; rw [this.all, this.failed]

/-- C76. What an object leaves in the cache is such that the next may use it, if it had no errors. -/
theorem C76_filled (h : Hashes) (w : World) (fuel : Nat) (cache : List Entry) (useRel : Bool) (args : List Char) (builtIn : List (List Char)) (root : List Char)
    (hf : Filled w useRel cache) (key : Nat) (deps : List (List Char)) (c : List Entry)
    (hh : hash h w fuel cache useRel args builtIn root = some (.hashed key deps, c)) : Filled w useRel c := by
  obtain ⟨st, p, k, _, ns, e1, _⟩ := hash_hashed hh
  have hc : c = st.cache := by
    rw [hash] at hh
    split at hh
    · simp at hh
    · simp only at hh
      rw [settings, rootsOf] at p
      rw [p] at hh
      simp only at hh
      split at hh
      · simp at hh
      · rw [e1] at hh
        simp only [Option.some.injEq, Prod.mk.injEq] at hh
        exact hh.2.symm
  subst hc
  obtain ⟨i, _, _⟩ := process_closed (cons_of_filled hf) (fun e he => (hf.2 e he).1) p
  refine ⟨fun e he => ⟨(i.cache e he).1, (i.cache e he).2.1, (i.cache e he).2.2.1⟩, ?_⟩
  intro e he
  refine ⟨?_, ?_⟩
  · cases hk : e.parsed.ok
    · have := i.ok e he hk
      rw [k] at this; simp at this
    · rfl
  · rw [(i.cache e he).2.2.2 trivial]
    cases useRel with
    | false => simp [settings]
    | true => simp [settings, withSlash_ne, label]

example : Filled good false [] := ⟨fun _ h => by simp at h, fun _ h => by simp at h⟩

/-- a list of objects, with what is known of each -/
def runTwo (w1 : World) (rel1 : Bool) (root1 : String) (w2 : World) (rel2 : Bool) (root2 : String) : Option (Bool × Outcome) :=
  let h : Hashes := ⟨fun _ => 0, fun _ => 0, fun _ => 0⟩
  match hash h w1 10 [] rel1 [] [] root1.toList with
  | none => none
  | some (o1, cache) =>
    (hash h w2 10 cache rel2 [] [] root2.toList).map fun r => (match o1 with | .hashed _ _ => true | _ => false, r.1)

/-- a header which the parser does not understand -/
def importing : World :=
  unix [("/w/a.cpp", "#include \"x.h\"\n"), ("/w/b.cpp", "#include \"x.h\"\n"), ("/w/x.h", "#import \"y.tlb\"\n#include \"z.h\"\n"), ("/w/z.h", "")]

/-- C76 fails: the light cache is not used for the first object with a header which the parser does not understand, but it is for the
second one, and without what stands behind the error in the header. -/
theorem C76_error_lost :
    runTwo importing false "/w/a.cpp" importing false "/w/b.cpp" = some (false, .hashed 0 ["/w/b.cpp".toList, "/w/x.h".toList]) ∧
      (hash ⟨fun _ => 0, fun _ => 0, fun _ => 0⟩ importing 10 [] false [] [] "/w/b.cpp".toList).map (·.1) = some .unusable := by decide +kernel

/-- C76 fails: a header written during the build is missing if it was looked for before. -/
theorem C76_generated :
    runTwo (unix [("/w/a.cpp", "#include \"g.h\"\n"), ("/w/b.cpp", "#include \"g.h\"\n")]) false "/w/a.cpp"
      (unix [("/w/a.cpp", "#include \"g.h\"\n"), ("/w/b.cpp", "#include \"g.h\"\n"), ("/w/g.h", "")]) false "/w/b.cpp" =
      some (true, .hashed 0 ["/w/b.cpp".toList]) := by decide +kernel

/-- C76 fails: if the first object does not use relative paths and the second does, the key of the second is computed from memory which
was never written. -/
theorem C76_uninitialised :
    let w := unix [("/w/a.cpp", "#include \"g.h\"\n"), ("/w/b.cpp", "#include \"g.h\"\n"), ("/w/g.h", "")]
    runTwo w false "/w/a.cpp" w true "/w/b.cpp" = some (true, .undefined) := by decide +kernel

end Verif.Light
