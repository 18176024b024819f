import Verif.Bff.NamesTheorems
import Verif.Bff.UsingTheorems
/-
C124 for single statements, and C120 in the states between two statements.
-/
namespace Verif.Bff.Names
open Interp

/-- C124: the same after each statement, at the top of the file or in brackets. -/
theorem C124_statement (commit : List Event → Event → Bool) (k : Nat) (st st' : St) (t : Tok) (ts rest : List Tok) (e : Tok)
    (hs : ∀ vs ∈ scopes st, Scope vs) (hl : ∀ x ∈ st.log, Ev x) (h : stmt commit (nested commit k) st t ts e = .ok (st', rest)) :
    (∀ vs ∈ scopes st', Scope vs) ∧ ∀ x ∈ st'.log, Ev x :=
  (good_iff st').1 (stmt_good (parse_good commit (k + 1) _) ((good_iff st).2 ⟨hs, hl⟩) _ h)

/-- C124: without different names at the start, or with a struct that has a name twice, it is not so: the hypothesis is needed. -/
theorem C124_base : ¬ Scope [(".A".toList, .bool true), (".A".toList, .bool false)] ∧
    ¬ Scope [(".A".toList, .structs [[(".B".toList, .int 1), (".B".toList, .int 2)]])] := by
  refine ⟨fun h => ?_, fun h => ?_⟩
  · exact absurd h.1 (by decide +kernel)
  · have := h.2 _ (List.mem_singleton.2 rfl)
    have := (once_structs.1 this _ (List.mem_singleton.2 rfl)).1
    exact absurd this (by decide +kernel)

/-- built-in variables with different names -/
example : Scope ([⟨"._WORKING_DIR_".toList, .str "/tmp".toList, 0⟩, ⟨"._FASTBUILD_VERSION_".toList, .int 113, 0⟩].map
    fun v : Var => (v.name, v.val)) := by
  refine ⟨by decide +kernel, fun v hv => ?_⟩
  simp only [List.map_cons, List.map_nil, List.mem_cons, List.not_mem_nil, or_false] at hv
  rcases hv with rfl | rfl
  · exact once_str _
  · exact once_int _

/-- the names of each scope that the first function which makes nodes can see -/
def firstEnv (x : Out St) : Option (List (List Str)) := match x with
  | .ok st => st.log.findSome? fun e => match e with
    | .commit _ _ env => some (env.map fun vs => vs.map (·.1))
    | _ => none
  | _ => none

/-- `.A = 'a' .S = [ .A = 'b' .A = 'c' ] .T = [ .A = 'd' .B = 'e' ] .S + .T Alias( 'x' ) { .A = 'y' .A + 'z' Using( .S ) .A = 'w' }` -/
example : firstEnv (eval [var ".A", .op .assign, text "a", var ".S", .op .assign, o .sl, var ".A", .op .assign, text "b", var ".A", .op .assign,
    text "c", o .sr, var ".T", .op .assign, o .sl, var ".A", .op .assign, text "d", var ".B", .op .assign, text "e", o .sr,
    var ".S", .op .plus, var ".T", fn "Alias", o .rl, text "x", o .rr, o .cl, var ".A", .op .assign, text "y", var ".A", .op .plus, text "z",
    fn "Using", o .rl, var ".S", o .rr, var ".A", .op .assign, text "w", o .cr]) =
    some [[".A".toList, ".B".toList], [".A".toList, ".S".toList, ".T".toList]] := by decide +kernel

/-! ### C120 without its hypotheses about names -/

/-- What `Using` needs holds in every state between two statements: there the state is proper (`C52_proper`) and each name occurs once
(`C124_statement`). -/
theorem C120_ready (st : St) (g : Frame) (s : List Frame) (hst : st.stack = g :: s) (hp : Proper st) (hs : ∀ vs ∈ scopes st, Scope vs) :
    Using.Scope g ∧ ∀ n i v ms, lookup n (g :: s) = some (i, v) ∨ lookup n s = some (i, v) → v.val = .struct ms → Using.Distinct ms := by
  have hk : Stk st.stack := by
    intro f hf
    have := hs _ (List.mem_map.2 ⟨f, hf, rfl⟩)
    refine ⟨by simpa [Scope, List.map_map, Function.comp_def] using this.1, fun v hv => this.2 _ (List.mem_map.2 ⟨v, hv, rfl⟩)⟩
  rw [hst] at hk
  have hp' : Inv false (g :: s) := hst ▸ hp
  refine ⟨⟨hk.head.1, hp'.1⟩, fun n i v ms hl hv => ?_⟩
  have := hl.elim (lookup_once hk) (lookup_once hk.tail)
  rw [hv] at this
  exact (once_struct.1 this).1

/-- `Using( .S )` between two statements: the scope has the members, and nothing else changes; the state is again one between two
statements in which each name occurs once. -/
theorem C120_reached (commit : List Event → Event → Bool) (rec : Rec) (st : St) (g : Frame) (s : List Frame) (c : Char) (n : Str)
    (i : Nat) (v : Var) (ms : List (Str × Val)) (rest : List Tok) (e : Tok)
    (hst : st.stack = g :: s) (hp : Proper st) (hs : ∀ vs ∈ scopes st, Scope vs) (hc : c ≠ '^') (hb : Using.Bare n)
    (hl : lookup ('.' :: n) (g :: s) = some (i, v)) (hv : v.val = .struct ms) :
    ∃ g', function commit rec st "Using".toList (Using.call (c :: n) rest) e = .ok ({ st with stack := g' :: s }, rest) ∧
      Using.pairs g' = Using.bring ms (some ('.' :: n)) (Using.pairs g) ∧ g'.last = g.last ∧ g'.linked = g.linked ∧
      (∀ m, Using.find (Using.pairs g') m = (Using.find ms m).or (Using.find (Using.pairs g) m)) := by
  obtain ⟨hg, hd⟩ := C120_ready st g s hst hp hs
  have hd := hd _ i v ms (.inl hl) hv
  obtain ⟨g', h1, h2, h3, h4⟩ := Using.C120_using commit rec st g s c n i v ms rest e hst hg hc hb hl hv hd
  exact ⟨g', h1, h2, h3, h4, fun m => by rw [h2]; exact Using.C120_values ms _ _ hd m⟩

/-- `Using( ^S )` between two statements. -/
theorem C120_reached_parent (commit : List Event → Event → Bool) (rec : Rec) (st : St) (g : Frame) (s : List Frame) (n : Str)
    (i : Nat) (v : Var) (ms : List (Str × Val)) (rest : List Tok) (e : Tok)
    (hst : st.stack = g :: s) (hp : Proper st) (hs : ∀ vs ∈ scopes st, Scope vs) (hb : Using.Bare n) (hl : g.linked = true)
    (hf : lookup ('.' :: n) s = some (i, v)) (hv : v.val = .struct ms) :
    ∃ g', function commit rec st "Using".toList (Using.call ('^' :: n) rest) e = .ok ({ st with stack := g' :: s }, rest) ∧
      Using.pairs g' = Using.bring ms none (Using.pairs g) ∧ g'.last = g.last ∧ g'.linked = g.linked ∧
      (∀ m, Using.find (Using.pairs g') m = (Using.find ms m).or (Using.find (Using.pairs g) m)) := by
  obtain ⟨hg, hd⟩ := C120_ready st g s hst hp hs
  have hd := hd _ i v ms (.inr hf) hv
  obtain ⟨g', h1, h2, h3, h4⟩ := Using.C120_parent commit rec st g s n i v ms rest e hst hg hb hl hf hv hd
  exact ⟨g', h1, h2, h3, h4, fun m => by rw [h2]; exact Using.C120_values ms _ _ hd m⟩

/-- the hypotheses of `C120_reached` hold for a state with the frame of the examples of `Using` -/
example : Proper ⟨[Using.exFrame], [], [], []⟩ ∧ ∀ vs ∈ scopes ⟨[Using.exFrame], [], [], []⟩, Scope vs := by
  refine ⟨⟨?_, by intro n i h; cases h⟩, ?_⟩
  · intro v hv
    simp only [Using.exFrame, List.mem_cons, List.not_mem_nil, or_false] at hv
    rcases hv with rfl | rfl <;> rfl
  · intro vs hv
    simp only [scopes, List.map_cons, List.map_nil, List.mem_cons, List.not_mem_nil, or_false] at hv
    subst hv
    refine ⟨by decide +kernel, fun v hv => ?_⟩
    simp only [Using.exFrame, List.map_cons, List.map_nil, List.mem_cons, List.not_mem_nil, or_false] at hv
    rcases hv with rfl | rfl
    · exact once_str _
    · refine once_struct.2 ⟨by decide +kernel, fun m hm => ?_⟩
      simp only [List.mem_cons, List.not_mem_nil, or_false] at hm
      rcases hm with rfl | rfl | rfl
      · exact once_int _
      · exact once_str _
      · exact once_bool _

end Verif.Bff.Names
