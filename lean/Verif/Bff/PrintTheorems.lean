import Verif.Bff.PrintEval
import Verif.Bff.NamesUsing
/-
C125: what `Print( .Name )` writes, put into a build file, gives the variable its value.
-/
namespace Verif.Bff.Print
open Interp

/-- C125: between two statements of any build file, the text written for a variable that can be written there is read as a statement that
gives the variable this value and changes nothing else that can be seen. -/
theorem C125_back (commit : List Event → Event → Bool) (el : List (Str × Val) → Str) (n : Str) (v : Val) (i k : Nat) (st : St) (g : Frame)
    (s : List Frame) (rest : List Tok) (e : Tok) (hn : Name n) (hs : st.stack = g :: s) (hp : Proper st)
    (hw : Writable (fun m => (lookup m st.stack).map (·.2.val)) v) (hm : May ((lookup n st.stack).map (·.2.val)) v)
    (hk : depth v ≤ k + 1) (hd : st.stack.length + depth v ≤ 126) :
    ∃ ts g', (∀ W inc j lst, Lex.run W inc j lst (printVar el i n v) = .ok { lst with toks := lst.toks ++ .var n :: ts }) ∧
      stmt commit (nested commit k) st (.var n) (ts ++ rest) e = .ok ({ st with stack := g' :: s }, rest) ∧
      (∀ m, (lookup m (g' :: s)).map (·.2.val) = if m = n then some v else (lookup m (g :: s)).map (·.2.val)) := by
  rw [hs] at hw hm
  let g1 : Frame := { g with last := some (n, none) }
  have hv1 : vis (g1 :: s) = vis (g :: s) := by funext x; rw [vis_cons, vis_cons]
  have hf : ∀ w ∈ g1.vars, w.frozen = 0 := (show Inv false (g :: s) from hs ▸ hp).1
  have h1 := declare_ok commit v (k + 1) (st.set (g1 :: s)) g1 s n rest e rfl hf (by rw [hv1]; exact hw) (by rw [hv1]; exact hm) hk
    (by simp only [St.set, List.length_cons]; rw [hs, List.length_cons] at hd; omega)
  refine ⟨.op .assign :: toks v, { g1 with vars := put n v g1.vars }, ?_, ?_, ?_⟩
  · intro W inc j lst
    have := text_var el _ v i n hn hw Lex.Text.nil
    rw [List.append_nil, List.append_nil] at this
    exact Lex.C58_text W inc j _ _ this lst
  · show stmt commit (parse commit (k + 1) (.brace .cr)) st (.var n) (.op .assign :: (toks v ++ rest)) e = _
    simp only [stmt, named, varName_name hn, Out.bind_ok, Bool.false_eq_true, if_false]
    rw [hs]
    exact h1
  · intro m
    have := congrFun (vis_put (g := g1) (s := s) (n := n) (x := v) (l := g1.last)) m
    rw [hv1] at this
    exact this

/-- C125: where a variable can be seen, its text changes nothing that can be seen. -/
theorem C125_same (commit : List Event → Event → Bool) (el : List (Str × Val) → Str) (n : Str) (v : Val) (i k : Nat) (st : St) (g : Frame)
    (s : List Frame) (rest : List Tok) (e : Tok) (hn : Name n) (hs : st.stack = g :: s) (hp : Proper st)
    (hw : Writable (fun m => (lookup m st.stack).map (·.2.val)) v) (hv : (lookup n st.stack).map (·.2.val) = some v)
    (hk : depth v ≤ k + 1) (hd : st.stack.length + depth v ≤ 126) :
    ∃ ts g', (∀ W inc j lst, Lex.run W inc j lst (printVar el i n v) = .ok { lst with toks := lst.toks ++ .var n :: ts }) ∧
      stmt commit (nested commit k) st (.var n) (ts ++ rest) e = .ok ({ st with stack := g' :: s }, rest) ∧
      (∀ m, (lookup m (g' :: s)).map (·.2.val) = (lookup m (g :: s)).map (·.2.val)) := by
  have hm : May ((lookup n st.stack).map (·.2.val)) v := by
    rw [hv]
    cases v <;> simp [May]
    simp only [Writable] at hw
  obtain ⟨ts, g', h1, h2, h3⟩ := C125_back commit el n v i k st g s rest e hn hs hp hw hm hk hd
  refine ⟨ts, g', h1, h2, fun m => ?_⟩
  rw [h3 m]
  split
  · next e => subst e; rw [← hs, hv]
  · rfl

theorem stmts_eof (commit : List Event → Event → Bool) (rec : Rec) (k : Nat) (st : St) : stmts commit rec .eof (k + 1) st [.eof] = .ok st := by
  have : stmt commit rec st .eof [] .eof = .ok (st, []) := by
    have h : Tok.eof.is .cl = false := rfl
    simp [stmt, h]
  rw [stmts, this, Out.bind_ok]
  cases k <;> rfl

/-- C125: a file with this text alone has the variable with the value, and no other. -/
theorem C125_file (commit : List Event → Event → Bool) (el : List (Str × Val) → Str) (n : Str) (v : Val) (hn : Name n)
    (hw : Writable (fun _ => none) v) (hd : depth v ≤ 125) :
    ∃ ts st, (∀ W inc j lst, Lex.run W inc j lst (printVar el 0 n v) = .ok { lst with toks := lst.toks ++ ts }) ∧
      Interp.run commit [] (ts ++ [.eof]) = .ok st ∧ Names.scopes st = [[(n, v)]] ∧ st.log = [] := by
  have ht := text_var el _ v 0 n hn hw Lex.Text.nil
  rw [List.append_nil, List.append_nil] at ht
  let g1 : Frame := ⟨[], some (n, none), false⟩
  let st0 : St := ⟨[⟨[], none, false⟩], [], [], []⟩
  have hv1 : vis [g1] = fun _ => none := rfl
  have h1 := declare_ok commit v 127 (st0.set [g1]) g1 [] n [.eof] .eof rfl (by intro w hw; cases hw) (by rw [hv1]; exact hw) trivial (by omega)
    (by simp only [St.set, List.length_cons, List.length_nil]; omega)
  refine ⟨.var n :: .op .assign :: toks v, after (st0.set [g1]) g1 [] n v, fun W inc j lst => Lex.C58_text W inc j _ _ ht lst, ?_, rfl, rfl⟩
  have hst : stmt commit (parse commit 127 (.brace .cr)) st0 (.var n) (.op .assign :: (toks v ++ [.eof])) .eof =
      .ok (after (st0.set [g1]) g1 [] n v, [.eof]) := by
    simp only [stmt, named, varName_name hn, Out.bind_ok, Bool.false_eq_true, if_false]
    exact h1
  show parse commit 128 .eof st0 (.var n :: .op .assign :: (toks v ++ [.eof])) = _
  rw [parse, if_neg (by simp [st0])]
  simp only [List.length_cons, List.length_append, List.length_nil]
  rw [stmts, hst, Out.bind_ok]
  exact stmts_eof _ _ _ _

/-! ### where it is not so -/

/-- read the text as the line of a file of its own, and the variable afterwards -/
def reread (n : Str) (v : Val) : Option Val :=
  match Lex.line (printVar (fun _ => ".S".toList) 0 n v) with
  | .ok ts => match Interp.run (fun _ _ => true) [] (ts ++ [.eof]) with
    | .ok st => (lookup n st.stack).map (·.2.val)
    | _ => none
  | _ => none

/-- the string, if it is one -/
def asStr : Option Val → Option Str
  | some (.str x) => some x
  | _ => none

/-- whether it is an array of strings without elements -/
def isNoStrs : Option Val → Bool
  | some (.strs []) => true
  | _ => false

/-- C125: `^` in a string is lost, `$` makes it an error. -/
theorem C125_string_false : asStr (reread ".A".toList (.str "a^b".toList)) = some "ab".toList ∧
    (reread ".A".toList (.str "a$b".toList)).isNone = true := by decide +kernel

/-- C125: the numbers 91 and 123, or any with this lowest byte, are taken for brackets. -/
theorem C125_number_false : (reread ".A".toList (.int 123)).isNone = true ∧ (reread ".A".toList (.int 91)).isNone = true ∧
    (reread ".A".toList (.int 347)).isNone = true := by decide +kernel

/-- C125: an array of structs is not what the language has for one; without elements it becomes an array of strings. -/
theorem C125_structs_false : (reread ".A".toList (.structs [[(".X".toList, .bool true)]])).isNone = true ∧
    isNoStrs (reread ".A".toList (.structs [])) = true := by decide +kernel

/-- C125: a member of a struct in a struct may have the name of a member before it but another type, which cannot be written. -/
theorem C125_types_false : (reread ".A".toList (.struct [(".X".toList, .bool true), (".B".toList, .struct [(".X".toList, .int 1)])])).isNone = true := by
  decide +kernel

/-- the names in `.C`, if it is such a struct -/
def inC : Out St → Option (List Str)
  | .ok st => match vis st.stack ".C".toList with
    | some (.struct [(a, .bool true), (b, .struct [(c, .int 1)])]) => some [a, b, c]
    | _ => none
  | _ => none

/-- such a struct can be made: `.B = [ .X = 1 ] .C = [ .X = true .B = .B ]` -/
example : inC (eval [var ".B", .op .assign, o .sl, var ".X", .op .assign, .num 1, o .sr, var ".C", .op .assign, o .sl, var ".X", .op .assign,
    .bool true, var ".B", .op .assign, var ".B", o .sr]) = some [".X".toList, ".B".toList, ".X".toList] := by decide +kernel

/-- C125: a name that needs quotes is written without them. -/
theorem C125_name_false : (reread ".A B".toList (.bool true)).isNone = true := by decide +kernel

/-! ### examples -/

/-- a variable with all that can be written -/
def exVal : Val := .struct [(".Name".toList, .str "it's 100% \"quoted\"".toList), (".List".toList, .strs ["a".toList, [], "b'".toList]),
  (".None".toList, .strs []), (".Number".toList, .int (-12)), (".Sub".toList, .struct [(".Name".toList, .str "x".toList), (".On".toList, .bool false)]),
  (".Off".toList, .bool true)]

instance (n : Str) : Decidable (Clean n) := by unfold Clean; infer_instance

theorem name_of {w : Str} (h : w ≠ []) (hc : ∀ c ∈ w, Lex.Letter c ∨ Lex.Digit c) : Name ('.' :: w) := ⟨w, rfl, h, hc⟩

/-- it meets the hypotheses of `C125_file` -/
example : Name ".A".toList ∧ Writable (fun _ => none) exVal ∧ depth exVal ≤ 125 := by
  refine ⟨name_of (w := "A".toList) (by decide) (by decide +kernel), ?_, by decide +kernel⟩
  simp only [exVal, Writable, WritableMs]
  refine ⟨by decide +kernel, name_of (w := "Name".toList) (by decide +kernel) (by decide +kernel), trivial, by decide +kernel,
    name_of (w := "List".toList) (by decide +kernel) (by decide +kernel), trivial, by decide +kernel,
    name_of (w := "None".toList) (by decide +kernel) (by decide +kernel), trivial, by decide +kernel,
    name_of (w := "Number".toList) (by decide +kernel) (by decide +kernel), trivial, by decide +kernel,
    name_of (w := "Sub".toList) (by decide +kernel) (by decide +kernel), trivial,
    ⟨by decide +kernel, name_of (w := "Name".toList) (by decide +kernel) (by decide +kernel), ?_, by decide +kernel,
      name_of (w := "On".toList) (by decide +kernel) (by decide +kernel), trivial, trivial, trivial⟩,
    name_of (w := "Off".toList) (by decide +kernel) (by decide +kernel), trivial, trivial, trivial⟩
  exact trivial

/-- its text -/
example : String.ofList (printVar (fun _ => []) 0 ".A".toList (.struct [(".N".toList, .str "it's".toList), (".L".toList, .strs ["a".toList]), (".I".toList, .int (-12))])) =
    ".A = // Struct\n[\n    .N = 'it^'s'\n    .L = // ArrayOfStrings, size: 1\n    {\n        'a'\n    }\n    .I = -12\n]\n" := by decide +kernel

end Verif.Bff.Print
