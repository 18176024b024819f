import Verif.CompInfo.Proof
/-!
C113: the include paths a compiler searches by itself are those it says.
-/
namespace Verif.CompInfo
open Verif.Str

private theorem heads_append {a : Text} (h : Heads a) (b : Text) : Heads (a ++ b) := by
  rcases h with ⟨r, e⟩ | ⟨r, e⟩
  · exact .inl ⟨r ++ b, by rw [e, List.append_assoc]⟩
  · exact .inr ⟨r ++ b, by rw [e, List.append_assoc]⟩

private theorem heads_ne {a : Text} (h : Heads a) : a ≠ [] := by
  intro e
  rcases h with ⟨r, h⟩ | ⟨r, h⟩ <;> (rw [e] at h; exact absurd (congrArg List.length h) (by simp))

/-- What a build does with output that is a list: its paths, in order, come after those the node had. The list ends with its
last line, whatever follows it, or with the output. -/
theorem C113_added {hash : List Text → Nat} {n : Node} {pre list rest : Text} {ps : List Text} (hs : ¬ (n.noStdInc = true ∧ n.noStdIncPP = true))
    (hl : Lines list ps) (hh : Heads list) (hr : rest = [] ∨ ∃ r, rest = "End of search list.".toList ++ '\n' :: r)
    (hb : Before pre (list ++ rest)) (h0 : hash (n.paths ++ ps) ≠ 0) :
    doBuild hash n (.exited 0 (pre ++ (list ++ rest))) = ({ n with paths := n.paths ++ ps, stamp := hash (n.paths ++ ps) }, .ok) := by
  have hsc : scan (tokenize '\n' (list ++ rest)) n.paths = (n.paths ++ ps, true) := by
    obtain ⟨P', _, h⟩ := scan_lines hl [] rest n.paths
    rw [tokenize, tokenRanges]
    rw [List.nil_append, List.length_nil] at h
    rw [h]
    rcases hr with e | ⟨r, e⟩
    · subst e; rfl
    · subst e; exact scan_end P' r _
  have hne : pre ++ (list ++ rest) ≠ [] := by
    intro e
    simp at e
    exact heads_ne hh e.2.1
  rw [doBuild, if_neg (by simpa using hs)]
  simp only [ne_eq, not_true_eq_false, if_false, if_neg hne, section_first hb (heads_append hh rest), hsc, if_neg h0]

/-- A node that had none: it has those the compiler says, in order. Missing: a node that had some, see `C113_again_false`, and
paths with a quote, see `C113_quote_false`. -/
theorem C113_paths_partial {hash : List Text → Nat} {n : Node} {pre list rest : Text} {ps : List Text}
    (hs : ¬ (n.noStdInc = true ∧ n.noStdIncPP = true)) (hn : n.paths = [])
    (hl : Lines list ps) (hh : Heads list) (hr : rest = [] ∨ ∃ r, rest = "End of search list.".toList ++ '\n' :: r)
    (hb : Before pre (list ++ rest)) (h0 : hash ps ≠ 0) :
    (doBuild hash n (.exited 0 (pre ++ (list ++ rest)))).2 = .ok ∧
      (doBuild hash n (.exited 0 (pre ++ (list ++ rest)))).1.paths = ps ∧
      (doBuild hash n (.exited 0 (pre ++ (list ++ rest)))).1.stamp = hash ps := by
  have := C113_added (hash := hash) hs hl hh hr hb (by rw [hn]; exact h0)
  rw [hn, List.nil_append] at this
  rw [this]
  exact ⟨rfl, rfl, rfl⟩

/-- With no standard include paths at all the compiler isn't asked, and there are none, also if there were. -/
theorem C113_none (hash : List Text → Nat) {n : Node} (h1 : n.noStdInc = true) (h2 : n.noStdIncPP = true) (run : Run) :
    doBuild hash n run = ({ n with paths := [], stamp := 1 }, .ok) := by
  rw [doBuild.eq_def, if_pos (by simp [h1, h2])]

/-- A line that doesn't belong there makes the build fail. -/
theorem C113_unexpected {hash : List Text → Nat} {n : Node} {pre list l rest : Text} {ps : List Text} (hs : ¬ (n.noStdInc = true ∧ n.noStdIncPP = true))
    (hl : Lines list ps) (hh : Heads list) (ho : Odd l) (hb : Before pre (list ++ (l ++ '\n' :: rest))) :
    (doBuild hash n (.exited 0 (pre ++ (list ++ (l ++ '\n' :: rest))))).2 = .failed := by
  have hsc : scan (tokenize '\n' (list ++ (l ++ '\n' :: rest))) n.paths = (n.paths ++ ps, false) := by
    obtain ⟨P', _, h⟩ := scan_lines hl [] (l ++ '\n' :: rest) n.paths
    rw [tokenize, tokenRanges]
    rw [List.nil_append, List.length_nil] at h
    rw [h]
    exact scan_odd ho P' rest _
  have hne : pre ++ (list ++ (l ++ '\n' :: rest)) ≠ [] := by
    intro e
    simp at e
  rw [doBuild, if_neg (by simpa using hs)]
  simp only [ne_eq, not_true_eq_false, if_false, if_neg hne, section_first hb (heads_append hh _), hsc]

/-- So does output without a list, a compiler that fails, and one that can't be started; the node is left as it was. -/
theorem C113_failed (hash : List Text → Nat) {n : Node} (hs : ¬ (n.noStdInc = true ∧ n.noStdIncPP = true)) :
    (∀ err : Text, err ≠ [] → (∀ p q, err = p ++ q → ¬ Heads q) → doBuild hash n (.exited 0 err) = (n, .failed)) ∧
      (∀ (code : Int) (err : Text), code ≠ 0 → doBuild hash n (.exited code err) = (n, .failed)) ∧
      doBuild hash n (.notStarted false) = (n, .failed) ∧ doBuild hash n (.notStarted true) = (n, .aborted) ∧
      doBuild hash n .stopped = (n, .aborted) := by
  have hs' : ¬ (n.noStdInc && n.noStdIncPP) = true := by simpa using hs
  refine ⟨fun err h0 h => ?_, fun code err h => ?_, ?_, ?_, ?_⟩
  · rw [doBuild, if_neg hs']
    simp only [ne_eq, not_true_eq_false, if_false, if_neg h0, section_none h]
  · rw [doBuild, if_neg hs']
    simp only [if_pos h]
  all_goals rw [doBuild, if_neg hs']
  all_goals rfl

/-- What the compiler is asked: the paths of C++, with the standard ones left out as those of the node are. -/
theorem C113_asked (n : Node) (cl windows : Bool) :
    arguments n cl windows = (" -v -fsyntax-only -Werror -Wfatal-errors" ++ (if n.noStdInc then " -nostdinc" else "") ++
      (if n.noStdIncPP then " -nostdinc++" else "") ++ (if cl then " /Tp" else " -x c++") ++
      (if windows then " NUL" else " /dev/null")).toList := by
  have e : ∀ (b : Bool) (x y : String), (if b = true then x else y).toList = if b = true then x.toList else y.toList := by
    intro b x y; cases b <;> rfl
  unfold arguments
  repeat rw [String.toList_append]
  repeat rw [e]
  rfl

private def output (p : String) : Text :=
  ("clang version 17\n#include \"...\" search starts here:\n#include <...> search starts here:\n " ++ p ++
    "\nEnd of search list.\n").toList

/-- Asked again, as after the compiler was replaced, the paths of before stay, and come first. -/
theorem C113_again_false :
    let first := (doBuild (fun _ => 7) ⟨false, false, [], 0⟩ (.exited 0 (output "/usr/lib/clang/17/include"))).1
    let second := doBuild (fun _ => 7) (migrate ⟨false, false, [], 0⟩ first) (.exited 0 (output "/usr/lib/clang/18/include"))
    second.2 = .ok ∧ second.1.paths = ["/usr/lib/clang/17/include".toList, "/usr/lib/clang/18/include".toList] := by
  decide +kernel

/-- So do those found before an unexpected line, when the compiler is asked again after it: they are there twice. -/
theorem C113_failed_false :
    let first := doBuild (fun _ => 7) ⟨false, false, [], 0⟩
      (.exited 0 "#include <...> search starts here:\n /usr/include\nwarning: out of memory\n".toList)
    first.2 = .failed ∧ (doBuild (fun _ => 7) first.1 (.exited 0 (output "/usr/include"))).1.paths =
      ["/usr/include".toList, "/usr/include".toList] := by
  decide +kernel

/-- A path with a quote in it takes the rest of the list with it. -/
theorem C113_quote_false :
    let r := doBuild (fun _ => 7) ⟨false, false, [], 0⟩ (.exited 0 (output "/opt/7\"/include\n /usr/include"))
    r.2 = .ok ∧ r.1.paths = ["/opt/7\"/include\n /usr/include\nEnd of search list.\n".toList] := by
  decide +kernel

/-- A directory of frameworks is listed with a remark, which becomes part of the path. -/
theorem C113_framework_false :
    (doBuild (fun _ => 7) ⟨false, false, [], 0⟩ (.exited 0 (output "/System/Library/Frameworks (framework directory)"))).1.paths =
      ["/System/Library/Frameworks (framework directory)".toList] := by
  decide +kernel

end Verif.CompInfo
