import Verif.Xcode.TextProps
import Verif.Xcode.Props
/-! Cases that meet the hypotheses of C116. -/
namespace Verif.Xcode.Example
open Spec

private def bases : List Text := ["/p/".toList, "/p/src/".toList]
private def fs : List Text := ["/p/src/a/b/x.cpp".toList, "/p/src/a/y.cpp".toList, "/p/z.h".toList, "/p/src/a/b/w.cpp".toList]
private def cfgs : List Text := ["Debug".toList, "Release".toList]

/-- a value with quotes, a backslash and a space -/
example : NoComment "-DX=\"a b\\c\"".toList ∧ Setting "OTHER_CFLAGS".toList := by
  refine ⟨?_, by decide, by decide⟩
  rintro ⟨x, hx⟩
  simp at hx

/-- how it is written -/
example : writeString 1 "P".toList "a \"b\"".toList = "\tP = \"a \\\"b\\\"\";\n".toList := by decide +kernel
example : writeString 0 "P".toList "$A/b_c.d".toList = "P = $A/b_c.d;\n".toList := by decide +kernel
example : writeArray 0 "P".toList ["a".toList, "b c".toList] = "P = (\n\ta,\n\t\"b c\",\n);\n".toList := by decide +kernel
example : writeArray 0 "P".toList [] = "P = \"\";\n".toList := by decide +kernel
example : Simple "my-dir".toList := by exact ⟨by decide, by decide⟩
example : escapeArgument "a<b & \"c\"".toList = "a&lt;b &amp; &quot;c&quot;".toList := by decide +kernel

/-- identifiers -/
example : ident .group 26 = "22222222222222220000001A".toList ∧ ident .fileReference 26 = "111111111111111100000026".toList := by decide +kernel

/-- folders: root, `a/b`'s parent `a`, `a/b` -/
example : (build bases fs).folders = [⟨[], [2], [1]⟩, ⟨"a".toList, [1], [2]⟩, ⟨"a/b".toList, [0, 3], []⟩] := by decide +kernel
example : (build bases fs).files.map File.name = ["x.cpp".toList, "y.cpp".toList, "z.h".toList, "w.cpp".toList] := by decide +kernel

/-- the file is two groups below the main one -/
example : Relative bases "/p/src/a/b/x.cpp".toList ([] ++ join ["a".toList, "b".toList] "x.cpp".toList) :=
  ⟨"/p/src/".toList, by decide, by decide, by decide⟩

example : ∃ g, Shown (objects (build bases fs) "P".toList cfgs) g ["a".toList, "b".toList] ∧ ∀ x ∈ fs, ∀ base,
    Relative bases x ([] ++ join ["a".toList, "b".toList] base) → '/' ∉ base → '\\' ∉ base → ∃ o ∈ objects (build bases fs) "P".toList cfgs,
      o.isa = .fileReference ∧ o.name = base ∧ o.path = x ∧ o.id ∈ field g .children ∧ ∃ b ∈ objects (build bases fs) "P".toList cfgs,
        b.isa = .buildFile ∧ field b .fileRef = [o.id] ∧ ∃ s ∈ objects (build bases fs) "P".toList cfgs, s.isa = .sourcesPhase ∧ b.id ∈ field s .files :=
  C116_shown bases fs _ _ (Or.inl rfl) (by decide) (x0 := "/p/src/a/b/x.cpp".toList) (base0 := "x.cpp".toList) (by decide)
    ⟨"/p/src/".toList, by decide, by decide, by decide⟩ (by decide)

example : ((objects (build bases fs) "P".toList cfgs).map Obj.id).Nodup := C116_ids_partial bases fs _ (by decide)

end Verif.Xcode.Example
