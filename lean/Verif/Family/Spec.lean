import Verif.Family.Model
/-! What C114 is stated with. -/
namespace Verif.Family

/-- the same but for upper and lower case of the letters A to Z -/
def Same : Text → Text → Prop
  | [], [] => True
  | a :: s, b :: t => (a = b ∨ ('A' ≤ a ∧ a ≤ 'Z' ∧ a.toNat + 32 = b.toNat) ∨ ('A' ≤ b ∧ b ≤ 'Z' ∧ b.toNat + 32 = a.toNat)) ∧ Same s t
  | _, _ => False

/-- the names of the families, as they are given in a configuration -/
def names : List (String × Family) :=
  [("custom", .custom), ("msvc", .msvc), ("clang", .clang), ("gcc", .gcc), ("clang-cl", .clangCl), ("snc", .snc),
   ("codewarrior-wii", .codewarrior), ("greenhills-wiiu", .greenhills), ("cuda-nvcc", .cuda), ("qt-rcc", .qtRcc), ("vbcc", .vbcc),
   ("orbis-wave-psslc", .orbis), ("csharp", .csharp)]

/-- `exe` is the file `name` (in any case) of some directory -/
def File (exe : Text) (name : String) : Prop :=
  ∃ dir sep n, exe = dir ++ sep :: n ∧ (sep = '/' ∨ sep = '\\') ∧ Same n name.toList

/-- the names of compilers, on Windows and elsewhere, that are told by their name alone -/
def compilers : List (String × Family) :=
  [("cl.exe", .msvc), ("cl", .msvc), ("icl.exe", .msvc), ("icl", .msvc),
   ("clang++.exe", .clang), ("clang++.cmd", .clang), ("clang++", .clang), ("clang.exe", .clang), ("clang.cmd", .clang), ("clang", .clang),
   ("clang-cl.exe", .clangCl), ("clang-cl", .clangCl),
   ("gcc.exe", .gcc), ("gcc", .gcc), ("g++.exe", .gcc), ("g++", .gcc), ("dcc.exe", .gcc), ("dcc", .gcc)]

/-- those that are told only where no directory looks like a version of gcc -/
def others : List (String × Family) :=
  [("ps3ppusnc.exe", .snc), ("ps3ppusnc", .snc), ("mwcceppc.exe", .codewarrior), ("mwcceppc", .codewarrior),
   ("cxppc.exe", .greenhills), ("cxppc", .greenhills), ("ccppc.exe", .greenhills), ("ccppc", .greenhills),
   ("nvcc.exe", .cuda), ("nvcc", .cuda), ("orbis-wave-psslc.exe", .orbis), ("orbis-wave-psslc", .orbis),
   ("csc.exe", .csharp), ("csc", .csharp)]

/-- those that are told only in lower case -/
def lowerOnly : List (String × Family) :=
  [("rcc.exe", .qtRcc), ("rcc", .qtRcc), ("vc.exe", .vbcc), ("vc", .vbcc)]

/-- what stands before the last dash of `exe`, if there is one, doesn't end in gcc or g++ -/
def NoGcc (exe : Text) : Prop :=
  ∀ a b, exe = a ++ '-' :: b → '-' ∉ b → ∀ d n, a = d ++ n → ¬ Same n "gcc".toList ∧ ¬ Same n "g++".toList

end Verif.Family
