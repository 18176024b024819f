import Verif.Transfer.Model
/-! What C112 is stated with: files by what they are for, names of files a compiler makes, languages. -/
namespace Verif.Transfer
open Verif.IO

/-- the files of an object -/
inductive Kind where | obj | pdb | xml | alt
deriving DecidableEq

/-- `s` is `n` without its last extension -/
def Stem (n s : Name) : Prop := (∃ e, n = s ++ dot :: e ∧ dot ∉ e) ∨ (dot ∉ n ∧ s = n)

/-- the names a compiler gives to the files made along with the object `base` -/
inductive Made (base : Name) : Kind → Name → Prop
  | obj : Made base .obj base
  | pdb : Made base .pdb (base ++ lit ".pdb")
  | xml {s : Name} : Stem base s → Made base .xml (s ++ lit ".nativecodeanalysis.xml")
  | alt {s : Name} : Stem base s → Made base .alt (s ++ lit ".alt.obj")

/-- the files asked for by the options, as bits of the flags -/
def Asked (flags : BitVec 32) : Kind → Prop
  | .obj => True
  | .pdb => flags.getLsbD 12 = true
  | .xml => flags.getLsbD 21 = true
  | .alt => flags.getLsbD 27 = true

inductive Lang where | c | cpp | objC | objCpp | fortranFixed | fortranFree | assembler
deriving DecidableEq

/-- how GCC sees extensions of sources: language, and whether it preprocesses them. From its manual, "Options
Controlling the Kind of Output". -/
def languages : List (String × Lang × Bool) :=
  [("c", .c, true), ("i", .c, false),
   ("cc", .cpp, true), ("cp", .cpp, true), ("cxx", .cpp, true), ("cpp", .cpp, true), ("CPP", .cpp, true), ("c++", .cpp, true), ("C", .cpp, true),
   ("ii", .cpp, false),
   ("m", .objC, true), ("mi", .objC, false), ("mm", .objCpp, true), ("M", .objCpp, true), ("mii", .objCpp, false),
   ("f", .fortranFixed, false), ("for", .fortranFixed, false), ("ftn", .fortranFixed, false),
   ("F", .fortranFixed, true), ("FOR", .fortranFixed, true), ("fpp", .fortranFixed, true), ("FPP", .fortranFixed, true), ("FTN", .fortranFixed, true),
   ("f90", .fortranFree, false), ("f95", .fortranFree, false), ("f03", .fortranFree, false), ("f08", .fortranFree, false),
   ("F90", .fortranFree, true), ("F95", .fortranFree, true), ("F03", .fortranFree, true), ("F08", .fortranFree, true),
   ("s", .assembler, false), ("S", .assembler, true), ("sx", .assembler, true)]

/-- GCC's view of a file by its name -/
def SeenAs (name : Name) (l : Lang) (preprocessed : Bool) : Prop :=
  ∃ stem ext, name = stem ++ dot :: lit ext ∧ dot ∉ lit ext ∧ (ext, l, preprocessed) ∈ languages

end Verif.Transfer
