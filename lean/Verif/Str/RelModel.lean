import Verif.Str.TextSpec
/-
Model of `PathUtils::GetRelativePath`, Code/Core/FileIO/PathUtils.cpp:197-309. The assertions about its
arguments are hypotheses of the theorems.
-/
namespace Verif.Str

/-- Platforms as far as relative paths are concerned. -/
inductive Os where
  | windows | osx | linux
  deriving DecidableEq

/-- `NATIVE_SLASH` -/
def Os.slash : Os → Char
  | .windows => '\\'
  | _ => '/'

/-- The conversion of `compA` and `compB`, PathUtils.cpp:225-235. -/
def Os.fold : Os → Char → Char
  | .linux, c => c
  | _, c => lower c

/-- The loop which finds the common sub-path, PathUtils.cpp:237-262: `best` is (`pathA`, `pathB`), `none`
while `pathA == basePath.Get()`. -/
def relLoop (os : Os) : Option (List Char × List Char) → List Char → List Char → Option (List Char × List Char)
  | best, a :: A, b :: B =>
    if os.fold a = os.fold b then
      let dirToken := a = '/' ∨ a = '\\'
      relLoop os (if dirToken then some (A, B) else best) A B
    else best
  | best, _, _ => best

/-- The loop which counts directories, PathUtils.cpp:275-287. -/
def upCount : List Char → Nat
  | [] => 0
  | c :: s => if c = '/' ∨ c = '\\' then upCount s + 1 else upCount s

/-- `outRelativeFileName += "../"` as often as needed, PathUtils.cpp:296-304. -/
def ups (os : Os) : Nat → List Char
  | 0 => []
  | n + 1 => '.' :: '.' :: os.slash :: ups os n

/-- `PathUtils::GetRelativePath`. -/
def getRelativePath (os : Os) (basePath fileName : List Char) : List Char :=
  let base := if basePath.getLast? = some os.slash then basePath else basePath ++ [os.slash]
  match relLoop os none base fileName with
  | none => fileName
  | some (pathA, pathB) => ups os (upCount pathA) ++ pathB

end Verif.Str
