/-
The family of a compiler: `CompilerNode::InitializeCompilerFamily`, Code/Tools/FBuild/FBuildCore/Graph/CompilerNode.cpp:153-350.
-/
namespace Verif.Family

abbrev Text := List Char

/-- `CompilerFamily`, CompilerNode.h -/
inductive Family where
  | custom | msvc | clang | clangCl | gcc | snc | codewarrior | greenhills | cuda | qtRcc | vbcc | orbis | csharp
deriving DecidableEq

/-- `ToLower` of a character as in `EqualsI` and `EndsWithI`, AString.cpp -/
def lower (c : Char) : Char := if 'A' ≤ c ∧ c ≤ 'Z' then Char.ofNat (c.toNat + 32) else c

/-- `EqualsI` -/
def equalsI (a b : Text) : Bool := a.length == b.length && a.map lower == b.map lower

/-- `EndsWith` and `EndsWithI` -/
def endsWith (s e : Text) : Bool := decide (e.length ≤ s.length) && s.drop (s.length - e.length) == e
def endsWithI (s e : Text) : Bool :=
  decide (e.length ≤ s.length) && (s.drop (s.length - e.length)).map lower == e.map lower

/-- `Replace( '/', '\\' )`, line 159 -/
def slashes (s : Text) : Text := s.map fun c => if c = '/' then '\\' else c

/-- lines 160-164: without the last `-` and what follows it -/
def withoutVersion (s : Text) : Text := if '-' ∈ s then ((s.reverse.dropWhile (· ≠ '-')).drop 1).reverse else s

/-- lines 156-277 -/
def detect (exe : Text) : Option Family :=
  let c := slashes exe
  let v := withoutVersion c
  let e := fun (x : String) => endsWithI c x.toList
  let ev := fun (x : String) => endsWithI v x.toList
  let es := fun (x : String) => endsWith c x.toList
  if e "\\cl.exe" || e "\\cl" || e "\\icl.exe" || e "\\icl" then some .msvc
  else if e "clang++.exe" || e "clang++.cmd" || e "clang++" || e "clang.exe" || e "clang.cmd" || e "clang" then some .clang
  else if e "clang-cl.exe" || e "clang-cl" then some .clangCl
  else if e "gcc.exe" || e "gcc" || ev "gcc" || e "g++.exe" || e "g++" || ev "g++" || e "dcc.exe" || e "dcc" then some .gcc
  else if e "\\ps3ppusnc.exe" || e "\\ps3ppusnc" then some .snc
  else if e "\\mwcceppc.exe" || e "\\mwcceppc" then some .codewarrior
  else if e "\\cxppc.exe" || e "\\cxppc" || e "\\ccppc.exe" || e "\\ccppc" then some .greenhills
  else if e "\\nvcc.exe" || e "\\nvcc" then some .cuda
  else if es "rcc.exe" || es "rcc" then some .qtRcc
  else if es "vc.exe" || es "vc" then some .vbcc
  else if e "orbis-wave-psslc.exe" || e "orbis-wave-psslc" then some .orbis
  else if e "csc.exe" || e "csc" then some .csharp
  else none

/-- `InitializeCompilerFamily`, 153-350: `none` is an error -/
def family (given exe : Text) : Option Family :=
  let is := fun (x : String) => equalsI given x.toList
  if is "auto" then detect exe
  else if is "custom" then some .custom
  else if is "msvc" then some .msvc
  else if is "clang" then some .clang
  else if is "gcc" then some .gcc
  else if is "clang-cl" then some .clangCl
  else if is "snc" then some .snc
  else if is "codewarrior-wii" then some .codewarrior
  else if is "greenhills-wiiu" then some .greenhills
  else if is "cuda-nvcc" then some .cuda
  else if is "qt-rcc" then some .qtRcc
  else if is "vbcc" then some .vbcc
  else if is "orbis-wave-psslc" then some .orbis
  else if is "csharp" then some .csharp
  else none

end Verif.Family
