import Verif.Bff.Token
/-
What `Print( .Name )` writes: `FunctionPrint::PrintVarRecurse`,
Code/Tools/FBuild/FBuildCore/BFF/Functions/FunctionPrint.cpp:121-195 ("print" below).

A value here has no names for the elements of an array of structs. The code writes the name of the variable an element was
copied from; this is a parameter.
-/
namespace Verif.Bff.Print

/-- `indentStr`, print:123-127 -/
def indent (k : Nat) : Str := List.replicate (4 * k) ' '

/-- `value.Replace( "'", "^'" )`, print:141, 157 -/
def escape : Str → Str
  | [] => []
  | c :: s => if c = '\'' then '^' :: '\'' :: escape s else c :: escape s

/-- `%i` and `%u` -/
def dec (i : Int) : Str := if i < 0 then '-' :: Nat.toDigits 10 i.natAbs else Nat.toDigits 10 i.natAbs

/-- one element of an array of strings, print:154-159 -/
def element (k : Nat) (x : Str) : Str := indent k ++ "    '".toList ++ escape x ++ "'\n".toList

/-- all elements -/
def elements (k : Nat) : List Str → Str
  | [] => []
  | x :: l => element k x ++ elements k l

mutual
/-- `PrintVarRecurse`, print:121-195. `el`: the names of elements of arrays of structs -/
def printVar (el : List (Str × Val) → Str) (k : Nat) (n : Str) : Val → Str
  | .str x => indent k ++ n ++ " = '".toList ++ escape x ++ "'\n".toList
  | .bool b => indent k ++ n ++ " = ".toList ++ (if b then "true".toList else "false".toList) ++ "\n".toList
  | .strs l => indent k ++ n ++ " = // ArrayOfStrings, size: ".toList ++ dec l.length ++ "\n".toList ++ indent k ++ "{\n".toList ++
      elements k l ++ indent k ++ "}\n".toList
  | .int i => indent k ++ n ++ " = ".toList ++ dec i ++ "\n".toList
  | .struct ms => indent k ++ n ++ " = // Struct\n".toList ++ indent k ++ "[\n".toList ++ printMs el (k + 1) ms ++ indent k ++ "]\n".toList
  | .structs l => indent k ++ n ++ " = // ArrayOfStructs, size: ".toList ++ dec l.length ++ "\n".toList ++ indent k ++ "{\n".toList ++
      printAll el (k + 1) l ++ indent k ++ "}\n".toList
/-- the members of a struct, print:171-174 -/
def printMs (el : List (Str × Val) → Str) (k : Nat) : List (Str × Val) → Str
  | [] => []
  | m :: ms => printVar el k m.1 m.2 ++ printMs el k ms
/-- the elements of an array of structs, print:182-185: each is printed as a struct -/
def printAll (el : List (Str × Val) → Str) (k : Nat) : List (List (Str × Val)) → Str
  | [] => []
  | ms :: l => indent k ++ el ms ++ " = // Struct\n".toList ++ indent k ++ "[\n".toList ++ printMs el (k + 1) ms ++ indent k ++ "]\n".toList ++
      printAll el k l
end

end Verif.Bff.Print
