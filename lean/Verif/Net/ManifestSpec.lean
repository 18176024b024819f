import Verif.Net.ManifestModel
/-! Specifications for the tool manifest properties C39, C40 and C46. -/
namespace Verif.Net.Spec
open Verif.IO

/-- the bytes of an ASCII literal -/
def str (s : String) : List Byte := s.toList.map fun c => BitVec.ofNat 8 c.toNat

/-- a string that fits the length field and has no terminator inside -/
def Text (s : List Byte) : Prop := s.length < 2 ^ 32 ∧ ∀ b ∈ s, b ≠ 0

/-- a manifest that may be sent: at least one file, every file hashed and with a time -/
structure Sendable (m : Manifest) : Prop where
  root : Text m.root
  some_file : m.files ≠ []
  num_files : m.files.length < 2 ^ 32
  files : ∀ f ∈ m.files, Text f.name ∧ f.stamp ≠ 0 ∧ f.hash ≠ 0
  num_env : m.env.length < 2 ^ 32
  env : ∀ v ∈ m.env, Text v

/-- `out` is `v` with its first `%1` replaced by `base` -/
inductive Expand (base v : List Byte) : List Byte → Prop
  | token (a b : List Byte) (split : v = a ++ str "%1" ++ b)
      (first : ∀ a' b', v = a' ++ str "%1" ++ b' → a.length ≤ a'.length) : Expand base v (a ++ base ++ b)
  | plain (no : ∀ a b, v ≠ a ++ str "%1" ++ b) : Expand base v v

/-- the block handed to a process: terminated strings and a terminator -/
def block (vars : List (List Byte)) : List Byte := (vars.map fun v => v ++ [0]).flatten ++ [0]

/-- the file entry describes the file -/
structure Describes (h : Hashes) (f : MFile) (d : DiskFile) : Prop where
  stamp : f.stamp = d.stamp
  hash : f.hash = h.xx32 d.data
  size : f.size.toNat = d.data.length

/-- the same text up to the case of ASCII letters -/
def sameLetters (a b : List Byte) : Prop := a.map lowerByte = b.map lowerByte

end Verif.Net.Spec
