import Verif.StrFind.Props
/-
Strings that meet the hypotheses of C110, and what does not hold.
-/
namespace Verif.StrFind

/-- "abcabc", "bc", "BC" -/
def abcabc : Bytes := [97, 98, 99, 97, 98, 99]
def bc : Bytes := [98, 99]
def BC : Bytes := [66, 67]

example : Text abcabc ∧ Text bc ∧ Text BC := by
  refine ⟨?_, ?_, ?_⟩ <;> (unfold Text; decide)

example : Kind exact (· = ·) ∧ Kind low sameLetter := ⟨.inl ⟨rfl, rfl⟩, .inr ⟨rfl, rfl⟩⟩

example : find exact abcabc bc none none = some (some 1) ∧ find exact abcabc bc (some 2) none = some (some 4) ∧
    find exact abcabc bc (some 2) (some 5) = some none ∧ find exact abcabc BC none none = some none ∧
    find low abcabc BC none none = some (some 1) ∧ findC low abcabc (mem BC) (some 2) none = some (some 4) := by decide

example : findLast exact abcabc bc none none = some (some 4) ∧ findLast exact abcabc bc (some 3) none = some (some 1) ∧
    findLast low abcabc BC (some 6) (some 5) = some none := by decide

example : findChar exact abcabc 99 none none = some (some 2) ∧ findChar low abcabc 67 (some 3) none = some (some 5) ∧
    findLastChar exact abcabc 97 none none = some (some 3) ∧ findLastChar exact abcabc 97 none (some 4) = some none := by decide

example : beginsWith exact abcabc bc = some false ∧ endsWith exact abcabc bc = some true ∧ endsWith low abcabc BC = some true ∧
    endsWith exact bc abcabc = some false := by decide

example : compare exact (mem BC) (mem bc) = some .lt ∧ compare low (mem BC) (mem bc) = some .eq ∧
    compare exact (mem bc) (mem abcabc) = some .gt := by decide

/-- Strings with a zero byte in them are equal if they are of the same length and the same up to it. -/
theorem C110_zero_false : eq [97, 0, 98] [97, 0, 99] = some true ∧ beginsWith exact [97, 0, 98] [97, 0, 99] = some true := by decide

/-- Looking for the last place of a text that is longer than the string is a failed check. -/
theorem C110_find_last_long_false : findLast exact bc abcabc none none = none ∧ find exact bc abcabc none none = some none := by decide

end Verif.StrFind
