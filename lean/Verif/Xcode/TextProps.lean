import Verif.Xcode.TextProof
/-!
C116, texts: what is put into a project for Xcode is what Xcode reads.
-/
namespace Verif.Xcode
open Spec

/-- A setting reads back, unless it begins with two slashes; see `C116_comment_false`. -/
theorem C116_setting_partial (depth : Nat) {name value : Text} (r : Text) (h : Setting name) (hv : NoComment value) :
    readSetting (writeString depth name value ++ r) = some (name, .text value, '\n' :: r) := by
  have := readSetting_name h depth (readValue_text' (s := value) (c := ';') (r := '\n' :: r) hv (by decide) (by decide))
  have e : writeString depth name value ++ r = List.replicate depth '\t' ++ name ++ " =".toList ++ ' ' :: (process value ++ ';' :: '\n' :: r) := by
    simp [writeString]
  rw [e]
  exact this

/-- So do several values, with the same exception; none at all is an empty text. -/
theorem C116_array_partial (depth : Nat) {name : Text} {values : List Text} (r : Text) (h : Setting name) (hv : ∀ v ∈ values, NoComment v) :
    readSetting (writeArray depth name values ++ r) =
      some (name, (match values with | [] => .text [] | [v] => .text v | vs => .list vs), '\n' :: r) := by
  match values, hv with
  | [], _ => exact C116_setting_partial depth r h (by rintro ⟨x, hx⟩; simp at hx)
  | [v], hv => exact C116_setting_partial depth r h (hv v (by simp))
  | v :: w :: vs, hv =>
    have := readSetting_name h depth (readValue_list depth (';' :: '\n' :: r) hv)
    have e : writeArray depth name (v :: w :: vs) ++ r = List.replicate depth '\t' ++ name ++ " =".toList ++
        ' ' :: '(' :: '\n' :: ((v :: w :: vs).flatMap (fun v => List.replicate depth '\t' ++ '\t' :: (process v ++ ",\n".toList)) ++
          List.replicate depth '\t' ++ ')' :: (';' :: '\n' :: r)) := by
      rw [writeArray, if_neg (by simp)]
      generalize (v :: w :: vs).flatMap (fun v => List.replicate depth '\t' ++ '\t' :: (process v ++ ",\n".toList)) = x
      simp
    rw [e]
    exact this

private theorem line {a b pre post l m : Text} (s r : Text) (ha : a = l ++ m ++ " =".toList ++ ' ' :: pre) (hb : b = post) :
    a ++ s ++ b ++ r = l ++ m ++ " =".toList ++ ' ' :: (pre ++ (s ++ (post ++ r))) := by
  subst ha hb
  simp only [List.append_assoc, List.cons_append]

private theorem reads {whole l t r : Text} {v : Value} {n : Nat} {name : Text} (hl : l = List.replicate n '\t') (h : Setting name)
    (e : whole = l ++ name ++ " =".toList ++ ' ' :: t) (hv : readValue (' ' :: t) = some (v, ';' :: r)) :
    readSetting whole = some (name, v, r) := by
  subst hl e
  exact readSetting_name h n hv

/-- Names of folders, of configurations and of the project read back if they can do without quotes; see `C116_name_false`. -/
theorem C116_name_partial {name : Text} (r : Text) (h : Simple name) (hn : NoComment name) :
    readSetting (writeName name ++ r) = some ("name".toList, .text name, '\n' :: r) := by
  have hr := readText_simple (c := ';') (r := '\n' :: r) h hn (by decide) (by decide)
  have hv : readValue (' ' :: (name ++ ';' :: '\n' :: r)) = some (.text name, ';' :: '\n' :: r) := by
    have ht : readText (' ' :: (name ++ ';' :: '\n' :: r)) = some (name, ';' :: '\n' :: r) := by
      rw [readText_skip (skip_space _ (by decide)), hr]
    rw [readValue, ht]
    split
    · next e =>
      rw [readText, e] at ht
      simp at ht
      exact absurd ht.1 (by decide)
    · rfl
  exact reads (n := 3) rfl ⟨by decide, by decide⟩ (line (pre := []) (post := [';', '\n']) name r rfl rfl) hv

/-- The arguments of the build read back if they have neither quotes nor backslashes; see `C116_arguments_false`. -/
theorem C116_arguments_partial {args : Text} (r : Text) (h : '"' ∉ args) (h' : '\\' ∉ args) :
    readSetting (writeArguments args ++ r) = some ("buildArgumentsString".toList, .text args, '\n' :: r) := by
  have hq := quoted_simple args (';' :: '\n' :: r) h h'
  have hv : readValue (' ' :: '"' :: (args ++ '"' :: (';' :: '\n' :: r))) = some (.text args, ';' :: '\n' :: r) := by
    have hk : skip .out (' ' :: '"' :: (args ++ '"' :: (';' :: '\n' :: r))) = '"' :: (args ++ '"' :: (';' :: '\n' :: r)) := rfl
    rw [readValue, hk, readText, hk]
    simp only [hq, Option.map_some]
    rfl
  exact reads (n := 3) rfl ⟨by decide, by decide⟩ (line (pre := ['"']) (post := ['"', ';', '\n']) args r rfl rfl) hv

/-- An argument of a scheme reads back, unless it has tabs or line ends; see `C116_tab_false`. -/
theorem C116_argument_partial {arg : Text} (r : Text) (h : ∀ c ∈ arg, c ∉ ['\t', '\n', '\r']) {fuel : Nat} (hf : arg.length < fuel) :
    attr fuel (escapeArgument arg ++ '"' :: r) = some (arg, r) := attr_escape arg r fuel hf h

/-! ### What does not hold -/

/-- A text that begins with two slashes is taken for a comment. -/
theorem C116_comment_false :
    ¬ ∀ (depth : Nat) (name value r : Text), Setting name → readSetting (writeString depth name value ++ r) = some (name, .text value, '\n' :: r) := by
  intro h
  have := h 0 "P".toList "//a".toList [] ⟨by decide, by decide⟩
  revert this
  decide +kernel

/-- A folder whose name has a space cannot be read. -/
theorem C116_name_false : ¬ ∀ name r : Text, name ≠ [] → (readSetting (writeName name ++ r)).isSome = true := by
  intro h
  have := h "My Files".toList [] (by decide)
  revert this
  decide +kernel

/-- Nor arguments with quotes. -/
theorem C116_arguments_false : ¬ ∀ args r : Text, (readSetting (writeArguments args ++ r)).isSome = true := by
  intro h
  have := h "\"my target\"".toList []
  revert this
  decide +kernel

/-- A tab in an argument becomes a space. -/
theorem C116_tab_false : ¬ ∀ (arg r : Text) (fuel : Nat), arg.length < fuel → attr fuel (escapeArgument arg ++ '"' :: r) = some (arg, r) := by
  intro h
  have := h ['\t'] [] 2 (by decide)
  revert this
  decide +kernel

end Verif.Xcode
