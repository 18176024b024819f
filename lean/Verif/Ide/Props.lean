import Verif.Ide.Options
/-
C102.
-/
namespace Verif.Ide
open Verif.Str

/-- no option is the start of a later one -/
def Ordered (keys : List Text) : Prop := keys.Pairwise (fun k k' => ¬ k <+: k') ∧ ∀ k ∈ keys, k ≠ []

instance (keys : List Text) : Decidable (Ordered keys) := inferInstanceAs (Decidable (_ ∧ _))

theorem ordered_code : (∀ g ∈ includeGroups, Ordered g) ∧ Ordered forcePrefixes ∧ Ordered definePrefixes ∧ Ordered additionalPrefixes := by decide +kernel

theorem trim_unquoted {v w : Text} (h : Unquoted v w) : trim v = some w := by
  cases h with
  | quoted t =>
    unfold trim
    rw [if_pos ⟨rfl, List.getLast?_concat⟩, if_neg (by simp)]
    simp
  | plain h =>
    unfold trim
    rw [if_neg]
    rintro ⟨h1, h2⟩
    cases v with
    | nil => cases h1
    | cons c v =>
      cases h1
      rcases h v with h | h
      · exact h rfl
      · exact h h2

/-- the first option that fits is the longest -/
theorem find_longest : ∀ {keys : List Text} {t k : Text}, Ordered keys → k ∈ keys → k <+: t → (∀ k' ∈ keys, k' <+: t → k'.length ≤ k.length) →
    keys.find? (·.isPrefixOf t) = some k
  | [], _, _, _, hk, _, _ => by cases hk
  | a :: keys, t, k, ho, hk, hp, hl => by
    obtain ⟨h1, h2⟩ := ho
    rw [List.pairwise_cons] at h1
    by_cases ha : a <+: t
    · rw [List.find?_cons_of_pos (by simpa using ha)]
      have hle := hl a (by simp) ha
      have hak : a <+: k := List.prefix_of_prefix_length_le ha hp hle
      rcases List.mem_cons.1 hk with rfl | hk
      · rfl
      · exact absurd hak (h1.1 k hk)
    · rw [List.find?_cons_of_neg (by simpa using ha)]
      rcases List.mem_cons.1 hk with rfl | hk
      · exact absurd hp ha
      · exact find_longest ⟨h1.2, fun x hx => h2 x (by simp [hx])⟩ hk hp fun k' hk' => hl k' (by simp [hk'])

theorem find_self {keys : List Text} {k : Text} (ho : Ordered keys) (hk : k ∈ keys) : keys.find? (·.isPrefixOf k) = some k :=
  find_longest ho hk (List.prefix_refl k) fun _ _ h => h.length_le

theorem find_none {keys : List Text} {t : Text} (h : ∀ k ∈ keys, ¬ k <+: t) : keys.find? (·.isPrefixOf t) = none := by
  rw [List.find?_eq_none]
  intro k hk
  simpa using h k hk

theorem body_other {full : Bool} {keys : List Text} {t : Text} {next : Option Text} (h : ∀ k ∈ keys, ¬ k <+: t) : body full keys t next = some [] := by
  unfold body
  rw [find_none h]
  dsimp only
  rw [if_neg]
  exact fun hm => h t hm (List.prefix_refl t)

theorem body_key {keys : List Text} {k n : Text} (ho : Ordered keys) (hk : k ∈ keys) : body false keys k (some n) = some (removeQuotes n) := by
  unfold body
  rw [find_self ho hk]
  dsimp only
  rw [if_pos hk]
  split
  · rename_i h; simp [h]
  · rfl

theorem body_joined {keys : List Text} {k v : Text} {next : Option Text} (ho : Ordered keys) (hk : k ∈ keys) (hv : v ≠ [])
    (hl : ∀ k' ∈ keys, k' <+: k ++ v → k'.length ≤ k.length) : body false keys (k ++ v) next = some v := by
  unfold body
  rw [find_longest ho hk (List.prefix_append k v) hl]
  dsimp only
  rw [if_neg]
  · simp
  · intro hm
    have := hl _ hm (List.prefix_refl _)
    have hv' : 0 < v.length := by cases v with | nil => exact absurd rfl hv | cons => simp
    simp at this
    omega

theorem loop_cons {esc full : Bool} {keys : List Text} {tok : Text} {rest : List Text} {b w : Text} {r : List Text}
    (hb : body full keys (removeQuotes tok) rest.head? = some b) (hw : trim b = some w) (hr : loop esc full keys rest = some r) :
    loop esc full keys (tok :: rest) = some ((if w = [] then [] else [if esc then escape w else w]) ++ r) := by
  rw [loop, hb]
  dsimp only
  rw [hw, hr]
  rfl

theorem trim_nil : trim [] = some [] := by decide

theorem says_loop {keys : List Text} (ho : Ordered keys) {args vs : List Text} (h : Says keys args vs) :
    ∀ (toks : List Text), toks.map removeQuotes = args → (∀ v, Apart keys args v → ∀ k ∈ keys, ¬ k <+: v) → ∀ esc,
      loop esc false keys toks = some (vs.map fun w => if esc then escape w else w) := by
  have fin : ∀ (esc : Bool) (w : Text) (vs : List Text),
      (if w = [] then [] else [if esc then escape w else w]) ++ vs.map (fun w => if esc then escape w else w) = (given w vs).map fun w => if esc then escape w else w := by
    intro esc w vs
    unfold given
    split <;> simp
  induction h with
  | nil =>
    intro toks ht _ esc
    have : toks = [] := by simpa using ht
    subst this
    rfl
  | @apart k v w rest vs hk hw h ih =>
    intro toks ht hA esc
    obtain ⟨t1, toks, rfl⟩ : ∃ a b, toks = a :: b := by
      cases toks with | nil => simp at ht | cons a b => exact ⟨a, b, rfl⟩
    obtain ⟨t2, toks, rfl⟩ : ∃ a b, toks = a :: b := by
      cases toks with | nil => simp at ht | cons a b => exact ⟨a, b, rfl⟩
    simp only [List.map_cons, List.cons.injEq] at ht
    obtain ⟨rfl, rfl, ht⟩ := ht
    have ih := ih toks ht (fun v hv => hA v (.later (.later hv))) esc
    have h2 := loop_cons (body_other (full := false) (next := toks.head?) (hA _ (.here hk))) trim_nil ih
    have h1 := loop_cons (tok := t1) (rest := t2 :: toks) (body_key ho hk) (trim_unquoted hw) h2
    rw [h1, ← fin]
    simp
  | @last k hk =>
    intro toks ht hA esc
    cases toks with
    | nil => simp at ht
    | cons a b =>
      simp only [List.map_cons, List.cons.injEq, List.map_eq_nil_iff] at ht
      obtain ⟨rfl, rfl⟩ := ht
      rw [loop]
      have : body false keys (removeQuotes a) none = none := by
        unfold body
        rw [find_self ho hk]
        dsimp only
        rw [if_pos hk]
      rw [show (([] : List Text).head?) = none from rfl, this]
      rfl
  | @joined k v w rest vs hk hv hl hw h ih =>
    intro toks ht hA esc
    cases toks with
    | nil => simp at ht
    | cons a b =>
      simp only [List.map_cons, List.cons.injEq] at ht
      have ih := ih b ht.2 (fun v hv => hA v (.later hv)) esc
      have hb := body_joined (next := b.head?) ho hk hv hl
      rw [← ht.1] at hb
      rw [loop_cons hb (trim_unquoted hw) ih, fin]
  | @other a rest vs ha h ih =>
    intro toks ht hA esc
    cases toks with
    | nil => simp at ht
    | cons x b =>
      simp only [List.map_cons, List.cons.injEq] at ht
      have ih := ih b ht.2 (fun v hv => hA v (.later hv)) esc
      rw [← ht.1] at ha
      rw [loop_cons (body_other ha) trim_nil ih]
      simp

/-- A line says one thing at most. -/
theorem says_unique {keys : List Text} {args vs ws : List Text} (h : Says keys args vs) (h' : Says keys args ws) : vs = ws := by
  have huq : ∀ {v w w' : Text}, Unquoted v w → Unquoted v w' → w = w' := by
    intro v w w' h1 h2
    have := trim_unquoted h1
    rw [trim_unquoted h2] at this
    exact (Option.some.inj this).symm
  have hself : ∀ {k k' v : Text}, k ∈ keys → v ≠ [] → (∀ x ∈ keys, x <+: k' ++ v → x.length ≤ k'.length) → k = k' ++ v → False := by
    intro k k' v hk hv hl e
    have := hl k hk (e ▸ List.prefix_refl _)
    rw [e] at this
    have hv' : 0 < v.length := by cases v with | nil => exact absurd rfl hv | cons => simp
    simp at this
    omega
  induction h generalizing ws with
  | nil => cases h'; rfl
  | @apart k v w rest vs hk hw h ih =>
    generalize ha : k :: v :: rest = args at h'
    cases h' with
    | nil => cases ha
    | apart hk' hw' h' =>
      cases ha
      rw [ih h', huq hw hw']
    | last => cases ha
    | joined hk' hv' hl' hw' h' =>
      simp only [List.cons.injEq] at ha
      exact (hself hk hv' hl' ha.1).elim
    | other ha' h' =>
      cases ha
      exact absurd (List.prefix_refl _) (ha' _ hk)
  | @last k hk =>
    generalize ha : [k] = args at h'
    cases h' with
    | nil => cases ha
    | apart => cases ha
    | last => rfl
    | joined hk' hv' hl' hw' h' =>
      simp only [List.cons.injEq] at ha
      exact (hself hk hv' hl' ha.1).elim
    | other ha' h' =>
      cases ha
      exact absurd (List.prefix_refl _) (ha' _ hk)
  | @joined k v w rest vs hk hv hl hw h ih =>
    generalize ha : (k ++ v) :: rest = args at h'
    cases h' with
    | nil => cases ha
    | apart hk' hw' h' =>
      simp only [List.cons.injEq] at ha
      exact (hself hk' hv hl ha.1.symm).elim
    | last hk' =>
      simp only [List.cons.injEq] at ha
      exact (hself hk' hv hl ha.1.symm).elim
    | @joined k' v' w' rest' vs' hk' hv' hl' hw' h' =>
      simp only [List.cons.injEq] at ha
      obtain ⟨e, rfl⟩ := ha
      have h1 := hl k' hk' (e ▸ List.prefix_append _ _)
      have h2 := hl' k hk (e ▸ List.prefix_append _ _)
      obtain ⟨rfl, rfl⟩ := List.append_inj e (by omega)
      rw [ih h', huq hw hw']
    | other ha' h' =>
      simp only [List.cons.injEq] at ha
      exact absurd (ha.1 ▸ List.prefix_append _ _) (ha' _ hk)
  | @other a rest vs ha0 h ih =>
    generalize ha : a :: rest = args at h'
    cases h' with
    | nil => cases ha
    | apart hk' hw' h' =>
      cases ha
      exact absurd (List.prefix_refl _) (ha0 _ hk')
    | last hk' =>
      cases ha
      exact absurd (List.prefix_refl _) (ha0 _ hk')
    | joined hk' hv' hl' hw' h' =>
      simp only [List.cons.injEq] at ha
      exact absurd (ha.1 ▸ List.prefix_append _ _) (ha0 _ hk')
    | other ha' h' =>
      cases ha
      exact ih h'

/-- The values of options are found, in the order of the command line, whatever the quotes are; if a value that is an argument of its own does not look like such an option. -/
theorem C102_options_partial {keys : List Text} (ho : Ordered keys) (esc : Bool) {line : Text} {vs : List Text} (h : Says keys (argsOf line) vs)
    (hA : ∀ v, Apart keys (argsOf line) v → ∀ k ∈ keys, ¬ k <+: v) :
    extract esc false keys line = some (vs.map fun w => if esc then escape w else w) :=
  says_loop ho h _ rfl hA esc

/-- Include paths, as many groups as there are, one after the other; forced includes; definitions. -/
theorem C102_code_partial {line : Text} {groups : List (List Text)} {fs ds : List Text}
    (hg : groups.length = includeGroups.length)
    (h : ∀ x ∈ includeGroups.zip groups, Says x.1 (argsOf line) x.2) (hf : Says forcePrefixes (argsOf line) fs) (hd : Says definePrefixes (argsOf line) ds)
    (hA : ∀ keys, keys ∈ includeGroups ∨ keys = forcePrefixes ∨ keys = definePrefixes → ∀ v, Apart keys (argsOf line) v → ∀ k ∈ keys, ¬ k <+: v) :
    includes false line = some groups.flatten ∧ forced false line = some fs ∧ defines false line = some ds := by
  refine ⟨?_, ?_, ?_⟩
  · have : ∀ (ks vss : List (List Text)), vss.length = ks.length → (∀ k ∈ ks, k ∈ includeGroups) → (∀ x ∈ ks.zip vss, Says x.1 (argsOf line) x.2) →
        ks.mapM (fun g => extract false false g line) = some vss := by
      intro ks
      induction ks with
      | nil =>
        intro vss hl _ _
        cases vss with
        | nil => rfl
        | cons => cases hl
      | cons k ks ih =>
        intro vss hl hi hs
        cases vss with
        | nil => cases hl
        | cons v vss =>
          have h1 := C102_options_partial (ordered_code.1 k (hi k (by simp))) false (hs (k, v) (by simp)) (hA k (.inl (hi k (by simp))))
          have h2 := ih vss (by simpa using hl) (fun k hk => hi k (by simp [hk])) (fun x hx => hs x (by simp [hx]))
          rw [List.mapM_cons, h1, h2]
          simp
    unfold includes
    rw [this includeGroups groups hg (fun _ h => h) h]
    rfl
  · have := C102_options_partial ordered_code.2.1 false hf (hA _ (.inr (.inl rfl)))
    simpa [forced] using this
  · have := C102_options_partial ordered_code.2.2.1 false hd (hA _ (.inr (.inr rfl)))
    simpa [defines] using this

/-- Options for the language and for warnings are given to the IDE as they are, if each is one argument. -/
theorem C102_additional_partial {line : Text} (h : ∀ a ∈ argsOf line, a ∉ additionalPrefixes) :
    additional line = some ((argsOf line).filter fun a => additionalPrefixes.any (·.isPrefixOf a)) := by
  have hhead : ∀ k ∈ additionalPrefixes, k ≠ [] ∧ k.head? ≠ some '"' := by decide
  have main : ∀ toks : List Text, (∀ a ∈ toks.map removeQuotes, a ∉ additionalPrefixes) →
      loop false true additionalPrefixes toks = some ((toks.map removeQuotes).filter fun a => additionalPrefixes.any (·.isPrefixOf a)) := by
    intro toks
    induction toks with
    | nil => intro _; rfl
    | cons t toks ih =>
      intro h
      have ih := ih fun a ha => h a (by simp only [List.map_cons, List.mem_cons]; exact .inr ha)
      have ht := h (removeQuotes t) (by simp)
      have hb : body true additionalPrefixes (removeQuotes t) toks.head? = some (if additionalPrefixes.any (·.isPrefixOf (removeQuotes t)) then removeQuotes t else []) := by
        unfold body
        dsimp only
        rw [if_neg ht]
        cases hf : additionalPrefixes.find? (·.isPrefixOf (removeQuotes t)) with
        | none =>
          rw [List.find?_eq_none] at hf
          rw [if_neg (by simpa using hf)]
        | some k =>
          rw [if_pos (List.any_eq_true.2 ⟨k, List.mem_of_find?_eq_some hf, List.find?_some hf⟩)]
          rfl
      by_cases hm : additionalPrefixes.any (·.isPrefixOf (removeQuotes t)) = true
      · obtain ⟨k, hk, hp⟩ := List.any_eq_true.1 hm
        rw [if_pos hm] at hb
        have hp : k <+: removeQuotes t := by simpa using hp
        obtain ⟨hk0, hk1⟩ := hhead k hk
        have hne : removeQuotes t ≠ [] := fun e => hk0 (by rw [e] at hp; exact List.prefix_nil.1 hp)
        have hq : (removeQuotes t).head? ≠ some '"' := by
          obtain ⟨r, hr⟩ := hp
          rw [← hr]
          cases k with
          | nil => exact absurd rfl hk0
          | cons c k => exact hk1
        have htr : trim (removeQuotes t) = some (removeQuotes t) := by
          unfold trim
          rw [if_neg fun h => hq h.1]
        rw [loop_cons hb htr ih, List.map_cons, List.filter_cons, if_pos hm, if_neg hne]
        rfl
      · rw [if_neg hm] at hb
        rw [loop_cons hb trim_nil ih, List.map_cons, List.filter_cons, if_neg hm]
        rfl
  exact main _ h

/-- What the light cache is told is what the IDE is told. -/
theorem C102_light {keys : List Text} (ho : Ordered keys) {line : Text} {vs : List Text} (h : extract false false keys line = some vs) : Light.extract keys line = vs := by
  have main : ∀ (toks : List Text) (vs : List Text), loop false false keys toks = some vs → Light.extractGo keys toks = vs := by
    intro toks
    induction toks with
    | nil => intro vs h; cases h; rfl
    | cons t toks ih =>
      intro vs h
      have hb : Light.optionBody keys (removeQuotes t) toks.head? = body false keys (removeQuotes t) toks.head? := by
        unfold Light.optionBody
        by_cases hm : removeQuotes t ∈ keys
        · rw [if_pos (by simpa using hm)]
          cases hn : toks.head? with
          | none =>
            unfold body
            dsimp only
            rw [if_pos hm]
          | some n => rw [body_key ho hm]
        · unfold body
          rw [if_neg (by simpa using hm)]
          dsimp only
          rw [if_neg hm]
          split <;> rename_i e <;> rw [e] <;> rfl
      rw [loop] at h
      rw [Light.extractGo, hb]
      cases hc : body false keys (removeQuotes t) toks.head? with
      | none =>
        rw [hc] at h
        exact Option.some.inj h
      | some b =>
        rw [hc] at h
        dsimp only at h ⊢
        cases ht : trim b with
        | none => rw [ht] at h; cases h
        | some w =>
          rw [ht] at h
          cases hl : loop false false keys toks with
          | none => rw [hl] at h; cases h
          | some r =>
            rw [hl] at h
            have h := Option.some.inj h
            rw [ih r hl]
            have e : (if b.head? = some '"' ∧ b.getLast? = some '"' ∧ b.length ≥ 2 then b.tail.dropLast else b) = w := by
              unfold trim at ht
              split at ht
              · rename_i h1
                split at ht
                · cases ht
                · rename_i h2
                  rw [if_pos ⟨h1.1, h1.2, by omega⟩]
                  exact Option.some.inj ht
              · rename_i h1
                rw [if_neg fun h => h1 ⟨h.1, h.2.1⟩]
                exact Option.some.inj ht
            rw [e, ← h]
            rfl
  exact main _ _ h

/-! ### An example, and what goes wrong -/

def exLine : Text := "-c \"-I dir one\" -I two -DX=\\\"s\\\" -Ithree".toList

example : argsOf exLine = ["-c".toList, "-I dir one".toList, "-I".toList, "two".toList, "-DX=\"s\"".toList, "-Ithree".toList] := by decide +kernel

theorem exSays : Says ["/I".toList, "-I".toList] (argsOf exLine) [" dir one".toList, "two".toList, "three".toList] := by
  have e : argsOf exLine = "-c".toList :: ("-I".toList ++ " dir one".toList) :: "-I".toList :: "two".toList :: "-DX=\"s\"".toList :: ("-I".toList ++ "three".toList) :: [] := by decide +kernel
  rw [e]
  have pl : ∀ t : Text, t.head? ≠ some '"' → Unquoted t t := fun t h => .plain fun u => .inl fun e => h (by rw [e]; rfl)
  exact .other (by decide) (.joined (vs := ["two".toList, "three".toList]) (by decide) (by decide) (by decide) (pl _ (by decide))
    (.apart (vs := ["three".toList]) (by decide) (pl _ (by decide)) (.other (by decide) (.joined (vs := []) (by decide) (by decide) (by decide) (pl _ (by decide)) .nil))))

example : extract false false ["/I".toList, "-I".toList] exLine = some [" dir one".toList, "two".toList, "three".toList] := by
  have := C102_options_partial (by decide) false exSays (by
    have e : argsOf exLine = ["-c".toList, "-I dir one".toList, "-I".toList, "two".toList, "-DX=\"s\"".toList, "-Ithree".toList] := by decide +kernel
    rw [e]
    intro v hv
    have hm : v = "two".toList := by
      cases hv with
      | here hk => exact absurd hk (by decide)
      | later hv => cases hv with
        | here hk => exact absurd hk (by decide)
        | later hv => cases hv with
          | here hk => rfl
          | later hv => cases hv with
            | here hk => exact absurd hk (by decide)
            | later hv => cases hv with
              | here hk => exact absurd hk (by decide)
              | later hv => cases hv with
                | later hv => cases hv
    subst hm
    decide)
  exact this

example : additional "-std=c++17 a.cpp /wd4100".toList = some ["-std=c++17".toList, "/wd4100".toList] := by
  have := C102_additional_partial (line := "-std=c++17 a.cpp /wd4100".toList) (by decide +kernel)
  rw [this]
  decide +kernel

/-- A value that is an argument of its own is looked at once more, as if it was an option. -/
theorem C102_options_false : Says ["/I".toList, "-I".toList] (argsOf "-I /Imports/x".toList) ["/Imports/x".toList] ∧
    extract false false ["/I".toList, "-I".toList] "-I /Imports/x".toList = some ["/Imports/x".toList, "mports/x".toList] := by
  refine ⟨?_, by decide +kernel⟩
  have e : argsOf "-I /Imports/x".toList = "-I".toList :: "/Imports/x".toList :: [] := by decide +kernel
  rw [e]
  exact .apart (w := "/Imports/x".toList) (vs := []) (by decide) (.plain fun u => .inl (by rintro ⟨⟩)) .nil

/-- An option for a warning in two arguments: the IDE gets the number only. -/
theorem C102_additional_false : additional "-wd 4100".toList = some ["4100".toList] := by decide +kernel

/-- A value of one quote: an assertion fails. -/
theorem C102_quote_false : extract false false definePrefixes "-D\\\"".toList = none := by decide +kernel

end Verif.Ide
