import Verif.Decl.Lists
/-! Lemmas about strings of properties. -/
namespace Verif.Decl
open Verif.Bff (Val)

theorem all2_nil {α β : Type} {R : α → β → Prop} {r : List β} : All2 R [] r ↔ r = [] := by
  constructor
  · intro h; cases h; rfl
  · rintro rfl; exact .nil

theorem all2_cons {α β : Type} {R : α → β → Prop} {a : α} {l : List α} {r : List β} :
    All2 R (a :: l) r ↔ ∃ b k, r = b :: k ∧ R a b ∧ All2 R l k := by
  constructor
  · intro h; cases h with
    | cons h1 h2 => exact ⟨_, _, rfl, h1, h2⟩
  · rintro ⟨b, k, rfl, h1, h2⟩; exact .cons h1 h2

theorem all2_append {α β : Type} {R : α → β → Prop} : ∀ {a b : List α} {r : List β},
    All2 R (a ++ b) r ↔ ∃ r1 r2, r = r1 ++ r2 ∧ All2 R a r1 ∧ All2 R b r2
  | [], b, r => by
    constructor
    · intro h; exact ⟨[], r, rfl, .nil, h⟩
    · rintro ⟨r1, r2, rfl, h1, h2⟩; cases h1; exact h2
  | x :: a, b, r => by
    rw [List.cons_append, all2_cons]
    constructor
    · rintro ⟨y, k, rfl, h1, h2⟩
      obtain ⟨r1, r2, rfl, h3, h4⟩ := all2_append.1 h2
      exact ⟨y :: r1, r2, rfl, .cons h1 h3, h4⟩
    · rintro ⟨r1, r2, rfl, h1, h2⟩
      obtain ⟨y, k, rfl, h3, h4⟩ := all2_cons.1 h1
      exact ⟨y, k ++ r2, rfl, h3, all2_append.2 ⟨k, r2, rfl, h4, h2⟩⟩

theorem all2_length {α β : Type} {R : α → β → Prop} {l : List α} {k : List β} (h : All2 R l k) : l.length = k.length := by
  induction h with
  | nil => rfl
  | cons _ _ ih => simp [ih]

theorem fixPath_ok (K : Ctx) (path file : Option Bool) {s : Name} (hs : s ≠ []) (r : Name) :
    fixPath K path file s = .ok r ↔ PathOf K path file s r := by
  unfold fixPath
  rw [if_neg hs]
  constructor
  · intro h
    cases path with
    | none =>
      cases file with
      | none => simp at h; subst h; exact .plain rfl rfl
      | some b =>
        cases b with
        | true =>
          simp at h
          split at h
          · cases h
          · rename_i h1
            cases h
            exact .relFile rfl rfl (by simpa using h1)
        | false =>
          simp at h
          split at h
          · cases h
          · rename_i h1
            cases h
            exact .file rfl rfl (by simpa using h1)
    | some p =>
      cases file with
      | some b => simp at h
      | none => cases p <;> simp at h <;> subst h
                · exact .path rfl rfl
                · exact .relPath rfl rfl
  · intro h
    cases h with
    | plain h1 h2 => subst h1 h2; simp
    | relPath h1 h2 => subst h1 h2; simp
    | path h1 h2 => subst h1 h2; simp
    | relFile h1 h2 h3 => subst h1 h2; simp [h3]
    | file h1 h2 h3 => subst h1 h2; simp [h3]

/-- a string that does not name an alias -/
theorem strOne_plain (K : Ctx) (g : Graph) (m : Meta) (fuel : Nat) (s : Name) (out o' : List Name)
    (ha : s ≠ [] → ∀ d, Names K g m s d → d.type ≠ .alias) :
    strOne K g m.path m.file m.nonFile (fuel + 1) s out = .ok o' ↔ ∃ r, Value K g m s r ∧ o' = out ++ [r] := by
  rw [strOne]
  by_cases hs : s = []
  · subst hs
    rw [if_pos rfl]
    constructor
    · intro h; cases h; exact ⟨[], .empty, rfl⟩
    · rintro ⟨r, hr, rfl⟩
      cases hr with
      | empty => rfl
      | target _ _ h => exact absurd rfl h
      | path _ _ h => exact absurd rfl h
  · rw [if_neg hs]
    have hplain : (∀ d, Names K g m s d → d.type.isFile = true) →
        ((match fixPath K m.path m.file s with
          | .ok r => (Except.ok (out ++ [r]) : Res (List Name))
          | .error e => .error e) = .ok o' ↔ ∃ r, Value K g m s r ∧ o' = out ++ [r]) := by
      intro hd
      constructor
      · intro h
        cases hf : fixPath K m.path m.file s with
        | error e => rw [hf] at h; cases h
        | ok r =>
          rw [hf] at h; cases h
          exact ⟨r, .path s r hs hd ((fixPath_ok K _ _ hs r).1 hf), rfl⟩
      · rintro ⟨r, hr, rfl⟩
        cases hr with
        | empty => exact absurd rfl hs
        | target _ d _ h1 h2 => rw [hd d h1] at h2; cases h2
        | path _ _ _ _ h => rw [(fixPath_ok K _ _ hs r).2 h]
    dsimp only
    by_cases hf : m.file = some false
    · rw [if_pos hf]
      cases hn : (find K g s).bind (g[·]?) with
      | none =>
        exact hplain (by rintro d ⟨_, h⟩; rw [hn] at h; cases h)
      | some d =>
        have hN : Names K g m s d := ⟨hf, hn⟩
        have huniq : ∀ e, Names K g m s e → e = d := by
          rintro e ⟨_, h⟩; rw [hn] at h; cases h; rfl
        dsimp only
        rw [if_neg (ha hs d hN)]
        by_cases hfile : d.type.isFile = true
        · rw [if_pos hfile]
          exact hplain (fun e he => by rw [huniq e he]; exact hfile)
        · rw [if_neg hfile]
          have hff : d.type.isFile = false := by simpa using hfile
          have back : ∀ r, Value K g m s r → r = s ∧ (m.nonFile = some none ∨ m.nonFile = some (some d.type)) := by
            intro r hr
            cases hr with
            | empty => exact absurd rfl hs
            | target _ e _ h1 _ _ h3 => rw [huniq e h1] at h3; exact ⟨rfl, h3⟩
            | path _ _ _ h => exact absurd (h d hN) hfile
          cases hnf : m.nonFile with
          | none =>
            constructor
            · intro h; cases h
            · rintro ⟨r, hr, _⟩; rcases (back r hr).2 with h | h <;> rw [hnf] at h <;> cases h
          | some x =>
            cases x with
            | none =>
              constructor
              · intro h; cases h; exact ⟨s, .target s d hs hN hff (ha hs d hN) (Or.inl hnf), rfl⟩
              · rintro ⟨r, hr, rfl⟩; rw [(back r hr).1]
            | some t =>
              dsimp only
              by_cases htd : t = d.type
              · subst htd
                rw [if_pos rfl]
                constructor
                · intro h; cases h; exact ⟨s, .target s d hs hN hff (ha hs d hN) (Or.inr hnf), rfl⟩
                · rintro ⟨r, hr, rfl⟩; rw [(back r hr).1]
              · rw [if_neg htd]
                constructor
                · intro h; cases h
                · rintro ⟨r, hr, _⟩
                  rcases (back r hr).2 with h | h <;> rw [hnf] at h <;> cases h
                  exact absurd rfl htd
    · rw [if_neg hf]
      exact hplain (by rintro d ⟨h, _⟩; exact absurd h hf)

/-- the names of nodes -/
def namesOf (g : Graph) (l : List Nat) : List Name := l.filterMap fun n => (g[n]?).map (·.name)

theorem eachName_ok {K : Ctx} {g : Graph} (h : WF g) (m : Meta) (fuel : Nat) : ∀ (l : List Nat) (out o' : List Name),
    (∀ n ∈ l, ∃ d, g[n]? = some d ∧ d.type ≠ .alias) →
    (eachName (strOne K g m.path m.file m.nonFile (fuel + 1)) g l out = .ok o' ↔
      ∃ rs, All2 (Value K g m) (namesOf g l) rs ∧ o' = out ++ rs)
  | [], out, o', _ => by
    simp only [eachName, namesOf, List.filterMap_nil, all2_nil]
    constructor
    · intro h; cases h; exact ⟨[], rfl, by simp⟩
    · rintro ⟨_, rfl, rfl⟩; simp
  | n :: l, out, o', hl => by
    obtain ⟨d, hd, hna⟩ := hl n List.mem_cons_self
    have hl' : ∀ n ∈ l, ∃ d, g[n]? = some d ∧ d.type ≠ .alias := fun x hx => hl x (List.mem_cons_of_mem _ hx)
    have hone : ∀ o1, strOne K g m.path m.file m.nonFile (fuel + 1) d.name out = .ok o1 ↔ ∃ r, Value K g m d.name r ∧ o1 = out ++ [r] := by
      intro o1
      apply strOne_plain
      rintro _ e ⟨_, he⟩
      rw [find_of_name h hd] at he
      simp only [Option.bind_some, hd, Option.some.injEq] at he
      subst he; exact hna
    have hnames : namesOf g (n :: l) = d.name :: namesOf g l := by simp [namesOf, hd]
    rw [hnames]
    simp only [eachName, hd]
    constructor
    · intro hh
      cases ho : strOne K g m.path m.file m.nonFile (fuel + 1) d.name out with
      | error e => rw [ho] at hh; cases hh
      | ok o1 =>
        rw [ho] at hh
        obtain ⟨r, hr, rfl⟩ := (hone o1).1 ho
        obtain ⟨rs, h1, h2⟩ := (eachName_ok h m fuel l _ o' hl').1 hh
        exact ⟨r :: rs, .cons hr h1, by rw [h2]; simp⟩
    · rintro ⟨rs, h1, rfl⟩
      obtain ⟨r, k, rfl, hr, hk⟩ := all2_cons.1 h1
      rw [(hone (out ++ [r])).2 ⟨r, hr, rfl⟩]
      exact (eachName_ok h m fuel l _ _ hl').2 ⟨k, hk, by simp⟩

/-- what one string stands for -/
def part (K : Ctx) (g : Graph) (m : Meta) (s : Name) : List Name :=
  if m.file = some false then if s = [] then [s] else stands K g s else [s]

theorem strOne_ok {K : Ctx} {g : Graph} (h : WF g) (m : Meta) (s : Name) (out o' : List Name) :
    strOne K g m.path m.file m.nonFile (g.length + 1) s out = .ok o' ↔
      ∃ rs, All2 (Value K g m) (part K g m s) rs ∧ o' = out ++ rs := by
  have plain : part K g m s = [s] → (s ≠ [] → ∀ d, Names K g m s d → d.type ≠ .alias) →
      (strOne K g m.path m.file m.nonFile (g.length + 1) s out = .ok o' ↔
      ∃ rs, All2 (Value K g m) (part K g m s) rs ∧ o' = out ++ rs) := by
    intro hp ha
    rw [strOne_plain K g m g.length s out o' ha, hp]
    constructor
    · rintro ⟨r, hr, rfl⟩; exact ⟨[r], .cons hr .nil, rfl⟩
    · rintro ⟨rs, h1, rfl⟩
      obtain ⟨r, k, rfl, hr, hk⟩ := all2_cons.1 h1
      cases hk; exact ⟨r, hr, rfl⟩
  by_cases hs : s = []
  · exact plain (by simp [part, hs]) (fun h' => absurd hs h')
  · by_cases hf : m.file = some false
    · cases hn : (find K g s).bind (g[·]?) with
      | none =>
        apply plain
        · simp [part, hf, hs, stands, hn]
        · rintro _ d ⟨_, h'⟩; rw [hn] at h'; cases h'
      | some d =>
        by_cases ha : d.type = .alias
        · obtain ⟨n, hfn, hgn⟩ : ∃ n, find K g s = some n ∧ g[n]? = some d := by
            cases hx : find K g s with
            | none => rw [hx] at hn; cases hn
            | some n => rw [hx] at hn; exact ⟨n, rfl, hn⟩
          obtain ⟨k, hk⟩ : ∃ k, g.length = k + 1 := ⟨g.length - 1, by have := find_lt hfn; omega⟩
          have hmem := List.mem_of_getElem? hgn
          have hp : part K g m s = namesOf g d.deps := by
            simp [part, hf, hs, stands, hn, ha, namesOf]
          rw [hp, hk, strOne, if_neg hs]
          dsimp only
          rw [if_pos hf, hn]
          dsimp only
          rw [if_pos ha]
          apply eachName_ok h
          intro x hx
          have hlt := h.deps d hmem x hx
          exact ⟨g[x], List.getElem?_eq_getElem hlt, h.flat d hmem ha x hx _ (List.getElem?_eq_getElem hlt)⟩
        · apply plain
          · simp [part, hf, hs, stands, hn, ha]
          · rintro _ e ⟨_, h'⟩; rw [hn] at h'; cases h'; exact ha
    · apply plain
      · simp [part, hf]
      · rintro _ d ⟨h', _⟩; exact absurd h' hf

theorem strAll_ok {K : Ctx} {g : Graph} (h : WF g) (m : Meta) : ∀ (l : List Name) (out o' : List Name),
    strAll (strOne K g m.path m.file m.nonFile (g.length + 1)) l out = .ok o' ↔
      ∃ rs, All2 (Value K g m) (l.flatMap (part K g m)) rs ∧ o' = out ++ rs
  | [], out, o' => by
    simp only [strAll, List.flatMap_nil, all2_nil]
    constructor
    · intro h; cases h; exact ⟨[], rfl, by simp⟩
    · rintro ⟨_, rfl, rfl⟩; simp
  | s :: l, out, o' => by
    rw [List.flatMap_cons]
    simp only [strAll]
    constructor
    · intro hh
      cases ho : strOne K g m.path m.file m.nonFile (g.length + 1) s out with
      | error e => rw [ho] at hh; cases hh
      | ok o1 =>
        rw [ho] at hh
        obtain ⟨r1, hr, rfl⟩ := (strOne_ok h m s out o1).1 ho
        obtain ⟨r2, h1, rfl⟩ := (strAll_ok h m l _ o').1 hh
        exact ⟨r1 ++ r2, all2_append.2 ⟨r1, r2, rfl, hr, h1⟩, by simp⟩
    · rintro ⟨rs, h1, rfl⟩
      obtain ⟨r1, r2, rfl, h2, h3⟩ := all2_append.1 h1
      rw [(strOne_ok h m s out (out ++ r1)).2 ⟨r1, h2, rfl⟩]
      exact (strAll_ok h m l _ _).2 ⟨r2, h3, by simp⟩

theorem parts_eq (K : Ctx) (g : Graph) (m : Meta) (ss : List Name) : parts K g m ss = ss.flatMap (part K g m) := by
  unfold parts part
  by_cases h : m.file = some false
  · simp only [h, if_true]
  · simp only [h, if_false]
    induction ss with
    | nil => rfl
    | cons s ss ih => simp [List.flatMap_cons, ← ih]

theorem strings_ok {K : Ctx} {g : Graph} (h : WF g) (m : Meta) (v : Val) (l : List Name) :
    strings K g m.path m.file m.nonFile v = .ok l ↔
      ∃ ss, (v = .strs ss ∨ ∃ s, v = .str s ∧ ss = [s]) ∧ All2 (Value K g m) (parts K g m ss) l := by
  have e : ∀ ss : List Name, strAll (strOne K g m.path m.file m.nonFile (g.length + 1)) ss [] = .ok l ↔
      All2 (Value K g m) (parts K g m ss) l := by
    intro ss
    rw [strAll_ok h m ss [] l, parts_eq]
    constructor
    · rintro ⟨rs, h1, rfl⟩; simpa using h1
    · intro h1; exact ⟨l, h1, by simp⟩
  cases v with
  | strs ss =>
    simp only [strings, e, Val.strs.injEq]
    constructor
    · intro h1; exact ⟨ss, Or.inl rfl, h1⟩
    · rintro ⟨_, h1 | ⟨_, h1, _⟩, h2⟩
      · subst h1; exact h2
      · cases h1
  | str s =>
    simp only [strings, e]
    constructor
    · intro h1; exact ⟨[s], Or.inr ⟨s, rfl, rfl⟩, h1⟩
    · rintro ⟨_, h1 | ⟨x, h1, rfl⟩, h2⟩
      · cases h1
      · cases h1; exact h2
  | _ =>
    simp only [strings]
    constructor
    · intro h; cases h
    · rintro ⟨_, h1 | ⟨x, h1, rfl⟩, h2⟩ <;> cases h1

end Verif.Decl
