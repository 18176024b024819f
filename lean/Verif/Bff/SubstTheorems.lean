import Verif.Bff.LexModel
import Verif.Bff.InterpTheorems
import Verif.Str.TextProps
/-
C55: `$Name$` in strings, and the values of `#import`.
-/
namespace Verif.Bff.Lex
open Verif.Bff.Interp (Frame subst lookupAny showVal Out)

/-- `Expands s x y`: the text `x` of a string stands for `y`: `^` takes the next character as it is, `$Name$` is the value
of the variable (of type string, boolean or number), anything else stands for itself. -/
inductive Expands (s : List Frame) : Str → Str → Prop
  | nil : Expands s [] []
  /-- a `^` at the end -/
  | last : Expands s ['^'] []
  | esc {x y : Str} (c : Char) : Expands s x y → Expands s ('^' :: c :: x) (c :: y)
  | chr {c : Char} {x y : Str} : c ≠ '^' → c ≠ '$' → Expands s x y → Expands s (c :: x) (c :: y)
  | var {n t x y : Str} {v : Interp.Var} : n ≠ [] → '$' ∉ n → lookupAny n s = some v → showVal v.val = some t →
      Expands s x y → Expands s ('$' :: (n ++ '$' :: x)) (t ++ y)

theorem subst_name {s : List Frame} : ∀ (n nm x : Str), '$' ∉ n → subst s (some nm) (n ++ '$' :: x) =
    subst s (some (n.reverse ++ nm)) ('$' :: x)
  | [], nm, x, _ => rfl
  | c :: n, nm, x, h => by
    simp only [List.mem_cons, not_or] at h
    rw [List.cons_append, subst, if_neg (fun h' => h.1 h'.symm), subst_name n (c :: nm) x h.2]
    simp

theorem subst_of_expands {s : List Frame} {x y : Str} (h : Expands s x y) : subst s none x = .ok y := by
  induction h with
  | nil => rfl
  | last => rfl
  | esc c _ ih => rw [subst, ih]; rfl
  | chr h1 h2 _ ih =>
    rw [subst, ih]
    · rfl
    all_goals simp_all
  | @var n t x y v hn hd hv ht _ ih =>
    rw [subst, subst_name n [] x hd]
    have : n.reverse ++ [] ≠ [] := by simpa using hn
    rw [subst, if_pos rfl, if_neg this]
    simp only [List.append_nil, List.reverse_reverse, hv]
    rw [ht]
    simp only [ih]
    rfl

theorem expands_of_subst (s : List Frame) (nm : Option Str) (x : Str) : ∀ y, subst s nm x = .ok y →
    match nm with
    | none => Expands s x y
    | some nm => '$' ∉ nm → ∃ n r v t z, x = n ++ '$' :: r ∧ '$' ∉ n ∧ nm.reverse ++ n ≠ [] ∧ lookupAny (nm.reverse ++ n) s = some v ∧
        showVal v.val = some t ∧ Expands s r z ∧ y = t ++ z := by
  fun_induction subst s nm x
  case case1 => intro y h; cases h; exact .nil
  case case2 => intro y h; cases h
  case case3 => intro y h; cases h; exact .last
  case case4 c r ih =>
    intro y h
    rw [Out.bind_eq_ok] at h
    obtain ⟨o, ho, h⟩ := h
    cases h
    exact .esc c (ih o ho)
  case case5 r ih =>
    intro y h
    obtain ⟨n, r', v, t, z, rfl, hn, hne, hv, ht, hz, rfl⟩ := ih y h (by simp)
    exact .var (by simpa using hne) hn (by simpa using hv) ht hz
  case case6 c r h1 h2 h3 ih =>
    intro y h
    rw [Out.bind_eq_ok] at h
    obtain ⟨o, ho, h⟩ := h
    cases h
    exact .chr (fun hc => by cases r <;> simp_all) (fun hc => h3 hc) (ih o ho)
  case case7 => intro y h; cases h
  case case8 => intro y h; cases h
  case case9 => intro y h; cases h
  case case10 nm r hn v hv t ht ih =>
    intro y h _
    rw [Out.bind_eq_ok] at h
    obtain ⟨o, ho, h⟩ := h
    cases h
    exact ⟨[], r, v, t, o, rfl, by simp, by simpa using hn, by simpa using hv, ht, ih o ho, rfl⟩
  case case11 nm c r hc ih =>
    intro y h hnm
    obtain ⟨n, r', v, t, z, rfl, hn, hne, hv, ht, hz, rfl⟩ := ih y h (by simp [Ne.symm hc, hnm])
    exact ⟨c :: n, r', v, t, z, rfl, by simp [Ne.symm hc, hn], by simp, by simpa using hv, ht, hz, rfl⟩

/-- A string is accepted exactly if it has a meaning, and then that is its value. -/
theorem C55_subst (s : List Frame) (x y : Str) : subst s none x = .ok y ↔ Expands s x y :=
  ⟨fun h => expands_of_subst s none x y h, subst_of_expands⟩

/-- Otherwise it is reported as an error. -/
theorem C55_error (s : List Frame) (x : Str) (h : ∀ y, ¬ Expands s x y) : subst s none x = .err := by
  have key : ∀ nm x, (∃ y, subst s nm x = .ok y) ∨ subst s nm x = .err := by
    intro nm x
    fun_induction subst s nm x
    case case1 => exact .inl ⟨_, rfl⟩
    case case2 => exact .inr rfl
    case case3 => exact .inl ⟨_, rfl⟩
    case case4 ih => rcases ih with ⟨y, hy⟩ | hy <;> rw [hy] <;> simp
    case case5 ih => exact ih
    case case6 ih => rcases ih with ⟨y, hy⟩ | hy <;> rw [hy] <;> simp
    case case7 => exact .inr rfl
    case case8 => exact .inr rfl
    case case9 => exact .inr rfl
    case case10 ih => rcases ih with ⟨y, hy⟩ | hy <;> rw [hy] <;> simp
    case case11 ih => exact ih
  rcases key none x with ⟨y, hy⟩ | hy
  · exact (h y ((C55_subst s x y).1 hy)).elim
  · exact hy

example : Expands [⟨[⟨".A".toList, .str "b".toList, 0⟩], none, true⟩] "x$A$^$".toList "xb$".toList :=
  .chr (by decide) (by decide) (.var (n := ['A']) (t := ['b']) (v := ⟨".A".toList, .str "b".toList, 0⟩) (by decide) (by decide)
    rfl rfl (.esc '$' .nil))

/-! ### `#import` -/

/-- the result of replacing a character -/
def swap1 (a : Char) (to : Str) (x : Str) : Str := x.flatMap fun c => if c = a then to else [c]

theorem subst1 {a : Char} {to : Str} {l : Option Nat} {x y : Str} {k : Nat} (h : Verif.Str.Subst [a] to l x y k) :
    l = none → y = swap1 a to x := by
  induction h with
  | stop s => intro h; cases h
  | done => intro _; rfl
  | hit _ _ ih =>
    intro h
    subst h
    rw [ih rfl]
    simp [swap1]
  | skip _ hn _ ih =>
    intro h
    rw [ih h]
    simp only [swap1, List.flatMap_cons]
    rw [if_neg]
    · rfl
    · intro hc
      apply hn
      rw [hc]
      exact ⟨_, rfl⟩

theorem replace1 (a : Char) (to x : Str) (h : x.length < 2 ^ 32 - 1) :
    ((Verif.Str.replace [a] to 0 x).map (·.1)).getD x = swap1 a to x := by
  obtain ⟨out, k, h1, h2⟩ := Verif.Str.C30_replace [a] to 0 x (by simp) h
  rw [h1]
  exact subst1 h2 rfl

theorem swap1_length (a : Char) (b c : Char) : ∀ x : Str, (swap1 a [b, c] x).length ≤ 2 * x.length
  | [] => by simp [swap1]
  | d :: x => by
    have := swap1_length a b c x
    simp only [swap1, List.flatMap_cons, List.length_append, List.length_cons] at this ⊢
    split <;> simp only [List.length_cons, List.length_nil] <;> omega

theorem escape_eq (x : Str) (h : 2 * x.length < 2 ^ 32 - 1) :
    escape x = x.flatMap fun c => if c = '^' then ['^', '^'] else if c = '$' then ['^', '$'] else [c] := by
  unfold escape
  simp only [replace1 '^' ['^', '^'] x (by omega)]
  rw [replace1 '$' _ _ (by have := swap1_length '^' '^' '^' x; omega)]
  clear h
  induction x with
  | nil => rfl
  | cons c x ih =>
    simp only [swap1, List.flatMap_cons, List.flatMap_append] at ih ⊢
    rw [ih]
    by_cases h1 : c = '^'
    · subst h1; rfl
    · by_cases h2 : c = '$'
      · subst h2; rfl
      · simp [h1, h2]

/-- The value of a variable after `#import` is what the environment has, whatever characters are in it and whatever
variables are visible. -/
theorem C55_import (s : List Frame) (v : Str) (h : 2 * v.length < 2 ^ 32 - 1) : subst s none (escape v) = .ok v := by
  rw [escape_eq v h, C55_subst]
  clear h
  induction v with
  | nil => exact .nil
  | cons c v ih =>
    simp only [List.flatMap_cons]
    split
    · rename_i hc; subst hc; exact .esc _ ih
    · split
      · rename_i hc; subst hc; exact .esc _ ih
      · rename_i h1 h2; exact .chr h1 h2 ih

/-- The three tokens `#import X` stands for set `.X` to what the environment has, if `.X` is new or a string. -/
theorem C55_import_value (rec : Interp.Rec) (st : Interp.St) (f : Frame) (s : List Frame) (x v : Str) (e : Tok) (ts : List Tok)
    (hst : st.stack = f :: s) (hf : ∀ w ∈ f.vars, w.frozen = 0) (hq : ∀ c ∈ x, isId c = true)
    (hold : ∀ i w, Interp.lookup ('.' :: x) st.stack = some (i, w) → ∃ y, w.val = .str y) (hv : 2 * v.length < 2 ^ 32 - 1) :
    ∃ st', Interp.named rec st ('.' :: x) (.op .assign :: .str (escape v) :: ts) e = .ok (st', ts) ∧
      (Interp.lookup ('.' :: x) st'.stack).map (·.2.val) = some (.str v) ∧ st' = { st with stack := st'.stack } := by
  have h1 : ¬ (x.head? = some '"' ∨ x.head? = some '\'') := by
    cases x with
    | nil => simp
    | cons c x =>
      have := hq c (by simp)
      simp only [List.head?_cons, Option.some.injEq]
      rintro (h | h) <;> subst h <;> exact absurd this (by decide)
  have hname : Interp.varName st.stack ('.' :: x) = .ok ('.' :: x, false) := by
    rw [Interp.varName, if_neg h1]
    rfl
  have hset : ∃ g, Interp.setAt ('.' :: x) (.str v) 0 ({ f with last := some ('.' :: x, none) } :: s) = .ok (g :: s) := by
    have : ∀ vs : List Interp.Var, (∀ w ∈ vs, w.frozen = 0) → ∃ us, Interp.setIn ('.' :: x) (.str v) vs = .ok us := by
      intro vs
      induction vs with
      | nil => intro _; exact ⟨_, rfl⟩
      | cons w vs ih =>
        intro h
        unfold Interp.setIn
        rw [if_pos (h w (by simp))]
        obtain ⟨us, hu⟩ := ih fun w hw => h w (by simp [hw])
        rw [hu]
        split
        · exact ⟨_, rfl⟩
        · exact ⟨_, rfl⟩
    obtain ⟨us, hu⟩ := this f.vars hf
    refine ⟨⟨us, some ('.' :: x, none), f.linked⟩, ?_⟩
    unfold Interp.setAt
    dsimp only
    rw [hu]
    rfl
  obtain ⟨g, hg⟩ := hset
  refine ⟨st.set (g :: s), ?_, ?_, rfl⟩
  · unfold Interp.named
    rw [hname]
    simp only [Interp.Out.bind_ok, Bool.false_eq_true, if_false]
    unfold Interp.declare
    simp only [true_or, if_true, Interp.cur, List.headD_cons, Interp.St.set, Interp.getVar, hst, Interp.setLast]
    rw [C55_import _ _ hv]
    have : Interp.storeString .assign v ((Interp.lookup ('.' :: x) ({ f with last := some ('.' :: x, none) } :: s)).map (·.2.val)) =
        .ok (.str v) := by
      have e1 : Interp.lookup ('.' :: x) ({ f with last := some ('.' :: x, none) } :: s) = Interp.lookup ('.' :: x) st.stack := by
        rw [hst]; rfl
      rw [e1]
      cases hl : Interp.lookup ('.' :: x) st.stack with
      | none => rfl
      | some p =>
        obtain ⟨y, hy⟩ := hold p.1 p.2 hl
        simp only [Option.map_some, hy]
        rfl
    simp only [Interp.Out.bind_ok]
    rw [this]
    simp only [Interp.Out.bind_ok, Option.getD_none]
    rw [hg]
    rfl
  · have := Interp.setAt_find hg ('.' :: x)
    rw [if_pos rfl] at this
    simp only [Interp.St.set, Interp.lookup]
    cases hgf : g.find ('.' :: x) with
    | none => rw [hgf] at this; cases this
    | some w => rw [hgf] at this; simpa using this

/-- an environment variable with the value `$A^`, with `.A = 'x'` in scope -/
example : Interp.printed (Interp.eval ([Interp.var ".A", .op .assign, Interp.text "x", Interp.var ".V", .op .assign,
    .str (escape "$A$^".toList)] ++ Interp.put "$V$")) = some ["$A$^".toList] := by decide +kernel

end Verif.Bff.Lex
