import Verif.Bff.InterpSteps
/-
C51 - C54: evaluation of build files.
-/
namespace Verif.Bff.Interp

/-! ### examples -/

/-- what was printed, if the file is correct -/
def printed (x : Out St) : Option (List Str) :=
  match x with
  | .ok st => some (st.log.filterMap fun
    | .line s => some s
    | _ => none)
  | _ => none

def isErr (x : Out St) : Bool := match x with
  | .err => true
  | _ => false

def isAssert (w : Why) (x : Out St) : Bool := match x with
  | .assert w' => w = w'
  | _ => false

/-- evaluate a file in which every `Commit` succeeds -/
def eval (ts : List Tok) : Out St := run (fun _ _ => true) [] (ts ++ [.eof])

def var (s : String) : Tok := .var s.toList
def text (s : String) : Tok := .str s.toList
def fn (s : String) : Tok := .func s.toList
def id_ (s : String) : Tok := .ident s.toList
def o (b : Br) : Tok := .brace b
def put (s : String) : List Tok := [fn "Print", o .rl, text s, o .rr]

/-! ### C51: every build file is evaluated in finitely many steps -/

/-- Evaluation of a file ends, with a result, an error or one of the assertions of other kinds: the bound of the model's
recursion is never hit, no frozen variable is ever written, and no frame or variable that is used is missing. -/
theorem C51_terminates (commit : List Event → Event → Bool) (base : List Var) (hb : ∀ v ∈ base, v.frozen = 0)
    (ts : List Tok) : run commit base ts ≠ .fuel ∧ run commit base ts ≠ .assert .frozen ∧
      run commit base ts ≠ .assert .dangling := by
  have h := parse_post commit 127 (e := .eof) (Or.inr rfl) false ⟨[⟨base, none, false⟩], [], [], []⟩ ts (by simp)
    ⟨hb, by intro n i h; cases h⟩ (by simp)
  unfold run
  cases hr : parse commit 128 .eof ⟨[⟨base, none, false⟩], [], [], []⟩ ts with
  | ok a => simp
  | err => simp
  | assert w => rw [hr] at h; exact ⟨by simp, by simpa using h.1, by simpa using h.2⟩
  | fuel => rw [hr] at h; exact h.elim

/-- a function that calls itself without end is an error: `function F() { F() } F()` -/
theorem C51_recursion : isErr (eval [.kw .function, id_ "F", o .rl, o .rr, o .cl, id_ "F", o .rl, o .rr, o .cr,
    id_ "F", o .rl, o .rr]) = true := by decide +kernel

/-- one that ends is not: `function F( .N ) { Print( '$N$' ) If( .N > 0 ) { .M = .N .M - 1 F( .M ) } } F( 2 )` -/
example : printed (eval ([.kw .function, id_ "F", o .rl, var ".N", o .rr, o .cl] ++ put "$N$" ++
    [fn "If", o .rl, var ".N", .op .gt, .num 0, o .rr, o .cl, var ".M", .op .assign, var ".N", var ".M", .op .minus, .num 1,
     id_ "F", o .rl, var ".M", o .rr, o .cr, o .cr, id_ "F", o .rl, .num 2, o .rr])) =
    some ["2".toList, "1".toList, "0".toList] := by decide +kernel

/-! ### C52: scopes -/

/-- the names of the variables of each frame -/
def names (s : List Frame) : List (List Str) := s.map fun f => f.vars.map (·.name)

/-- A state in which statements are evaluated: variables of the innermost scope are not being iterated over, and the
variable modified last can be modified again. -/
abbrev Proper (st : St) : Prop := Inv false st.stack

theorem names_keep : ∀ {K : Bool} {a b : List Frame}, Keep K a b → names b = names a
  | true, _, _, h => by simp only [Keep] at h; rw [h]
  | false, [], b, h => by
    have h' : b = [] := h
    subst h'; rfl
  | false, _ :: _, [], h => h.elim
  | false, f :: a, g :: b, h => by
    have hv : ∀ {x y : List Var}, VarsKeep x y → y.map (·.name) = x.map (·.name) := by
      intro x
      induction x with
      | nil => intro y h; cases h; rfl
      | cons v x ih =>
        intro y h
        cases y with
        | nil => exact h.elim
        | cons w y => simp [h.1.1, ih h.2]
    simp only [names, List.map_cons, hv h.1.2.2]
    congr 1
    exact names_keep h.2

/-- the recursion of the model for what is in brackets, at a depth -/
abbrev nested (commit : List Event → Event → Bool) (k : Nat) : Rec := parse commit (k + 1) (.brace .cr)

theorem nested_spec (commit : List Event → Event → Bool) (k m : Nat) (h : 127 ≤ m + k) : RecSpec (nested commit k) m :=
  fun K st ts hm hi hp => parse_post commit k (Or.inl rfl) K st ts (by omega) hi hp

/-- Every state between two statements is proper. -/
theorem C52_proper (commit : List Event → Event → Bool) (k : Nat) (st st' : St) (t : Tok) (ts rest : List Tok) (e : Tok)
    (he : Stop e) (hk : 127 ≤ st.stack.length + 1 + k) (hs : Proper st)
    (h : stmt commit (nested commit k) st t ts e = .ok (st', rest)) : Proper st' ∧ st'.stack.length = st.stack.length := by
  have := stmt_post (K := false) (commit := commit) (nested_spec commit k (st.stack.length + 1) (by omega)) hs (t := t) (ts := ts)
    he (by simp) (Nat.le_refl _)
  rw [h] at this
  exact ⟨this.1.2, this.1.1.length⟩

/-- What is in a scope adds no variable to the scopes around it, and if it has no assignment to `^Name` it does not
change them at all. -/
theorem C52_scope (commit : List Event → Event → Bool) (k : Nat) (st st' : St) (ts body rest rest' : List Tok)
    (hk : 127 ≤ st.stack.length + 1 + k) (hs : Proper st) (hb : braced ts = .ok (body, rest))
    (h : scope (nested commit k) st ts = .ok (st', rest')) :
    rest' = rest ∧ names st'.stack = names st.stack ∧ (NoParentWrite body → st'.stack = st.stack) := by
  unfold scope at h
  rw [hb] at h
  simp only [Out.bind_ok, Out.bind_eq_ok, Out.pure_eq, Out.ok.injEq, Prod.mk.injEq] at h
  obtain ⟨st1, h1, h2, h3⟩ := h
  have key : ∀ K, (K = true → NoParentWrite body) → Keep K st.stack st'.stack := by
    intro K hp
    have := nested_spec commit k (st.stack.length + 1) (by omega) K (push st) body (by simp [push, St.set]) (inv_new _ _ _) hp
    rw [h1] at this
    obtain ⟨g, t', hst, hkeep⟩ := keep_of_ext (f := ⟨[], none, true⟩) rfl this.1
    rw [← h2]
    show Keep K st.stack (st1.stack.drop 1)
    rw [hst]
    exact hkeep
  refine ⟨h3.symm, names_keep (key false (by simp)), fun hn => ?_⟩
  have := key true (fun _ => hn)
  simpa [Keep] using this

/-- The same for the scopes around a function with a body (`If`, `ForEach`, `ObjectList` and so on). -/
theorem C52_function (commit : List Event → Event → Bool) (k : Nat) (st st' : St) (f : Str) (fi : FInfo) (hdr bd : List Tok)
    (hk : 127 ≤ st.stack.length + 1 + k) (hu : fi.kind ≠ .using_) (hs : Proper st)
    (h : dispatch commit (nested commit k) (push st) f fi hdr bd = .ok st') :
    names (pop st').stack = names st.stack ∧ (NoParentWrite bd → (pop st').stack = st.stack) := by
  have hr := nested_spec commit k (st.stack.length + 1) (by omega)
  have key : ∀ K, (K = true → NoParentWrite bd) → Keep K st.stack (pop st').stack := by
    intro K hp
    have rec_ : ∀ st1, nested commit k (push st) bd = .ok st1 → Keep K st.stack (st1.stack.drop 1) := by
      intro st1 h1
      have := hr K (push st) bd (by simp [push, St.set]) (inv_new _ _ _) hp
      rw [h1] at this
      obtain ⟨g, t', hst, hkeep⟩ := keep_of_ext (f := ⟨[], none, true⟩) rfl this.1
      rw [hst]; exact hkeep
    unfold dispatch at h
    split at h
    · unfold fnIf at h
      split at h
      · exact rec_ _ h
      · cases h; exact Keep.refl _ _
      · cases h
      · cases h
      · cases h
    · have := fnForEach_post (K := K) hr hp (st := push st) (hdr := hdr) (by simp [push, St.set])
      rw [h] at this
      obtain ⟨g, t', hst, hkeep⟩ := keep_of_ext (f := ⟨[], none, true⟩) rfl (this.ext (by simp [push, St.set]))
      show Keep K st.stack (st'.stack.drop 1)
      rw [hst]; exact hkeep
    · rename_i hk'; exact (hu hk').elim
    · unfold fnPrint at h
      split at h
      · rw [Out.bind_eq_ok] at h
        obtain ⟨x, _, h⟩ := h
        cases h; exact Keep.refl _ _
      · rw [Out.bind_eq_ok] at h
        obtain ⟨⟨n, p⟩, _, h⟩ := h
        dsimp only at h
        split at h
        · cases h
        · cases h; exact Keep.refl _ _
      · cases h
    · cases h
    · unfold fnNode at h
      simp only [Out.bind_eq_ok] at h
      obtain ⟨a, _, st1, h1, h⟩ := h
      split at h
      · cases h; exact rec_ st1 h1
      · cases h
  refine ⟨names_keep (key false (by simp)), fun hn => ?_⟩
  have := key true (fun _ => hn)
  simpa [Keep] using this

/-- `.A = 'x' { .A = 'z' .B = 'q' } Print( '$A$' )`: what is assigned in the scope is gone -/
example : printed (eval ([var ".A", .op .assign, text "x", o .cl, var ".A", .op .assign, text "z",
    var ".B", .op .assign, text "q", o .cr] ++ put "$A$")) = some ["x".toList] := by decide +kernel
example : NoParentWrite [var ".A", .op .assign, text "z", var ".B", .op .assign, var "^A", .op .plus, text "q"] := by
  intro pre v o post h _
  rcases pre with _ | ⟨a, _ | ⟨b, _ | ⟨c, _ | ⟨d, _ | ⟨e, _ | ⟨f, _ | ⟨g, _ | ⟨i, _ | ⟨j, pre⟩⟩⟩⟩⟩⟩⟩⟩⟩ <;> simp [var, text] at h
  exact ⟨[a, b, c, d], .assign, by rw [← h.2.2.2.2.1]; rfl⟩

/-- `.A = 'x' { ^A = 'y' .A = 'z' } Print( '$A$' )`: with `^` the outer variable is changed -/
example : printed (eval ([var ".A", .op .assign, text "x", o .cl, var "^A", .op .assign, text "y",
    var ".A", .op .assign, text "z", o .cr] ++ put "$A$")) = some ["y".toList] := by decide +kernel

/-! ### C54: loops -/

/-- the elements of an array -/
def elems : Val → Option (List Val)
  | .strs l => some (l.map .str)
  | .structs l => some (l.map .struct)
  | _ => none

/-- what the header of a loop binds: the loop variables and the elements they take -/
inductive Binds (s : List Frame) : List Tok → List (Str × List Val) → Prop
  | nil : Binds s [] []
  | cons {a b an bn : Str} {bp : Bool} {i : Nat} {v : Var} {l : List Val} {sep ts : List Tok} {r : List (Str × List Val)} :
      varName s a = .ok (an, false) → varName s b = .ok (bn, bp) →
      (if bp then parentDecl2 bn s else lookup bn s) = some (i, v) → elems v.val = some l →
      (sep = [] ∨ sep = [.comma]) → Binds s ts r →
      Binds s (.var a :: .kw .in_ :: .var b :: (sep ++ ts)) ((an, l) :: r)

/-- the frame of iteration `i`: each loop variable has element `i` of its array (the last one of that name counts) -/
def LoopFrame (bs : List (Str × List Val)) (i : Nat) (g : Frame) : Prop :=
  Plain g ∧ ∀ n, (g.find n).map (·.val) = (bs.reverse.find? (fun b => b.1 = n)).bind (·.2[i]?)

/-- the body is evaluated for each of the iterations in turn -/
def Runs (rec : Rec) (body : List Tok) (bs : List (Str × List Val)) : List Nat → St → St → Prop
  | [], a, b => a = b
  | i :: is, a, b => ∃ g out, LoopFrame bs i g ∧ rec { a with stack := g :: a.stack } body = .ok out ∧
      Runs rec body bs is (pop out) b

/-- the values of all variables, without the freeze counts -/
def values (s : List Frame) : List (List (Str × Val)) := s.map fun f => f.vars.map fun v => (v.name, v.val)

theorem values_incAt (n : Str) : ∀ (i : Nat) (s : List Frame), values (incAt n i s) = values s
  | _, [] => by simp [incAt]
  | 0, f :: s => by
    have : ∀ vs : List Var, (incVars n vs).map (fun v => (v.name, v.val)) = vs.map fun v => (v.name, v.val) := by
      intro vs
      induction vs with
      | nil => rfl
      | cons v vs ih =>
        unfold incVars
        split <;> simp [ih]
    simp [incAt, values, this]
  | i + 1, f :: s => by
    have := values_incAt n i s
    simp only [values] at this ⊢
    simp [incAt, this]

theorem values_incs : ∀ (ls : List Loop) (s : List Frame), values (incs ls s) = values s
  | [], s => rfl
  | l :: ls, s => by rw [incs, values_incs ls, values_incAt]

theorem values_unfreezeIn {n : Str} : ∀ {vs ws : List Var}, unfreezeIn n vs = .ok ws →
    ws.map (fun v => (v.name, v.val)) = vs.map fun v => (v.name, v.val)
  | [], ws, h => by simp [unfreezeIn] at h
  | v :: vs, ws, h => by
    unfold unfreezeIn at h
    split at h
    · split at h
      · cases h; rfl
      · cases h
    · rw [Out.bind_eq_ok] at h
      obtain ⟨us, hu, h⟩ := h
      cases h
      simp [values_unfreezeIn hu]

theorem values_onVars {n : Str} : ∀ {i : Nat} {s t : List Frame}, onVars (unfreezeIn n) i s = .ok t → values t = values s
  | _, [], t, h => by simp [onVars] at h
  | 0, f :: s, t, h => by
    unfold onVars at h
    rw [Out.bind_eq_ok] at h
    obtain ⟨us, hu, h⟩ := h
    cases h
    simp [values, values_unfreezeIn hu]
  | i + 1, f :: s, t, h => by
    unfold onVars at h
    rw [Out.bind_eq_ok] at h
    obtain ⟨us, hu, h⟩ := h
    cases h
    have := values_onVars hu
    simp only [values] at this ⊢
    simp [this]

theorem values_onArrays : ∀ {ls : List Loop} {s t : List Frame}, onArrays unfreezeIn ls s = .ok t → values t = values s
  | [], s, t, h => by cases h; rfl
  | l :: ls, s, t, h => by
    unfold onArrays at h
    rw [Out.bind_eq_ok] at h
    obtain ⟨u, hu, h⟩ := h
    rw [values_onArrays h, values_onVars hu]

theorem elems_len {v : Val} {k : Nat} (h : arrLen v = some k) : ∃ l, elems v = some l ∧ l.length = k ∧
    ∀ i, arrElem i v = l[i]? := by
  cases v <;> simp only [arrLen, Option.some.injEq, reduceCtorEq] at h
  · exact ⟨_, rfl, by simpa using h, by simp [arrElem]⟩
  · exact ⟨_, rfl, by simpa using h, by simp [arrElem]⟩

/-- the loops of a header are what it binds -/
def Matches (s : List Frame) : List Loop → List (Str × List Val) → Prop
  | [], bs => bs = []
  | l :: ls, b :: bs => (l.local_ = b.1 ∧ ∃ v, seen l.arr l.frame s = some v ∧ elems v.val = some b.2) ∧ Matches s ls bs
  | _ :: _, [] => False

theorem loopVar_ok {s : List Frame} {a : Str} {t : Tok} {b : Str} {l : Loop} {k : Nat}
    (h : loopVar s a t b = .ok (l, k)) : t = .kw .in_ ∧ ∃ es, es.length = k ∧
      (l.local_ = l.local_ ∧ ∃ v, seen l.arr l.frame s = some v ∧ elems v.val = some es) ∧
      ∀ sep ts r, (sep = [] ∨ sep = [.comma]) → Binds s ts r →
        Binds s (.var a :: .kw .in_ :: .var b :: (sep ++ ts)) ((l.local_, es) :: r) := by
  unfold loopVar at h
  rw [Out.bind_eq_ok] at h
  obtain ⟨⟨an, ap⟩, h1, h⟩ := h
  dsimp only at h
  split at h
  · cases h
  · rename_i hap
    split at h
    · cases h
    · rename_i ht
      rw [Out.bind_eq_ok] at h
      obtain ⟨⟨bn, bp⟩, h2, h⟩ := h
      dsimp only at h
      split at h
      · cases h
      · rename_i i v hv
        split at h
        · cases h
        · rename_i k' hk
          cases h
          obtain ⟨es, he, hl, _⟩ := elems_len hk
          have hap' : ap = false := by simpa using hap
          subst hap'
          refine ⟨by simpa using ht, es, hl, ⟨rfl, v, ?_, he⟩, ?_⟩
          · split at hv
            · exact (parentDecl2_seen hv).1
            · exact lookup_seen hv
          · intro sep ts r hsep hb
            exact .cons h1 h2 hv he hsep hb

theorem loops_ok (s : List Frame) : ∀ (n : Option Nat) (ts : List Tok) (ls : List Loop) (N : Option Nat),
    loops s n ts = .ok (ls, N) → ∃ bs, Binds s ts bs ∧ Matches s ls bs ∧ (∀ b ∈ bs, N = some b.2.length) ∧
      (∀ k, n = some k → N = some k) ∧ (ls = [] → N = n) := by
  intro n ts
  fun_induction loops s n ts
  case case1 =>
    intro ls N h
    cases h
    exact ⟨[], .nil, rfl, by simp, by simp, by simp⟩
  case case2 n a t b ts ih =>
    intro ls N h
    rw [Out.bind_eq_ok] at h
    obtain ⟨⟨l, k⟩, hl, h⟩ := h
    dsimp only at h
    split at h
    · cases h
    · rename_i hn
      rw [Out.bind_eq_ok] at h
      obtain ⟨⟨ls', N'⟩, hr, h⟩ := h
      cases h
      obtain ⟨bs, hb, hm, hN, hk, _⟩ := ih (l, k) _ _ hr
      obtain ⟨rfl, es, hes, hv, hc⟩ := loopVar_ok hl
      refine ⟨(l.local_, es) :: bs, hc [.comma] ts bs (.inr rfl) hb, ⟨hv, hm⟩, ?_, ?_, by simp⟩
      · intro b' hb'
        rcases List.mem_cons.mp hb' with rfl | hb'
        · rw [hk k rfl, hes]
        · exact hN b' hb'
      · rintro j rfl
        simp at hn
        subst hn
        exact hk _ rfl
  case case3 n a t b ts _ ih =>
    intro ls N h
    rw [Out.bind_eq_ok] at h
    obtain ⟨⟨l, k⟩, hl, h⟩ := h
    dsimp only at h
    split at h
    · cases h
    · rename_i hn
      rw [Out.bind_eq_ok] at h
      obtain ⟨⟨ls', N'⟩, hr, h⟩ := h
      cases h
      obtain ⟨bs, hb, hm, hN, hk, _⟩ := ih (l, k) _ _ hr
      obtain ⟨rfl, es, hes, hv, hc⟩ := loopVar_ok hl
      refine ⟨(l.local_, es) :: bs, hc [] ts bs (.inl rfl) hb, ⟨hv, hm⟩, ?_, ?_, by simp⟩
      · intro b' hb'
        rcases List.mem_cons.mp hb' with rfl | hb'
        · rw [hk k rfl, hes]
        · exact hN b' hb'
      · rintro j rfl
        simp at hn
        subst hn
        exact hk _ rfl
  case case4 =>
    intro ls N h
    unfold loopBad at h
    rw [Out.bind_eq_ok] at h
    obtain ⟨⟨an, ap⟩, _, h⟩ := h
    dsimp only at h
    split at h
    · cases h
    · split at h
      · cases h
      · split at h <;> cases h
      · cases h
  case case5 =>
    intro ls N h
    cases h

theorem setIn_find {n : Str} {x : Val} : ∀ {vs ws : List Var}, setIn n x vs = .ok ws → ∀ m,
    (ws.find? (fun v => v.name = m)).map (·.val) =
      if m = n then some x else (vs.find? (fun v => v.name = m)).map (·.val)
  | [], ws, h, m => by
    cases h
    by_cases hm : m = n
    · simp [hm]
    · simp [hm, Ne.symm hm]
  | v :: vs, ws, h, m => by
    unfold setIn at h
    split at h
    · rename_i hv
      split at h
      · cases h
        by_cases hm : m = n
        · simp [hm, hv]
        · have : ¬ v.name = m := by rw [hv]; exact Ne.symm hm
          simp [hm, this]
      · cases h
    · rename_i hv
      rw [Out.bind_eq_ok] at h
      obtain ⟨us, hu, h⟩ := h
      cases h
      have ih := setIn_find hu m
      by_cases hvm : v.name = m
      · have : ¬ m = n := by rw [← hvm]; exact hv
        simp [hvm, this]
      · simp only [List.find?_cons, hvm, decide_false]
        exact ih

/-- setting a variable of the head -/
theorem setAt_find {n : Str} {x : Val} {g g' : Frame} {s : List Frame} (h : setAt n x 0 (g :: s) = .ok (g' :: s)) (m : Str) :
    (g'.find m).map (·.val) = if m = n then some x else (g.find m).map (·.val) := by
  unfold setAt at h
  rw [Out.bind_eq_ok] at h
  obtain ⟨us, hu, h⟩ := h
  cases h
  exact setIn_find hu m

/-- the arrays are frozen and as they were at the start -/
def Held (s : List Frame) (ls : List Loop) (bs : List (Str × List Val)) : Prop :=
  match ls, bs with
  | [], bs => bs = []
  | l :: ls, b :: bs => (l.local_ = b.1 ∧ ∃ v, seen l.arr l.frame s = some v ∧ elems v.val = some b.2 ∧ v.frozen ≠ 0) ∧ Held s ls bs
  | _ :: _, [] => False

theorem Held.keep {K : Bool} {s t : List Frame} (hk : Keep K s t) : ∀ {ls : List Loop} {bs : List (Str × List Val)},
    Held s ls bs → Held t ls bs
  | [], _, h => h
  | _ :: _, [], h => h.elim
  | l :: ls, b :: bs, ⟨⟨hn, v, hv, he, hf⟩, hr⟩ => by
    obtain ⟨w, hw, hkw⟩ := hk.seen hv
    exact ⟨⟨hn, w, hw, by rw [hkw.2.2 hf]; exact he, by rw [hkw.2.1]; exact hf⟩, Held.keep hk hr⟩

theorem held_of_matches {s : List Frame} {all : List Loop} : ∀ {ls : List Loop} {bs : List (Str × List Val)},
    (∀ l ∈ ls, l ∈ all) → Matches s ls bs → Held (incs all s) ls bs
  | [], _, _, h => h
  | _ :: _, [], _, h => h.elim
  | l :: ls, b :: bs, hm, ⟨⟨hn, v, hv, he⟩, hr⟩ => by
    obtain ⟨w, hw, hmore, hf⟩ := seen_incs (ls := all) hv
    have := hf ⟨l, hm l (by simp), rfl, rfl⟩
    exact ⟨⟨hn, w, hw, by rw [hmore.2.1]; exact he, by omega⟩, held_of_matches (fun l' h' => hm l' (by simp [h'])) hr⟩

theorem bindLoops_ok {i : Nat} : ∀ {ls : List Loop} {bs : List (Str × List Val)} {g : Frame} {s t : List Frame},
    Held s ls bs → Plain g → bindLoops i ls (g :: s) = .ok t → ∃ g', t = g' :: s ∧ Plain g' ∧
      ∀ n, (g'.find n).map (·.val) = match bs.reverse.find? (fun b => b.1 = n) with
        | some b => b.2[i]?
        | none => (g.find n).map (·.val)
  | [], bs, g, s, t, h, hg, hb => by
    have h' : bs = [] := h
    subst h'
    cases hb
    exact ⟨g, rfl, hg, by simp⟩
  | _ :: _, [], _, _, _, h, _, _ => h.elim
  | l :: ls, b :: bs, g, s, t, ⟨⟨hn, v, hv, he, hf⟩, hr⟩, hg, hb => by
    unfold bindLoops at hb
    have : ((g :: s)[l.frame + 1]?).bind (·.find l.arr) = some v := by simpa using seen_getElem hv
    rw [this] at hb
    dsimp only at hb
    split at hb
    · cases hb
    · rename_i x hx
      rw [Out.bind_eq_ok] at hb
      obtain ⟨t1, ht1, hb⟩ := hb
      have hp := setAt_plain (s := s) l.local_ x hg
      rw [ht1] at hp
      obtain ⟨g1, rfl, hg1⟩ := hp
      obtain ⟨g', rfl, hg', hfind⟩ := bindLoops_ok hr hg1 hb
      refine ⟨g', rfl, hg', fun n => ?_⟩
      rw [hfind n, List.reverse_cons, List.find?_append]
      cases hfb : bs.reverse.find? (fun b => b.1 = n) with
      | some b' => rfl
      | none =>
        simp only [Option.none_or]
        rw [setAt_find ht1 n]
        have hx' : b.2[i]? = some x := by
          have hl : ∃ k, arrLen v.val = some k := by
            revert he
            cases v.val <;> simp [elems, arrLen]
          obtain ⟨k, hk⟩ := hl
          obtain ⟨es, he', _, hee⟩ := elems_len hk
          rw [he] at he'
          cases he'
          rw [← hee i, hx]
        by_cases hbn : n = l.local_
        · have hbn' : b.1 = n := by rw [← hn]; exact hbn.symm
          rw [if_pos hbn]
          simp [List.find?_cons, hbn', hx']
        · have hbn' : ¬ b.1 = n := by rw [← hn]; exact fun h => hbn h.symm
          rw [if_neg hbn]
          simp [List.find?_cons, hbn']

theorem iterate_ok {K : Bool} {rec : Rec} {m : Nat} (hr : RecSpec rec m) {ls : List Loop} {bs : List (Str × List Val)}
    {body : List Tok} (hp : K = true → NoParentWrite body) : ∀ {is : List Nat} {st st' : St}, m ≤ st.stack.length + 1 →
    Held st.stack ls bs → iterate rec ls body is st = .ok st' → Runs rec body bs is st st'
  | [], st, st', _, _, h => by cases h; rfl
  | i :: is, st, st', hm, hl, h => by
    unfold iterate at h
    rw [Out.bind_eq_ok] at h
    obtain ⟨s, hs, h⟩ := h
    rw [Out.bind_eq_ok] at h
    obtain ⟨out, ho, h⟩ := h
    obtain ⟨g, rfl, hg, hfind⟩ := bindLoops_ok hl plain_new hs
    refine ⟨g, out, ⟨hg, fun n => ?_⟩, ho, ?_⟩
    · rw [hfind n]
      cases bs.reverse.find? (fun b => b.1 = n) with
      | none => rfl
      | some b => rfl
    · have := hr K (st.set (g :: st.stack)) body (by simpa [St.set] using hm) (hg.inv _ _) hp
      rw [ho] at this
      obtain ⟨g', t', hst, hk⟩ := keep_of_ext hg.2.1 this.1
      have hpop : (pop out).stack = t' := by simp [pop, St.set, hst]
      exact iterate_ok hr hp (by rw [hpop, hk.length]; exact hm) (by rw [hpop]; exact hl.keep hk) h

/-- `ForEach` evaluates its body once for each position of the arrays, in order, with each loop variable set to the
element its array has there when the loop starts, whatever the body does; the arrays of one loop have the same length.
Apart from the freeze counts, the first iteration starts with the variables as they are before the loop, and they are
after it as the last iteration leaves them. -/
theorem C54_foreach (commit : List Event → Event → Bool) (k : Nat) (st st' : St) (hdr bd : List Tok)
    (hk : 127 ≤ st.stack.length + 1 + k) (h : fnForEach (nested commit k) st hdr bd = .ok st') :
    ∃ bs N a b, Binds st.stack hdr bs ∧ (∀ x ∈ bs, x.2.length = N) ∧ (bs = [] → N = 0) ∧
      (values a.stack = values st.stack ∧ a = { st with stack := a.stack }) ∧
      (values st'.stack = values b.stack ∧ st' = { b with stack := st'.stack }) ∧
      Runs (nested commit k) bd bs (List.range N) a b := by
  have hr := nested_spec commit k (st.stack.length + 1) (by omega)
  unfold fnForEach at h
  rw [Out.bind_eq_ok] at h
  obtain ⟨⟨ls, N⟩, hl, h⟩ := h
  obtain ⟨bs, hb, hm, hN, -, hnil⟩ := loops_ok _ _ _ _ _ hl
  have hbs : bs = [] → N = none := by
    rintro rfl
    refine hnil ?_
    cases ls with
    | nil => rfl
    | cons l ls => exact hm.elim
  dsimp only at h
  split at h
  · rename_i h0
    cases h
    refine ⟨bs, 0, st, st, hb, ?_, fun _ => rfl, ⟨rfl, rfl⟩, ⟨rfl, rfl⟩, rfl⟩
    intro x hx
    have := hN x hx
    rw [this] at h0
    simpa using h0
  · simp only [Out.bind_eq_ok] at h
    obtain ⟨s, hs, b, hi, s', hs', h⟩ := h
    cases h
    have hfz : s = incs ls st.stack := by
      have : ∀ l ∈ ls, ∃ v, seen l.arr l.frame st.stack = some v := by
        intro l hl'
        have hp := loops_post st.stack none hdr
        rw [hl] at hp
        obtain ⟨_, _, v, hv, _⟩ := hp.1 l hl'
        exact ⟨v, hv⟩
      have := onArrays_freeze this
      rw [hs] at this
      exact this
    subst hfz
    refine ⟨bs, N.getD 0, st.set (incs ls st.stack), b, hb, ?_, ?_, ⟨values_incs _ _, rfl⟩, ⟨values_onArrays hs', rfl⟩, ?_⟩
    · intro x hx
      have := hN x hx
      rw [this]; rfl
    · intro h; rw [hbs h]; rfl
    · refine iterate_ok (K := false) hr (by simp) ?_ (held_of_matches (fun _ h => h) hm) hi
      have : ∀ (ls : List Loop) (s : List Frame), (incs ls s).length = s.length := by
        intro ls s
        have := congrArg List.length (values_incs ls s)
        simpa [values] using this
      simp [St.set, this]

/-- `.A = { 'x', 'y' } .B = { 'p', 'q' } ForEach( .a in .A, .b in .B ) { .A = {} Print( '$a$$b$' ) }` -/
example : printed (eval ([var ".A", .op .assign, o .cl, text "x", .comma, text "y", o .cr,
    var ".B", .op .assign, o .cl, text "p", text "q", o .cr,
    fn "ForEach", o .rl, var ".a", .kw .in_, var ".A", .comma, var ".b", .kw .in_, var ".B", o .rr,
    o .cl, var ".A", .op .assign, o .cl, o .cr] ++ put "$a$$b$" ++ [o .cr])) = some ["xp".toList, "yq".toList] := by
  decide +kernel

/-- The arrays a loop goes over cannot be modified in its body: `.A = { 'x' } ForEach( .a in .A ) { ^A + 'y' }` -/
example : isErr (eval [var ".A", .op .assign, o .cl, text "x", o .cr,
    fn "ForEach", o .rl, var ".a", .kw .in_, var ".A", o .rr, o .cl, var "^A", .op .plus, text "y", o .cr]) = true := by
  decide +kernel

/-- A statement on a variable that some loop goes over is an error, however deep inside the loop. -/
theorem C54_frozen (rec : Rec) (st : St) (n : Str) (i : Nat) (w : Var) (ts : List Tok) (e : Tok) (h1 : n.head? ≠ some '"')
    (h2 : n.head? ≠ some '\'') (hw : parentDecl ('.' :: n) st.stack = some (i, w)) (hf : w.frozen ≠ 0) :
    named rec st ('^' :: n) ts e = .err := by
  simp only [named, varName]
  rw [if_neg (by simp [h1, h2])]
  simp only [Out.bind_ok, decide_true, if_true]
  rw [hw]
  dsimp only
  rw [if_pos hf]

/-! ### files that fail an assertion -/

/-- `.A = 123`, `.A = 91`: the number is taken for a bracket -/
theorem C51_number_asserts : isAssert .brace (eval [var ".A", .op .assign, .num 123]) = true ∧
    isAssert .brace (eval [var ".A", .op .assign, .num 91]) = true := by decide +kernel

/-- `.A = { 'x' ) }`: a bracket that does not match -/
theorem C51_bracket_asserts : isAssert .brace (eval [var ".A", .op .assign, o .cl, text "x", o .rr, o .cr]) = true := by
  decide +kernel

/-- `.A = { 'x' } ForEach( .A ) {}` and `ForEach( ^A in .A ) {}` -/
theorem C51_header_asserts : isAssert .header (eval [var ".A", .op .assign, o .cl, text "x", o .cr,
      fn "ForEach", o .rl, var ".A", o .rr, o .cl, o .cr]) = true ∧
    isAssert .header (eval [var ".A", .op .assign, o .cl, text "x", o .cr,
      fn "ForEach", o .rl, var "^A", .kw .in_, var ".A", o .rr, o .cl, o .cr]) = true := by decide +kernel

/-- `.A = true ObjectList( .A ) {}` -/
theorem C51_alias_asserts : isAssert .type (eval [var ".A", .op .assign, .bool true, fn "ObjectList", o .rl, var ".A", o .rr,
    o .cl, o .cr]) = true := by decide +kernel

/-- `.A = 2147483647 .A + 1`: signed overflow -/
theorem C51_overflow : isAssert .overflow (eval [var ".A", .op .assign, .num 2147483647, var ".A", .op .plus, .num 1]) = true := by
  decide +kernel

end Verif.Bff.Interp
