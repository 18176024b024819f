import Verif.Bff.IsolationProps
import Verif.Bff.InterpTheorems
/-
C53: calls of user functions.
-/
namespace Verif.Bff.Interp

/-! ### what a call should do -/

/-- the value an argument has where the call is written. Arguments that mention the name of a parameter, or a variable of
a parent scope, have none: see `C53_capture` -/
inductive ArgVal (ps : List Str) (s : List Frame) : Tok → Val → Prop
  | str {x y : Str} : (∀ p ∈ ps, ¬ p.drop 1 <:+: x) → subst s none x = .ok y → ArgVal ps s (.str x) (.str y)
  | bool (b : Bool) : ArgVal ps s (.bool b) (.bool b)
  | num (i : Int) : ArgVal ps s (.num i) (.int i)
  | var {n : Str} {i : Nat} {v : Var} : n.head? ≠ some '"' → n.head? ≠ some '\'' → '.' :: n ∉ ps →
      lookup ('.' :: n) s = some (i, v) → ArgVal ps s (.var ('.' :: n)) v.val

/-- the values of all arguments of a call -/
def ArgVals (ps : List Str) (s : List Frame) : List Tok → List Val → Prop
  | [], vs => vs = []
  | t :: ts, v :: vs => ArgVal ps s t v ∧ ArgVals ps s ts vs
  | _ :: _, [] => False

/-- the same outcome, apart from the variables -/
def SameOut : Out (St × List Tok) → Out (St × List Tok) → Prop
  | .ok (a, _), .ok (b, _) => a.funcs = b.funcs ∧ a.seen = b.seen ∧ a.log = b.log
  | .err, .err => True
  | .assert w, .assert w' => w = w'
  | .fuel, .fuel => True
  | _, _ => False

/-! ### arguments -/

theorem lookup_skip {n : Str} {g : Frame} {s : List Frame} (hl : g.linked = true) (h : ∀ v ∈ g.vars, v.name ≠ n) :
    lookup n (g :: s) = (lookup n s).map fun p => (p.1 + 1, p.2) := by
  have : g.find n = none := by
    unfold Frame.find
    rw [List.find?_eq_none]
    intro v hv
    simpa using h v hv
  simp [lookup, this, hl]

theorem lookupAny_skip {n : Str} {g : Frame} {s : List Frame} (hl : g.linked = true) (h : ∀ v ∈ g.vars, v.name.drop 1 ≠ n) :
    lookupAny n (g :: s) = lookupAny n s := by
  have : g.vars.find? (fun v => v.name.length = n.length + 1 ∧ v.name.drop 1 = n) = none := by
    rw [List.find?_eq_none]
    intro v hv
    simp only [decide_eq_true_eq, not_and]
    exact fun _ => h v hv
  rw [lookupAny, this]
  simp [hl]

theorem subst_skip {g : Frame} {s : List Frame} (hl : g.linked = true) (nm : Option Str) (x : Str) :
    (∀ v ∈ g.vars, ¬ v.name.drop 1 <:+: (nm.getD []).reverse ++ x) → subst (g :: s) nm x = subst s nm x := by
  fun_induction subst s nm x
  case case1 => intro _; rfl
  case case2 => intro _; rfl
  case case3 => intro _; rfl
  case case4 c r ih =>
    intro h
    rw [subst, ih fun v hv hx => h v hv (hx.trans ⟨['^', c], [], by simp⟩)]
  case case5 r ih =>
    intro h
    rw [subst]
    exact ih fun v hv hx => h v hv (hx.trans ⟨['$'], [], by simp⟩)
  case case6 c r h1 h2 h3 ih =>
    intro h
    rw [subst, ih fun v hv hx => h v hv (hx.trans ⟨[c], [], by simp⟩)]
    all_goals simp_all
  case case7 => intro _; simp [subst]
  case case8 nm r hn hl' =>
    intro h
    rw [subst, if_pos rfl, if_neg hn, lookupAny_skip hl, hl']
    intro v hv he
    exact h v hv ⟨[], '$' :: r, by simp [he]⟩
  case case9 nm r hn v' hl' hs =>
    intro h
    rw [subst, if_pos rfl, if_neg hn, lookupAny_skip hl, hl']
    · dsimp only
      rw [hs]
    · intro v hv he
      exact h v hv ⟨[], '$' :: r, by simp [he]⟩
  case case10 nm r hn v' hl' y hs ih =>
    intro h
    rw [subst, if_pos rfl, if_neg hn, lookupAny_skip hl, hl']
    · dsimp only
      rw [hs]
      dsimp only
      rw [ih fun v hv hx => h v hv (hx.trans ⟨nm.reverse ++ ['$'], [], by simp⟩)]
    · intro v hv he
      exact h v hv ⟨[], '$' :: r, by simp [he]⟩
  case case11 nm c r hc ih =>
    intro h
    rw [subst, if_neg hc]
    exact ih (by simpa using h)

theorem argVal_ok {ps : List Str} {s : List Frame} {t : Tok} {v : Val} {g : Frame} (hl : g.linked = true)
    (hg : ∀ v ∈ g.vars, v.name ∈ ps) (h : ArgVal ps s t v) : argVal (g :: s) t = .ok v := by
  cases h with
  | str hx hs =>
    simp only [argVal]
    rw [subst_skip hl none _ (fun v hv => by simpa using hx _ (hg v hv)), hs]
    rfl
  | bool b => rfl
  | num i => rfl
  | var h1 h2 hn hv =>
    simp only [argVal, srcVar, varName]
    rw [if_neg (by simp [h1, h2])]
    simp only [Out.bind_ok, Char.reduceEq, decide_false, Bool.false_eq_true, if_false]
    rw [lookup_skip hl, hv]
    · rfl
    · intro w hw he
      exact hn (he ▸ hg w hw)

theorem setIn_new {n : Str} {x : Val} : ∀ {vs : List Var}, (∀ v ∈ vs, v.name ≠ n) → setIn n x vs = .ok (vs ++ [⟨n, x, 0⟩])
  | [], _ => rfl
  | v :: vs, h => by
    rw [setIn, if_neg (h v (by simp)), setIn_new (fun w hw => h w (by simp [hw]))]
    rfl

/-- the variables a function starts with -/
def argVars (ps : List Str) (vs : List Val) : List Var := (ps.zip vs).map fun p => ⟨p.1, p.2, 0⟩

theorem bindArgs_ok {ps : List Str} {s : List Frame} : ∀ {qs : List Str} {as : List Tok} {vs : List Val} {g : Frame},
    ArgVals ps s as vs → as.length = qs.length → (∀ q ∈ qs, q ∈ ps) → qs.Nodup → g.linked = true → (∀ v ∈ g.vars, v.name ∈ ps) →
    (∀ v ∈ g.vars, v.name ∉ qs) →
    bindArgs (qs.zip as) (g :: s) = .ok ({ g with vars := g.vars ++ argVars qs vs } :: s)
  | [], as, vs, g, _, hl, _, _, _, _, _ => by simp [bindArgs, argVars]
  | q :: qs, [], vs, g, _, hl, _, _, _, _, _ => by simp at hl
  | q :: qs, a :: as, [], g, h, _, _, _, _, _, _ => h.elim
  | q :: qs, a :: as, v :: vs, g, ⟨h1, h2⟩, hl, hq, hnd, hgl, hg, hgq => by
    rw [List.nodup_cons] at hnd
    simp only [List.zip_cons_cons, bindArgs]
    rw [argVal_ok hgl hg h1]
    simp only [Out.bind_ok, setAt]
    rw [setIn_new (fun w hw he => hgq w hw (by simp [he]))]
    simp only [Out.bind_ok, Out.pure_eq]
    have ih := bindArgs_ok (g := ({ g with vars := g.vars ++ [⟨q, v, 0⟩] } : Frame)) (vs := vs) h2 (by simpa using hl)
      (fun q' h' => hq q' (by simp [h'])) hnd.2 hgl ?_ ?_
    · rw [ih]
      simp [argVars]
    · intro w hw
      rcases List.mem_append.mp hw with hw | hw
      · exact hg w hw
      · simp only [List.mem_singleton] at hw
        subst hw
        exact hq q (by simp)
    · intro w hw
      rcases List.mem_append.mp hw with hw | hw
      · exact fun h' => hgq w hw (by simp [h'])
      · simp only [List.mem_singleton] at hw
        subst hw
        exact hnd.1

/-! ### C53: user functions -/

/-- A call leaves every variable of its caller as it is, whatever the function does. -/
theorem C53_caller (commit : List Event → Event → Bool) (k : Nat) (st st' : St) (f : UFunc) (ts rest : List Tok) (e : Tok)
    (hk : 127 ≤ st.stack.length + 1 + k) (h : call (nested commit k) st f ts e = .ok (st', rest)) :
    st'.stack = st.stack := by
  have := call_post (nested_spec commit k (st.stack.length + 1) (by omega)) (u := f) (ts := ts) (e := e) (Nat.le_refl _)
  rw [h] at this
  exact this.1

/-- `ts` begins with arguments in brackets, as many as the function has parameters, of the values `vs` -/
def Passes (st : St) (f : UFunc) (ts : List Tok) (vs : List Val) : Prop :=
  ∃ hdr rest as, ts.head? = some (.brace .rl) ∧ braced ts = .ok (hdr, rest) ∧ args hdr = .ok as ∧ as.length = f.args.length ∧
    ArgVals f.args st.stack as vs

theorem params_nodup : ∀ (acc : List Str) (ts : List Tok) (ps : List Str), acc.Nodup → params acc ts = .ok ps → ps.Nodup := by
  intro acc ts
  have snoc : ∀ {l : List Str} {a : Str}, l.Nodup → a ∉ l → (l ++ [a]).Nodup := by
    intro l a h1 h2
    rw [List.nodup_append]
    exact ⟨h1, by simp, by
      intro x hx y hy
      simp only [List.mem_singleton] at hy
      subst hy
      intro h; subst h; exact h2 hx⟩
  fun_induction params acc ts
  case case1 => intro ps h h'; cases h'; exact h
  case case2 => intro ps _ h'; cases h'
  case case3 hn ih => intro ps h h'; exact ih ps (snoc h hn) h'
  case case4 => intro ps _ h'; cases h'
  case case5 hn ih => intro ps h h'; exact ih ps (snoc h hn) h'
  case case6 => intro ps _ h'; cases h'

/-- A function with two parameters of the same name cannot be declared. -/
theorem C53_params (st st' : St) (ts rest : List Tok) (e : Tok) (h : declareFn st ts e = .ok (st', rest)) :
    ∃ f, st'.funcs = st.funcs ++ [f] ∧ f.args.Nodup ∧ st'.stack = st.stack := by
  unfold declareFn at h
  split at h
  · split at h
    · cases h
    · split at h
      · simp only [Out.bind_eq_ok] at h
        obtain ⟨⟨hdr, ts1⟩, _, ps, hp, h⟩ := h
        split at h
        · simp only [Out.bind_eq_ok] at h
          obtain ⟨⟨bd, ts2⟩, _, h⟩ := h
          cases h
          exact ⟨_, rfl, params_nodup [] hdr ps List.nodup_nil hp, rfl⟩
        · cases h
      · cases h
  · cases h

theorem call_eq (rec : Rec) (st : St) (f : UFunc) (ts : List Tok) (e : Tok) (vs : List Val) (hd : f.args.Nodup)
    (h : Passes st f ts vs) : ∃ rest, call rec st f ts e =
      rec (st.set (⟨argVars f.args vs, none, false⟩ :: st.stack)) f.body >>= fun st' => pure (pop st', rest) := by
  obtain ⟨hdr, rest, as, hb, hh, ha, hn, hv⟩ := h
  refine ⟨rest, ?_⟩
  have hb' : (cur ts e).is .rl = true := by
    cases ts with
    | nil => simp at hb
    | cons t ts =>
      simp only [List.head?_cons, Option.some.injEq] at hb
      subst hb
      rfl
  unfold call
  rw [if_pos hb', hh]
  simp only [Out.bind_ok]
  rw [ha]
  simp only [Out.bind_ok]
  rw [if_neg (by simpa using hn)]
  have : bindArgs (f.args.zip as) (push st).stack = _ :=
    bindArgs_ok (g := ⟨[], none, true⟩) hv hn (fun _ h => h) hd rfl (by simp) (by simp)
  rw [this]
  rfl

/-- The function starts with its parameters, which have the values of the arguments where the call is written, and sees no
other variable. -/
theorem C53_args (rec : Rec) (st : St) (f : UFunc) (ts : List Tok) (e : Tok) (vs : List Val) (hd : f.args.Nodup)
    (h : Passes st f ts vs) : ∃ s rest, visible s = [f.args.zip vs] ∧ s.drop 1 = st.stack ∧
      call rec st f ts e = rec { st with stack := s } f.body >>= fun st' => pure (pop st', rest) := by
  obtain ⟨rest, h⟩ := call_eq rec st f ts e vs hd h
  refine ⟨⟨argVars f.args vs, none, false⟩ :: st.stack, rest, ?_, rfl, h⟩
  simp [visible, argVars, Function.comp_def]

/-- What a call does depends on nothing but the values of its arguments, what is declared and done already, and the depth:
two calls of a function with the same values, from wherever they are made, end alike, with the same things printed, made
and declared. -/
theorem C53_isolated (commit : List Event → Event → Bool) (k : Nat) (a b : St) (f : UFunc) (ts₁ ts₂ : List Tok) (e₁ e₂ : Tok)
    (vs : List Val) (hk : 127 ≤ a.stack.length + 1 + k) (hlen : b.stack.length = a.stack.length)
    (hfuncs : b.funcs = a.funcs) (hseen : b.seen = a.seen) (hlog : b.log = a.log) (hd : f.args.Nodup)
    (h₁ : Passes a f ts₁ vs) (h₂ : Passes b f ts₂ vs) :
    SameOut (call (nested commit k) a f ts₁ e₁) (call (nested commit k) b f ts₂ e₂) := by
  obtain ⟨rest₁, h₁⟩ := call_eq (nested commit k) a f ts₁ e₁ vs hd h₁
  obtain ⟨rest₂, h₂⟩ := call_eq (nested commit k) b f ts₂ e₂ vs hd h₂
  rw [h₁, h₂]
  have hsl : Sealed a.stack (a.set (⟨argVars f.args vs, none, false⟩ :: a.stack)).stack :=
    ⟨[⟨argVars f.args vs, none, false⟩], rfl, ⟨⟨argVars f.args vs, none, false⟩, by simp, rfl⟩⟩
  have key := parse_sw hlen commit k (e := .brace .cr) (Or.inl rfl) (a.set (⟨argVars f.args vs, none, false⟩ :: a.stack)) f.body
    (by simp [St.set]; omega) ⟨by
      intro v hv
      simp only [argVars, List.mem_map] at hv
      obtain ⟨p, _, rfl⟩ := hv
      rfl, by intro n i hn; cases hn⟩ hsl
  have e : sw b.stack (a.set (⟨argVars f.args vs, none, false⟩ :: a.stack)) = b.set (⟨argVars f.args vs, none, false⟩ :: b.stack) := by
    have : swS b.stack (⟨argVars f.args vs, none, false⟩ :: a.stack) = ⟨argVars f.args vs, none, false⟩ :: b.stack :=
      swS_app hlen [_]
    simp only [sw, St.set]
    rw [this, hfuncs, hseen, hlog]
  rw [e] at key
  show SameOut (parse commit (k + 1) (.brace .cr) _ f.body >>= _) (parse commit (k + 1) (.brace .cr) _ f.body >>= _)
  rw [key]
  cases parse commit (k + 1) (.brace .cr) (a.set (⟨argVars f.args vs, none, false⟩ :: a.stack)) f.body with
  | ok r => exact ⟨rfl, rfl, rfl⟩
  | err => trivial
  | assert w => rfl
  | fuel => trivial

/-- the example: `.A = 'x' F( .A, '1$A$' )` with `function F( .P, .Q ) {}` -/
example : Passes ⟨[⟨[⟨".A".toList, .str "x".toList, 0⟩], none, false⟩], [], [], []⟩ ⟨"F".toList, [".P".toList, ".Q".toList], []⟩
    [o .rl, var ".A", .comma, text "1$A$", o .rr] [.str "x".toList, .str "1x".toList] :=
  ⟨[var ".A", .comma, text "1$A$"], [], [var ".A", text "1$A$"], rfl, rfl, rfl, rfl,
    .var (i := 0) (v := ⟨".A".toList, .str "x".toList, 0⟩) (by decide) (by decide) (by decide) rfl,
    .str (by decide) rfl, rfl⟩

/-- a function does not see the variables of its caller: `.A = 'x' function F() { Print( '$A$' ) } F()` -/
example : isErr (eval ([var ".A", .op .assign, text "x", .kw .function, id_ "F", o .rl, o .rr, o .cl] ++ put "$A$" ++
    [o .cr, id_ "F", o .rl, o .rr])) = true := by decide +kernel

/-- and cannot change them: `.A = 'x' function F() { .A = 'y' } F() Print( '$A$' )` -/
example : printed (eval ([var ".A", .op .assign, text "x", .kw .function, id_ "F", o .rl, o .rr, o .cl,
    var ".A", .op .assign, text "y", o .cr, id_ "F", o .rl, o .rr] ++ put "$A$")) = some ["x".toList] := by decide +kernel

/-- `function F( .A, .B ) { Print( '$A$$B$' ) } .A = 'x' .B = 'y' F( .B, .A )` -/
def swapped : List Tok := [.kw .function, id_ "F", o .rl, var ".A", .comma, var ".B", o .rr, o .cl] ++ put "$A$$B$" ++
  [o .cr, var ".A", .op .assign, text "x", var ".B", .op .assign, text "y", id_ "F", o .rl, var ".B", .comma, var ".A", o .rr]

/-- Without the condition that the arguments do not mention the parameters their values are not those of the caller: the
second argument is the first parameter, set already, and not the caller's variable. -/
theorem C53_capture : printed (eval swapped) = some ["yy".toList] ∧ printed (eval swapped) ≠ some ["yx".toList] := by
  decide +kernel

end Verif.Bff.Interp
