import Verif.Bff.BoolProps
/-
C50: a condition of `If` is accepted exactly if the grammar has it, with the value the grammar gives it.
-/
namespace Verif.Bff.BoolExp
open BoolSpec

theorem operand_iff (look : Str → Option Val) (t : Tok) (v : Val) :
    operand look t = some (some v) ↔ value look t = some v := by
  cases t <;> simp [operand, value]

/-! ### complete: what the grammar allows is accepted with the right result -/

theorem boolOf_of (look : Str → Option Val) (t : Tok) (b : Bool) (h : value look t = some (.bool b)) :
    boolOf look t = .ok b := by
  unfold boolOf; rw [(operand_iff look t _).mpr h]
theorem intOf_of (look : Str → Option Val) (t : Tok) (b : Int) (h : value look t = some (.int b)) :
    intOf look t = .ok b := by
  unfold intOf; rw [(operand_iff look t _).mpr h]
theorem strOf_of (look : Str → Option Val) (t : Tok) (b : Str) (h : value look t = some (.str b)) :
    strOf look t = .ok b := by
  unfold strOf; rw [(operand_iff look t _).mpr h]
theorem strsOf_of (look : Str → Option Val) (t : Tok) (b : List Str) (h : value look t = some (.strs b)) :
    strsOf look t = .ok b := by
  unfold strsOf; rw [(operand_iff look t _).mpr h]

theorem value_of_boolOf {look : Str → Option Val} {t : Tok} {b : Bool} (h : boolOf look t = .ok b) :
    value look t = some (.bool b) := by
  unfold boolOf at h; split at h
  · cases h; exact (operand_iff look t _).mp ‹_›
  · cases h
theorem value_of_intOf {look : Str → Option Val} {t : Tok} {b : Int} (h : intOf look t = .ok b) :
    value look t = some (.int b) := by
  unfold intOf at h; split at h
  · cases h; exact (operand_iff look t _).mp ‹_›
  · cases h
theorem value_of_strOf {look : Str → Option Val} {t : Tok} {b : Str} (h : strOf look t = .ok b) :
    value look t = some (.str b) := by
  unfold strOf at h; split at h
  · cases h; exact (operand_iff look t _).mp ‹_›
  · cases h
theorem value_of_strsOf {look : Str → Option Val} {t : Tok} {b : List Str} (h : strsOf look t = .ok b) :
    value look t = some (.strs b) := by
  unfold strsOf at h; split at h
  · cases h; exact (operand_iff look t _).mp ‹_›
  · cases h

/-- the model's operator for one of the grammar -/
def COp.bop : COp → BOp
  | .eq => .eq | .ne => .ne | .lt => .lt | .le => .le | .gt => .gt | .ge => .ge | .in_ => .in_ | .notIn => .notIn

def LOp.bop : LOp → BOp
  | .and => .and | .or => .or | .eq => .eq | .ne => .ne

theorem parseOp_cop (sup : BOp → Bool) (o : COp) (h : sup (COp.bop o) = true) (ts : List Tok) :
    parseOp sup (o.toks ++ ts) = .ok (COp.bop o, ts) := by
  cases o <;> simp_all [parseOp, COp.toks, COp.bop, cur, opOf, next]

theorem parseOp_lop (o : LOp) (ts : List Tok) : parseOp boolOps (o.tok :: ts) = .ok (LOp.bop o, ts) := by
  cases o <;> simp [parseOp, LOp.tok, LOp.bop, cur, opOf, next, boolOps]

theorem compareBools_lop (o : LOp) (a b : Bool) : compareBools a b (LOp.bop o) = .ok (o.eval a b) := by
  cases o <;> rfl

/-- what is read by `parseOp` -/
theorem parseOp_ok {sup : BOp → Bool} {ts rest : List Tok} {b : BOp} (h : parseOp sup ts = .ok (b, rest)) :
    sup b = true ∧ ((∃ o : COp, COp.bop o = b ∧ ts = o.toks ++ rest) ∨ (∃ o : LOp, LOp.bop o = b ∧ ts = o.tok :: rest)) := by
  unfold parseOp at h
  cases ts with
  | nil => simp [cur, opOf] at h
  | cons t ts =>
    simp only [cur, List.headD_cons] at h
    by_cases ht : t = .kw .not
    · simp only [ht, if_true, next, Res.bind_ok, Res.pure_eq] at h
      cases ts with
      | nil => simp at h
      | cons u us =>
        simp only [List.headD_cons] at h
        by_cases hu : u = .kw .in_
        · simp only [hu, if_true] at h
          by_cases hs : sup .notIn
          · simp only [hs, if_true, next, Res.bind_ok] at h
            cases h
            exact ⟨hs, .inl ⟨.notIn, rfl, by simp [COp.toks, ht, hu]⟩⟩
          · simp [hs] at h
        · simp [hu] at h
    · simp only [ht, if_false, Res.pure_eq, Res.bind_ok] at h
      cases ho : opOf t with
      | none => simp [ho] at h
      | some o =>
        by_cases hs : sup o
        · simp only [ho, hs, if_true, next, Res.bind_ok] at h
          cases h
          refine ⟨hs, ?_⟩
          cases t with
          | kw k =>
            cases k <;> simp [opOf] at ho
            subst ho; exact .inl ⟨.in_, rfl, rfl⟩
          | op p =>
            cases p <;> simp [opOf] at ho <;> subst ho
            · exact .inl ⟨.gt, rfl, rfl⟩
            · exact .inl ⟨.lt, rfl, rfl⟩
            · exact .inl ⟨.eq, rfl, rfl⟩
            · exact .inl ⟨.ne, rfl, rfl⟩
            · exact .inl ⟨.ge, rfl, rfl⟩
            · exact .inl ⟨.le, rfl, rfl⟩
            · exact .inr ⟨.and, rfl, rfl⟩
            · exact .inr ⟨.or, rfl, rfl⟩
          | _ => simp [opOf] at ho
        · simp [ho, hs] at h

theorem lt_iff (a b : Str) : strLt a b = true ↔ StrLt a b := by
  unfold StrLt
  induction a generalizing b with
  | nil => cases b <;> simp [strLt]
  | cons x a ih =>
    cases b with
    | nil => simp [strLt]
    | cons y b =>
      simp only [strLt, List.map_cons, List.cons_lt_cons_iff]
      by_cases hxy : x = y
      · subst hxy; simp [ih]
      · have : x.toNat ≠ y.toNat := fun h => hxy (Char.toNat_inj.mp h)
        simp [hxy, this]

theorem strLt_decide (a b : Str) : strLt a b = decide (StrLt a b) := by
  rw [Bool.eq_iff_iff, lt_iff]; simp

theorem compareInts_cop (o : COp) (a b : Int) (h : intOps (COp.bop o) = true) :
    ∃ r, o.order (· < ·) a b = some r ∧ compareInts a b (COp.bop o) = .ok r := by
  cases o <;> simp only [intOps, COp.bop, Bool.false_eq_true] at h <;>
    refine ⟨_, rfl, ?_⟩ <;> simp only [compareInts, COp.bop, Res.ok.injEq] <;> rw [Bool.eq_iff_iff] <;> simp

theorem compareStrs_cop (o : COp) (a b : Str) (h : intOps (COp.bop o) = true) :
    ∃ r, o.order StrLt a b = some r ∧ compareStrs a b (COp.bop o) = .ok r := by
  cases o <;> simp only [intOps, COp.bop, Bool.false_eq_true] at h <;>
    refine ⟨_, rfl, ?_⟩ <;> simp only [compareStrs, COp.bop, Res.ok.injEq] <;> rw [Bool.eq_iff_iff] <;> simp [lt_iff]

theorem order_some {α : Type} [DecidableEq α] (lt : α → α → Prop) [DecidableRel lt] (a b : α) (o : COp) (r : Bool)
    (h : o.order lt a b = some r) : intOps (COp.bop o) = true := by
  cases o <;> simp_all [COp.order, intOps, COp.bop]

theorem any_dec (k l : List Str) : (k.any fun s => l.contains s) = decide (∃ s ∈ k, s ∈ l) := by
  rw [Bool.eq_iff_iff]; simp

theorem parseStrsIn_of (look : Str → Option Val) (k l : List Str) (y : Tok) (rest : List Tok)
    (h : strsOf look y = .ok l) :
    parseStrsIn look k (COp.toks .in_ ++ (y :: rest)) = .ok (decide (∃ s ∈ k, s ∈ l), rest) ∧
    parseStrsIn look k (COp.toks .notIn ++ (y :: rest)) = .ok (decide (¬ ∃ s ∈ k, s ∈ l), rest) := by
  have h1 := parseOp_cop (fun _ => true) .in_ rfl (y :: rest)
  have h2 := parseOp_cop (fun _ => true) .notIn rfl (y :: rest)
  unfold parseStrsIn
  rw [h1, h2]
  have hc : cur (y :: rest) = y := rfl
  simp only [Res.bind_ok, COp.bop, next, hc, h, any_dec, true_or, or_true, if_true, Res.pure_eq, decide_not]
  constructor <;> simp

theorem isEnd_true {ends : Bool} {ts : List Tok} (h : isEnd ends ts = true) : isEnd true ts = true := by
  unfold isEnd at h ⊢
  cases ends <;> simp_all

theorem lop_not_end (ends : Bool) (o : LOp) (ts : List Tok) : isEnd ends (o.tok :: ts) = false := by
  cases o <;> cases ends <;> simp [isEnd, cur, LOp.tok, Tok.is, Tok.byte, Op.num, Br.num]

mutual

theorem prim_complete (look : Str → Option Val) (p : Prim) (b : Bool) (h : p.eval look = some b) (f : Nat)
    (rest : List Tok) (hf : 4 * (p.print ++ rest).length + 3 ≤ f) :
    parseOperand look f (p.print ++ rest) = .ok (b, rest) := by
  match f, hf with
  | f + 1, hf =>
  match p, h with
  | .lit c, h =>
    simp only [Prim.eval, Option.some.injEq] at h
    subst h
    simp [parseOperand, Prim.print, cur, boolOf, operand, next]
  | .var s, h =>
    simp only [Prim.eval] at h
    have hv : value look (.var s) = some (.bool b) := by
      simp only [value]; split at h <;> simp_all
    simp [parseOperand, Prim.print, cur, boolOf_of look _ b hv, next]
  | .neg p, h =>
    simp only [Prim.eval, Option.map_eq_some_iff] at h
    obtain ⟨c, hc, rfl⟩ := h
    match f, hf with
    | f + 1, hf =>
    have := prim_complete look p c hc f rest (by simp [Prim.print] at hf ⊢; omega)
    simp [parseOperand, parseNot, Prim.print, cur, next, this]
    | 0, hf => simp at hf
  | .paren e, h =>
    simp only [Prim.eval] at h
    match f, hf with
    | f + 1, hf =>
    have he : isEnd true (.brace .rr :: rest) = true := by simp [isEnd, cur, Tok.is, Tok.byte]
    have := exp_complete look e b h f true (.brace .rr :: rest) he (by simp [Prim.print] at hf ⊢; omega)
    simp [parseOperand, parseSub, Prim.print, cur, next, this, Tok.is, Tok.byte]
    | 0, hf => simp at hf

theorem tail_complete (look : Str → Option Val) (t : Tail) (acc b : Bool) (h : t.eval look acc = some b) (f : Nat)
    (ends : Bool) (rest : List Tok) (he : isEnd ends rest = true) (hf : 4 * (t.print ++ rest).length + 1 ≤ f) :
    parseRest look f ends acc (t.print ++ rest) = .ok (b, rest) := by
  match f, hf with
  | f + 1, hf =>
  match t, h with
  | .nil, h =>
    simp only [Tail.eval, Option.some.injEq] at h
    simp [parseRest, Tail.print, he, h]
  | .cons o p t, h =>
    simp only [Tail.eval] at h
    split at h
    · next c hc =>
      have h1 := prim_complete look p c hc f (t.print ++ rest) (by simp [Tail.print] at hf ⊢; omega)
      have h2 := tail_complete look t (o.eval acc c) b h f ends rest he (by simp [Tail.print] at hf ⊢; omega)
      simp only [parseRest, Tail.print, List.cons_append, List.append_assoc, lop_not_end, Bool.false_eq_true, if_false,
        parseOp_lop, Res.bind_ok, h1, compareBools_lop, h2]
    · cases h

theorem exp_complete (look : Str → Option Val) (e : Exp) (b : Bool) (h : e.eval look = some b) (f : Nat)
    (ends : Bool) (rest : List Tok) (he : isEnd ends rest = true) (hf : 4 * (e.print ++ rest).length + 3 ≤ f) :
    parseExp look f ends (e.print ++ rest) = .ok (b, rest) := by
  match f, hf with
  | f + 1, hf =>
  match e, h with
  | .cmp x o y, h =>
    simp only [Exp.eval] at h
    split at h
    · next u v hu hv =>
      have hx := (operand_iff look x u).mpr hu
      have hcur : cur (x :: (o.toks ++ (y :: rest))) = x := rfl
      have e1 : (Exp.cmp x o y).print ++ rest = x :: (o.toks ++ (y :: rest)) := by simp [Exp.print]
      rw [e1]
      -- the first token is a literal or variable
      have hlit : parseExp look (f + 1) ends (x :: (o.toks ++ (y :: rest))) =
          (match (some u : Option Val) with
            | some (.bool b) => parseRest look f ends b (o.toks ++ (y :: rest))
            | some (.int i) => do
              let (b, ts) ← parseInt look i (o.toks ++ (y :: rest))
              if isEnd ends ts then pure (b, ts) else .err
            | some (.str s) => do
              let (b, ts) ← parseStr look s (o.toks ++ (y :: rest))
              if isEnd ends ts then pure (b, ts) else .err
            | some (.strs l) => do
              let (b, ts) ← parseStrsIn look l (o.toks ++ (y :: rest))
              if isEnd ends ts then pure (b, ts) else .err
            | _ => .err) := by
        unfold parseExp
        cases x with
        | var s => simp only [hcur, hx, next, Res.bind_ok]; cases u <;> rfl
        | bool c => simp only [hcur, hx, next, Res.bind_ok]; cases u <;> rfl
        | num i => simp only [hcur, hx, next, Res.bind_ok]; cases u <;> rfl
        | str s => simp only [hcur, hx, next, Res.bind_ok]; cases u <;> rfl
        | _ => simp [value] at hu
      rw [hlit]
      match u, v, h with
      | .int i, .int j, h =>
        simp only [COp.eval] at h
        have ho := order_some _ _ _ o b h
        obtain ⟨r, hr, hc⟩ := compareInts_cop o i j ho
        rw [h] at hr; cases hr
        simp [parseInt, parseOp_cop intOps o ho, cur, intOf_of look y j hv, next, hc, he]
      | .str i, .str j, h =>
        simp only [COp.eval] at h
        have ho := order_some _ _ _ o b h
        have hs : strOps (COp.bop o) = true := by cases o <;> simp_all [intOps, strOps, COp.bop]
        have hne : ¬ (COp.bop o = .in_ ∨ COp.bop o = .notIn) := by cases o <;> simp_all [intOps, COp.bop]
        obtain ⟨r, hr, hc⟩ := compareStrs_cop o i j ho
        rw [h] at hr; cases hr
        have hst := strOf_of look y j hv
        simp only [parseStr, parseOp_cop strOps o hs, Res.bind_ok]
        cases y with
        | var s => simp [cur, hne, hst, next, hc, he]
        | str s => simp [cur, hne, hst, next, hc, he]
        | _ => simp [value] at hv
      | .str i, .strs l, h =>
        simp only [COp.eval] at h
        have hst := strsOf_of look y l hv
        cases y with
        | var s =>
          cases o <;> simp at h <;>
            simp [parseStr, parseOp_cop strOps _ (show strOps (COp.bop .in_) = true from rfl),
              parseOp_cop strOps _ (show strOps (COp.bop .notIn) = true from rfl), cur, COp.bop, parseStrIn, hst, next, he, ← h]
        | _ => simp [value] at hv
      | .strs k, .strs l, h =>
        simp only [COp.eval] at h
        have hst := strsOf_of look y l hv
        have hp := parseStrsIn_of look k l y rest hst
        cases o <;> simp only [Option.some.injEq, reduceCtorEq] at h
        · simp [hp.1, he, ← h]
        · simp [hp.2, he, ← h]
    · cases h
  | .chain p t, h =>
    simp only [Exp.eval] at h
    split at h
    · next c hc =>
      have hp := fun g (hg : 4 * (p.print ++ (t.print ++ rest)).length + 3 ≤ g) => prim_complete look p c hc g (t.print ++ rest) hg
      have e1 : (Exp.chain p t).print ++ rest = p.print ++ (t.print ++ rest) := by simp [Exp.print]
      rw [e1] at hf ⊢
      match p with
      | .lit d =>
        simp only [Prim.eval, Option.some.injEq] at hc
        subst hc
        have h2 := tail_complete look t d b h f ends rest he (by simp [Prim.print] at hf ⊢; omega)
        simp [parseExp, Prim.print, cur, operand, next, h2]
      | .var s =>
        simp only [Prim.eval] at hc
        have hv : operand look (.var s) = some (some (.bool c)) := by
          simp only [operand]; split at hc <;> simp_all
        have h2 := tail_complete look t c b h f ends rest he (by simp [Prim.print] at hf ⊢; omega)
        simp [parseExp, Prim.print, cur, hv, next, h2]
      | .neg q =>
        have h1 := hp (f + 1) (by omega)
        have h2 := tail_complete look t c b h f ends rest he (by simp [Prim.print] at hf ⊢; omega)
        have h3 : parseOperand look (f + 1) ((Prim.neg q).print ++ (t.print ++ rest)) = parseNot look f ((Prim.neg q).print ++ (t.print ++ rest)) := by
          simp [parseOperand, Prim.print, cur]
        rw [h3] at h1
        have h4 : parseExp look (f + 1) ends ((Prim.neg q).print ++ (t.print ++ rest)) = (do
            let (b, ts) ← parseNot look f ((Prim.neg q).print ++ (t.print ++ rest))
            parseRest look f ends b ts) := by
          simp [parseExp, Prim.print, cur]
        rw [h4, h1]
        exact h2
      | .paren q =>
        have h1 := hp (f + 1) (by omega)
        have h2 := tail_complete look t c b h f true rest (isEnd_true he) (by simp [Prim.print] at hf ⊢; omega)
        have h3 : parseOperand look (f + 1) ((Prim.paren q).print ++ (t.print ++ rest)) = parseSub look f ((Prim.paren q).print ++ (t.print ++ rest)) := by
          simp [parseOperand, Prim.print, cur]
        rw [h3] at h1
        have h4 : parseExp look (f + 1) ends ((Prim.paren q).print ++ (t.print ++ rest)) = (do
            let (b, ts) ← parseSub look f ((Prim.paren q).print ++ (t.print ++ rest))
            parseRest look f true b ts) := by
          simp [parseExp, Prim.print, cur]
        rw [h4, h1]
        exact h2
    · cases h

end

/-! ### sound: what is accepted is in the grammar, and the result is its value -/

theorem exp_end_cons {ends : Bool} {ts : List Tok} {α : Type} {a b : α} {r : List Tok}
    (h : (if isEnd ends ts then (pure (a, ts) : Res (α × List Tok)) else .err) = .ok (b, r)) :
    a = b ∧ ts = r ∧ isEnd ends ts = true := by
  split at h
  · simp only [Res.pure_eq, Res.ok.injEq, Prod.mk.injEq] at h; exact ⟨h.1, h.2, ‹_›⟩
  · cases h

theorem next_cons {ts rest : List Tok} (h : next ts = .ok rest) : ts = cur ts :: rest := by
  cases ts with
  | nil => cases h
  | cons t ts => cases h; rfl

theorem parseInt_sound {look : Str → Option Val} {i : Int} {ts rest : List Tok} {b : Bool}
    (h : parseInt look i ts = .ok (b, rest)) :
    ∃ o y j, ts = COp.toks o ++ (y :: rest) ∧ value look y = some (.int j) ∧ o.order (· < ·) i j = some b := by
  unfold parseInt at h
  obtain ⟨⟨op, us⟩, h1, h⟩ := Res.bind_eq_ok.mp h
  obtain ⟨j, h2, h⟩ := Res.bind_eq_ok.mp h
  obtain ⟨vs, h3, h⟩ := Res.bind_eq_ok.mp h
  obtain ⟨c, h4, h⟩ := Res.bind_eq_ok.mp h
  cases h
  obtain ⟨hs, ho⟩ := parseOp_ok h1
  rcases ho with ⟨o, rfl, rfl⟩ | ⟨o, rfl, rfl⟩
  · refine ⟨o, cur us, j, by rw [← next_cons h3], value_of_intOf h2, ?_⟩
    obtain ⟨r, hr, hc⟩ := compareInts_cop o i j hs
    rw [hc] at h4; cases h4; exact hr
  · cases o <;> simp [LOp.bop, intOps] at hs
    · refine ⟨.eq, cur us, j, ?_, value_of_intOf h2, ?_⟩
      · rw [← next_cons h3]; rfl
      · obtain ⟨r, hr, hc⟩ := compareInts_cop .eq i j rfl
        rw [show LOp.bop .eq = COp.bop .eq from rfl, hc] at h4; cases h4; exact hr
    · refine ⟨.ne, cur us, j, ?_, value_of_intOf h2, ?_⟩
      · rw [← next_cons h3]; rfl
      · obtain ⟨r, hr, hc⟩ := compareInts_cop .ne i j rfl
        rw [show LOp.bop .ne = COp.bop .ne from rfl, hc] at h4; cases h4; exact hr

/-- an operator that compares values -/
theorem parseOp_cop_of {sup : BOp → Bool} {ts rest : List Tok} {b : BOp} (h : parseOp sup ts = .ok (b, rest))
    (h1 : b ≠ .and) (h2 : b ≠ .or) : ∃ o, COp.bop o = b ∧ ts = COp.toks o ++ rest := by
  rcases (parseOp_ok h).2 with ho | ⟨o, rfl, rfl⟩
  · exact ho
  · cases o
    · exact absurd rfl h1
    · exact absurd rfl h2
    · exact ⟨.eq, rfl, rfl⟩
    · exact ⟨.ne, rfl, rfl⟩

theorem parseOp_lop_of {ts rest : List Tok} {b : BOp} (h : parseOp boolOps ts = .ok (b, rest)) :
    ∃ o, LOp.bop o = b ∧ ts = LOp.tok o :: rest := by
  obtain ⟨hs, ho⟩ := parseOp_ok h
  rcases ho with ⟨o, rfl, rfl⟩ | ho
  · cases o <;> simp [COp.bop, boolOps] at hs
    · exact ⟨.eq, rfl, rfl⟩
    · exact ⟨.ne, rfl, rfl⟩
  · exact ho

theorem parseStr_sound {look : Str → Option Val} {i : Str} {ts rest : List Tok} {b : Bool}
    (h : parseStr look i ts = .ok (b, rest)) :
    ∃ o y v, ts = COp.toks o ++ (y :: rest) ∧ value look y = some v ∧ o.eval (.str i) v = some b := by
  unfold parseStr at h
  obtain ⟨⟨op, us⟩, h1, h⟩ := Res.bind_eq_ok.mp h
  have hs := (parseOp_ok h1).1
  obtain ⟨o, ho, hts⟩ := parseOp_cop_of h1 (by rintro rfl; cases hs) (by rintro rfl; cases hs)
  have key : (if op = .in_ ∨ op = .notIn then parseStrIn look i op us
      else do
        let r ← strOf look (cur us)
        let rest ← next us
        let b ← compareStrs i r op
        pure (b, rest)) = .ok (b, rest) := by
    simp only at h
    split at h
    · exact h
    · exact h
    · cases h
  split at key
  · next hin =>
    unfold parseStrIn at key
    obtain ⟨vs, h3, key⟩ := Res.bind_eq_ok.mp key
    obtain ⟨l, h2, key⟩ := Res.bind_eq_ok.mp key
    simp only [Res.pure_eq, Res.ok.injEq, Prod.mk.injEq] at key
    obtain ⟨hb, rfl⟩ := key
    refine ⟨o, cur us, .strs l, by rw [← next_cons h3]; exact hts, value_of_strsOf h2, ?_⟩
    subst ho
    cases o <;> simp [COp.bop] at hin <;> simp [COp.bop] at hb <;> simp [COp.eval, ← hb]
  · next hin =>
    obtain ⟨j, h2, key⟩ := Res.bind_eq_ok.mp key
    obtain ⟨vs, h3, key⟩ := Res.bind_eq_ok.mp key
    obtain ⟨c, h4, key⟩ := Res.bind_eq_ok.mp key
    cases key
    refine ⟨o, cur us, .str j, by rw [← next_cons h3]; exact hts, value_of_strOf h2, ?_⟩
    subst ho
    obtain ⟨r, hr, hc⟩ := compareStrs_cop o i j (by cases o <;> simp_all [COp.bop, intOps])
    rw [hc] at h4; cases h4; exact hr

theorem parseStrsIn_sound {look : Str → Option Val} {k : List Str} {ts rest : List Tok} {b : Bool}
    (h : parseStrsIn look k ts = .ok (b, rest)) :
    ∃ o y v, ts = COp.toks o ++ (y :: rest) ∧ value look y = some v ∧ o.eval (.strs k) v = some b := by
  unfold parseStrsIn at h
  obtain ⟨⟨op, us⟩, h1, h⟩ := Res.bind_eq_ok.mp h
  simp only at h
  split at h
  · next hin =>
    obtain ⟨o, ho, hts⟩ := parseOp_cop_of h1 (by rintro rfl; simp at hin) (by rintro rfl; simp at hin)
    obtain ⟨vs, h3, h⟩ := Res.bind_eq_ok.mp h
    obtain ⟨l, h2, h⟩ := Res.bind_eq_ok.mp h
    simp only [Res.pure_eq, Res.ok.injEq, Prod.mk.injEq] at h
    obtain ⟨hb, rfl⟩ := h
    refine ⟨o, cur us, .strs l, by rw [← next_cons h3]; exact hts, value_of_strsOf h2, ?_⟩
    subst ho
    rw [any_dec] at hb
    subst hb
    cases o <;> simp only [COp.bop, reduceCtorEq, or_false, false_or] at hin
    · simp only [COp.eval, COp.bop, reduceCtorEq, if_false]
    · simp only [COp.eval, COp.bop, if_true, decide_not]
  · cases h

theorem clean_sub {xs ys : List Tok} (h : Clean ys) (hs : ∀ t ∈ xs, t ∈ ys) : Clean xs :=
  fun i hi => h i (hs _ hi)

theorem is_of_clean {ts : List Tok} (h : Clean ts) (t : Tok) (ht : t ∈ ts) (b : Br) (hb : b = .rl ∨ b = .rr)
    (hi : t.is b = true) : t = .brace b := by
  cases t with
  | num i =>
    have := h i ht
    simp only [Tok.is, Tok.byte, beq_iff_eq] at hi
    rcases hb with rfl | rfl <;> simp only [Br.num] at hi <;> omega
  | brace c =>
    simp only [Tok.is, Tok.byte, beq_iff_eq] at hi
    cases c <;> rcases hb with rfl | rfl <;> simp [Br.num] at hi <;> rfl
  | op o => cases o <;> rcases hb with rfl | rfl <;> simp [Tok.is, Tok.byte, Op.num, Br.num] at hi
  | kw o => cases o <;> rcases hb with rfl | rfl <;> simp [Tok.is, Tok.byte, Kw.num, Br.num] at hi
  | bool o => cases o <;> rcases hb with rfl | rfl <;> simp [Tok.is, Tok.byte, Br.num] at hi
  | _ => rcases hb with rfl | rfl <;> simp [Tok.is, Tok.byte, Br.num] at hi

theorem sound_all (look : Str → Option Val) : ∀ f : Nat,
    (∀ ts b rest, Clean ts → parseOperand look f ts = .ok (b, rest) →
      ∃ p : Prim, p.print ++ rest = ts ∧ p.eval look = some b) ∧
    (∀ ts b rest, Clean ts → parseNot look f ts = .ok (b, rest) →
      ∃ p : Prim, p.print ++ rest = ts ∧ p.eval look = some b) ∧
    (∀ ts b rest, Clean ts → parseSub look f ts = .ok (b, rest) →
      ∃ p : Prim, p.print ++ rest = ts ∧ p.eval look = some b) ∧
    (∀ ends l ts b rest, Clean ts → parseRest look f ends l ts = .ok (b, rest) →
      (∃ t : Tail, t.print ++ rest = ts ∧ t.eval look l = some b) ∧ isEnd true rest = true) ∧
    (∀ ends ts b rest, Clean ts → parseExp look f ends ts = .ok (b, rest) →
      (∃ e : Exp, e.print ++ rest = ts ∧ e.eval look = some b) ∧ isEnd true rest = true) := by
  intro f
  induction f with
  | zero =>
    refine ⟨?_, ?_, ?_, ?_, ?_⟩ <;> intros <;>
      simp_all [parseOperand, parseNot, parseSub, parseRest, parseExp]
  | succ f ih =>
    obtain ⟨iO, iN, iS, iR, iE⟩ := ih
    have cl : ∀ {xs ys zs : List Tok}, Clean ys → xs ++ zs = ys → Clean zs := by
      intro xs ys zs h he
      exact clean_sub h (fun t ht => he ▸ List.mem_append_right _ ht)
    refine ⟨?_, ?_, ?_, ?_, ?_⟩
    · intro ts b rest hc h
      unfold parseOperand at h
      split at h
      · next c hcur =>
        obtain ⟨c', h1, h⟩ := Res.bind_eq_ok.mp h
        obtain ⟨us, h2, h⟩ := Res.bind_eq_ok.mp h
        cases h
        have := value_of_boolOf h1
        rw [hcur] at this
        simp only [value, Option.some.injEq, Val.bool.injEq] at this
        subst this
        exact ⟨.lit c, by rw [next_cons h2, hcur]; rfl, rfl⟩
      · next s hcur =>
        obtain ⟨c', h1, h⟩ := Res.bind_eq_ok.mp h
        obtain ⟨us, h2, h⟩ := Res.bind_eq_ok.mp h
        cases h
        have := value_of_boolOf h1
        rw [hcur] at this
        simp only [value] at this
        exact ⟨.var s, by rw [next_cons h2, hcur]; rfl, by simp [Prim.eval, this]⟩
      · exact iN _ _ _ hc h
      · exact iS _ _ _ hc h
      · exact iS _ _ _ hc h
      · cases h
    · intro ts b rest hc h
      unfold parseNot at h
      split at h
      · next hcur =>
        obtain ⟨us, h1, h⟩ := Res.bind_eq_ok.mp h
        obtain ⟨⟨c, vs⟩, h2, h⟩ := Res.bind_eq_ok.mp h
        cases h
        have hts := next_cons h1
        obtain ⟨p, hp, he⟩ := iO us _ _ (cl (xs := [cur ts]) hc (by simpa using hts.symm)) h2
        exact ⟨.neg p, by rw [hts, hcur, ← hp]; rfl, by simp [Prim.eval, he]⟩
      · cases h
    · intro ts b rest hc h
      unfold parseSub at h
      split at h
      · cases h
      · next hl =>
        obtain ⟨us, h1, h⟩ := Res.bind_eq_ok.mp h
        obtain ⟨⟨c, vs⟩, h2, h⟩ := Res.bind_eq_ok.mp h
        simp only at h
        split at h
        · cases h
        · next hr =>
          obtain ⟨ws, h3, h⟩ := Res.bind_eq_ok.mp h
          cases h
          have hts := next_cons h1
          have hcu : Clean us := cl (xs := [cur ts]) hc (by simpa using hts.symm)
          obtain ⟨⟨e, hp, he⟩, _⟩ := iE true us _ vs hcu h2
          have hvs := next_cons h3
          have hl' := is_of_clean hc (cur ts) (by rw [hts]; simp [cur]) .rl (.inl rfl) (by simpa using hl)
          have hr' := is_of_clean (cl hcu hp) (cur vs) (by rw [hvs]; simp [cur]) .rr (.inr rfl) (by simpa using hr)
          refine ⟨.paren e, ?_, he⟩
          rw [hts, hl', ← hp, hvs, hr']
          simp [Prim.print, cur]
    · intro ends l ts b rest hc h
      unfold parseRest at h
      split at h
      · next he =>
        cases h
        exact ⟨⟨.nil, rfl, rfl⟩, isEnd_true he⟩
      · obtain ⟨⟨op, us⟩, h1, h⟩ := Res.bind_eq_ok.mp h
        obtain ⟨⟨r, vs⟩, h2, h⟩ := Res.bind_eq_ok.mp h
        obtain ⟨c, h3, h⟩ := Res.bind_eq_ok.mp h
        obtain ⟨o, rfl, hts⟩ := parseOp_lop_of h1
        have hcu : Clean us := cl (xs := [LOp.tok o]) hc (by simpa using hts.symm)
        obtain ⟨p, hp, hpe⟩ := iO us r vs hcu h2
        rw [compareBools_lop] at h3
        cases h3
        obtain ⟨⟨t, ht, hte⟩, hend⟩ := iR ends _ vs b rest (cl hcu hp) h
        exact ⟨⟨.cons o p t, by rw [hts, ← hp, ← ht]; simp [Tail.print], by simp [Tail.eval, hpe, hte]⟩, hend⟩
    · intro ends ts b rest hc h
      have chain : ∀ (p : Prim) (c : Bool) (us : List Tok) (e : Bool), p.print ++ us = ts → p.eval look = some c →
          parseRest look f e c us = .ok (b, rest) →
          (∃ e : Exp, e.print ++ rest = ts ∧ e.eval look = some b) ∧ isEnd true rest = true := by
        intro p c us e hp hpe hr
        obtain ⟨⟨t, ht, hte⟩, hend⟩ := iR e c us b rest (cl hc hp) hr
        exact ⟨⟨.chain p t, by rw [← hp, ← ht]; simp [Exp.print], by simp [Exp.eval, hpe, hte]⟩, hend⟩
      have cmp : ∀ (u : Val) (us : List Tok), ts = cur ts :: us → value look (cur ts) = some u →
          (∃ o y v, us = COp.toks o ++ (y :: rest) ∧ value look y = some v ∧ o.eval u v = some b) →
          isEnd ends rest = true →
          (∃ e : Exp, e.print ++ rest = ts ∧ e.eval look = some b) ∧ isEnd true rest = true := by
        rintro u us hts hu ⟨o, y, v, hus, hv, ho⟩ hend
        refine ⟨⟨.cmp (cur ts) o y, ?_, by simp [Exp.eval, hu, hv, ho]⟩, isEnd_true hend⟩
        conv => rhs; rw [hts, hus]
        simp [Exp.print]
      have first : (match operand look (cur ts) with
          | none => .err
          | some v => do
            let ts ← next ts
            match v with
            | some (.bool b) => parseRest look f ends b ts
            | some (.int i) => do
              let (b, ts) ← parseInt look i ts
              if isEnd ends ts then pure (b, ts) else .err
            | some (.str s) => do
              let (b, ts) ← parseStr look s ts
              if isEnd ends ts then pure (b, ts) else .err
            | some (.strs l) => do
              let (b, ts) ← parseStrsIn look l ts
              if isEnd ends ts then pure (b, ts) else .err
            | _ => .err) = (.ok (b, rest) : Res (Bool × List Tok)) →
          (∃ e : Exp, e.print ++ rest = ts ∧ e.eval look = some b) ∧ isEnd true rest = true := by
        intro h
        split at h
        · cases h
        · next v hv =>
          obtain ⟨us, h1, h⟩ := Res.bind_eq_ok.mp h
          have hts := next_cons h1
          split at h
          · next c _ =>
            have hval := (operand_iff look _ _).mp hv
            cases hcur : cur ts with
            | bool d =>
              rw [hcur] at hval hts
              simp only [value, Option.some.injEq, Val.bool.injEq] at hval
              exact chain (.lit c) c us ends (by rw [hts, hval]; rfl) rfl h
            | var s =>
              rw [hcur] at hval hts
              simp only [value] at hval
              exact chain (.var s) c us ends (by rw [hts]; rfl) (by simp [Prim.eval, hval]) h
            | _ => rw [hcur] at hval; simp [value] at hval
          · next i _ =>
            obtain ⟨⟨c, vs⟩, h2, h⟩ := Res.bind_eq_ok.mp h
            obtain ⟨rfl, rfl, hend⟩ := exp_end_cons h
            obtain ⟨o, y, j, h3, h4, h5⟩ := parseInt_sound h2
            exact cmp _ us hts ((operand_iff look _ _).mp hv) ⟨o, y, _, h3, h4, h5⟩ hend
          · next i _ =>
            obtain ⟨⟨c, vs⟩, h2, h⟩ := Res.bind_eq_ok.mp h
            obtain ⟨rfl, rfl, hend⟩ := exp_end_cons h
            exact cmp _ us hts ((operand_iff look _ _).mp hv) (parseStr_sound h2) hend
          · next i _ =>
            obtain ⟨⟨c, vs⟩, h2, h⟩ := Res.bind_eq_ok.mp h
            obtain ⟨rfl, rfl, hend⟩ := exp_end_cons h
            exact cmp _ us hts ((operand_iff look _ _).mp hv) (parseStrsIn_sound h2) hend
          · cases h
      unfold parseExp at h
      split at h
      · exact first h
      · exact first h
      · exact first h
      · exact first h
      · obtain ⟨⟨c, us⟩, h1, h⟩ := Res.bind_eq_ok.mp h
        obtain ⟨p, hp, hpe⟩ := iN ts c us hc h1
        exact chain p c us _ hp hpe h
      · obtain ⟨⟨c, us⟩, h1, h⟩ := Res.bind_eq_ok.mp h
        obtain ⟨p, hp, hpe⟩ := iS ts c us hc h1
        exact chain p c us _ hp hpe h
      · obtain ⟨⟨c, us⟩, h1, h⟩ := Res.bind_eq_ok.mp h
        obtain ⟨p, hp, hpe⟩ := iS ts c us hc h1
        exact chain p c us _ hp hpe h
      · cases h

/-! ### brackets of a condition match -/

theorem value_brace {look : Str → Option Val} {t : Tok} {v : Val} (h : value look t = some v) (b : Br) : t ≠ .brace b := by
  rintro rfl; simp [value] at h

mutual
theorem prim_count (look : Str → Option Val) (p : Prim) (b : Bool) (h : p.eval look = some b) :
    p.print.count (.brace .rr) = p.print.count (.brace .rl) := by
  match p, h with
  | .lit c, _ => simp [Prim.print, List.count_cons]
  | .var c, _ => simp [Prim.print, List.count_cons]
  | .neg p, h =>
    simp only [Prim.eval, Option.map_eq_some_iff] at h
    obtain ⟨c, hc, _⟩ := h
    simp [Prim.print, List.count_cons, prim_count look p c hc]
  | .paren e, h =>
    simp only [Prim.eval] at h
    simp [Prim.print, List.count_cons, List.count_append, exp_count look e b h]
theorem tail_count (look : Str → Option Val) (t : Tail) (a b : Bool) (h : t.eval look a = some b) :
    t.print.count (.brace .rr) = t.print.count (.brace .rl) := by
  match t, h with
  | .nil, _ => rfl
  | .cons o p t, h =>
    simp only [Tail.eval] at h
    split at h
    · next c hc =>
      have h1 := prim_count look p c hc
      have h2 := tail_count look t _ b h
      cases o <;> simp [Tail.print, LOp.tok, List.count_cons, List.count_append, h1, h2]
    · cases h
theorem exp_count (look : Str → Option Val) (e : Exp) (b : Bool) (h : e.eval look = some b) :
    e.print.count (.brace .rr) = e.print.count (.brace .rl) := by
  match e, h with
  | .chain p t, h =>
    simp only [Exp.eval] at h
    split at h
    · next c hc =>
      have h1 := prim_count look p c hc
      have h2 := tail_count look t _ b h
      simp [Exp.print, List.count_append, h1, h2]
    · cases h
  | .cmp x o y, h =>
    simp only [Exp.eval] at h
    split at h
    · next u v hu hv =>
      have a1 := value_brace hu .rl
      have a2 := value_brace hu .rr
      have a3 := value_brace hv .rl
      have a4 := value_brace hv .rr
      cases o <;> simp [Exp.print, COp.toks, List.count_cons, a1, a2, a3, a4]
    · cases h
end

/-- A condition is accepted exactly if it is one of the grammar and all its operands have the types its operators
need; the result is then its value. -/
theorem C50_condition (look : Str → Option Val) (ts : List Tok) (hb : Balanced ts) (hc : Clean ts) (b : Bool) :
    parse look ts = .ok b ↔ ∃ e : Exp, e.print = ts ∧ e.eval look = some b := by
  constructor
  · intro h
    unfold parse at h
    obtain ⟨⟨c, rest⟩, h1, h⟩ := Res.bind_eq_ok.mp h
    cases h
    obtain ⟨⟨e, hp, he⟩, hend⟩ := (sound_all look _).2.2.2.2 false ts b rest hc h1
    cases rest with
    | nil => exact ⟨e, by simpa using hp, he⟩
    | cons t rest =>
      exfalso
      have ht : t = .brace .rr :=
        is_of_clean hc t (by rw [← hp]; simp) .rr (.inr rfl) (by simpa [isEnd, cur] using hend)
      have hk := hb (e.print.length + 1)
      rw [← hp, ht] at hk
      rw [List.take_length_add_append] at hk
      simp [List.count_append, exp_count look e b he] at hk; omega
  · rintro ⟨e, rfl, he⟩
    have := exp_complete look e b he (4 * e.print.length + 8) false [] rfl (by simp)
    rw [List.append_nil] at this
    simp [parse, this]

/-- two readings of the same condition have the same value -/
theorem C50_unambiguous (look : Str → Option Val) (e e' : Exp) (b b' : Bool) (hp : e.print = e'.print)
    (h : e.eval look = some b) (h' : e'.eval look = some b') : b = b' := by
  have h1 := exp_complete look e b h (4 * e.print.length + 8) false [] rfl (by simp)
  have h2 := exp_complete look e' b' h' (4 * e'.print.length + 8) false [] rfl (by simp)
  rw [hp] at h1
  rw [h1] at h2
  cases h2; rfl

/-! ### examples and findings -/

/-- `.B` is true, `.S` is `'b'`, `.L` is `{'a', 'b'}`, `.N` is 7 -/
def exLook (s : Str) : Option Val :=
  if s = ".B".toList then some (.bool true)
  else if s = ".S".toList then some (.str "b".toList)
  else if s = ".L".toList then some (.strs ["a".toList, "b".toList])
  else if s = ".N".toList then some (.int 7)
  else none

/-- `! ( .S in .L ) || ( .N >= 7 ) && .B` -/
def exToks : List Tok :=
  [.op .not, .brace .rl, .var ".S".toList, .kw .in_, .var ".L".toList, .brace .rr, .op .or,
   .brace .rl, .var ".N".toList, .op .ge, .num 7, .brace .rr, .op .and, .var ".B".toList]

theorem balanced_of_len (ts : List Tok) (h : ∀ k ≤ ts.length,
    (ts.take k).count (.brace .rr) ≤ (ts.take k).count (.brace .rl)) : Balanced ts := by
  intro k
  rcases Nat.le_total k ts.length with hk | hk
  · exact h k hk
  · rw [List.take_of_length_le hk, ← List.take_length (l := ts)]
    exact h _ (Nat.le_refl _)

/-- the hypotheses of `C50_condition` are met by a condition with every kind of operand, and it is true -/
theorem C50_example : Balanced exToks ∧ Clean exToks ∧ parse exLook exToks = .ok true := by
  refine ⟨balanced_of_len _ (by decide +kernel), ?_, by decide +kernel⟩
  intro i hi
  simp only [exToks, List.mem_cons, reduceCtorEq, false_or, or_false, List.not_mem_nil, Tok.num.injEq] at hi
  subst hi; decide

example : ∃ e : Exp, e.print = exToks ∧ e.eval exLook = some true :=
  (C50_condition exLook exToks C50_example.1 C50_example.2.1 true).mp C50_example.2.2

/-- Finding: the operators have no precedence. `true || true && false` is false, though `&&` binds tighter in `#if`. -/
theorem C50_no_precedence (look : Str → Option Val) :
    parse look [.bool true, .op .or, .bool true, .op .and, .bool false] = .ok false := rfl

/-- Finding: a condition that ends after an operator fails an assertion instead of being reported. -/
theorem C50_dangling_asserts (look : Str → Option Val) (l : List Str) (h : look ".L".toList = some (.strs l)) :
    parse look [.op .not] = .assert ∧
    parse look [.bool true, .op .and] = .assert ∧
    parse look [.var ".L".toList, .kw .in_] = .assert ∧
    parse look [.bool true, .op .and, .brace .rr] = .assert ∧
    parse look [.brace .rr] = .assert := by
  refine ⟨rfl, rfl, ?_, rfl, rfl⟩
  have h' : look ['.', 'L'] = some (.strs l) := h
  simp [parse, parseExp, cur, operand, h', next, parseStrsIn, parseOp, opOf]

/-- Finding: `C50_condition` needs `Clean`. The number 41 closes a bracket: `(true 41` is accepted. -/
theorem C50_number_closes (look : Str → Option Val) :
    parse look [.brace .rl, .bool true, .num 41] = .ok true := rfl

/-- Finding: `C50_condition` needs `Balanced`. Whatever follows a surplus bracket is ignored. -/
theorem C50_surplus_ignored (look : Str → Option Val) (junk : List Tok) :
    parse look ([.brace .rl, .bool true, .brace .rr, .brace .rr] ++ junk) = .ok true := rfl

end Verif.Bff.BoolExp
