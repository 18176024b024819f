import Verif.Bff.BoolModel
import Verif.Bff.BoolSpec
/-
C50: conditions of `If`.
-/
namespace Verif.Bff.BoolExp
open BoolSpec

/-! ### the bound of the recursion is never hit -/

/-- not out of fuel, and at least `n` tokens consumed -/
def Good (n : Nat) (ts : List Tok) : Res (Bool × List Tok) → Prop
  | .ok (_, rest) => rest.length + n ≤ ts.length
  | .fuel => False
  | _ => True

theorem next_ok {ts rest : List Tok} (h : next ts = .ok rest) : rest.length + 1 = ts.length := by
  cases ts with
  | nil => cases h
  | cons t ts => cases h; simp

theorem next_nf (ts : List Tok) : next ts ≠ .fuel := by cases ts <;> simp [next]

theorem parseOp_good (sup : BOp → Bool) (ts : List Tok) :
    match parseOp sup ts with
    | .ok (_, rest) => rest.length + 1 ≤ ts.length
    | .fuel => False
    | _ => True := by
  unfold parseOp
  cases ts with
  | nil => simp [cur, opOf]
  | cons t ts =>
    simp only [cur, List.headD_cons]
    by_cases h : t = .kw .not
    · simp only [h, if_true, next, Res.bind_ok, Res.pure_eq]
      cases ts with
      | nil => simp
      | cons u us =>
        simp only [List.headD_cons, next, Res.bind_ok]
        by_cases hu : u = .kw .in_
        · simp only [hu, if_true]
          by_cases hs : sup .notIn <;> simp [hs]
        · simp [hu]
    · simp only [h, if_false, Res.pure_eq, Res.bind_ok]
      cases opOf t with
      | none => simp
      | some o => by_cases hs : sup o <;> simp [hs, next]

theorem boolOf_nf (look : Str → Option Val) (t : Tok) : boolOf look t ≠ .fuel := by
  unfold boolOf; split <;> simp
theorem intOf_nf (look : Str → Option Val) (t : Tok) : intOf look t ≠ .fuel := by
  unfold intOf; split <;> simp
theorem strOf_nf (look : Str → Option Val) (t : Tok) : strOf look t ≠ .fuel := by
  unfold strOf; split <;> simp
theorem strsOf_nf (look : Str → Option Val) (t : Tok) : strsOf look t ≠ .fuel := by
  unfold strsOf; split <;> simp

theorem parseInt_good (look : Str → Option Val) (i : Int) (ts : List Tok) : Good 0 ts (parseInt look i ts) := by
  unfold parseInt
  have h := parseOp_good intOps ts
  cases ho : parseOp intOps ts with
  | fuel => rw [ho] at h; exact h.elim
  | err => simp [Good]
  | assert => simp [Good]
  | ok a =>
    obtain ⟨op, us⟩ := a
    rw [ho] at h
    simp only [Res.bind_ok]
    cases hi : intOf look (cur us) with
    | fuel => exact (intOf_nf _ _ hi).elim
    | err => simp [Good]
    | assert => simp [Good]
    | ok r =>
      cases us with
      | nil => simp [next, Good]
      | cons u us =>
        simp only [next, Res.bind_ok]
        cases op <;> simp_all [compareInts, Good] <;> omega

theorem parseStr_good (look : Str → Option Val) (s : Str) (ts : List Tok) : Good 0 ts (parseStr look s ts) := by
  unfold parseStr
  have h := parseOp_good strOps ts
  cases ho : parseOp strOps ts with
  | fuel => rw [ho] at h; exact h.elim
  | err => simp [Good]
  | assert => simp [Good]
  | ok a =>
    obtain ⟨op, us⟩ := a
    rw [ho] at h
    simp only [Res.bind_ok]
    have key : Good 0 ts (if op = .in_ ∨ op = .notIn then parseStrIn look s op us
        else do
          let r ← strOf look (cur us)
          let rest ← next us
          let b ← compareStrs s r op
          pure (b, rest)) := by
      split
      · unfold parseStrIn
        cases us with
        | nil => simp [next, Good]
        | cons u us =>
          simp only [next, Res.bind_ok]
          cases hi : strsOf look (cur (u :: us)) with
          | fuel => exact (strsOf_nf _ _ hi).elim
          | err => simp [Good]
          | assert => simp [Good]
          | ok r => simp_all [Good]; omega
      · cases hi : strOf look (cur us) with
        | fuel => exact (strOf_nf _ _ hi).elim
        | err => simp [Good]
        | assert => simp [Good]
        | ok r =>
          cases us with
          | nil => simp [next, Good]
          | cons u us =>
            simp only [next, Res.bind_ok]
            cases op <;> simp_all [compareStrs, Good] <;> omega
    split
    · exact key
    · exact key
    · simp [Good]

theorem parseStrsIn_good (look : Str → Option Val) (l : List Str) (ts : List Tok) :
    Good 0 ts (parseStrsIn look l ts) := by
  unfold parseStrsIn
  have h := parseOp_good (fun _ => true) ts
  cases ho : parseOp (fun _ => true) ts with
  | fuel => rw [ho] at h; exact h.elim
  | err => simp [Good]
  | assert => simp [Good]
  | ok a =>
    obtain ⟨op, us⟩ := a
    rw [ho] at h
    simp only [Res.bind_ok]
    split
    · cases us with
      | nil => simp [next, Good]
      | cons u us =>
        simp only [next, Res.bind_ok]
        cases hi : strsOf look (cur (u :: us)) with
        | fuel => exact (strsOf_nf _ _ hi).elim
        | err => simp [Good]
        | assert => simp [Good]
        | ok r => simp_all [Good]; omega
    · simp [Good]

theorem good_all (look : Str → Option Val) : ∀ f : Nat,
    (∀ ts, 4 * ts.length + 3 ≤ f → Good 1 ts (parseOperand look f ts)) ∧
    (∀ ts, 4 * ts.length + 2 ≤ f → Good 1 ts (parseNot look f ts)) ∧
    (∀ ts, 4 * ts.length + 2 ≤ f → Good 1 ts (parseSub look f ts)) ∧
    (∀ ends l ts, 4 * ts.length + 1 ≤ f → Good 0 ts (parseRest look f ends l ts)) ∧
    (∀ ends ts, 4 * ts.length + 3 ≤ f → Good 1 ts (parseExp look f ends ts)) := by
  intro f
  induction f with
  | zero => refine ⟨?_, ?_, ?_, ?_, ?_⟩ <;> intros <;> omega
  | succ f ih =>
    obtain ⟨iO, iN, iS, iR, iE⟩ := ih
    refine ⟨?_, ?_, ?_, ?_, ?_⟩
    · intro ts hf
      unfold parseOperand
      have key : Good 1 ts (do
          let b ← boolOf look (cur ts)
          let ts ← next ts
          pure (b, ts)) := by
        cases hb : boolOf look (cur ts) with
        | fuel => exact (boolOf_nf _ _ hb).elim
        | err => simp [Good]
        | assert => simp [Good]
        | ok b => cases ts <;> simp [next, Good]
      split
      · exact key
      · exact key
      · exact iN ts (by omega)
      · exact iS ts (by omega)
      · exact iS ts (by omega)
      · simp [Good]
    · intro ts hf
      unfold parseNot
      split
      · cases ts with
        | nil => simp [next, Good]
        | cons t ts =>
          simp only [next, Res.bind_ok, List.length_cons] at hf ⊢
          have := iO ts (by omega)
          cases hp : parseOperand look f ts with
          | fuel => rw [hp] at this; exact this.elim
          | err => simp [Good]
          | assert => simp [Good]
          | ok a => obtain ⟨b, us⟩ := a; rw [hp] at this; simp [Good] at this ⊢; omega
      · simp [Good]
    · intro ts hf
      unfold parseSub
      split
      · simp [Good]
      · cases ts with
        | nil => simp [next, Good]
        | cons t ts =>
          simp only [next, Res.bind_ok, List.length_cons] at hf ⊢
          have := iE true ts (by omega)
          cases hp : parseExp look f true ts with
          | fuel => rw [hp] at this; exact this.elim
          | err => simp [Good]
          | assert => simp [Good]
          | ok a =>
            obtain ⟨b, us⟩ := a; rw [hp] at this
            simp only [Res.bind_ok]
            split
            · simp [Good]
            · cases us <;> simp [next, Good] at this ⊢; omega
    · intro ends l ts hf
      unfold parseRest
      split
      · simp [Good]
      · have h := parseOp_good boolOps ts
        cases ho : parseOp boolOps ts with
        | fuel => rw [ho] at h; exact h.elim
        | err => simp [Good]
        | assert => simp [Good]
        | ok a =>
          obtain ⟨op, us⟩ := a
          rw [ho] at h
          simp only [Res.bind_ok]
          have := iO us (by simp at h; omega)
          cases hp : parseOperand look f us with
          | fuel => rw [hp] at this; exact this.elim
          | err => simp [Good]
          | assert => simp [Good]
          | ok a =>
            obtain ⟨r, vs⟩ := a
            rw [hp] at this
            simp only [Good] at this
            simp only [Res.bind_ok]
            have hr := fun b => iR ends b vs (by simp at h; omega)
            have hr' : ∀ b, Good 0 ts (parseRest look f ends b vs) := by
              intro b
              have := hr b
              cases hq : parseRest look f ends b vs with
              | fuel => rw [hq] at this; exact this.elim
              | err => simp [Good]
              | assert => simp [Good]
              | ok a => obtain ⟨x, ws⟩ := a; rw [hq] at this; simp [Good] at this h ⊢; omega
            cases op <;> simp [compareBools, hr'] <;> simp [Good]
    · intro ends ts hf
      have rest : ∀ e b (us : List Tok), us.length + 1 ≤ ts.length → Good 1 ts (parseRest look f e b us) := by
        intro e b us hu
        have := iR e b us (by omega)
        cases hq : parseRest look f e b us with
        | fuel => rw [hq] at this; exact this.elim
        | err => simp [Good]
        | assert => simp [Good]
        | ok a => obtain ⟨x, ws⟩ := a; rw [hq] at this; simp [Good] at this ⊢; omega
      have fin : ∀ (us : List Tok) (r : Res (Bool × List Tok)), us.length + 1 ≤ ts.length → Good 0 us r →
          Good 1 ts (do
            let (b, ts) ← r
            if isEnd ends ts then pure (b, ts) else .err) := by
        intro us r hu hr
        cases r with
        | fuel => exact hr.elim
        | err => simp [Good]
        | assert => simp [Good]
        | ok a =>
          obtain ⟨x, ws⟩ := a
          simp only [Res.bind_ok]
          split <;> simp [Good] at hr ⊢; omega
      have key : Good 1 ts (match operand look (cur ts) with
          | none => .err
          | some v => do
            let ts ← next ts
            match v with
            | some (.bool b) => parseRest look f ends b ts
            | some (.int i) => do
              let (b, ts) ← parseInt look i ts
              if isEnd ends ts then pure (b, ts) else .err
            | some (.str s) => do
              let (b, ts) ← parseStr look s ts
              if isEnd ends ts then pure (b, ts) else .err
            | some (.strs l) => do
              let (b, ts) ← parseStrsIn look l ts
              if isEnd ends ts then pure (b, ts) else .err
            | _ => .err) := by
        split
        · simp [Good]
        · cases ts with
          | nil => simp [next, Good]
          | cons t ts =>
            simp only [next, Res.bind_ok]
            split
            · exact rest _ _ _ (by simp)
            · exact fin ts _ (by simp) (parseInt_good look _ ts)
            · exact fin ts _ (by simp) (parseStr_good look _ ts)
            · exact fin ts _ (by simp) (parseStrsIn_good look _ ts)
            · simp [Good]
      have sub : ∀ e (r : Res (Bool × List Tok)), Good 1 ts r → Good 1 ts (do
          let (b, ts) ← r
          parseRest look f e b ts) := by
        intro e r hr
        cases r with
        | fuel => exact hr.elim
        | err => simp [Good]
        | assert => simp [Good]
        | ok a => obtain ⟨x, ws⟩ := a; exact rest _ _ _ hr
      unfold parseExp
      split
      · exact key
      · exact key
      · exact key
      · exact key
      · exact sub _ _ (iN ts (by omega))
      · exact sub _ _ (iS ts (by omega))
      · exact sub _ _ (iS ts (by omega))
      · simp [Good]

/-- parsing a condition always ends: the bound of the model is large enough -/
theorem C50_terminates (look : Str → Option Val) (ts : List Tok) : parse look ts ≠ .fuel := by
  have h := (good_all look (4 * ts.length + 8)).2.2.2.2 false ts (by omega)
  unfold parse
  cases hp : parseExp look (4 * ts.length + 8) false ts with
  | fuel => rw [hp] at h; exact h.elim
  | err => simp
  | assert => simp
  | ok a => simp

end Verif.Bff.BoolExp
