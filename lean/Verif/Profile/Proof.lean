import Verif.Profile.Spec
import Verif.Compdb.Proof
/-! The texts of a profile are JSON. -/
namespace Verif.Profile
open Spec
open Verif.Compdb (Plain escape esc pstr pstr_esc pstr_key escape_plain)

/-! ### Numbers -/

theorem digit_toNat {n : Nat} (h : n < 10) : (Char.ofNat (48 + n)).toNat = 48 + n := by
  match n, h with
  | 0, _ | 1, _ | 2, _ | 3, _ | 4, _ | 5, _ | 6, _ | 7, _ | 8, _ | 9, _ => rfl

theorem digit_range {n : Nat} (h : n < 10) : '0' ≤ Char.ofNat (48 + n) ∧ Char.ofNat (48 + n) ≤ '9' := by
  match n, h with
  | 0, _ | 1, _ | 2, _ | 3, _ | 4, _ | 5, _ | 6, _ | 7, _ | 8, _ | 9, _ => exact ⟨by decide, by decide⟩

theorem digit_zero {n : Nat} (h : n < 10) (h0 : Char.ofNat (48 + n) = '0') : n = 0 := by
  have := congrArg Char.toNat h0
  rw [digit_toNat h] at this
  have e : ('0' : Char).toNat = 48 := rfl
  omega

theorem digits_isNat (n : Nat) : IsNat n (digits n) ∧ (n ≠ 0 → (digits n).head? ≠ some '0') := by
  induction n using Nat.strongRecOn with
  | ind n ih =>
    rw [digits]
    by_cases h : n < 10
    · rw [if_pos h]
      refine ⟨⟨by simp, ?_, ?_, ?_⟩, ?_⟩
      · intro c hc
        rw [List.mem_singleton.1 hc]
        exact digit_range h
      · show 10 * 0 + ((Char.ofNat (48 + n)).toNat - 48) = n
        rw [digit_toNat h]
        omega
      · intro h0
        have := Option.some.inj h0
        rw [this]
      · intro hn h0
        exact hn (digit_zero h (Option.some.inj h0))
    · rw [if_neg h]
      obtain ⟨⟨h1, h2, h3, -⟩, h5⟩ := ih (n / 10) (by omega)
      have hm : n % 10 < 10 := Nat.mod_lt _ (by decide)
      have hne := h5 (by omega)
      have hh : (digits (n / 10) ++ [Char.ofNat (48 + n % 10)]).head? = (digits (n / 10)).head? := by
        cases hd : digits (n / 10) with
        | nil => exact absurd hd h1
        | cons a l => rfl
      refine ⟨⟨by simp, ?_, ?_, ?_⟩, ?_⟩
      · intro c hc
        rcases List.mem_append.1 hc with hc | hc
        · exact h2 c hc
        · rw [List.mem_singleton.1 hc]
          exact digit_range hm
      · rw [value] at h3 ⊢
        rw [List.foldl_append, h3]
        show 10 * (n / 10) + ((Char.ofNat (48 + n % 10)).toNat - 48) = n
        rw [digit_toNat hm]
        omega
      · intro h0
        exact absurd (hh ▸ h0) hne
      · intro _ h0
        exact hne (hh ▸ h0)

theorem int_isInt (i : Int) : IsInt i (int i) := by
  cases i with
  | ofNat n => exact IsInt.pos (digits_isNat n).1
  | negSucc n =>
    have := IsInt.neg (digits_isNat (n + 1)).1
    exact this

theorem nat_den (n : Nat) : Den (.num n) (digits n) := .num (.pos (digits_isNat n).1)

theorem int_den (i : Int) : Den (.num i) (int i) := .num (int_isInt i)

theorem tenths_den (n : Nat) : Den (.dec n) (tenths n) := by
  have hm : n % 10 < 10 := Nat.mod_lt _ (by decide)
  refine Den.dec (digits_isNat (n / 10)).1 (digit_range hm).1 (digit_range hm).2 ?_
  rw [digit_toNat hm]
  omega

/-! ### Strings -/

theorem clean_str {s : Text} (h : Clean s) : IsStr s s := pstr_key [] h

theorem esc_str {signed : Bool} {s : Text} (h : Plain signed s) : IsStr s (escape signed s) := by
  rw [escape_plain h]
  exact pstr_esc [] h

instance (s : Text) : Decidable (Clean s) := inferInstanceAs (Decidable (∀ c ∈ s, 32 ≤ c.toNat ∧ c ≠ '"' ∧ c ≠ '\\'))

theorem key {s : String} (h : Clean s.toList := by decide +kernel) : IsStr s.toList s.toList := clean_str h

theorem recast {v : J} {t t' : Text} (h : Den v t) (e : t = t') : Den v t' := e ▸ h

/-! ### Literals -/

theorem lit0 : "{\"name\":\"".toList = ['{', '"', 'n', 'a', 'm', 'e', '"', ':', '"'] := by decide +kernel
theorem lit1 : "\",\"ph\":\"M\",\"pid\":".toList = ['"', ',', '"', 'p', 'h', '"', ':', '"', 'M', '"', ',', '"', 'p', 'i', 'd', '"', ':'] := by decide +kernel
theorem lit2 : ",\"tid\":".toList = [',', '"', 't', 'i', 'd', '"', ':'] := by decide +kernel
theorem lit3 : ",\"args\":{\"name\":\"".toList = [',', '"', 'a', 'r', 'g', 's', '"', ':', '{', '"', 'n', 'a', 'm', 'e', '"', ':', '"'] := by decide +kernel
theorem lit4 : "\"}}".toList = ['"', '}', '}'] := by decide +kernel
theorem lit5 : "\",\"ph\":\"X\",\"ts\":".toList = ['"', ',', '"', 'p', 'h', '"', ':', '"', 'X', '"', ',', '"', 't', 's', '"', ':'] := by decide +kernel
theorem lit6 : ",\"dur\":".toList = [',', '"', 'd', 'u', 'r', '"', ':'] := by decide +kernel
theorem lit7 : ",\"pid\":".toList = [',', '"', 'p', 'i', 'd', '"', ':'] := by decide +kernel
theorem lit8 : "\"}".toList = ['"', '}'] := by decide +kernel
theorem lit9 : "}".toList = ['}'] := by decide +kernel
theorem lit10 : "\",\"ph\":\"C\",\"ts\":".toList = ['"', ',', '"', 'p', 'h', '"', ':', '"', 'C', '"', ',', '"', 't', 's', '"', ':'] := by decide +kernel
theorem lit11 : ",\"args\":{\"".toList = [',', '"', 'a', 'r', 'g', 's', '"', ':', '{', '"'] := by decide +kernel
theorem lit12 : "\":".toList = ['"', ':'] := by decide +kernel
theorem lit13 : "}}".toList = ['}', '}'] := by decide +kernel
theorem lit14 : "{\"ts\":".toList = ['{', '"', 't', 's', '"', ':'] := by decide +kernel
theorem lit15 : ",\"name\":\"\",\"ph\":\"C\",\"pid\":-4}".toList = [',', '"', 'n', 'a', 'm', 'e', '"', ':', '"', '"', ',', '"', 'p', 'h', '"', ':', '"', 'C', '"', ',', '"', 'p', 'i', 'd', '"', ':', '-', '4', '}'] := by decide +kernel
theorem lit16 : ",\"pid\":-1,\"tid\":0}".toList = [',', '"', 'p', 'i', 'd', '"', ':', '-', '1', ',', '"', 't', 'i', 'd', '"', ':', '0', '}'] := by decide +kernel
theorem lit17 : "-2".toList = ['-', '2'] := by decide +kernel
theorem lit18 : "-3".toList = ['-', '3'] := by decide +kernel
theorem lit19 : "name".toList = ['n', 'a', 'm', 'e'] := by decide +kernel
theorem lit20 : "ph".toList = ['p', 'h'] := by decide +kernel
theorem lit21 : "pid".toList = ['p', 'i', 'd'] := by decide +kernel
theorem lit22 : "tid".toList = ['t', 'i', 'd'] := by decide +kernel
theorem lit23 : "args".toList = ['a', 'r', 'g', 's'] := by decide +kernel
theorem lit24 : "ts".toList = ['t', 's'] := by decide +kernel
theorem lit25 : "dur".toList = ['d', 'u', 'r'] := by decide +kernel
theorem lit26 : "M".toList = ['M'] := by decide +kernel
theorem lit27 : "X".toList = ['X'] := by decide +kernel
theorem lit28 : "C".toList = ['C'] := by decide +kernel

/-! ### Entries -/

theorem meta_den {kind name nt : Text} (pid : Int) (tid : Nat) (hk : Clean kind) (hn : IsStr name nt) :
    Den (naming kind pid tid name) (metaText kind pid tid nt) := by
  unfold metaText naming
  refine recast (Den.obj (.more key (.str (clean_str hk)) (.more key (.str key) (.more key (int_den pid) (.more key (nat_den tid)
    (.one key (.obj (.one key (.str hn))))))))) ?_
  simp only [lit0, lit1, lit2, lit3, lit4, lit5, lit6, lit7, lit8, lit9, lit10, lit11, lit12, lit13, lit14, lit15, lit16, lit17, lit18, lit19, lit20, lit21, lit22, lit23, lit24, lit25, lit26, lit27, lit28, List.append_assoc, List.cons_append, List.nil_append]

theorem duration_den' {name tt : Text} {target : Option Text} {signed : Bool} (ts dur : Nat) (pid : Int) (tid : Nat) (hn : Clean name)
    (ht : target = none ∧ tt = [] ∨ ∃ t, target = some t ∧ Plain signed t ∧ tt = ",\"args\":{\"name\":\"".toList ++ escape signed t ++ "\"}".toList) :
    Den (duration name ts dur pid tid target) ("{\"name\":\"".toList ++ name ++ "\",\"ph\":\"X\",\"ts\":".toList ++ digits ts ++ ",\"dur\":".toList ++ digits dur ++
      ",\"pid\":".toList ++ int pid ++ ",\"tid\":".toList ++ digits tid ++
      tt ++ "}".toList) := by
  rcases ht with ⟨rfl, rfl⟩ | ⟨t, rfl, ht, rfl⟩
  · refine recast (Den.obj (.more key (.str (clean_str hn)) (.more key (.str key) (.more key (nat_den ts) (.more key (nat_den dur) (.more key (int_den pid)
      (.one key (nat_den tid)))))))) ?_
    simp only [lit0, lit1, lit2, lit3, lit4, lit5, lit6, lit7, lit8, lit9, lit10, lit11, lit12, lit13, lit14, lit15, lit16, lit17, lit18, lit19, lit20, lit21, lit22, lit23, lit24, lit25, lit26, lit27, lit28, List.append_assoc, List.cons_append, List.nil_append]
  · refine recast (Den.obj (.more key (.str (clean_str hn)) (.more key (.str key) (.more key (nat_den ts) (.more key (nat_den dur) (.more key (int_den pid)
      (.more key (nat_den tid) (.one key (.obj (.one key (.str (esc_str ht)))))))))))) ?_
    simp only [lit0, lit1, lit2, lit3, lit4, lit5, lit6, lit7, lit8, lit9, lit10, lit11, lit12, lit13, lit14, lit15, lit16, lit17, lit18, lit19, lit20, lit21, lit22, lit23, lit24, lit25, lit26, lit27, lit28, List.append_assoc, List.cons_append, List.nil_append]

theorem target_cases {signed : Bool} {target : Option Text} (ht : ∀ t, target = some t → Plain signed t) :
    target = none ∧ targetText signed target = [] ∨ ∃ t, target = some t ∧ Plain signed t ∧
      targetText signed target = ",\"args\":{\"name\":\"".toList ++ escape signed t ++ "\"}".toList := by
  cases target with
  | none => exact .inl ⟨rfl, rfl⟩
  | some t => exact .inr ⟨t, rfl, ht t rfl, rfl⟩

theorem counter_den {name unit vt pt : Text} {v : J} {pid : Int} (ts : Nat) (hn : Clean name) (hu : Clean unit) (hp : Den (.num pid) pt) (hv : Den v vt) :
    Den (counter name unit pid ts v) ("{\"name\":\"".toList ++ name ++ "\",\"ph\":\"C\",\"ts\":".toList ++ digits ts ++ ",\"pid\":".toList ++ pt ++
      ",\"args\":{\"".toList ++ unit ++ "\":".toList ++ vt ++ "}}".toList) := by
  refine recast (Den.obj (.more key (.str (clean_str hn)) (.more key (.str key) (.more key (nat_den ts) (.more key hp
    (.one key (.obj (.one (clean_str hu) hv)))))))) ?_
  simp only [lit0, lit1, lit2, lit3, lit4, lit5, lit6, lit7, lit8, lit9, lit10, lit11, lit12, lit13, lit14, lit15, lit16, lit17, lit18, lit19, lit20, lit21, lit22, lit23, lit24, lit25, lit26, lit27, lit28, List.append_assoc, List.cons_append, List.nil_append]

theorem minus (n : Nat) (c : Char) (h : IsNat n [c]) : Den (.num (-(n : Int))) ['-', c] := .num (.neg h)

theorem cpu_den (us : Int → Nat) (start : Int) : Den (cpuMark (us start)) (cpuText us start) := by
  refine recast (Den.obj (.more key (nat_den (us start)) (.more key (.str (clean_str (by decide))) (.more key (.str key)
    (.one key (minus 4 '4' ⟨by decide, by decide, by decide, by decide⟩)))))) ?_
  simp only [cpuText, lit0, lit1, lit2, lit3, lit4, lit5, lit6, lit7, lit8, lit9, lit10, lit11, lit12, lit13, lit14, lit15, lit16, lit17, lit18, lit19, lit20, lit21, lit22, lit23, lit24, lit25, lit26, lit27, lit28, List.append_assoc, List.cons_append, List.nil_append]

/-- the text of the value of a number -/
def shown (us : Int → Nat) (gib : Nat → Nat) (time : Int) : Stat × Nat → J
  | (.job, v) => jobs (us time) v
  | (.process, v) => process (us time) v
  | (.system, v) => system (us time) (gib v)
  | (.connections, v) => connections (us time) v

theorem stat_den (us : Int → Nat) (gib : Nat → Nat) (time : Int) (x : Stat × Nat) :
    Den (shown us gib time x) (statText us gib x.1 time x.2) := by
  obtain ⟨s, v⟩ := x
  have h2 : Den (.num (-2)) "-2".toList := by rw [lit17]; exact minus 2 '2' ⟨by decide, by decide, by decide, by decide⟩
  have h3 : Den (.num (-3)) "-3".toList := by rw [lit18]; exact minus 3 '3' ⟨by decide, by decide, by decide, by decide⟩
  cases s
  · exact counter_den (us time) (by decide +kernel) (by decide +kernel) h2 (nat_den v)
  · exact counter_den (us time) (by decide +kernel) (by decide +kernel) h2 (nat_den v)
  · exact counter_den (us time) (by decide +kernel) (by decide +kernel) h2 (tenths_den (gib v))
  · exact counter_den (us time) (by decide +kernel) (by decide +kernel) h3 (nat_den v)

/-- many entries and one more -/
theorem elems_append {R : List J} {rt : Text} (hr : Elems R rt) : ∀ {vs : List J} {ts : List Text},
    vs.length = ts.length → (∀ (i : Nat) (v : J) (t : Text), vs[i]? = some v → ts[i]? = some t → Den v t) →
    Elems (vs ++ R) ((ts.flatMap fun t => t ++ [',']) ++ rt)
  | [], [], _, _ => hr
  | [], _ :: _, h, _ => absurd h (by simp)
  | _ :: _, [], h, _ => absurd h (by simp)
  | v :: vs, t :: ts, h, hd => by
    rw [List.flatMap_cons, List.append_assoc, List.append_assoc, List.singleton_append, List.cons_append]
    exact .more (hd 0 v t rfl rfl) (elems_append hr (by simpa using h) fun i => hd (i + 1))

end Verif.Profile
