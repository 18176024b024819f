import Verif.Settings.EnvSpec
/-!
C117: programs are given the environment that was asked for.
-/
namespace Verif.Settings
open Spec

/-! ### The block -/

/-- the strings one after the other, each with a null -/
def block (env : List Text) : List Byte := env.flatMap fun s => s ++ [0]

theorem block_length (env : List Text) : (block env).length = size env := by
  induction env with
  | nil => rfl
  | cons s env ih =>
    rw [block] at ih ⊢
    rw [List.flatMap_cons, List.length_append, ih, size, size, List.map_cons, List.sum_cons]
    simp

theorem put_at {pre bs old rest : List Byte} (h : bs.length = old.length) :
    put (pre ++ (old ++ rest)) pre.length bs = some (pre ++ (bs ++ rest)) := by
  rw [put, if_pos (by simp [h])]
  have : pre.length + bs.length = (pre ++ old).length := by simp [h]
  rw [List.take_left, this, ← List.append_assoc pre old rest, List.drop_left, List.append_assoc]

/-- a write that fits -/
theorem put_fits {pre bs mem : List Byte} (h : bs.length ≤ mem.length) :
    ∃ rest, put (pre ++ mem) pre.length bs = some (pre ++ (bs ++ rest)) ∧ rest.length = mem.length - bs.length := by
  have e : mem = mem.take bs.length ++ mem.drop bs.length := (List.take_append_drop _ _).symm
  refine ⟨mem.drop bs.length, ?_, by simp⟩
  rw [e]
  have := put_at (pre := pre) (bs := bs) (old := mem.take bs.length) (rest := mem.drop bs.length) (by simp; omega)
  rw [this, List.drop_left' (by simp; omega)]

theorem size_cons (s : Text) (env : List Text) : size (s :: env) = s.length + 1 + size env := by
  rw [size, size, List.map_cons, List.sum_cons]

theorem block_cons (s : Text) (env : List Text) : block (s :: env) = (s ++ [0]) ++ block env := by
  rw [block, block, List.flatMap_cons]

theorem processLoop_spec : ∀ (env : List Text) (pre mem : List Byte) (lib : Text), mem.length = size env + 1 →
    ∃ b lib', processLoop env (pre ++ mem) pre.length lib = some (pre ++ (block env ++ [b]), pre.length + size env, lib')
  | [], pre, mem, lib, h => by
    match mem, h with
    | [b], _ => exact ⟨b, lib, rfl⟩
  | s :: env, pre, mem, lib, h => by
    rw [size_cons] at h
    obtain ⟨rest, h1, h2⟩ := put_fits (pre := pre) (bs := s ++ [0]) (mem := mem) (by simp; omega)
    have hc : copy (cstr s) (pre ++ mem) pre.length s.length = some ((pre ++ (s ++ [0])) ++ rest) := by
      rw [copy, if_pos (by simp [cstr]), cstr, List.take_left, h1]
      simp only [List.append_assoc]
    obtain ⟨b, lib', ih⟩ := processLoop_spec env (pre ++ (s ++ [0])) rest (if [76, 73, 66, 61].isPrefixOf s then s.drop 4 else lib) (by
      rw [h2, List.length_append, List.length_singleton]
      omega)
    refine ⟨b, lib', ?_⟩
    rw [processLoop]
    simp only [hc, Option.bind_some]
    have hl : (pre ++ (s ++ [0])).length = pre.length + (s.length + 1) := by simp
    rw [hl] at ih
    rw [ih, block_cons, size_cons]
    simp only [List.append_assoc, Nat.add_assoc]

theorem processLoop_lib : ∀ (env : List Text) (mem : List Byte) (off : Nat) (lib : Text) {r}, processLoop env mem off lib = some r →
    r.2.2 = env.foldl (fun lib s => if [76, 73, 66, 61].isPrefixOf s then s.drop 4 else lib) lib
  | [], mem, off, lib, r, h => by cases h; rfl
  | s :: env, mem, off, lib, r, h => by
    rw [processLoop] at h
    obtain ⟨m, -, h⟩ := Option.bind_eq_some_iff.1 h
    exact processLoop_lib env m _ _ h

theorem process_spec (env : List Text) {mem : List Byte} (h : mem.length = size env + 1) :
    process env mem = some (block env ++ [0], env.foldl (fun lib s => if [76, 73, 66, 61].isPrefixOf s then s.drop 4 else lib) []) := by
  obtain ⟨b, lib', e⟩ := processLoop_spec env [] mem [] h
  have hl := processLoop_lib env _ _ _ e
  rw [List.nil_append, List.nil_append, List.length_nil, Nat.zero_add] at e
  have hp : put (block env ++ [b]) (size env) [0] = some (block env ++ [0]) := by
    rw [← block_length]
    exact put_at (pre := block env) (bs := [0]) (old := [b]) (rest := []) rfl
  rw [process, e]
  simp only [Option.bind_some, hp, Option.map_some]
  rw [← hl]

theorem allocLoop_spec : ∀ (env : List Text) (pre mem : List Byte), mem.length = size env + 1 →
    ∃ b, allocLoop env (pre ++ mem) pre.length = some (pre ++ (block env ++ [b]), pre.length + size env)
  | [], pre, mem, h => by
    match mem, h with
    | [b], _ => exact ⟨b, rfl⟩
  | s :: env, pre, mem, h => by
    rw [size_cons] at h
    obtain ⟨rest, h1, h2⟩ := put_fits (pre := pre) (bs := s ++ [0] ++ [0]) (mem := mem) (by simp; omega)
    have hc : copy (cstr s) (pre ++ mem) pre.length (s.length + 1) = some ((pre ++ (s ++ [0])) ++ ([0] ++ rest)) := by
      rw [copy, if_pos (by simp [cstr]), cstr, List.take_of_length_le (by simp), h1]
      simp only [List.append_assoc]
    obtain ⟨b, ih⟩ := allocLoop_spec env (pre ++ (s ++ [0])) ([0] ++ rest) (by
      simp only [List.length_append, List.length_singleton, h2]
      simp at h2 ⊢
      omega)
    refine ⟨b, ?_⟩
    rw [allocLoop]
    simp only [hc, Option.bind_some]
    have hl : (pre ++ (s ++ [0])).length = pre.length + (s.length + 1) := by simp
    rw [hl] at ih
    rw [ih, block_cons, size_cons]
    simp only [List.append_assoc, Nat.add_assoc]

theorem alloc_spec (env : List Text) {mem : List Byte} (h : mem.length = size env + 1) : alloc env mem = some (block env ++ [0]) := by
  obtain ⟨b, e⟩ := allocLoop_spec env [] mem h
  rw [List.nil_append, List.nil_append, List.length_nil, Nat.zero_add] at e
  have hp : put (block env ++ [b]) (size env) [0] = some (block env ++ [0]) := by
    rw [← block_length]
    exact put_at (pre := block env) (bs := [0]) (old := [b]) (rest := []) rfl
  rw [alloc, e]
  exact hp

theorem setString_spec {bytes : List Byte} (rest mem : List Byte) (h : mem.length = bytes.length + 1) :
    setString (bytes ++ rest) bytes.length mem = some (bytes ++ [0]) := by
  rw [setString, copy, if_pos (by simp), List.take_left, put, if_pos (by simp; omega), List.take_zero, List.nil_append,
    List.drop_of_length_le (by simp; omega), List.append_nil]

/-! ### What a program gets -/

theorem takeWhile_text {s : Text} (h : CText s) (r : List Byte) : (s ++ 0 :: r).takeWhile (· != 0) = s ∧ (s ++ 0 :: r).dropWhile (· != 0) = 0 :: r := by
  induction s with
  | nil => exact ⟨rfl, rfl⟩
  | cons a s ih =>
    rw [CText, List.mem_cons, not_or] at h
    have ha : (a != 0) = true := by simpa using Ne.symm h.1
    have := ih h.2
    simp only [List.cons_append, List.takeWhile_cons, List.dropWhile_cons, ha, if_true, this, and_self]

theorem spawn_block : ∀ (env : List Text) (fuel : Nat) (r : List Byte), (∀ s ∈ env, CText s) → env.length < fuel →
    spawn fuel (block env ++ 0 :: r) = some (env.takeWhile (· != []))
  | _, 0, _, _, h => absurd h (Nat.not_lt_zero _)
  | [], fuel + 1, r, _, _ => rfl
  | s :: env, fuel + 1, r, hc, hl => by
    have ih := spawn_block env fuel r (fun x hx => hc x (List.mem_cons_of_mem _ hx)) (by simpa using hl)
    have hs := hc s (List.mem_cons_self ..)
    rw [block_cons, List.append_assoc, List.append_assoc, List.singleton_append]
    cases s with
    | nil => rfl
    | cons a s =>
      have ha : a ≠ 0 := by
        rw [CText, List.mem_cons, not_or] at hs
        exact Ne.symm hs.1
      have ht := takeWhile_text hs (block env ++ 0 :: r)
      rw [List.cons_append] at ht ⊢
      rw [spawn, if_neg ha, ht.2]
      simp only [ih, Option.map_some, ht.1]
      rw [List.takeWhile_cons]
      simp

theorem length_le_block (env : List Text) : env.length ≤ (block env).length := by
  rw [block_length]
  induction env with
  | nil => exact Nat.le_refl _
  | cons s env ih => rw [size_cons, List.length_cons]; omega

theorem settings_spec (g g' : Garbage) {env : List Text} (h : env ≠ []) : settings g g' env =
    some (some ⟨block env ++ [0], size env, env.foldl (fun lib s => if [76, 73, 66, 61].isPrefixOf s then s.drop 4 else lib) []⟩) := by
  rw [settings, if_neg h, process_spec env (g.length _)]
  simp only [Option.bind_some]
  rw [← block_length, setString_spec [0] _ (g'.length _)]
  rfl

theorem given_held (g : Garbage) {env : List Text} (lib : Text) (hc : ∀ s ∈ env, CText s) :
    given g [] (some ⟨block env ++ [0], size env, lib⟩) = some (some (env.takeWhile (· != []))) := by
  have := length_le_block env
  rw [given, if_pos rfl]
  simp only [spawn_block env ((block env ++ [0]).length + 1) [] hc (by simp; omega), Option.map_some]

theorem takeWhile_env {env : List Text} (h : Env env) : env.takeWhile (· != []) = env := by
  induction env with
  | nil => rfl
  | cons s env ih =>
    have hs : (s != []) = true := by simpa using (h s (List.mem_cons_self ..)).2
    rw [List.takeWhile_cons, if_pos hs, ih fun x hx => h x (List.mem_cons_of_mem _ hx)]

/-- Nothing is read or written outside of the memory, whatever the environments are. -/
theorem C117_safe (g g' g'' : Garbage) (env own : List Text) (h : ∀ s ∈ env, CText s) (h' : ∀ s ∈ own, CText s) :
    ∃ held, settings g g' env = some held ∧ (given g'' own held).isSome = true := by
  by_cases he : env = []
  · subst he
    refine ⟨none, rfl, ?_⟩
    by_cases ho : own = []
    · rw [given, if_pos ho]; rfl
    · rw [given, if_neg ho, alloc_spec own (g''.length _)]
      have := length_le_block own
      simp only [Option.bind_some, spawn_block own ((block own ++ [0]).length + 1) [] h' (by simp; omega)]
      rfl
  · refine ⟨_, settings_spec g g' he, ?_⟩
    by_cases ho : own = []
    · subst ho
      rw [given_held g'' _ h]
      rfl
    · rw [given, if_neg ho, alloc_spec own (g''.length _)]
      have := length_le_block own
      simp only [Option.bind_some, spawn_block own ((block own ++ [0]).length + 1) [] h' (by simp; omega)]
      rfl

/-- A program without an environment of its own gets the one of the settings, as long as no variable is the empty text;
see `C117_empty_false`. -/
theorem C117_settings_partial (g g' g'' : Garbage) {env : List Text} (hne : env ≠ []) (h : Env env) :
    (settings g g' env).bind (given g'' []) = some (some env) := by
  rw [settings_spec g g' hne]
  simp only [Option.bind_some]
  rw [given_held g'' _ fun s hs => (h s hs).1, takeWhile_env h]

/-- A program with an environment of its own gets that one. -/
theorem C117_own_partial (g : Garbage) {own : List Text} (held : Option Held) (hne : own ≠ []) (h : Env own) :
    given g own held = some (some own) := by
  unfold given
  rw [if_neg hne, alloc_spec own (g.length _)]
  have := length_le_block own
  simp only [Option.bind_some, spawn_block own ((block own ++ [0]).length + 1) [] (fun s hs => (h s hs).1) (by simp; omega), Option.map_some,
    takeWhile_env h]

/-- Without any, it inherits that of the build. -/
theorem C117_inherits (g g' g'' : Garbage) : (settings g g' []).bind (given g'' []) = some none := rfl

/-- A build that loads the settings instead of reading them has the same environment. -/
theorem C117_loaded (g g' g'' : Garbage) (env : List Text) :
    ∃ held, settings g g' env = some held ∧ (save held).bind (load g'') = some held := by
  by_cases he : env = []
  · subst he
    exact ⟨none, rfl, rfl⟩
  · refine ⟨_, settings_spec g g' he, ?_⟩
    have hpos : 0 < size env := by
      cases env with
      | nil => exact absurd rfl he
      | cons s env => rw [size_cons]; omega
    rw [save]
    simp only [hpos, if_true]
    rw [if_pos (by rw [List.length_append, block_length]; omega), ← block_length, List.take_left]
    simp only [Option.bind_some, load]
    have := setString_spec (bytes := block env) [] (g''.fill ((block env).length + 1)) (g''.length _)
    rw [List.append_nil] at this
    rw [this]
    rfl

theorem lib_foldl : ∀ (env : List Text) (lib : Text), (∀ s ∈ env, ¬ LIB ++ [61] <+: s) →
    env.foldl (fun lib s => if [76, 73, 66, 61].isPrefixOf s then s.drop 4 else lib) lib = lib
  | [], _, _ => rfl
  | s :: env, lib, h => by
    rw [List.foldl_cons, if_neg, lib_foldl env lib fun x hx => h x (List.mem_cons_of_mem _ hx)]
    intro hp
    exact h s (List.mem_cons_self ..) (List.isPrefixOf_iff_prefix.1 hp)

/-- The search path of libraries is what a program finds in `LIB`, if it is there only once; see `C117_lib_false`. -/
theorem C117_lib_partial (g g' : Garbage) {env : List Text} {value : Text} (real : Text) (h : Getenv env LIB value)
    (h1 : ∀ before after, env = before ++ (LIB ++ 61 :: value) :: after → ∀ s ∈ after, ¬ LIB ++ [61] <+: s) :
    (settings g g' env).map (libVar · real) = some value := by
  obtain ⟨before, after, e, hb⟩ := h
  have ha := h1 before after e
  have hne : env ≠ [] := by rw [e]; simp
  rw [settings_spec g g' hne]
  have : env.foldl (fun lib s => if [76, 73, 66, 61].isPrefixOf s then s.drop 4 else lib) [] = value := by
    rw [e, List.foldl_append, List.foldl_cons, lib_foldl before [] hb, lib_foldl after _ ha]
    rfl
  rw [this]
  rfl

/-- It is empty if `LIB` isn't there, and that of the build if the settings have no environment. -/
theorem C117_nolib (g g' : Garbage) {env : List Text} (real : Text) (h : ∀ s ∈ env, ¬ LIB ++ [61] <+: s) :
    (settings g g' env).map (libVar · real) = some (if env = [] then real else []) := by
  by_cases hne : env = []
  · subst hne
    rfl
  · rw [settings_spec g g' hne, lib_foldl env [] h, if_neg hne]
    rfl

/-! ### What does not hold -/

private def zeros : Garbage := ⟨fun n => List.replicate n 0, fun n => by simp⟩

/-- After an empty text nothing is handed on. -/
theorem C117_empty_false : ¬ ∀ (g g' g'' : Garbage) (env : List Text), env ≠ [] → (∀ s ∈ env, CText s) →
    ∃ r, (settings g g' env).bind (given g'' []) = some (some r) ∧ ∀ s ∈ env, s ≠ [] → s ∈ r := by
  intro h
  obtain ⟨r, h1, h2⟩ := h zeros zeros zeros [[], [65, 61, 66]] (by decide) (by intro s hs; simp at hs; rcases hs with rfl | rfl <;> (intro h; simp at h))
  have e : (settings zeros zeros [[], [65, 61, 66]]).bind (given zeros []) = some (some []) := by decide +kernel
  rw [e] at h1
  cases h1
  exact absurd (h2 [65, 61, 66] (by decide) (by decide)) (by decide)

/-- If `LIB` is there twice, the last is taken, although programs find the first. -/
theorem C117_lib_false : ¬ ∀ (g g' : Garbage) (env : List Text) (value real : Text), Getenv env LIB value →
    (settings g g' env).map (libVar · real) = some value := by
  intro h
  have := h zeros zeros [LIB ++ [61, 65], LIB ++ [61, 66]] [65] [] ⟨[], [LIB ++ [61, 66]], rfl, by simp⟩
  revert this
  decide +kernel

end Verif.Settings
