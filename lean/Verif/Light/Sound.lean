import Verif.Light.Run
/-
Equal keys mean that a compiler reads the same files.
-/
namespace Verif.Light
open Verif.Str

/-- the name of a file as it is hashed -/
def label (w : World) (useRel : Bool) (n : List Char) : List Char :=
  if useRel then w.relative (withSlash w.platform w.workingDir) n else n

/-- the content of a file -/
def contentOf (w : World) (n : List Char) : List Char := (w.fs n).getD []

/-- the numbers behind the key -/
def numbersOf (h : Hashes) (w : World) (useRel : Bool) (deps : List (List Char)) : List Nat :=
  deps.flatMap fun n => [h.name (label w useRel n), h.content (contentOf w n)]

/-- what goes into the shared cache of files from this file system -/
def Filled (w : World) (useRel : Bool) (cache : List Entry) : Prop :=
  Fresh w cache ∧ ∀ e ∈ cache, e.parsed.ok = true ∧ e.rel = if useRel then some (label w true e.name) else none

/-- the settings of an object -/
def settings (w : World) (useRel : Bool) (args : List Char) (builtIn : List (List Char)) : Settings :=
  { paths := includePaths w.platform args builtIn, basePath := if useRel then withSlash w.platform w.workingDir else [] }

def rootsOf (args root : List Char) : List (List Char) := extract forcePrefixes args ++ [root]

theorem withSlash_ne (p : Platform) (path : List Char) : withSlash p path ≠ [] := by
  rw [withSlash]
  split
  · rename_i h
    rintro rfl
    simp at h
  · simp

theorem cons_of_filled {w : World} {useRel : Bool} {cache : List Entry} {args : List Char} {builtIn : List (List Char)} (h : Filled w useRel cache) :
    ∀ e ∈ cache, Cons w (settings w useRel args builtIn) True e := by
  intro e he
  refine ⟨(h.1 e he).1, (h.1 e he).2.1, (h.1 e he).2.2, fun _ => ?_⟩
  rw [(h.2 e he).2]
  cases useRel with
  | false => simp [settings]
  | true => simp [settings, withSlash_ne, label]

/-- what a key is made from -/
theorem hash_hashed {h : Hashes} {w : World} {fuel : Nat} {cache : List Entry} {useRel : Bool} {args : List Char} {builtIn : List (List Char)}
    {root : List Char} {key : Nat} {deps : List (List Char)} {c : List Entry}
    (hh : hash h w fuel cache useRel args builtIn root = some (.hashed key deps, c)) :
    ∃ st, process w (settings w useRel args builtIn) fuel cache (rootsOf args root) = some st ∧ st.failed = false ∧ deps = names st.all ∧
      ∃ ns, numbers h useRel st.all = some ns ∧ key = h.all ns := by
  rw [hash] at hh
  split at hh
  · simp at hh
  · simp only at hh
    cases hp : process w (settings w useRel args builtIn) fuel cache (rootsOf args root) with
    | none =>
      rw [settings, rootsOf] at hp
      rw [hp] at hh; simp at hh
    | some st =>
      rw [settings, rootsOf] at hp
      rw [hp] at hh
      simp only at hh
      split at hh
      · simp at hh
      · rename_i hne
        cases hn : numbers h useRel st.all with
        | none => rw [hn] at hh; simp at hh
        | some ns =>
          rw [hn] at hh
          simp only [Option.some.injEq, Prod.mk.injEq, Outcome.hashed.injEq] at hh
          obtain ⟨⟨rfl, rfl⟩, _⟩ := hh
          exact ⟨st, rfl, by simpa using fun hf => hne (Or.inr hf), rfl, ns, hn, rfl⟩

theorem numbers_eq {h : Hashes} {w : World} {useRel : Bool} {args : List Char} {builtIn : List (List Char)} : ∀ {l : List Entry} {ns : List Nat},
    (∀ e ∈ l, Cons w (settings w useRel args builtIn) True e) → numbers h useRel l = some ns → ns = numbersOf h w useRel (names l)
  | [], ns, _, hn => by
    simp only [numbers, Option.some.injEq] at hn
    subst hn; rfl
  | e :: l, ns, hc, hn => by
    rw [numbers] at hn
    have he := hc e List.mem_cons_self
    have hlab : (if useRel then e.rel else some e.name) = some (label w useRel e.name) := by
      cases useRel with
      | false => rfl
      | true =>
        rw [if_pos rfl, he.2.2.2 trivial]
        simp [settings, withSlash_ne, label]
    rw [hlab] at hn
    cases hl : numbers h useRel l with
    | none => rw [hl] at hn; simp at hn
    | some ns' =>
      rw [hl] at hn
      simp only [Option.some.injEq] at hn
      have ih := numbers_eq (fun e he => hc e (List.mem_cons_of_mem _ he)) hl
      rw [← hn, ih]
      simp only [numbersOf, names, List.map_cons, List.flatMap_cons, contentOf, he.2.1]
      rfl

/-- without collisions the numbers tell the files apart -/
theorem numbers_inj {h : Hashes} {w1 w2 : World} {useRel : Bool} : ∀ {d1 d2 : List (List Char)},
    (∀ a ∈ d1, ∀ b ∈ d2, h.name (label w1 useRel a) = h.name (label w2 useRel b) → a = b) →
    (∀ a ∈ d1, ∀ b ∈ d2, h.content (contentOf w1 a) = h.content (contentOf w2 b) → contentOf w1 a = contentOf w2 b) →
    numbersOf h w1 useRel d1 = numbersOf h w2 useRel d2 → d1 = d2 ∧ ∀ f ∈ d1, contentOf w1 f = contentOf w2 f
  | [], [], _, _, _ => by simp
  | [], b :: d2, _, _, he => by simp [numbersOf] at he
  | a :: d1, [], _, _, he => by simp [numbersOf] at he
  | a :: d1, b :: d2, hn, hc, he => by
    simp only [numbersOf, List.flatMap_cons, List.cons_append, List.nil_append, List.cons.injEq] at he
    obtain ⟨e1, e2, e3⟩ := he
    have hab := hn a List.mem_cons_self b List.mem_cons_self e1
    have hcc := hc a List.mem_cons_self b List.mem_cons_self e2
    subst hab
    obtain ⟨i1, i2⟩ := numbers_inj (fun x hx y hy => hn x (List.mem_cons_of_mem _ hx) y (List.mem_cons_of_mem _ hy))
      (fun x hx y hy => hc x (List.mem_cons_of_mem _ hx) y (List.mem_cons_of_mem _ hy)) e3
    subst i1
    refine ⟨rfl, ?_⟩
    intro f hf
    rcases List.mem_cons.1 hf with rfl | hf
    · exact hcc
    · exact i2 f hf

/-- two file systems with the same files among `D` find the same first file -/
theorem first_agree {f1 f2 : List Char → Option (List Char)} {D : List (List Char)} (h1 : ∀ n ∈ D, (f1 n).isSome) (h2 : ∀ n ∈ D, (f2 n).isSome) :
    ∀ {l : List (List Char)}, (∀ g, first f1 l = some g → g ∈ D) → (∀ g, first f2 l = some g → g ∈ D) → first f1 l = first f2 l
  | [], _, _ => rfl
  | c :: l, a1, a2 => by
    simp only [first, List.find?_cons] at a1 a2 ⊢
    cases x1 : (f1 c).isSome <;> cases x2 : (f2 c).isSome
    · rw [x1] at a1; rw [x2] at a2
      exact first_agree h1 h2 a1 a2
    · rw [x2] at a2
      have := h1 c (a2 c rfl)
      rw [x1] at this; simp at this
    · rw [x1] at a1
      have := h2 c (a1 c rfl)
      rw [x2] at this; simp at this
    · rfl

theorem places_eq {w1 w2 : World} (hp : w1.platform = w2.platform) (hd : w1.workingDir = w2.workingDir) (paths S : List (List Char)) (q : List Char)
    (t : IncType) : places w1 paths S q t = places w2 paths S q t := by
  have hc : ∀ x, clean w1 x = clean w2 x := fun x => by rw [clean, clean, hp, hd]
  rw [places.eq_def, places.eq_def, hp]
  split
  · rfl
  · cases t <;> simp [hc]

/-- what is opened in one file system is opened in the other -/
theorem opens_agree {w1 w2 : World} {paths roots D : List (List Char)} (hp : w1.platform = w2.platform) (hd : w1.workingDir = w2.workingDir)
    (o1 : ∀ S f, Opens w1 paths roots S f → f ∈ D) (o2 : ∀ S f, Opens w2 paths roots S f → f ∈ D)
    (hD : ∀ f ∈ D, (w1.fs f).isSome ∧ w1.fs f = w2.fs f) :
    ∀ {S f}, Opens w1 paths roots S f → Opens w2 paths roots S f := by
  have d1 : ∀ n ∈ D, (w1.fs n).isSome := fun n hn => (hD n hn).1
  have d2 : ∀ n ∈ D, (w2.fs n).isSome := fun n hn => by rw [← (hD n hn).2]; exact (hD n hn).1
  intro S f hop
  induction hop with
  | @root r f hr hf =>
    refine Opens.root hr ?_
    rw [← places_eq hp hd, ← hf]
    refine (first_agree d1 d2 ?_ ?_).symm
    · intro g hg; exact o1 _ _ (Opens.root hr hg)
    · intro g hg; rw [places_eq hp hd] at hg; exact o2 _ _ (Opens.root hr hg)
  | @path S f text q t g ha ht hs hf ih =>
    have ht2 : w2.fs f = some text := by rw [← (hD f (o1 _ _ ha)).2]; exact ht
    refine Opens.path ih ht2 hs ?_
    rw [← places_eq hp hd, ← hf]
    refine (first_agree d1 d2 ?_ ?_).symm
    · intro g hg; exact o1 _ _ (Opens.path ha ht hs hg)
    · intro g hg; rw [places_eq hp hd] at hg; exact o2 _ _ (Opens.path ih ht2 hs hg)
  | @named S f text m S' f' text' p t g ha ht hs hb hu hdf hf iha ihb =>
    have ht2 : w2.fs f = some text := by rw [← (hD f (o1 _ _ ha)).2]; exact ht
    have hu2 : w2.fs f' = some text' := by rw [← (hD f' (o1 _ _ hb)).2]; exact hu
    refine Opens.named iha ht2 hs ihb hu2 hdf ?_
    rw [← places_eq hp hd, ← hf]
    refine (first_agree d1 d2 ?_ ?_).symm
    · intro g hg; exact o1 _ _ (Opens.named ha ht hs hb hu hdf hg)
    · intro g hg; rw [places_eq hp hd] at hg; exact o2 _ _ (Opens.named iha ht2 hs ihb hu2 hdf hg)

end Verif.Light
