import Verif.Compdb.Text
/-
C96: a compilation database is JSON with exactly one entry for each file that is compiled for the targets.
-/
namespace Verif.Compdb
open Verif.Args (Hole NoHole findHole findHole_spec)

/-! ### the text of an entry -/

theorem body_append (signed : Bool) (wd : Name) (e : Entry) (h : e.arguments ≠ []) (r : List Char) :
    body signed wd e r = body signed wd e [] ++ r := by
  have ht : ∀ (l : List Name) (x r : List Char), tailText signed l (x ++ r) = tailText signed l x ++ r := by
    intro l x r
    induction l with
    | nil => rfl
    | cons a l ih => simp [tailText, quoted, ih]
  obtain ⟨file, output, arguments⟩ := e
  cases arguments with
  | nil => exact absurd rfl h
  | cons c as =>
    simp only [body, memberText, quoted]
    rw [show ('\n' :: ' ' :: ' ' :: '}' :: r) = ['\n', ' ', ' ', '}'] ++ r from rfl, ht]
    simp [List.append_assoc]

theorem tail_eq (signed : Bool) (r : List Char) : ∀ l : List Name,
    (l.map (esc signed)).flatMap (fun a => ", \"".toList ++ (a ++ "\"".toList)) ++ ']' :: r = tailText signed l r
  | [] => rfl
  | a :: l => by
    have ih := tail_eq signed r l
    have e1 : ", \"".toList = [',', ' ', '"'] := by decide +kernel
    have e2 : "\"".toList = ['"'] := by decide +kernel
    rw [tailText, quoted, ← ih, e1, e2]
    simp

theorem lit_e1 : "  {\n    \"directory\": \"".toList = ' ' :: ' ' :: '{' :: '\n' :: ' ' :: ' ' :: ' ' :: ' ' :: '"' :: ("directory".toList ++ ['"', ':', ' ', '"']) := by decide +kernel
theorem lit_e2 : "\",\n    \"file\": \"".toList = '"' :: ',' :: '\n' :: ' ' :: ' ' :: ' ' :: ' ' :: '"' :: ("file".toList ++ ['"', ':', ' ', '"']) := by decide +kernel
theorem lit_e3 : "\",\n    \"output\": \"".toList = '"' :: ',' :: '\n' :: ' ' :: ' ' :: ' ' :: ' ' :: '"' :: ("output".toList ++ ['"', ':', ' ', '"']) := by decide +kernel
theorem lit_e4 : "\",\n    \"arguments\": [\"".toList = '"' :: ',' :: '\n' :: ' ' :: ' ' :: ' ' :: ' ' :: '"' :: ("arguments".toList ++ ['"', ':', ' ', '[', '"']) := by decide +kernel
theorem lit_e5 : "]\n  },\n".toList = ']' :: '\n' :: ' ' :: ' ' :: '}' :: ',' :: '\n' :: [] := by decide +kernel
theorem lit_e6 : "\"".toList = ['"'] := by decide +kernel

theorem entry_gen {p1 p2 p3 p4 p5 q k1 k2 k3 k4 wd f o c w t r : List Char} (signed : Bool) {wd' f' o' c' : Name}
    (h1 : p1 = ' ' :: ' ' :: '{' :: '\n' :: ' ' :: ' ' :: ' ' :: ' ' :: '"' :: (k1 ++ ['"', ':', ' ', '"']))
    (h2 : p2 = '"' :: ',' :: '\n' :: ' ' :: ' ' :: ' ' :: ' ' :: '"' :: (k2 ++ ['"', ':', ' ', '"']))
    (h3 : p3 = '"' :: ',' :: '\n' :: ' ' :: ' ' :: ' ' :: ' ' :: '"' :: (k3 ++ ['"', ':', ' ', '"']))
    (h4 : p4 = '"' :: ',' :: '\n' :: ' ' :: ' ' :: ' ' :: ' ' :: '"' :: (k4 ++ ['"', ':', ' ', '[', '"']))
    (h5 : p5 = ']' :: r) (hq : q = ['"']) (ht : w ++ ']' :: r = t) (hwd : esc signed wd' = wd) (hf : esc signed f' = f)
    (ho : esc signed o' = o) (hc : esc signed c' = c) :
    p1 ++ (wd ++ (p2 ++ (f ++ (p3 ++ (o ++ (p4 ++ (c ++ (q ++ (w ++ p5))))))))) =
    ' ' :: ' ' :: '{' :: '\n' :: ' ' :: ' ' :: ' ' :: ' ' :: memberText k1 (quoted signed wd' (',' :: '\n' :: ' ' :: ' ' :: ' ' :: ' ' ::
      memberText k2 (quoted signed f' (',' :: '\n' :: ' ' :: ' ' :: ' ' :: ' ' ::
        memberText k3 (quoted signed o' (',' :: '\n' :: ' ' :: ' ' :: ' ' :: ' ' ::
          memberText k4 ('[' :: quoted signed c' t))))))) := by
  subst h1 h2 h3 h4 h5 hq ht
  simp only [memberText, quoted, hwd, hf, ho, hc, List.append_assoc, List.cons_append, List.nil_append]

theorem entry_eq (signed : Bool) (wd : Name) (e : Entry) (c : Name) (as opts : List Name)
    (he : e.arguments = c :: as) (ha : opts.map (argFor (esc signed e.file) (esc signed e.output)) = as.map (esc signed)) :
    entry (esc signed wd) (esc signed e.file) (esc signed e.output) (esc signed c) opts = body signed wd e [',', '\n'] := by
  have ht := tail_eq signed ['\n', ' ', ' ', '}', ',', '\n'] as
  rw [← ha, List.flatMap_map] at ht
  obtain ⟨file, output, arguments⟩ := e
  change arguments = c :: as at he
  subst he
  exact entry_gen signed lit_e1 lit_e2 lit_e3 lit_e4 lit_e5 lit_e6 ht rfl rfl rfl rfl

/-! ### entries -/

/-- everything an object list is made of is plain -/
structure PlainList (signed : Bool) (n : ListNd) : Prop where
  compiler : Plain signed n.compiler
  options : Plain signed n.options
  path : Plain signed n.cfg.outputPath
  pre : Plain signed n.cfg.outputPrefix
  ext : Plain signed n.cfg.extension
  files : ∀ i ∈ n.sources, Plain signed i.1

theorem plain_append {signed : Bool} {a b : Name} (ha : Plain signed a) (hb : Plain signed b) : Plain signed (a ++ b) := by
  intro c hc
  rcases List.mem_append.1 hc with hc | hc
  · exact ha c hc
  · exact hb c hc

theorem objectName_plain {signed : Bool} {n : ListNd} {f b o : Name} (h : PlainList signed n) (hf : Plain signed f)
    (ho : Verif.Dirs.objectName n.cfg f b = some o) : Plain signed o := by
  have hsub : ∀ base x, Verif.Dirs.subPath n.cfg.sl f base = some x → Plain signed x := by
    intro base x hx
    unfold Verif.Dirs.subPath at hx
    split at hx
    · simp only [Option.some.injEq] at hx
      subst hx
      intro c hc
      exact hf c (List.mem_of_mem_take (List.mem_of_mem_drop hc))
    · cases hx
  have hb : Plain signed (Verif.Dirs.baseName n.cfg f) := by
    intro c hc
    unfold Verif.Dirs.baseName at hc
    simp only at hc
    split at hc
    · exact hf c (List.mem_of_mem_drop hc)
    · split at hc
      · exact hf c (List.mem_of_mem_drop (List.mem_of_mem_take hc))
      · exact hf c (List.mem_of_mem_drop hc)
  unfold Verif.Dirs.objectName at ho
  simp only [Option.map_eq_some_iff] at ho
  obtain ⟨s, hs, rfl⟩ := ho
  have hs' : Plain signed s := by
    split at hs
    · split at hs
      · exact hsub _ _ hs
      · cases hs; intro c hc; cases hc
    · split at hs
      · exact hsub _ _ hs
      · cases hs; intro c hc; cases hc
  exact plain_append (plain_append (plain_append (plain_append h.path hs') h.pre) hb) h.ext

theorem pairs_map {α γ : Type} {R : α → γ → Prop} (f : α → γ) (h : ∀ a, R a (f a)) : ∀ l : List α, Pairs R l (l.map f)
  | [] => trivial
  | a :: l => ⟨h a, pairs_map f h l⟩

/-- the entry of a file -/
theorem entryOf_spec {signed : Bool} {wd : Name} {n : ListNd} {i : Name × Name} {t : Name} (hw : Plain signed wd) (hn : PlainList signed n)
    (hi : Plain signed i.1) (h : entryOf signed wd n i = some t) :
    ∃ e, IsEntry n i e ∧ EntryOK signed e ∧ t = body signed wd e [',', '\n'] := by
  unfold entryOf at h
  cases ho : Verif.Dirs.objectName n.cfg i.1 i.2 with
  | none => simp [ho] at h
  | some o =>
    simp only [ho, Option.some.injEq] at h
    have hop := objectName_plain hn hi ho
    obtain ⟨ha1, ha2⟩ := args_eq hn.options
    refine ⟨⟨i.1, o, n.compiler :: n.options'.map (argFor i.1 o)⟩, ⟨rfl, ho, _, rfl, pairs_map _ (argFor_spec _ _) _⟩,
      ⟨hi, hop, ?_, by simp⟩, ?_⟩
    · intro a ha
      rcases List.mem_cons.1 ha with rfl | ha
      · exact hn.compiler
      · obtain ⟨b, hb, rfl⟩ := List.mem_map.1 ha
        exact argFor_plain (ha2 b hb) hi hop
    · rw [← h, escape_plain hw, escape_plain hi, escape_plain hop, escape_plain hn.compiler, ha1]
      refine entry_eq signed wd ⟨i.1, o, n.compiler :: n.options'.map (argFor i.1 o)⟩ n.compiler (n.options'.map (argFor i.1 o)) _ rfl ?_
      rw [List.map_map, List.map_map]
      apply List.map_congr_left
      intro a ha
      exact argFor_esc (ha2 a ha)

theorem texts_spec {α : Type} {f : α → Option Name} {R : α → List Entry → Prop} {g : List Entry → Name}
    (hg : ∀ a b, g (a ++ b) = g a ++ g b) (hg0 : g [] = []) {P : Entry → Prop}  :
    ∀ {l : List α} {t : Name}, (∀ a ∈ l, ∀ t, f a = some t → ∃ es, R a es ∧ (∀ e ∈ es, P e) ∧ t = g es) → texts f l = some t →
      ∃ ess, Pairs R l ess ∧ (∀ e ∈ ess.flatten, P e) ∧ t = g ess.flatten
  | [], t, _, h => by
    simp only [texts, Option.some.injEq] at h
    exact ⟨[], trivial, by simp, by simp [← h, hg0]⟩
  | a :: l, t, hf, h => by
    simp only [texts] at h
    cases h1 : f a with
    | none => simp [h1] at h
    | some x =>
      cases h2 : texts f l with
      | none => simp [h1, h2] at h
      | some y =>
        simp only [h1, h2, Option.some.injEq] at h
        obtain ⟨es, r1, p1, rfl⟩ := hf a (by simp) x h1
        obtain ⟨ess, r2, p2, rfl⟩ := texts_spec (l := l) hg hg0 (fun b hb => hf b (by simp [hb])) h2
        refine ⟨es :: ess, ⟨r1, r2⟩, ?_, ?_⟩
        · intro e he
          simp only [List.flatten_cons, List.mem_append] at he
          rcases he with he | he
          · exact p1 e he
          · exact p2 e he
        · simp [← h, hg]

/-- all entries with commas -/
def full (signed : Bool) (wd : Name) (es : List Entry) : Name := es.flatMap fun e => body signed wd e [',', '\n']

theorem full_append (signed : Bool) (wd : Name) (a b : List Entry) : full signed wd (a ++ b) = full signed wd a ++ full signed wd b := by
  simp [full]

/-- what the entries of an object list are -/
def ListEntries (n : ListNd) (es : List Entry) : Prop := Pairs (IsEntry n) n.sources es

theorem enumerate_leaves : ∀ {u : Bool} {s : Srcs} {l : Ins}, enumerate u s = some l → l = leaves s
  | u, .nil, l, h => by simp [enumerate] at h; simp [h, leaves]
  | u, .cons (.dir p fs) s, l, h => by
    simp only [enumerate] at h
    cases hs : enumerate u s with
    | none => simp [hs, join] at h
    | some x => simp only [hs, join, Option.some.injEq] at h; rw [← h, enumerate_leaves hs]; rfl
  | u, .cons (.unity d) s, l, h => by
    simp only [enumerate] at h
    split at h
    · cases h
    · cases hd : enumerate true d with
      | none => simp [hd, join] at h
      | some y =>
        cases hs : enumerate u s with
        | none => simp [hd, hs, join] at h
        | some x => simp only [hd, hs, join, Option.some.injEq] at h; rw [← h, enumerate_leaves hs, enumerate_leaves hd]; rfl
  | u, .cons (.list fs d) s, l, h => by
    simp only [enumerate] at h
    split at h
    · cases hd : enumerate false d with
      | none => simp [hd, join] at h
      | some y =>
        cases hs : enumerate u s with
        | none => simp [hd, hs, join] at h
        | some x => simp only [hd, hs, join, Option.some.injEq] at h; rw [← h, enumerate_leaves hs, enumerate_leaves hd]; rfl
    · cases h
  | u, .cons (.file n) s, l, h => by
    simp only [enumerate] at h
    cases hs : enumerate u s with
    | none => simp [hs, join] at h
    | some x => simp only [hs, join, Option.some.injEq] at h; rw [← h, enumerate_leaves hs]; rfl

theorem ins_sources {n : ListNd} {l : Ins} (h : n.ins = some l) : l = n.sources := by
  unfold ListNd.ins at h
  cases hs : enumerate false n.inputs with
  | none => simp [hs, join] at h
  | some x => simp only [hs, join, Option.some.injEq] at h; rw [← h, enumerate_leaves hs]; rfl

theorem pairs_singletons {α : Type} {R : α → Entry → Prop} : ∀ {l : List α} {ess : List (List Entry)},
    Pairs (fun a es => ∃ e, R a e ∧ es = [e]) l ess → Pairs R l ess.flatten
  | [], [], _ => trivial
  | a :: l, [] , h => h.elim
  | [], _ :: _, h => h.elim
  | a :: l, es :: ess, h => by
    obtain ⟨⟨e, hr, rfl⟩, h2⟩ := h
    exact ⟨hr, pairs_singletons h2⟩

theorem listText_spec {signed : Bool} {wd : Name} {n : ListNd} {t : Name} (hw : Plain signed wd) (hn : PlainList signed n)
    (h : listText signed wd n = some t) : ∃ es, ListEntries n es ∧ (∀ e ∈ es, EntryOK signed e) ∧ t = full signed wd es := by
  unfold listText at h
  cases hi : n.ins with
  | none => simp [hi] at h
  | some l =>
    simp only [hi] at h
    have hl := ins_sources hi
    subst hl
    obtain ⟨ess, h1, h2, h3⟩ := texts_spec (R := fun i es => ∃ e, IsEntry n i e ∧ es = [e]) (P := EntryOK signed) (full_append signed wd) rfl
      (fun i hi t ht => by
        obtain ⟨e, e1, e2, e3⟩ := entryOf_spec hw hn (hn.files i hi) ht
        exact ⟨[e], ⟨e, e1, rfl⟩, by simpa using e2, by simp [full, e3]⟩) h
    exact ⟨ess.flatten, pairs_singletons h1, h2, h3⟩

/-! ### the last comma -/

theorem full_text {signed : Bool} {wd : Name} : ∀ {es : List Entry}, es ≠ [] → (∀ e ∈ es, e.arguments ≠ []) →
    ∃ x, full signed wd es = x ++ [',', '\n'] ∧ ∀ r, entriesText signed wd es r = x ++ '\n' :: r
  | [], h, _ => absurd rfl h
  | [e], _, h => by
    refine ⟨body signed wd e [], ?_, fun r => ?_⟩
    · simp only [full, List.flatMap_cons, List.flatMap_nil, List.append_nil]
      rw [body_append _ _ _ (h e (by simp))]
    · rw [entriesText, body_append _ _ _ (h e (by simp))]
  | e :: e' :: l, _, h => by
    obtain ⟨x, h1, h2⟩ := full_text (signed := signed) (wd := wd) (es := e' :: l) (by simp) (fun y hy => h y (by simp at hy ⊢; exact .inr hy))
    refine ⟨body signed wd e [',', '\n'] ++ x, ?_, fun r => ?_⟩
    · rw [show full signed wd (e :: e' :: l) = body signed wd e [',', '\n'] ++ full signed wd (e' :: l) from rfl, h1, List.append_assoc]
    · rw [entriesText, h2, body_append _ _ _ (h e (by simp)), body_append signed wd e (h e (by simp)) [',', '\n']]
      · simp
      · simp

theorem removeLastComma_full {signed : Bool} {wd : Name} {es : List Entry} (h : ∀ e ∈ es, e.arguments ≠ []) :
    removeLastComma ("[\n".toList ++ full signed wd es) ++ "]\n".toList = '[' :: '\n' :: entriesText signed wd es [']', '\n'] := by
  have e1 : "[\n".toList = ['[', '\n'] := by decide +kernel
  have e2 : "]\n".toList = [']', '\n'] := by decide +kernel
  rw [e1, e2]
  cases es with
  | nil => simp [full, removeLastComma, dropComma, entriesText]
  | cons e l =>
    obtain ⟨x, h1, h2⟩ := full_text (signed := signed) (wd := wd) (es := e :: l) (by simp) h
    rw [h1, h2]
    unfold removeLastComma
    have hr : (['[', '\n'] ++ (x ++ [',', '\n'])).reverse = '\n' :: ',' :: (x.reverse ++ ['\n', '[']) := by simp
    rw [hr]
    have hd : dropComma ('\n' :: ',' :: (x.reverse ++ ['\n', '['])) = some ('\n' :: (x.reverse ++ ['\n', '['])) := by
      rw [dropComma]
      · simp only [if_neg (show ¬ '\n' = ',' by decide)]
        rw [dropComma]
        · simp
        · simp
      · simp
    rw [hd]
    simp

/-! ### the database -/

/-- the entries of a node -/
def NodeEntries (g : Graph) (n : Nat) (es : List Entry) : Prop :=
  match g[n]?.bind (·.list) with
  | some l => ListEntries l es
  | none => es = []

/-- dependencies and targets are nodes -/
structure Closed (g : Graph) (roots : List Nat) : Prop where
  deps : ∀ (n : Nat) (d : Nd), g[n]? = some d → ∀ m ∈ d.deps, m < g.length
  roots : ∀ r ∈ roots, r < g.length

theorem Closed.succ {g : Graph} {roots : List Nat} (h : Closed g roots) : ∀ n < g.length, ∀ m ∈ succ g n, m < g.length := by
  intro n hn m hm
  unfold Compdb.succ at hm
  cases hg : g[n]? with
  | none => simp [hg] at hm
  | some d => simp only [hg, Option.map_some, Option.getD_some] at hm; exact h.deps n d hg m hm

/-- The database is JSON: an array of the entries of all files of all object lists that the targets depend on, directly or
not, each list once. -/
theorem C96_database_partial {signed : Bool} {wd : Name} {g : Graph} {roots : List Nat} {t : Name} (hg : Closed g roots) (hw : Plain signed wd)
    (hp : ∀ (n : Nat) (d : Nd) (l : ListNd), g[n]? = some d → d.list = some l → PlainList signed l)
    (h : generate signed wd g roots = some t) :
    ∃ (order : List Nat) (ess : List (List Entry)), order.Nodup ∧ (∀ n, n ∈ order ↔ ∃ r ∈ roots, Dfs.Reach (succ g) r n) ∧
      Pairs (NodeEntries g) order ess ∧ parse t = some (.arr (ess.flatten.map (·.json wd))) := by
  obtain ⟨s, hs, h1, h2, _⟩ := Dfs.all_spec hg.succ hg.roots
  unfold generate at h
  rw [hs] at h
  simp only at h
  cases ht : texts (nodeText signed wd g) s.out with
  | none => simp [ht] at h
  | some x =>
    simp only [ht, Option.some.injEq] at h
    obtain ⟨ess, r1, r2, r3⟩ := texts_spec (R := NodeEntries g) (P := EntryOK signed) (full_append signed wd) rfl (fun n _ t hn => by
        unfold nodeText at hn
        unfold NodeEntries
        cases hl : g[n]?.bind (·.list) with
        | none =>
          simp only [hl, Option.some.injEq] at hn
          exact ⟨[], rfl, by simp, by simp [← hn, full]⟩
        | some l =>
          simp only [hl] at hn
          obtain ⟨d, hd, hdl⟩ := Option.bind_eq_some_iff.1 hl
          exact listText_spec hw (hp n d l hd hdl) hn) ht
    refine ⟨s.out, ess, h1, h2, r1, ?_⟩
    rw [← h, r3, removeLastComma_full (fun e he => (r2 e he).some)]
    exact parse_entries hw r2

/-- lists in unities and unities in lists only -/
def Alternates : Bool → Srcs → Prop
  | _, .nil => True
  | u, .cons (.dir _ _) s => Alternates u s
  | u, .cons (.unity d) s => u = false ∧ Alternates true d ∧ Alternates u s
  | u, .cons (.list _ d) s => u = true ∧ Alternates false d ∧ Alternates u s
  | u, .cons (.file _) s => Alternates u s

theorem enumerate_some : ∀ {u : Bool} {s : Srcs}, Alternates u s ↔ ∃ l, enumerate u s = some l
  | u, .nil => by simp [Alternates, enumerate]
  | u, .cons (.dir p fs) s => by
    rw [Alternates, enumerate_some (s := s), enumerate]
    cases enumerate u s <;> simp [join]
  | u, .cons (.unity d) s => by
    rw [Alternates, enumerate_some (s := s), enumerate_some (s := d), enumerate]
    cases u with
    | true => simp
    | false => cases enumerate true d <;> cases enumerate false s <;> simp [join]
  | u, .cons (.list fs d) s => by
    rw [Alternates, enumerate_some (s := s), enumerate_some (s := d), enumerate]
    cases u with
    | false => simp
    | true => cases enumerate true s <;> cases enumerate false d <;> simp [join]
  | u, .cons (.file n) s => by
    rw [Alternates, enumerate_some (s := s), enumerate]
    cases enumerate u s <;> simp [join]

theorem texts_some {α : Type} {f : α → Option Name} : ∀ {l : List α}, (∃ t, texts f l = some t) ↔ ∀ a ∈ l, ∃ t, f a = some t
  | [] => by simp [texts]
  | a :: l => by
    have ih := texts_some (f := f) (l := l)
    simp only [List.mem_cons, forall_eq_or_imp, ← ih, texts]
    cases f a <;> cases texts f l <;> simp

/-- There is a database exactly if no object list has another one among its inputs directly (and no unity a unity), and the
objects have names. -/
theorem C96_defined {signed : Bool} {wd : Name} {g : Graph} {roots : List Nat} (hg : Closed g roots) :
    (∃ t, generate signed wd g roots = some t) ↔
      ∀ (r n : Nat) (d : Nd) (l : ListNd), r ∈ roots → Dfs.Reach (succ g) r n → g[n]? = some d → d.list = some l →
        Alternates false l.inputs ∧ ∀ i ∈ l.sources, ∃ o, Verif.Dirs.objectName l.cfg i.1 i.2 = some o := by
  obtain ⟨s, hs, h1, h2, _⟩ := Dfs.all_spec hg.succ hg.roots
  unfold generate
  rw [hs]
  simp only
  have hl : ∀ l : ListNd, (∃ t, listText signed wd l = some t) ↔
      Alternates false l.inputs ∧ ∀ i ∈ l.sources, ∃ o, Verif.Dirs.objectName l.cfg i.1 i.2 = some o := by
    intro l
    rw [enumerate_some]
    unfold listText
    cases hi : l.ins with
    | none =>
      simp only [ListNd.ins] at hi
      cases he : enumerate false l.inputs with
      | none => simp
      | some x => simp [he, join] at hi
    | some x =>
      have hx := ins_sources hi
      subst hx
      simp only [texts_some]
      have : ∃ y, enumerate false l.inputs = some y := by
        simp only [ListNd.ins] at hi
        cases he : enumerate false l.inputs with
        | none => simp [he, join] at hi
        | some y => exact ⟨y, rfl⟩
      simp only [this, true_and]
      constructor
      · intro h i hi
        obtain ⟨t, ht⟩ := h i hi
        unfold entryOf at ht
        cases ho : Verif.Dirs.objectName l.cfg i.1 i.2 with
        | none => simp [ho] at ht
        | some o => exact ⟨o, rfl⟩
      · intro h i hi
        obtain ⟨o, ho⟩ := h i hi
        unfold entryOf
        rw [ho]
        exact ⟨_, rfl⟩
  have hn : ∀ n, (∃ t, nodeText signed wd g n = some t) ↔ ∀ (d : Nd) (l : ListNd), g[n]? = some d → d.list = some l →
      Alternates false l.inputs ∧ ∀ i ∈ l.sources, ∃ o, Verif.Dirs.objectName l.cfg i.1 i.2 = some o := by
    intro n
    unfold nodeText
    cases hb : g[n]?.bind (·.list) with
    | none =>
      simp only [Option.some.injEq, exists_eq', true_iff]
      intro d l hd hdl
      rw [hd] at hb
      simp [hdl] at hb
    | some l =>
      simp only [hl]
      obtain ⟨d, hd, hdl⟩ := Option.bind_eq_some_iff.1 hb
      constructor
      · intro h d' l' hd' hl'
        rw [hd] at hd'
        cases hd'
        rw [hdl] at hl'
        cases hl'
        exact h
      · intro h
        exact h d l hd hdl
  have : (∃ t, texts (nodeText signed wd g) s.out = some t) ↔ ∀ n ∈ s.out, ∃ t, nodeText signed wd g n = some t := texts_some
  constructor
  · rintro ⟨t, ht⟩ r n d l hr hrn hd hdl
    have hx : ∃ t, texts (nodeText signed wd g) s.out = some t := by
      cases hx : texts (nodeText signed wd g) s.out with
      | none => simp [hx] at ht
      | some x => exact ⟨x, rfl⟩
    exact (hn n).1 (this.1 hx n ((h2 n).2 ⟨r, hr, hrn⟩)) d l hd hdl
  · intro h
    obtain ⟨t, ht⟩ := this.2 (fun n hm => (hn n).2 (fun d l hd hdl => by
      obtain ⟨r, hr, hrn⟩ := (h2 n).1 hm
      exact h r n d l hr hrn hd hdl))
    rw [ht]
    exact ⟨_, rfl⟩

end Verif.Compdb
