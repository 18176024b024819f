import Verif.Ext.Model
/-!
C128: external projects.
-/
namespace Verif.Ext

/-- `p` occurs here for the first time: `t` is `a`, then `p` (in any case of letters), then `b` -/
structure First (p t a b : Text) : Prop where
  split : ∃ q, t = a ++ q ++ b ∧ q.map lower = p ∧ ¬ p <:+: (a ++ q.dropLast).map lower

/-- braces around a text, where they are missing -/
structure Braced (g r : Text) : Prop where
  first : r.head? = some '{'
  last : r.getLast? = some '}'
  cases : r = g ∨ r = '{' :: g ∨ r = g ++ ['}'] ∨ r = '{' :: (g ++ ['}'])

theorem findI_none {pat : Text} : ∀ {t : Text}, findI pat t = none ↔ ¬ pat <:+: t.map lower
  | [] => by
    by_cases h : pat = []
    · simp [findI, startsI, h]
    · cases pat with
      | nil => exact absurd rfl h
      | cons x l => simp [findI, startsI]
  | c :: t => by
    rw [findI, List.map_cons, List.infix_cons_iff]
    by_cases h : startsI pat (c :: t) = true
    · rw [if_pos h]
      simp only [reduceCtorEq, false_iff, Decidable.not_not]
      exact .inl (List.isPrefixOf_iff_prefix.1 h)
    · rw [if_neg h, Option.map_eq_none_iff, findI_none]
      constructor
      · rintro h1 (h2 | h2)
        · exact h (List.isPrefixOf_iff_prefix.2 h2)
        · exact h1 h2
      · exact fun h1 h2 => h1 (.inr h2)

theorem findI_first {p : Text} (hp : p ≠ []) : ∀ {t a b : Text}, First p t a b → findI p t = some a.length := by
  intro t a
  induction a generalizing t with
  | nil =>
    rintro b ⟨q, rfl, hq, _⟩
    have hs : startsI p ([] ++ q ++ b) = true := by
      rw [startsI, List.isPrefixOf_iff_prefix, List.nil_append, List.map_append, hq]
      exact List.prefix_append _ _
    revert hs
    generalize hx : [] ++ q ++ b = x
    intro hs
    cases x with
    | nil => rw [findI, if_pos hs]; rfl
    | cons c x => rw [findI, if_pos hs]; rfl
  | cons c a ih =>
    rintro b ⟨q, rfl, hq, hn⟩
    have hs : startsI p (c :: a ++ q ++ b) ≠ true := by
      intro hs
      rw [startsI, List.isPrefixOf_iff_prefix] at hs
      have hlen : p.length = q.length := by rw [← hq, List.length_map]
      have hq0 : q ≠ [] := by intro e; subst e; exact hp hq.symm
      have e : (c :: a ++ q ++ b).map lower = (c :: a ++ q.dropLast).map lower ++ ([q.getLast hq0] ++ b).map lower := by
        rw [← List.map_append]
        congr 1
        conv => lhs; rw [← List.dropLast_concat_getLast hq0]
        simp
      rw [e] at hs
      have hle : p.length ≤ ((c :: a ++ q.dropLast).map lower).length := by
        simp only [List.length_map, List.length_append, List.length_cons, List.length_dropLast]
        omega
      exact hn (List.prefix_of_prefix_length_le hs (List.prefix_append _ _) hle).isInfix
    rw [List.cons_append, List.cons_append] at hs ⊢
    rw [findI, if_neg hs, ih ⟨q, rfl, hq, fun h => hn ?_⟩]
    · simp
    · rw [List.cons_append, List.map_cons]
      exact h.trans (List.suffix_cons _ _).isInfix

theorem brace_braced (g : Text) : Braced g (brace g) := by
  unfold brace
  by_cases h1 : g.head? = some '{'
  · simp only [h1, if_true]
    by_cases h2 : g.getLast? = some '}'
    · rw [if_pos h2]; exact ⟨h1, h2, .inl rfl⟩
    · rw [if_neg h2]
      cases g with
      | nil => simp at h1
      | cons x g => exact ⟨by simpa using h1, by rw [List.getLast?_append]; rfl, .inr (.inr (.inl rfl))⟩
  · simp only [h1, if_false]
    by_cases h2 : ('{' :: g).getLast? = some '}'
    · rw [if_pos h2]; exact ⟨rfl, h2, .inr (.inl rfl)⟩
    · rw [if_neg h2]; exact ⟨rfl, by rw [List.getLast?_append]; rfl, .inr (.inr (.inr rfl))⟩

theorem copyConfigs_guid (s : Ext) : (copyConfigs s).guid = s.guid := rfl

theorem askModule_guid {m : Module} {s s' : Ext} (h : askModule m s = .ok s') : s'.guid = s.guid := by
  unfold askModule at h
  split at h
  · cases h; rfl
  · split at h
    · split at h
      · cases h; rfl
      · cases h
    · cases h; rfl

theorem readGuid_text {f : File} {s : Ext} {t a g b : Text} (ht : f.text = some t) (ho : ∃ q, t = a ++ q ++ g ++ b ∧ First openTag t a (g ++ b) ∧ q.length = 13)
    {post : Text} (hc : ∃ q, First closeTag t (a ++ q ++ g) post ∧ q.length = 13) : readGuid f s = .ok { s with guid := brace g } := by
  obtain ⟨q, e, ho, hq⟩ := ho
  obtain ⟨q', hc, hq'⟩ := hc
  have h1 := findI_first (by decide) ho
  have h2 := findI_first (by decide) hc
  unfold readGuid
  simp only [ht, h1, h2]
  have hl : (a ++ q' ++ g).length = a.length + 13 + g.length := by simp [hq', Nat.add_assoc]
  rw [hl, if_neg (by omega)]
  have : (t.drop (a.length + 13)).take (a.length + 13 + g.length - (a.length + 13)) = g := by
    rw [e, Nat.add_sub_cancel_left, List.append_assoc (a ++ q) g b]
    have : (a ++ q).length = a.length + 13 := by simp [hq]
    rw [← this, List.drop_left, List.take_left]
  rw [this]

/-- C128: without an identifier in the build file, the first build takes what is between the tags of the project file, with braces. `t` is the text of
the file: `a`, the first open tag, `g`, the first close tag, `b`. -/
theorem C128_guid (m : Module) (s s' : Ext) (time : Nat) (a o g c b : Text) (hs : s.guid = []) (hstamp : s.stamp ≠ time)
    (ho : o.map lower = openTag) (hc : c.map lower = closeTag) (hof : ¬ openTag <:+: (a ++ o.dropLast).map lower)
    (hcf : ¬ closeTag <:+: (a ++ o ++ g ++ c.dropLast).map lower)
    (h : build (some ⟨time, some (a ++ o ++ g ++ c ++ b)⟩) m s = .ok s') : Braced g s'.guid := by
  have hol : o.length = 13 := by rw [← List.length_map (f := lower), ho]; rfl
  have hr : readGuid ⟨time, some (a ++ o ++ g ++ c ++ b)⟩ s = .ok { s with guid := brace g } :=
    readGuid_text (a := a) (g := g) (b := c ++ b) (post := b) rfl ⟨o, by simp, ⟨o, by simp, ho, hof⟩, hol⟩ ⟨o, ⟨c, rfl, hc, hcf⟩, hol⟩
  unfold build at h
  rw [if_pos (by simp [hs])] at h
  simp only [if_neg hstamp, hs, List.isEmpty_nil, if_true, hr] at h
  split at h
  · next s2 h2 =>
    cases h
    have := askModule_guid h2
    show Braced g (copyConfigs s2).guid
    rw [copyConfigs_guid, this]
    exact brace_braced g
  · next r hr => cases r <;> simp_all

/-- C128: where no module is needed, it is a success. -/
theorem C128_ok (s : Ext) (time : Nat) (a o g c b : Text) (hs : s.guid = []) (hstamp : s.stamp ≠ time)
    (ho : o.map lower = openTag) (hc : c.map lower = closeTag) (hof : ¬ openTag <:+: (a ++ o.dropLast).map lower)
    (hcf : ¬ closeTag <:+: (a ++ o ++ g ++ c.dropLast).map lower) :
    ∃ s', build (some ⟨time, some (a ++ o ++ g ++ c ++ b)⟩) .otherSystem s = .ok s' ∧ s'.stamp = time := by
  have hol : o.length = 13 := by rw [← List.length_map (f := lower), ho]; rfl
  have hr : readGuid ⟨time, some (a ++ o ++ g ++ c ++ b)⟩ s = .ok { s with guid := brace g } :=
    readGuid_text (a := a) (g := g) (b := c ++ b) (post := b) rfl ⟨o, by simp, ⟨o, by simp, ho, hof⟩, hol⟩ ⟨o, ⟨c, rfl, hc, hcf⟩, hol⟩
  unfold build
  rw [if_pos (by simp [hs])]
  simp only [if_neg hstamp, hs, List.isEmpty_nil, if_true, hr, askModule]
  exact ⟨_, rfl, rfl⟩

/-- C128: it fails if the file is missing, cannot be read, or has not both tags. -/
theorem C128_fails (f : Option File) (m : Module) (s : Ext) (hs : s.guid = []) (hf : ∀ fl, f = some fl → s.stamp ≠ fl.time)
    (h : ∀ fl t, f = some fl → fl.text = some t → ¬ openTag <:+: t.map lower ∨ ¬ closeTag <:+: t.map lower) : build f m s = .failed := by
  unfold build
  rw [if_pos (by simp [hs])]
  cases f with
  | none => rfl
  | some fl =>
    have hr : readGuid fl s = .failed := by
      unfold readGuid
      cases ht : fl.text with
      | none => rfl
      | some t =>
        rcases h fl t rfl ht with h | h
        · simp only [findI_none.2 h]
        · simp only [findI_none.2 h]
          cases findI openTag t <;> rfl
    simp only [if_neg (hf fl rfl), hs, List.isEmpty_nil, if_true, hr]

/-- C128: an identifier, once there, is kept, whatever the file has. -/
theorem C128_kept (f : Option File) (m : Module) (s s' : Ext) (hs : s.guid ≠ []) (h : build f m s = .ok s') : s'.guid = s.guid := by
  have hs' : s.guid.isEmpty = false := by cases hg : s.guid <;> simp_all
  unfold build at h
  split at h
  · split at h
    · cases h
    · split at h
      · cases h; rfl
      · simp only [hs', Bool.false_eq_true, if_false] at h
        split at h
        · next s2 h2 =>
          cases h
          show (copyConfigs s2).guid = s.guid
          rw [copyConfigs_guid]
          exact askModule_guid h2
        · next r hr => cases r <;> simp_all
  · cases h; rfl

theorem fold_defaults (ds : List (Text × Text)) (hd : ds.Nodup) : ∀ cs : List (Text × Text),
    ds.foldl (fun cs d => if cs.any fun e => d.2 = e.2 && d.1 = e.1 then cs else cs ++ [d]) cs = cs ++ ds.filter fun d => d ∉ cs := by
  induction ds with
  | nil => simp
  | cons d ds ih =>
    intro cs
    have hd' := List.nodup_cons.1 hd
    have hmem : (cs.any fun e => d.2 = e.2 && d.1 = e.1) = true ↔ d ∈ cs := by
      rw [List.any_eq_true]
      constructor
      · rintro ⟨e, he, h⟩
        simp at h
        have : d = e := Prod.ext h.2 h.1
        exact this ▸ he
      · exact fun h => ⟨d, h, by simp⟩
    rw [List.foldl_cons]
    by_cases h : d ∈ cs
    · rw [if_pos (hmem.2 h), ih hd'.2 cs, List.filter_cons_of_neg (by simpa using h)]
    · rw [if_neg (fun e => h (hmem.1 e)), ih hd'.2, List.filter_cons_of_pos (by simpa using h)]
      have : (ds.filter fun x => x ∉ cs ++ [d]) = ds.filter fun x => x ∉ cs := by
        apply List.filter_congr
        intro x hx
        have : x ≠ d := fun e => hd'.1 (e ▸ hx)
        simp [this]
      rw [this]
      simp

/-- C128: a solution can use the configurations of the build file, in their order, and after them those of the four usual ones that are missing; what
is asked of the module is not changed by this. -/
theorem C128_configs (s : Ext) : (init s).tuples = s.configs ++ (defaults.filter fun d => d ∉ s.configs) ∧ (∀ d ∈ defaults, d ∈ (init s).tuples) ∧
    (s.configs.Nodup → (init s).tuples.Nodup) ∧ ((init s).configs = [] ↔ s.configs = []) := by
  have hf := fold_defaults defaults (by decide) s.configs
  have hne : s.configs ++ (defaults.filter fun d => d ∉ s.configs) ≠ [] := by
    cases hc : s.configs with
    | nil => decide
    | cons x l => simp
  have ht : (copyConfigs s).tuples = s.configs ++ (defaults.filter fun d => d ∉ s.configs) := by
    unfold copyConfigs
    simp only [hf]
    rw [if_neg (by rw [List.isEmpty_iff]; exact hne)]
  have hi : (init s).tuples = s.configs ++ (defaults.filter fun d => d ∉ s.configs) := by
    unfold init
    split <;> exact ht
  refine ⟨hi, ?_, ?_, ?_⟩
  · intro d hd
    rw [hi, List.mem_append, List.mem_filter]
    by_cases h : d ∈ s.configs
    · exact .inl h
    · exact .inr ⟨hd, by simpa using h⟩
  · intro hn
    rw [hi, List.nodup_append]
    refine ⟨hn, List.Nodup.sublist List.filter_sublist (by decide), ?_⟩
    rintro a ha b hb rfl
    have := (List.mem_filter.1 hb).2
    simp at this
    exact this ha
  · unfold init
    split
    · next h => rw [List.isEmpty_iff] at h; simp [h]
    · next h =>
      rw [List.isEmpty_iff] at h
      have : (copyConfigs s).configs = s.configs ++ (defaults.filter fun d => d ∉ s.configs) := hf
      rw [this]
      exact ⟨fun e => absurd e hne, fun e => absurd e h⟩

/-! ### examples -/

/-- a project without anything in the build file -/
def fresh : Ext := init ⟨[], [], [], [], 0⟩

/-- a project file with an identifier of a letter -/
def proj (c : Char) : Text := "<P><ProjectGuid>".toList ++ [c] ++ "</ProjectGuid></P>".toList

def guidOf : Result → Option Text
  | .ok s => some s.guid
  | _ => none

example : guidOf (build (some ⟨5, some (proj 'A')⟩) .otherSystem fresh) = some "{A}".toList := by decide +kernel

/-- the hypotheses of `C128_guid` -/
example : let a := "<P>".toList; let o := "<ProjectGuid>".toList; let g := ['A']; let c := "</ProjectGuid>".toList
    fresh.guid = [] ∧ fresh.stamp ≠ 5 ∧ o.map lower = openTag ∧ c.map lower = closeTag ∧ ¬ openTag <:+: (a ++ o.dropLast).map lower ∧
    ¬ closeTag <:+: (a ++ o ++ g ++ c.dropLast).map lower := by
  refine ⟨rfl, by decide +kernel, by decide +kernel, by decide +kernel, findI_none.1 (by decide +kernel), findI_none.1 (by decide +kernel)⟩

/-- a file without tags: the hypothesis of `C128_fails` -/
example : ¬ openTag <:+: ("<Project/>".toList).map lower := findI_none.1 (by decide +kernel)

/-- `C128_kept`, with an identifier of the build file -/
example : guidOf (build (some ⟨5, some (proj 'A')⟩) .otherSystem { fresh with guid := "{X}".toList }) = some "{X}".toList := by decide +kernel

/-- two configurations, one of them usual -/
example : (init ⟨[], [], [(['x', '6', '4'], ['D', 'e', 'b', 'u', 'g']), (['A'], ['B'])], [], 0⟩).tuples.length = 5 := by decide

/-- C128: the identifier does not follow the file: built, changed and built again, the project has the old one. -/
theorem C128_stale_false : ∃ s1 s2, build (some ⟨5, some (proj 'A')⟩) .otherSystem fresh = .ok s1 ∧ build (some ⟨6, some (proj 'B')⟩) .otherSystem s1 = .ok s2 ∧
    s2.guid = "{A}".toList ∧ s2.stamp = 6 := by
  refine ⟨_, _, rfl, rfl, ?_, rfl⟩
  decide +kernel

/-- C128: with the tags in the wrong order the end of the identifier is before its begin. -/
theorem C128_order_false : build (some ⟨5, some "</ProjectGuid><ProjectGuid>".toList⟩) .otherSystem fresh = .bad := by
  have h1 : findI openTag "</ProjectGuid><ProjectGuid>".toList = some 14 := by decide +kernel
  have h2 : findI closeTag "</ProjectGuid><ProjectGuid>".toList = some 0 := by decide +kernel
  have hr : readGuid ⟨5, some "</ProjectGuid><ProjectGuid>".toList⟩ fresh = .bad := by
    unfold readGuid
    simp only [h1, h2]
    rfl
  unfold build
  rw [if_pos (by decide +kernel)]
  have h3 : fresh.stamp ≠ 5 := by decide +kernel
  have h4 : List.isEmpty fresh.guid = true := by decide +kernel
  simp only [if_neg h3, if_pos h4, hr]

/-- C128: with everything in the build file, or from an earlier build, a file that is missing is not noticed. -/
theorem C128_missing_false (m : Module) (g t : Text) (c : Text × Text) (cs ts : List (Text × Text)) (n : Nat) (hg : g ≠ []) (ht : t ≠ []) :
    build none m ⟨g, t, c :: cs, ts, n⟩ = .ok ⟨g, t, c :: cs, ts, 0⟩ := by
  unfold build
  have h1 : g.isEmpty = false := by cases g <;> simp_all
  have h2 : t.isEmpty = false := by cases t <;> simp_all
  simp [h1, h2, record]

end Verif.Ext
