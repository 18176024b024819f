/- C107: copies, text files and lists of dependencies hold what was asked for. -/
import Verif.Copy.Files

namespace Verif.Copy
open Unity (Name)

/-! ### Which copies are made -/

/-- One copy of each file of the sources in their order, named by the rule for destinations.  The graph only gets
the files not known before and the copies, and names are still different. -/
theorem C107_copies {clean : Name → Name} {linux : Bool} {sl : Char} {dest base : Name} {g g' : Graph}
    {srcs : List Name} {ns cs : List Nat} (w : WF g)
    (h : commit clean linux sl dest base g srcs = .ok (g', ns, cs)) :
    (∀ s ∈ srcs, ¬ Folder s) ∧ (1 < ns.length → Folder dest) ∧ WF g' ∧
    ∃ g2 new, SourcesAre clean g g2 srcs ns ∧ g' = g2 ++ new ∧ new.length = ns.length ∧
      cs = List.range' g2.length ns.length ∧
      ∀ (k i : Nat), ns[k]? = some i → ∃ src kd dst, g2[i]? = some (src, kd) ∧ kd.isAFile = true ∧
        DestIs linux sl dest base src dst ∧ new[k]? = some (clean dst, .copy i) := by
  unfold commit at h
  split at h
  · exact nomatch h
  · rename_i hp
    split at h
    · exact nomatch h
    · rename_i g2 ns' hs
      split at h
      · exact nomatch h
      · rename_i hd
        split at h
        · exact nomatch h
        · rename_i g3 cs' hc
          have h := Except.ok.inj h
          injection h with h1 h2; injection h2 with h2 h3
          subst h1; subst h2; subst h3
          obtain ⟨w2, hS⟩ := sources_ok w hs
          obtain ⟨w3, new, e1, e2, e3, e4⟩ := copies_ok w2 hc
          refine ⟨fun s hs' hf => hp (List.any_eq_true.2 ⟨s, hs', (isFolder_iff s).2 hf⟩), fun hn => ?_, w3,
            g2, new, hS, e1, e2, e3, fun k i hi => ?_⟩
          · by_cases hf : isFolder dest = true
            · exact (isFolder_iff _).1 hf
            · exact absurd ⟨hn, by simpa using hf⟩ hd
          · obtain ⟨_, js, ls, j1, j2, j3, j4⟩ := hS
            have hm := List.mem_of_getElem? hi
            rw [j3] at hm
            obtain ⟨l, hl, hm⟩ := List.mem_flatten.1 hm
            obtain ⟨q, hq⟩ := List.mem_iff_getElem?.1 hl
            have hq' : q < ls.length := (List.getElem?_eq_some_iff.1 hq).1
            obtain ⟨hF, _⟩ := j4 q _ _ l (List.getElem?_eq_getElem (by omega)) (List.getElem?_eq_getElem (by omega)) hq
            obtain ⟨src, kd, hg, hk⟩ := hF.lt i hm
            exact ⟨src, kd, _, hg, hk, destOf_spec linux sl dest base src, e4 k i src kd hi hg⟩

/-- The destination of a copy is no other node: not its source, no other destination, nothing known before. -/
theorem C107_apart {clean : Name → Name} {linux : Bool} {sl : Char} {dest base : Name} {g g' : Graph}
    {srcs : List Name} {ns cs : List Nat} (w : WF g)
    (h : commit clean linux sl dest base g srcs = .ok (g', ns, cs)) {c : Nat} (hc : c ∈ cs) {n : Name} {kd : Kind}
    (hn : g'[c]? = some (n, kd)) : (∀ i, i ≠ c → ¬ Called g' i n) ∧ (∀ i, ¬ Called g i n) ∧ ∀ i ∈ ns, i < c := by
  obtain ⟨_, _, w', g2, new, ⟨⟨new2, e0, _⟩, js, ls, j1, j2, j3, j4⟩, e1, e2, e3, _⟩ := C107_copies w h
  have hc' : Called g' c n := ⟨n, kd, hn, rfl⟩
  rw [e3, List.mem_range'] at hc
  obtain ⟨k, hk, rfl⟩ := hc
  refine ⟨fun i hi hca => hi (w'.names _ _ n hca hc'), fun i hca => ?_, fun i hi => ?_⟩
  · have hl := hca.lt
    have := w'.names _ _ n (by rw [e1, e0]; exact (hca.append _).append _ : Called g' i n) hc'
    rw [e0] at this
    simp at this
    omega
  · rw [j3] at hi
    obtain ⟨l, hl, hm⟩ := List.mem_flatten.1 hi
    obtain ⟨q, hq⟩ := List.mem_iff_getElem?.1 hl
    have hq' : q < ls.length := (List.getElem?_eq_some_iff.1 hq).1
    obtain ⟨hF, _⟩ := j4 q _ _ l (List.getElem?_eq_getElem (by omega)) (List.getElem?_eq_getElem (by omega)) hq
    obtain ⟨_, _, hg, _⟩ := hF.lt i hm
    have := (List.getElem?_eq_some_iff.1 hg).1
    omega

/-- Why nothing is copied: a source that is a folder, one that is no file and no alias, several files with one
destination, or a destination that is a node already or that of a file before. -/
theorem C107_refused {clean : Name → Name} {linux : Bool} {sl : Char} {dest base : Name} {g : Graph}
    {srcs : List Name} {e : Err} (w : WF g) (h : commit clean linux sl dest base g srcs = .error e) :
    (e = .path ∧ ∃ s ∈ srcs, Folder s) ∨
    (e = .unsupported ∧ ∃ s ∈ srcs, ∃ i j n, (Called g i s ∨ Called g i (clean s)) ∧ Reach g i j ∧
      g[j]? = some (n, .other false)) ∨
    ∃ g2 ns, SourcesAre clean g g2 srcs ns ∧
      ((e = .slash ∧ 1 < ns.length ∧ ¬ Folder dest) ∨
       (e = .defined ∧ ∃ (k i : Nat) (src : Name) (kd : Kind) (dst : Name), ns[k]? = some i ∧
          g2[i]? = some (src, kd) ∧ DestIs linux sl dest base src dst ∧
          ((∃ j, Called g2 j dst ∨ Called g2 j (clean dst)) ∨
           ∃ (k' i' : Nat) (src' : Name) (kd' : Kind) (dst' : Name), k' < k ∧ ns[k']? = some i' ∧
             g2[i']? = some (src', kd') ∧ DestIs linux sl dest base src' dst' ∧
             (Dirs.Same false (clean dst') dst ∨ Dirs.Same false (clean dst') (clean dst))))) := by
  unfold commit at h
  split at h
  · rename_i hp
    obtain ⟨s, hs, hf⟩ := List.any_eq_true.1 hp
    exact .inl ⟨(Except.error.inj h).symm, s, hs, (isFolder_iff s).1 hf⟩
  · split at h
    · rename_i e' he
      rw [← Except.error.inj h]
      exact .inr (.inl (sources_error w he))
    · rename_i g2 ns hs
      obtain ⟨w2, hS⟩ := sources_ok w hs
      refine .inr (.inr ⟨g2, ns, hS, ?_⟩)
      split at h
      · rename_i hd
        exact .inl ⟨(Except.error.inj h).symm, hd.1, fun hf => by
          have := (isFolder_iff _).2 hf
          rw [hd.2] at this; exact nomatch this⟩
      · split at h
        · rename_i e' he
          have hlt : ∀ i ∈ ns, i < g2.length := by
            intro i hi
            obtain ⟨_, js, ls, j1, j2, j3, j4⟩ := hS
            rw [j3] at hi
            obtain ⟨l, hl, hm⟩ := List.mem_flatten.1 hi
            obtain ⟨q, hq⟩ := List.mem_iff_getElem?.1 hl
            have hq' : q < ls.length := (List.getElem?_eq_some_iff.1 hq).1
            obtain ⟨hF, _⟩ := j4 q _ _ l (List.getElem?_eq_getElem (by omega))
              (List.getElem?_eq_getElem (by omega)) hq
            obtain ⟨_, _, hg, _⟩ := hF.lt i hm
            exact (List.getElem?_eq_some_iff.1 hg).1
          obtain ⟨p, k, i, src, kd, h1, h2, h3⟩ := copies_error hlt he
          rw [← Except.error.inj h]
          refine .inr ⟨p, k, i, src, kd, _, h1, h2, destOf_spec linux sl dest base src, h3.imp id ?_⟩
          rintro ⟨k', i', s', kd', q1, q2, q3, q4⟩
          exact ⟨k', i', s', kd', _, q1, q2, q3, destOf_spec linux sl dest base s', q4⟩
        · exact nomatch h

/-! ### What a copy does -/

/-- A copy that succeeds has the bytes of its source, can be written, is not older than it, and its stamp is its
time.  Missing: `sendfile` that is unavailable only after it has copied a part, see `C107_copied_false`. -/
theorem C107_copied_partial {sys : Sys} {d d' : Disk} {src dst : Name} {c : Bytes} {ts t : Nat} {ro : Bool}
    (hs : ∀ pre rest, sys.sends = pre ++ Send.fail true :: rest → pre = [])
    (hsrc : d src = some (.regular c ts ro)) (h : buildCopy sys d src dst = some (d', some t)) :
    d' dst = some (.regular c t false) ∧ ts ≤ t ∧ ∀ n, n ≠ dst → d' n = d n := by
  unfold buildCopy at h
  split at h
  · exact nomatch h
  · injection h with h; injection h with _ h; exact nomatch h
  · rename_i d1 hf
    unfold fileCopy at hf
    split at hf
    · rename_i he; rw [hsrc] at he; exact nomatch he
    · rename_i he _; rw [hsrc] at he; exact nomatch he
    · rename_i he _; rw [hsrc] at he; exact nomatch he
    · exact nomatch hf
    · rename_i content ts' ro' he _
      rw [hsrc] at he
      injection he with he; injection he with e1 e2 e3
      subst e1; subst e2; subst e3
      split at hf
      · exact nomatch hf
      · rename_i hne
        split at hf
        · injection hf with hf; injection hf with _ hf; exact nomatch hf
        · split at hf
          · injection hf with hf; injection hf with _ hf; exact nomatch hf
          · obtain ⟨⟨b, ok⟩, hb, hf⟩ := Option.map_eq_some_iff.1 hf
            injection hf with h1 h2
            dsimp only at h1 h2
            subst h2
            have hbc : b = c := copyBytes_spec hs hb
            subst hbc
            have hd1s : d1 src = some (.regular b ts ro) := by rw [← h1]; simp [Disk.put, hne, hsrc]
            have hd1d : d1 dst = some (.regular b sys.now ro) := by rw [← h1]; simp [Disk.put]
            have hd1o : ∀ n, n ≠ dst → d1 n = d n := fun n hn => by rw [← h1]; simp [Disk.put, hn]
            unfold finish at h
            rw [hd1s, hd1d] at h
            dsimp only at h
            split at h
            · injection h with h; injection h with _ h; exact nomatch h
            · split at h
              · split at h
                · injection h with h; injection h with _ h; exact nomatch h
                · injection h with h; injection h with h h'; injection h' with h'
                  rw [← h, ← h']
                  exact ⟨by simp [Disk.put], Nat.le_refl _, fun n hn => by simp [Disk.put, hn, hd1o n hn]⟩
              · injection h with h; injection h with h h'; injection h' with h'
                rw [← h, ← h']
                exact ⟨by simp [Disk.put], by omega, fun n hn => by simp [Disk.put, hn, hd1o n hn]⟩

/-- Whatever happens, no other path is touched. -/
theorem C107_only_there {sys : Sys} {d d' : Disk} {src dst : Name} {r : Option Nat}
    (h : buildCopy sys d src dst = some (d', r)) : ∀ n, n ≠ dst → d' n = d n := by
  have hcopy : ∀ {d1 : Disk} {ok : Bool}, fileCopy sys d src dst = some (d1, ok) → ∀ n, n ≠ dst → d1 n = d n := by
    intro d1 ok hf n hn
    unfold fileCopy at hf
    split at hf
    · exact nomatch hf
    · injection hf with hf; injection hf with h1 _; rw [← h1]
    · injection hf with hf; injection hf with h1 _; rw [← h1]; simp [Disk.put, hn]
    · exact nomatch hf
    · split at hf
      · exact nomatch hf
      · split at hf
        · injection hf with hf; injection hf with h1 _; rw [← h1]
        · split at hf
          · injection hf with hf; injection hf with h1 _; rw [← h1]; simp [Disk.put, hn]
          · obtain ⟨_, _, hf⟩ := Option.map_eq_some_iff.1 hf
            injection hf with h1 _; rw [← h1]; simp [Disk.put, hn]
  intro n hn
  unfold buildCopy at h
  split at h
  · exact nomatch h
  · rename_i d1 hf
    injection h with h; injection h with h _
    rw [← h]; exact hcopy hf n hn
  · rename_i d1 hf
    rw [← hcopy hf n hn]
    unfold finish at h
    split at h
    · dsimp only at h
      split at h
      · injection h with h; injection h with h _; rw [← h]
      · split at h
        · split at h
          · injection h with h; injection h with h _; rw [← h]; simp [Disk.put, hn]
          · injection h with h; injection h with h _; rw [← h]; simp [Disk.put, hn]
        · injection h with h; injection h with h _; rw [← h]; simp [Disk.put, hn]
    · exact nomatch h

/-- The copy of a symbolic link is a link to the same, if there was nothing yet. -/
theorem C107_link (sys : Sys) (d : Disk) {src dst t : Name} (hs : d src = some (.link t)) (hd : d dst = none) :
    ∃ d', fileCopy sys d src dst = some (d', true) ∧ d' dst = some (.link t) ∧ ∀ n, n ≠ dst → d' n = d n :=
  ⟨d.put dst (.link t), by simp [fileCopy, hs, hd], by simp [Disk.put], fun n hn => by simp [Disk.put, hn]⟩

/-! ### Text files -/

/-- The file is the strings, each with the end of a line of the platform. -/
theorem C107_text (win : Bool) (ss : List Name) :
    textFile win ss = (ss.map fun s => s ++ if win = true then ['\r', '\n'] else ['\n']).flatten := by
  induction ss with
  | nil => rfl
  | cons s ss ih =>
      rw [textFile, ih, List.map_cons, List.flatten_cons]
      rfl

/-- Strings of one line each can be read back from the file. -/
theorem C107_text_read (win : Bool) : ∀ (ss ts : List Name), (∀ s ∈ ss, '\n' ∉ s) → (∀ s ∈ ts, '\n' ∉ s) →
    textFile win ss = textFile win ts → ss = ts
  | [], [], _, _, _ => rfl
  | [], t :: ts, _, _, h => by cases win <;> simp [textFile, newline] at h
  | s :: ss, [], _, _, h => by cases win <;> simp [textFile, newline] at h
  | s :: ss, t :: ts, h1, h2, h => by
      have hs := h1 s (.head _)
      have ht := h2 t (.head _)
      have key : s = t ∧ textFile win ss = textFile win ts := by
        cases win
        · simp [textFile, newline] at h
          exact split_at_newline hs ht h
        · simp [textFile, newline] at h
          have := split_at_newline (a := s ++ ['\r']) (b := t ++ ['\r']) (x := textFile true ss)
            (y := textFile true ts) (by simp [hs]) (by simp [ht]) (by simpa using h)
          exact ⟨List.append_cancel_right this.1, this.2⟩
      rw [key.1, C107_text_read win ss ts (fun x hx => h1 x (.tail _ hx)) (fun x hx => h2 x (.tail _ hx)) key.2]

/-! ### Lists of dependencies -/

/-- The lines are the files the dependencies of the sources depend on, as far as a pattern describes them. -/
theorem C107_listed {sort : List Name → List Name} (hsort : ∀ l, (sort l).Perm l) (linux : Bool)
    (patterns : List Name) (g : Nat → Node) (srcs : List Dep) (n : Name) :
    n ∈ listLines sort linux patterns g srcs ↔
      (∃ f, Below g srcs f ∧ (g f).name = n) ∧ (patterns = [] ∨ ∃ p ∈ patterns, Dirs.Describes linux p n) := by
  have hw : ∀ m, matchesAny linux patterns m = true ↔ patterns = [] ∨ ∃ p ∈ patterns, Dirs.Describes linux p m := by
    intro m
    unfold matchesAny
    rw [Bool.or_eq_true, List.isEmpty_iff, List.any_eq_true]
    simp only [Dirs.wildcard_iff]
  have hu : n ∈ listLines sort linux patterns g srcs ↔
      n ∈ (ofSources g (matchesAny linux patterns) [] srcs).map fun i => (g i).name := by
    unfold listLines
    rw [← (hsort ((ofSources g (matchesAny linux patterns) [] srcs).map fun i => (g i).name)).mem_iff]
    exact ⟨(mem_unrepeat n _ none).1, fun h => ((mem_unrepeat n _ none).2 h).resolve_right (by simp)⟩
  rw [hu, List.mem_map]
  constructor
  · rintro ⟨f, hf, rfl⟩
    rw [mem_ofSources] at hf
    have hf := hf.resolve_left (by simp)
    exact ⟨⟨f, hf.1, rfl⟩, (hw _).1 hf.2⟩
  · rintro ⟨⟨f, hf, rfl⟩, hp⟩
    exact ⟨f, by rw [mem_ofSources]; exact .inr ⟨hf, (hw _).2 hp⟩, rfl⟩

/-- They are in order, and each is there once. -/
theorem C107_in_order {sort : List Name → List Name} {le : Name → Name → Prop} (hsort : ∀ l, (sort l).Perm l)
    (hord : ∀ l, (sort l).Pairwise le) (linux : Bool) (patterns : List Name) (g : Nat → Node) (srcs : List Dep)
    (hanti : ∀ i j, le (g i).name (g j).name → le (g j).name (g i).name → (g i).name = (g j).name) :
    (listLines sort linux patterns g srcs).Pairwise fun a b => le a b ∧ a ≠ b := by
  refine (unrepeat_sorted le _ none ?_ (hord _) (fun q h => nomatch h)).1
  intro a ha b hb
  simp only [Option.toList_none, List.nil_append, (hsort _).mem_iff, List.mem_map] at ha hb
  obtain ⟨i, _, rfl⟩ := ha
  obtain ⟨j, _, rfl⟩ := hb
  exact hanti i j

/-- A file below is asked for once per node, however often it is reached. -/
theorem C107_each_node_once (g : Nat → Node) (wanted : Name → Bool) (srcs : List Dep) :
    (ofSources g wanted [] srcs).Nodup := nodup_ofSources g wanted srcs [] List.nodup_nil

end Verif.Copy
