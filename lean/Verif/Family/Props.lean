import Verif.Family.Proof
/-!
C114: a compiler is taken for what it is.
-/
namespace Verif.Family

/-- A family given by its name, in whatever case, is that one, whatever the executable is called. -/
theorem C114_given {given exe : Text} {s : String} {f : Family} (hm : (s, f) ∈ names) (h : Same given s.toList) : family given exe = some f := by
  rw [same_iff] at h
  have key : ∀ x : String, equalsI given x.toList = decide (s.toList.map lower = x.toList.map lower) := by
    intro x
    rw [Bool.eq_iff_iff, equalsI_iff, decide_eq_true_eq, h]
  simp only [family, key]
  simp only [names, List.mem_cons, List.not_mem_nil, or_false, Prod.mk.injEq] at hm
  rcases hm with ⟨rfl, rfl⟩ | ⟨rfl, rfl⟩ | ⟨rfl, rfl⟩ | ⟨rfl, rfl⟩ | ⟨rfl, rfl⟩ | ⟨rfl, rfl⟩ | ⟨rfl, rfl⟩ | ⟨rfl, rfl⟩ | ⟨rfl, rfl⟩ |
    ⟨rfl, rfl⟩ | ⟨rfl, rfl⟩ | ⟨rfl, rfl⟩ | ⟨rfl, rfl⟩ <;> rfl

/-- Any other name is an error. -/
theorem C114_unknown {given exe : Text} (ha : ¬ Same given "auto".toList) (h : ∀ s f, (s, f) ∈ names → ¬ Same given s.toList) :
    family given exe = none := by
  have key : ∀ x : String, ¬ Same given x.toList → equalsI given x.toList = false := by
    intro x hx
    cases he : equalsI given x.toList with
    | false => rfl
    | true => exact absurd ((same_iff _ _).2 ((equalsI_iff _ _).1 he)) hx
  have k := fun s f hm => key s (h s f hm)
  simp only [family, key _ ha, k "custom" .custom (by decide), k "msvc" .msvc (by decide), k "clang" .clang (by decide),
    k "gcc" .gcc (by decide), k "clang-cl" .clangCl (by decide), k "snc" .snc (by decide), k "codewarrior-wii" .codewarrior (by decide),
    k "greenhills-wiiu" .greenhills (by decide), k "cuda-nvcc" .cuda (by decide), k "qt-rcc" .qtRcc (by decide),
    k "vbcc" .vbcc (by decide), k "orbis-wave-psslc" .orbis (by decide), k "csharp" .csharp (by decide)]
  rfl

private theorem auto {given exe : Text} (h : Same given "auto".toList) : family given exe = detect exe := by
  rw [family]
  exact if_pos ((equalsI_iff _ _).2 ((same_iff _ _).1 h))

/-- The usual compilers are told by the name of their executable, in whatever case and directory. -/
theorem C114_usual {given exe : Text} {s : String} {f : Family} (ha : Same given "auto".toList) (hm : (s, f) ∈ compilers) (h : File exe s) :
    family given exe = some f := by
  rw [auto ha]
  have hn : ∀ p ∈ compilers, '/' ∉ p.1.toList.map lower := by decide +kernel
  obtain ⟨d, hd⟩ := rev_file h (hn _ hm)
  simp only [detect, endsWithI_rev, hd]
  generalize List.isPrefixOf _ (((withoutVersion (slashes exe))).reverse.map lower) = g1
  generalize List.isPrefixOf _ (((withoutVersion (slashes exe))).reverse.map lower) = g2
  simp only [compilers, List.mem_cons, List.not_mem_nil, or_false, Prod.mk.injEq] at hm
  rcases hm with ⟨rfl, rfl⟩ | ⟨rfl, rfl⟩ | ⟨rfl, rfl⟩ | ⟨rfl, rfl⟩ | ⟨rfl, rfl⟩ | ⟨rfl, rfl⟩ | ⟨rfl, rfl⟩ | ⟨rfl, rfl⟩ | ⟨rfl, rfl⟩ |
    ⟨rfl, rfl⟩ | ⟨rfl, rfl⟩ | ⟨rfl, rfl⟩ | ⟨rfl, rfl⟩ | ⟨rfl, rfl⟩ | ⟨rfl, rfl⟩ | ⟨rfl, rfl⟩ | ⟨rfl, rfl⟩ | ⟨rfl, rfl⟩ <;>
    first | rfl | (cases g1 <;> cases g2 <;> rfl)

/-- without a dash there is no version -/
private theorem noVersion {exe : Text} (h : '-' ∉ exe) : withoutVersion (slashes exe) = slashes exe := by
  rw [withoutVersion, if_neg]
  rwa [mem_slashes exe (by decide) (by decide)]

/-- So are the rest, if what stands before the last dash of the path isn't gcc; see `C114_directory_false`. -/
theorem C114_others_partial {given exe : Text} {s : String} {f : Family} (ha : Same given "auto".toList) (hm : (s, f) ∈ others)
    (h : File exe s) (hg : NoGcc exe) : family given exe = some f := by
  rw [auto ha]
  have hn : ∀ p ∈ others, '/' ∉ p.1.toList.map lower := by decide +kernel
  obtain ⟨d, hd⟩ := rev_file h (hn _ hm)
  have hes : ∀ e : Text, endsWith (slashes exe) e = true → (e.map lower).reverse.isPrefixOf ((slashes exe).reverse.map lower) = true := by
    intro e he
    rw [endsWith_rev, List.isPrefixOf_iff_prefix] at he
    rw [List.isPrefixOf_iff_prefix, ← List.map_reverse]
    exact he.map lower
  have hes' : ∀ e : Text, (e.map lower).reverse.isPrefixOf ((slashes exe).reverse.map lower) = false → endsWith (slashes exe) e = false := by
    intro e he
    cases hx : endsWith (slashes exe) e with
    | false => rfl
    | true => rw [hes e hx] at he; exact nomatch he
  rw [hd] at hes'
  have r1 := hes' "rcc.exe".toList
  have r2 := hes' "rcc".toList
  have r3 := hes' "vc.exe".toList
  have r4 := hes' "vc".toList
  by_cases hdash : '-' ∈ exe
  · have hv := noGcc hg hdash
    simp only [detect, hv.1, hv.2]
    simp only [endsWithI_rev, hd]
    simp only [others, List.mem_cons, List.not_mem_nil, or_false, Prod.mk.injEq] at hm
    rcases hm with ⟨rfl, rfl⟩ | ⟨rfl, rfl⟩ | ⟨rfl, rfl⟩ | ⟨rfl, rfl⟩ | ⟨rfl, rfl⟩ | ⟨rfl, rfl⟩ | ⟨rfl, rfl⟩ | ⟨rfl, rfl⟩ | ⟨rfl, rfl⟩ |
      ⟨rfl, rfl⟩ | ⟨rfl, rfl⟩ | ⟨rfl, rfl⟩ | ⟨rfl, rfl⟩ | ⟨rfl, rfl⟩ <;>
      first | rfl | (rw [r1 rfl, r2 rfl, r3 rfl, r4 rfl]; rfl)
  · simp only [detect, noVersion hdash, endsWithI_rev, hd]
    simp only [others, List.mem_cons, List.not_mem_nil, or_false, Prod.mk.injEq] at hm
    rcases hm with ⟨rfl, rfl⟩ | ⟨rfl, rfl⟩ | ⟨rfl, rfl⟩ | ⟨rfl, rfl⟩ | ⟨rfl, rfl⟩ | ⟨rfl, rfl⟩ | ⟨rfl, rfl⟩ | ⟨rfl, rfl⟩ | ⟨rfl, rfl⟩ |
      ⟨rfl, rfl⟩ | ⟨rfl, rfl⟩ | ⟨rfl, rfl⟩ | ⟨rfl, rfl⟩ | ⟨rfl, rfl⟩ <;>
      first | rfl | (rw [r1 rfl, r2 rfl, r3 rfl, r4 rfl]; rfl)

/-- And rcc and vbcc, in lower case only; see `C114_case_false`. -/
theorem C114_lower_partial {given dir : Text} {sep : Char} {s : String} {f : Family} (ha : Same given "auto".toList)
    (hm : (s, f) ∈ lowerOnly) (hs : sep = '/' ∨ sep = '\\') (hg : NoGcc (dir ++ sep :: s.toList)) :
    family given (dir ++ sep :: s.toList) = some f := by
  rw [auto ha]
  have hn : ∀ p ∈ lowerOnly, '/' ∉ p.1.toList.map lower := by decide +kernel
  have hsl := slashes_name (n := s.toList) rfl (hn _ hm)
  have hrev : (slashes (dir ++ sep :: s.toList)).reverse = s.toList.reverse ++ '\\' :: (slashes dir).reverse := by
    have h1 : slashes [sep] = ['\\'] := by rcases hs with h | h <;> rw [h] <;> rfl
    rw [slashes_append, show sep :: s.toList = [sep] ++ s.toList from rfl, slashes_append, h1, hsl]
    simp
  generalize (slashes dir).reverse = d at hrev
  by_cases hdash : '-' ∈ dir ++ sep :: s.toList
  · have hv := noGcc hg hdash
    simp only [detect, hv.1, hv.2]
    simp only [endsWithI_rev, endsWith_rev, hrev]
    simp only [lowerOnly, List.mem_cons, List.not_mem_nil, or_false, Prod.mk.injEq] at hm
    rcases hm with ⟨rfl, rfl⟩ | ⟨rfl, rfl⟩ | ⟨rfl, rfl⟩ | ⟨rfl, rfl⟩ <;> rfl
  · simp only [detect, noVersion hdash, endsWithI_rev, endsWith_rev, hrev]
    simp only [lowerOnly, List.mem_cons, List.not_mem_nil, or_false, Prod.mk.injEq] at hm
    rcases hm with ⟨rfl, rfl⟩ | ⟨rfl, rfl⟩ | ⟨rfl, rfl⟩ | ⟨rfl, rfl⟩ <;> rfl

/-- gcc and g++ followed by a version are gcc, whatever comes before (`x86_64-linux-gnu-gcc-12`). -/
theorem C114_gcc_version {given pre n v : Text} {c : Char} (ha : Same given "auto".toList) (hn : Same n "gcc".toList ∨ Same n "g++".toList)
    (hv : '-' ∉ v) (hc : '0' ≤ c ∧ c ≤ '9') : family given (pre ++ n ++ '-' :: (v ++ [c])) = some .gcc := by
  rw [auto ha]
  have h0 : 48 ≤ c.toNat := hc.1
  have h9 : c.toNat ≤ 57 := hc.2
  have hsc : slashes [c] = [c] := by
    rw [slashes]; simp; intro e; rw [e] at h0; exact absurd h0 (by decide)
  have hlc : lower c = c := by
    apply toNat_inj; rw [toNat_lower, if_neg (by omega)]
  have hcd : c ≠ '-' := by intro e; rw [e] at h0; exact absurd h0 (by decide)
  have he : slashes (pre ++ n ++ '-' :: (v ++ [c])) = slashes (pre ++ n) ++ '-' :: (slashes v ++ [c]) := by
    rw [slashes_append, show '-' :: (v ++ [c]) = ['-'] ++ (v ++ [c]) from rfl, slashes_append ['-'], slashes_append v, hsc]; rfl
  have hnv : '-' ∉ slashes v ++ [c] := by
    intro h
    rcases List.mem_append.1 h with h | h
    · exact hv ((mem_slashes v (by decide) (by decide)).1 h)
    · exact hcd (List.mem_singleton.1 h).symm
  have hw : endsWithI (slashes (pre ++ n)) "gcc".toList = true ∨ endsWithI (slashes (pre ++ n)) "g++".toList = true := by
    have key : ∀ g : Text, '/' ∉ g.map lower → Same n g → endsWithI (slashes (pre ++ n)) g = true := by
      intro g hg hs
      rw [same_iff] at hs
      rw [slashes_append, slashes_name hs hg, endsWithI_rev, List.isPrefixOf_iff_prefix, List.map_reverse, List.map_reverse,
        List.map_append, hs, List.reverse_append]
      exact List.prefix_append _ _
    rcases hn with h | h
    · exact .inl (key _ (by decide) h)
    · exact .inr (key _ (by decide) h)
  have hrev : (slashes (pre ++ n ++ '-' :: (v ++ [c]))).reverse.map lower = c :: (slashes v).reverse.map lower ++ '-' ::
      (slashes (pre ++ n)).reverse.map lower := by
    rw [he]; simp [hlc]; decide
  have hno : ∀ (x : Char) (l : Text), x.toNat < 48 ∨ 57 < x.toNat → (x :: l).isPrefixOf ((slashes (pre ++ n ++ '-' :: (v ++ [c]))).reverse.map lower) = false := by
    intro x l hx
    have : x ≠ c := by intro e; rw [e] at hx; omega
    rw [hrev]
    show (x == c && _) = false
    simp [this]
  have hE : ∀ (e : Text) (x : Char) (l : Text), e.reverse.map lower = x :: l → x.toNat < 48 ∨ 57 < x.toNat →
      endsWithI (slashes (pre ++ n ++ '-' :: (v ++ [c]))) e = false := by
    intro e x l he hx
    rw [endsWithI_rev, he]
    exact hno x l hx
  have w : withoutVersion (slashes (pre ++ n ++ '-' :: (v ++ [c]))) = slashes (pre ++ n) := by rw [he, withoutVersion_spec hnv]
  simp only [detect, w]
  rw [hE "\\cl.exe".toList 'e' _ rfl (by decide), hE "\\cl".toList 'l' _ rfl (by decide), hE "\\icl.exe".toList 'e' _ rfl (by decide),
    hE "\\icl".toList 'l' _ rfl (by decide), hE "clang++.exe".toList 'e' _ rfl (by decide), hE "clang++.cmd".toList 'd' _ rfl (by decide),
    hE "clang++".toList '+' _ rfl (by decide), hE "clang.exe".toList 'e' _ rfl (by decide), hE "clang.cmd".toList 'd' _ rfl (by decide),
    hE "clang".toList 'g' _ rfl (by decide), hE "clang-cl.exe".toList 'e' _ rfl (by decide), hE "clang-cl".toList 'l' _ rfl (by decide)]
  rcases hw with h | h
  · rw [h]; simp
  · rw [h]; simp

private def path (s : String) : Text := s.toList

/-- A directory with a version of gcc in its name makes any compiler below it gcc. -/
theorem C114_directory_false : family (path "auto") (path "/opt/gcc-11/bin/nvcc") = some .gcc ∧
    family (path "cuda-nvcc") (path "/opt/gcc-11/bin/nvcc") = some .cuda := by decide +kernel

/-- clang++ with a version is taken for gcc, as its name ends in g++; clang with a version isn't recognised. -/
theorem C114_clang_version_false : family (path "auto") (path "/usr/bin/clang++-17") = some .gcc ∧
    family (path "auto") (path "/usr/bin/clang-17") = none := by decide +kernel

/-- rcc and vbcc in upper case aren't recognised, where all others are. -/
theorem C114_case_false : family (path "auto") (path "C:\\Qt\\bin\\RCC.EXE") = none ∧
    family (path "auto") (path "C:\\VS\\bin\\CL.EXE") = some .msvc := by decide +kernel

/-- Other programs whose names end the same are taken for compilers they aren't. -/
theorem C114_ending_false : family (path "auto") (path "/opt/bin/arcc") = some .qtRcc ∧
    family (path "auto") (path "/opt/bin/svc") = some .vbcc ∧ family (path "auto") (path "/opt/bin/sdcc") = some .gcc := by decide +kernel

end Verif.Family
