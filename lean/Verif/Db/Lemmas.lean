import Verif.Db.Model
import Verif.IO.CodecProps
/-! Round trips of dependencies, properties and nodes. -/
namespace Verif.Db
open Verif.IO

/-! ## vocabulary of the statements -/

/-- the dependency with its node replaced -/
def Dep.relabel {ι κ : Type} (f : ι → κ) (d : Dep ι) : Dep κ := ⟨f d.node, d.stamp, d.weak⟩

mutual
/-- a property value with all node references replaced -/
def PTy.relabel {ι κ : Type} (f : ι → κ) : (p : PTy) → p.Val ι → p.Val κ
  | .str, v => v
  | .strs, v => v
  | .bool, v => v
  | .u8, v => v
  | .u32, v => v
  | .u64, v => v
  | .struct s, v => s.relabel f v
  | .structs s, v => List.map (s.relabel f) v
  | .node, v => Option.map f v
  | .nodes, v => List.map f v
def Schema.relabel {ι κ : Type} (f : ι → κ) : (s : Schema) → s.Val ι → s.Val κ
  | .nil, _ => ()
  | .cons p rest, v => (p.relabel f v.1, rest.relabel f v.2)
end

mutual
/-- strings and arrays have fewer than 2^32 elements, and all node references satisfy `P` -/
def PTy.Fits {ι : Type} (P : ι → Prop) : (p : PTy) → p.Val ι → Prop
  | .str, v => List.length (α := Byte) v < 2 ^ 32
  | .strs, v => List.length (α := List Byte) v < 2 ^ 32 ∧ ∀ s, List.Mem (α := List Byte) s v → s.length < 2 ^ 32
  | .bool, _ => True
  | .u8, _ => True
  | .u32, _ => True
  | .u64, _ => True
  | .struct s, v => s.Fits P v
  | .structs s, v => List.length (α := s.Val ι) v < 2 ^ 32 ∧ ∀ x, List.Mem (α := s.Val ι) x v → s.Fits P x
  | .node, v => ∀ n, (v : Option ι) = some n → P n
  | .nodes, v => List.length (α := ι) v < 2 ^ 32 ∧ ∀ n, List.Mem (α := ι) n v → P n
def Schema.Fits {ι : Type} (P : ι → Prop) : (s : Schema) → s.Val ι → Prop
  | .nil, _ => True
  | .cons p rest, v => p.Fits P v.1 ∧ rest.Fits P v.2
end

/-! ## codecs that convert -/

theorem codec_many_map {α β : Type} {p : Parser β} {w : α → List Byte} {f : α → β} : ∀ (as : List α),
    (∀ a ∈ as, Codec (w a) p (f a)) → Codec (as.flatMap w) (rdMany p as.length) (as.map f)
  | [], _ => Codec.pure []
  | a :: as, h => by
    rw [List.flatMap_cons]
    refine (h a (by simp)).bind ?_
    have := (codec_many_map as (fun x hx => h x (by simp [hx]))).bind
      (f := fun r => (Pure.pure (f a :: r) : Parser (List β))) (Codec.pure (f a :: as.map f))
    rwa [List.append_nil] at this

theorem codec_arr_map {α β : Type} {p : Parser β} {w : α → List Byte} {f : α → β} (as : List α)
    (h : ∀ a ∈ as, Codec (w a) p (f a)) (hl : as.length < 2 ^ 32) : Codec (wrArr w as) (rdArr p) (as.map f) := by
  refine (codec_u32 (BitVec.ofNat 32 as.length)).bind ?_
  rw [BitVec.toNat_ofNat, Nat.mod_eq_of_lt hl]
  exact codec_many_map as h

theorem _root_.Verif.IO.Codec.bind' {α β : Type} {w1 w2 w : List Byte} {p : Parser α} {a : α} {f : α → Parser β} {b : β}
    (h1 : Codec w1 p a) (h2 : Codec w2 (f a) b) (hw : w = w1 ++ w2) : Codec w (p >>= f) b := hw ▸ h1.bind h2

/-- tags and indices of the nodes satisfying `P` agree -/
structure Indexed {ι : Type} (P : ι → Prop) (tag : ι → BitVec 32) (idx : ι → Nat) (numNodes : Nat) : Prop where
  small : numNodes < 2 ^ 32
  tag_eq : ∀ n, P n → (tag n).toNat = idx n
  lt : ∀ n, P n → idx n < numNodes

section
variable {ι : Type} {P : ι → Prop} {tag : ι → BitVec 32} {idx : ι → Nat} {numNodes : Nat}

theorem codec_node (h : Indexed P tag idx numNodes) (n : ι) (hn : P n) : Codec (wrU32 (tag n)) (rdNode numNodes) (idx n) := by
  refine (codec_u32 (tag n)).bind' (w2 := []) ?_ (by simp)
  have e := h.tag_eq n hn
  have l := h.lt n hn
  rw [if_pos (by omega), e]
  exact Codec.pure _

theorem codec_nodeOrNull (h : Indexed P tag idx numNodes) (v : Option ι) (hv : ∀ n, v = some n → P n) :
    Codec (wrNodeOrNull tag v) (rdNodeOrNull numNodes) (v.map idx) := by
  cases v with
  | none =>
    refine (codec_u32 invalidIndex).bind' (w2 := []) ?_ (by simp [wrNodeOrNull])
    rw [if_pos rfl]
    exact Codec.pure _
  | some n =>
    refine (codec_u32 (tag n)).bind' (w2 := []) ?_ (by simp [wrNodeOrNull])
    have hn := hv n rfl
    have e := h.tag_eq n hn
    have l := h.lt n hn
    have hs := h.small
    have hne : tag n ≠ invalidIndex := by
      intro c
      rw [c] at e
      have : invalidIndex.toNat = 4294967295 := rfl
      omega
    rw [if_neg hne, if_pos (by omega), e]
    exact Codec.pure _

mutual
theorem PTy.codec (h : Indexed P tag idx numNodes) : (p : PTy) → (v : p.Val ι) → p.Fits P v →
    Codec (p.wr tag v) (p.rd numNodes p.fresh) (p.relabel idx v)
  | .str, v, hv => codec_str v hv
  | .strs, v, hv => codec_arr v (fun s hs => codec_str s (hv.2 s hs)) hv.1
  | .bool, v, _ => codec_bool v
  | .u8, v, _ => codec_u8 v
  | .u32, v, _ => codec_u32 v
  | .u64, v, _ => codec_u64 v
  | .struct s, v, hv => Schema.codec h s v hv
  | .structs s, v, hv => codec_arr_map v (fun x hx => Schema.codec h s x (hv.2 x hx)) hv.1
  | .node, v, hv => codec_nodeOrNull h v hv
  | .nodes, v, hv => by
    have := (codec_arr_map (f := idx) v (fun n hn => codec_node h n (hv.2 n hn)) hv.1)
    exact this.map (fun ns => ([] : List Nat) ++ ns)
theorem Schema.codec (h : Indexed P tag idx numNodes) : (s : Schema) → (v : s.Val ι) → s.Fits P v →
    Codec (s.wr tag v) (s.rd numNodes s.fresh) (s.relabel idx v)
  | .nil, _, _ => Codec.pure ()
  | .cons p rest, v, hv => by
    refine (PTy.codec h p v.1 hv.1).bind ?_
    exact (Schema.codec h rest v.2 hv.2).map (fun b => (p.relabel idx v.1, b))
end

/-! ## dependencies -/

theorem wrDep_length (tag : ι → BitVec 32) (d : Dep ι) : (wrDep tag d).length = 13 := by
  simp [wrDep, wrU32, wrU64, wrBool, wrU8, wrWord, leBytes_length]

theorem saveDeps_length (tag : ι → BitVec 32) (ds : List (Dep ι)) : (saveDeps tag ds).length = 13 * ds.length := by
  induction ds with
  | nil => rfl
  | cons d ds ih =>
    rw [saveDeps, List.flatMap_cons, List.length_append, wrDep_length]
    rw [saveDeps] at ih
    rw [ih, List.length_cons]; omega

theorem ofLE_wrU32 (x : BitVec 32) : ofLE (wrU32 x) = x.toNat := by
  rw [wrU32, wrWord, ofLE_leBytes]; exact Nat.mod_eq_of_lt x.isLt
theorem ofLE_wrU64 (x : BitVec 64) : ofLE (wrU64 x) = x.toNat := by
  rw [wrU64, wrWord, ofLE_leBytes]; exact Nat.mod_eq_of_lt x.isLt

theorem wrU32_length (x : BitVec 32) : (wrU32 x).length = 4 := leBytes_length _ _
theorem wrU64_length (x : BitVec 64) : (wrU64 x).length = 8 := leBytes_length _ _

theorem loop_dep (h : Indexed P tag idx numNodes) (d : Dep ι) (hd : P d.node) (n : Nat) (rest : List Byte) :
    loadDepsLoop numNodes (n + 1) (wrDep tag d ++ rest) =
      match loadDepsLoop numNodes n rest with
      | .error e => .error e
      | .ok ds => .ok (d.relabel idx :: ds) := by
  have hl := wrDep_length tag d
  rw [loadDepsLoop, if_neg (by rw [List.length_append]; omega)]
  have e1 : (wrDep tag d ++ rest).take 4 = wrU32 (tag d.node) := by
    rw [wrDep, List.append_assoc, List.append_assoc]
    have := wrU32_length (tag d.node)
    rw [← this, List.take_left]
  have e2 : ((wrDep tag d ++ rest).drop 4).take 8 = wrU64 d.stamp := by
    rw [wrDep, List.append_assoc, List.append_assoc]
    have h4 := wrU32_length (tag d.node)
    have h8 := wrU64_length d.stamp
    rw [← h4, List.drop_left, ← h8, List.take_left]
  have e3 : (wrDep tag d ++ rest).getD 12 0 = if d.weak then 1 else 0 := by
    have h4 := wrU32_length (tag d.node)
    have h8 := wrU64_length d.stamp
    rw [wrDep, List.append_assoc, List.getD_eq_getElem?_getD, List.getElem?_append_right (by rw [List.length_append]; omega), List.length_append, h4, h8]
    cases d.weak <;> rfl
  have e4 : (wrDep tag d ++ rest).drop 13 = rest := by rw [← hl, List.drop_left]
  rw [e1, e2, e3, e4, ofLE_wrU32, ofLE_wrU64, h.tag_eq _ hd]
  have := h.lt _ hd
  dsimp only
  rw [if_neg (by omega)]
  cases loadDepsLoop numNodes n rest with
  | error e => rfl
  | ok ds =>
    dsimp only
    rw [Dep.relabel, BitVec.ofNat_toNat, BitVec.setWidth_eq]
    cases d.weak <;> rfl

theorem loop_full (h : Indexed P tag idx numNodes) : ∀ (ds : List (Dep ι)), (∀ d ∈ ds, P d.node) → ∀ rest : List Byte,
    loadDepsLoop numNodes ds.length (saveDeps tag ds ++ rest) = .ok (ds.map (Dep.relabel idx))
  | [], _, _ => rfl
  | d :: ds, hd, rest => by
    rw [saveDeps, List.flatMap_cons, List.append_assoc, List.length_cons, loop_dep h d (hd d (by simp))]
    have := loop_full h ds (fun x hx => hd x (by simp [hx])) rest
    rw [saveDeps] at this
    rw [this]; rfl

theorem loop_cut (h : Indexed P tag idx numNodes) : ∀ (ds : List (Dep ι)), (∀ d ∈ ds, P d.node) → ∀ w : List Byte,
    w <+: saveDeps tag ds → w ≠ saveDeps tag ds → loadDepsLoop numNodes ds.length w = .error .bounds
  | [], _, w, h1, h2 => absurd (List.prefix_nil.1 h1) h2
  | d :: ds, hd, w, h1, h2 => by
    rw [saveDeps, List.flatMap_cons] at h1 h2
    rcases prefix_append_cases h1 h2 with ⟨c1, c2⟩ | ⟨v, rfl, c1, c2⟩
    · have hl := wrDep_length tag d
      have : w.length < 13 := by
        have := c1.length_le
        rcases Nat.lt_or_ge w.length 13 with hh | hh
        · exact hh
        · exact absurd (c1.eq_of_length (by omega)) c2
      rw [List.length_cons, loadDepsLoop, if_pos this]
    · rw [List.length_cons, loop_dep h d (hd d (by simp)), loop_cut h ds (fun x hx => hd x (by simp [hx])) v c1 c2]

theorem codec_deps (h : Indexed P tag idx numNodes) (ds : List (Dep ι)) (hd : ∀ d ∈ ds, P d.node) (hl : ds.length < 2 ^ 32) :
    Codec (saveDeps tag ds) (rdDeps numNodes (BitVec.ofNat 32 ds.length)) (ds.map (Dep.relabel idx)) := by
  constructor
  · intro pre post
    rw [rdDeps, BitVec.toNat_ofNat, Nat.mod_eq_of_lt hl, loadDeps]
    by_cases h0 : ds.length = 0
    · rw [if_pos h0]
      obtain rfl := List.length_eq_zero_iff.1 h0
      simp [saveDeps]
    · rw [if_neg h0]
      have e : (pre ++ saveDeps tag ds ++ post).drop pre.length = saveDeps tag ds ++ post := by rw [List.append_assoc, List.drop_left]
      dsimp only
      rw [e, loop_full h ds hd]
      dsimp only
      rw [Reader.seek, if_neg (by simp only [List.length_append, saveDeps_length]; omega)]
      simp [saveDeps_length]
  · intro pre w h1 h2
    have h0 : ds.length ≠ 0 := by
      intro c
      obtain rfl := List.length_eq_zero_iff.1 c
      exact h2 (List.prefix_nil.1 h1)
    rw [rdDeps, BitVec.toNat_ofNat, Nat.mod_eq_of_lt hl, loadDeps, if_neg h0]
    dsimp only
    rw [List.drop_left, loop_cut h ds hd w h1 h2]

/-! ## nodes -/

/-- a node that can be saved: sizes fit, and its references satisfy `P` -/
structure NodeRec.Fits {T : Table} (P : ι → Prop) (n : NodeRec T ι) : Prop where
  name : n.name.length < 2 ^ 32
  props : (T n.type).Fits P n.props
  preLen : n.pre.length < 2 ^ 32
  statLen : n.stat.length < 2 ^ 32
  dynLen : n.dyn.length < 2 ^ 32
  pre : ∀ d ∈ n.pre, P d.node
  stat : ∀ d ∈ n.stat, P d.node
  dyn : ∀ d ∈ n.dyn, P d.node

/-- the node with all references replaced -/
def NodeRec.relabel {T : Table} {κ : Type} (f : ι → κ) (n : NodeRec T ι) : NodeRec T κ :=
  ⟨n.type, n.name, n.nameHash, n.stamp, n.time, (T n.type).relabel f n.props, n.pre.map (Dep.relabel f),
    n.stat.map (Dep.relabel f), n.dyn.map (Dep.relabel f)⟩

/-- the node as it is after `Node::Load` -/
def NodeRec.blank {T : Table} (n : NodeRec T ι) : NodeRec T Nat := NodeRec.create T n.type n.name n.nameHash

theorem codec_ext {T : Table} (h : Indexed P tag idx numNodes) (n : NodeRec T ι) (hn : n.Fits P) :
    Codec (n.wrExt tag) (rdExt numNodes n.blank) (n.relabel idx) := by
  refine (codec_u64 n.stamp).bind ?_
  refine (codec_u32 n.time).bind ?_
  refine (codec_u32 _).bind ?_
  refine (codec_u32 _).bind ?_
  refine (codec_u32 _).bind ?_
  refine (Schema.codec h (T n.type) n.props hn.props).bind ?_
  refine (codec_deps h n.pre hn.pre hn.preLen).bind ?_
  refine (codec_deps h n.stat hn.stat hn.statLen).bind ?_
  exact (codec_deps h n.dyn hn.dyn hn.dynLen).map
    (fun dyn => { n.blank with stamp := n.stamp, time := n.time, props := (T n.type).relabel idx n.props,
                               pre := n.pre.map (Dep.relabel idx), stat := n.stat.map (Dep.relabel idx), dyn := dyn })

/-- the node as restored -/
def NodeRec.restored {T : Table} (idx : ι → Nat) (n : NodeRec T ι) : NodeRec T Nat :=
  if n.type = fileType then n.blank else n.relabel idx

theorem codec_exts {T : Table} (h : Indexed P tag idx numNodes) : ∀ (ns : List (NodeRec T ι)), (∀ n ∈ ns, n.Fits P) →
    Codec (ns.flatMap (fun n => if n.type = fileType then [] else n.wrExt tag)) (rdExts numNodes (ns.map NodeRec.blank))
      (ns.map (NodeRec.restored idx))
  | [], _ => Codec.pure []
  | n :: ns, hn => by
    rw [List.flatMap_cons, List.map_cons, List.map_cons]
    have h1 : Codec (if n.type = fileType then [] else n.wrExt tag)
        (if n.blank.type = fileType then (return n.blank : Parser (NodeRec T Nat)) else rdExt numNodes n.blank) (n.restored idx) := by
      by_cases hf : n.type = fileType
      · rw [if_pos hf, if_pos (show n.blank.type = fileType from hf), NodeRec.restored, if_pos hf]
        exact Codec.pure _
      · rw [if_neg hf, if_neg (show ¬ n.blank.type = fileType from hf), NodeRec.restored, if_neg hf]
        exact codec_ext h n (hn n (by simp))
    refine h1.bind ?_
    exact (codec_exts h ns (fun x hx => hn x (by simp [hx]))).map (fun r => n.restored idx :: r)

end

/-- a node can be created: known type, correct hash, clean name -/
structure NodeRec.Valid {T : Table} {ι : Type} (N : Names) (n : NodeRec T ι) : Prop where
  type0 : n.type.toNat ≠ 0
  type25 : n.type.toNat < 25
  hash : n.nameHash = N.hash n.name
  clean : N.clean n.type n.name = true

theorem codec_basic {T : Table} {ι : Type} (N : Names) (n : NodeRec T ι) (hv : n.Valid N) (hl : n.name.length < 2 ^ 32)
    (names : List (List Byte)) (hu : ∀ m ∈ names, N.same n.name m = false) :
    Codec n.wrBasic (rdBasic T N names) n.blank := by
  refine (codec_str n.name hl).bind ?_
  refine (codec_u8 n.type).bind ?_
  refine (codec_u32 n.nameHash).bind' (w2 := []) ?_ (by simp)
  have hany : names.any (N.same n.name) = false := by
    rw [List.any_eq_false]; intro m hm; rw [hu m hm]; simp
  have c : ¬ (n.type.toNat = 0 ∨ 25 ≤ n.type.toNat ∨ n.nameHash ≠ N.hash n.name ∨ N.clean n.type n.name = false ∨
      names.any (N.same n.name) = true) := by
    have h1 := hv.type0
    have h2 := hv.type25
    rw [hv.clean, hany]
    simp only [hv.hash]
    simp
    omega
  rw [if_neg c]
  exact Codec.pure _

theorem codec_nodes {T : Table} {ι : Type} (N : Names) : ∀ (ns : List (NodeRec T ι)) (done : List (NodeRec T ι)),
    (∀ n ∈ ns, n.Valid N ∧ n.name.length < 2 ^ 32) → (done ++ ns).Pairwise (fun a b => N.same b.name a.name = false) →
    Codec (ns.flatMap NodeRec.wrBasic) (rdNodes T N ns.length (done.map NodeRec.blank)) ((done ++ ns).map NodeRec.blank)
  | [], done, _, _ => by
    rw [List.append_nil]
    exact Codec.pure _
  | n :: ns, done, h, hp => by
    rw [List.flatMap_cons, List.length_cons, rdNodes]
    have hn := h n (by simp)
    refine (codec_basic N n hn.1 hn.2 _ ?_).bind ?_
    · intro m hm
      rw [List.map_map, List.mem_map] at hm
      obtain ⟨x, hx, rfl⟩ := hm
      exact (List.pairwise_append.1 hp).2.2 x hx n (by simp)
    · have := codec_nodes N ns (done ++ [n]) (fun x hx => h x (by simp [hx])) (by simpa using hp)
      rw [List.map_append, List.append_assoc] at this
      exact this

/-! ## tags -/

theorem setTags_not_mem : ∀ (ps : List Nat) (i : Nat) (tag : Nat → BitVec 32) (p : Nat), p ∉ ps → setTags ps i tag p = tag p
  | [], _, _, _, _ => rfl
  | q :: ps, i, tag, p, h => by
    rw [setTags, setTags_not_mem ps (i + 1) _ p (fun c => h (by simp [c])), if_neg (fun c => h (by simp [c]))]

theorem setTags_spec : ∀ (ps : List Nat) (i : Nat) (tag : Nat → BitVec 32), ps.Nodup → ∀ p ∈ ps,
    setTags ps i tag p = BitVec.ofNat 32 (i + ps.idxOf p)
  | q :: ps, i, tag, hn, p, hp => by
    rw [setTags]
    rw [List.nodup_cons] at hn
    by_cases e : p = q
    · subst e
      rw [setTags_not_mem ps _ _ p hn.1, if_pos rfl, List.idxOf_cons_self, Nat.add_zero]
    · have hp' : p ∈ ps := by
        rcases List.mem_cons.1 hp with c | c
        · exact absurd c e
        · exact c
      rw [setTags_spec ps (i + 1) _ hn.2 p hp', List.idxOf_cons, beq_false_of_ne (Ne.symm e)]
      congr 1; dsimp only [cond_false]; omega

theorem indexed_setTags (ps : List Nat) (tag : Nat → BitVec 32) (hn : ps.Nodup) (hl : ps.length < 2 ^ 32) :
    Indexed (· ∈ ps) (setTags ps 0 tag) (fun p => ps.idxOf p) ps.length where
  small := hl
  tag_eq := fun p hp => by
    have := List.idxOf_lt_length_of_mem hp
    rw [setTags_spec ps 0 tag hn p hp, BitVec.toNat_ofNat, Nat.zero_add, Nat.mod_eq_of_lt (by omega)]
  lt := fun p hp => List.idxOf_lt_length_of_mem hp

/-! ## the graph -/

/-- a graph that can be saved: every reference is to a node of the graph, nodes and names are distinct, and
sizes fit -/
structure Graph.Ok {T : Table} (N : Names) (g : Graph T) : Prop where
  len : g.all.length < 2 ^ 32
  nodup : g.all.Nodup
  fits : ∀ p ∈ g.all, (g.heap p).Fits (· ∈ g.all)
  valid : ∀ p ∈ g.all, (g.heap p).Valid N
  names : g.all.Pairwise (fun p q => N.same (g.heap q).name (g.heap p).name = false)

theorem codec_graph {T : Table} {N : Names} (g : Graph T) (h : g.Ok N) (tag : Nat → BitVec 32) :
    Codec (saveNodes g tag) (rdGraph T N) (g.all.map (fun p => (g.heap p).restored (fun q => g.all.idxOf q))) := by
  have hi := indexed_setTags g.all tag h.nodup h.len
  refine (codec_u32 (BitVec.ofNat 32 g.all.length)).bind ?_
  rw [BitVec.toNat_ofNat, Nat.mod_eq_of_lt h.len]
  have e1 : g.all.flatMap (fun p => (g.heap p).wrBasic) = (g.all.map g.heap).flatMap NodeRec.wrBasic := by
    rw [List.flatMap_map]
  have e2 : g.all.flatMap (fun p => if (g.heap p).type = fileType then [] else (g.heap p).wrExt (setTags g.all 0 tag)) =
      (g.all.map g.heap).flatMap (fun n => if n.type = fileType then [] else n.wrExt (setTags g.all 0 tag)) := by
    rw [List.flatMap_map]
  rw [e1, e2]
  have c1 := codec_nodes (ι := Nat) N (g.all.map g.heap) []
    (by intro n hn; obtain ⟨p, hp, rfl⟩ := List.mem_map.1 hn; exact ⟨h.valid p hp, (h.fits p hp).name⟩)
    (by rw [List.nil_append, List.pairwise_map]; exact h.names)
  rw [List.length_map] at c1
  refine c1.bind ?_
  have c2 := codec_exts hi (g.all.map g.heap) (by intro n hn; obtain ⟨p, hp, rfl⟩ := List.mem_map.1 hn; exact h.fits p hp)
  rw [List.nil_append, List.length_map, List.length_map]
  rw [List.map_map] at c2
  rw [List.map_map] at c2 ⊢
  exact c2

/-! ## relabelling back -/

theorem map_map_congr {α β γ : Type} (f : α → β) (g : β → γ) (e : α → γ) (l : List α) (h : ∀ x ∈ l, g (f x) = e x) :
    List.map g (List.map f l) = List.map e l := by
  rw [List.map_map]
  exact List.map_congr_left h

mutual
theorem PTy.relabel_relabel {ι κ μ : Type} {P : ι → Prop} (f : ι → κ) (g : κ → μ) (e : ι → μ) (h : ∀ n, P n → g (f n) = e n) :
    (p : PTy) → (v : p.Val ι) → p.Fits P v → p.relabel g (p.relabel f v) = p.relabel e v
  | .str, _, _ => rfl
  | .strs, _, _ => rfl
  | .bool, _, _ => rfl
  | .u8, _, _ => rfl
  | .u32, _, _ => rfl
  | .u64, _, _ => rfl
  | .struct s, v, hv => Schema.relabel_relabel f g e h s v hv
  | .structs s, v, hv => by
    exact map_map_congr (s.relabel f) (s.relabel g) (s.relabel e) v
      (fun x hx => Schema.relabel_relabel f g e h s x (hv.2 x hx))
  | .node, v, hv => by
    show Option.map g (Option.map f v) = Option.map e v
    revert hv
    show (∀ n, (v : Option ι) = some n → P n) → _
    intro hv
    cases v with
    | none => rfl
    | some n => show some (g (f n)) = some (e n); rw [h n (hv n rfl)]
  | .nodes, v, hv => by
    exact map_map_congr f g e v (fun x hx => h x (hv.2 x hx))
theorem Schema.relabel_relabel {ι κ μ : Type} {P : ι → Prop} (f : ι → κ) (g : κ → μ) (e : ι → μ) (h : ∀ n, P n → g (f n) = e n) :
    (s : Schema) → (v : s.Val ι) → s.Fits P v → s.relabel g (s.relabel f v) = s.relabel e v
  | .nil, _, _ => rfl
  | .cons p rest, v, hv => by
    show (p.relabel g (p.relabel f v.1), rest.relabel g (rest.relabel f v.2)) = (p.relabel e v.1, rest.relabel e v.2)
    rw [PTy.relabel_relabel f g e h p v.1 hv.1, Schema.relabel_relabel f g e h rest v.2 hv.2]
end

mutual
theorem PTy.relabel_id {ι : Type} : (p : PTy) → (v : p.Val ι) → p.relabel id v = v
  | .str, _ => rfl
  | .strs, _ => rfl
  | .bool, _ => rfl
  | .u8, _ => rfl
  | .u32, _ => rfl
  | .u64, _ => rfl
  | .struct s, v => Schema.relabel_id s v
  | .structs s, v => by
    show List.map (s.relabel id) v = v
    have : s.relabel (ι := ι) id = id := funext (fun x => Schema.relabel_id s x)
    rw [this]
    exact List.map_id v
  | .node, v => Option.map_id_apply
  | .nodes, v => List.map_id v
theorem Schema.relabel_id {ι : Type} : (s : Schema) → (v : s.Val ι) → s.relabel id v = v
  | .nil, _ => rfl
  | .cons p rest, v => by
    show (p.relabel id v.1, rest.relabel id v.2) = v
    rw [PTy.relabel_id p v.1, Schema.relabel_id rest v.2]
    exact Prod.eta v
end

theorem map_length_lt {α β : Type} (f : α → β) (l : List α) (k : Nat) (h : l.length < k) : (l.map f).length < k := by
  rw [List.length_map]; exact h

mutual
theorem PTy.fits_relabel {ι κ : Type} {P : ι → Prop} {Q : κ → Prop} (f : ι → κ) (h : ∀ n, P n → Q (f n)) :
    (p : PTy) → (v : p.Val ι) → p.Fits P v → p.Fits Q (p.relabel f v)
  | .str, _, hv => hv
  | .strs, _, hv => hv
  | .bool, _, _ => trivial
  | .u8, _, _ => trivial
  | .u32, _, _ => trivial
  | .u64, _, _ => trivial
  | .struct s, v, hv => Schema.fits_relabel f h s v hv
  | .structs s, v, hv => by
    refine ⟨?_, ?_⟩
    · exact map_length_lt (s.relabel f) v _ hv.1
    · intro y hy
      obtain ⟨x, hx, rfl⟩ := List.mem_map.1 (show y ∈ List.map (s.relabel f) v from hy)
      exact Schema.fits_relabel f h s x (hv.2 x hx)
  | .node, v, hv => by
    intro m hm
    change Option ι at v
    change ∀ n, v = some n → P n at hv
    change Option.map f v = some m at hm
    cases v with
    | none => cases hm
    | some n =>
      obtain rfl := Option.some.inj hm
      exact h n (hv n rfl)
  | .nodes, v, hv => by
    refine ⟨?_, ?_⟩
    · exact map_length_lt f v _ hv.1
    · intro y hy
      obtain ⟨x, hx, rfl⟩ := List.mem_map.1 (show y ∈ List.map f v from hy)
      exact h x (hv.2 x hx)
theorem Schema.fits_relabel {ι κ : Type} {P : ι → Prop} {Q : κ → Prop} (f : ι → κ) (h : ∀ n, P n → Q (f n)) :
    (s : Schema) → (v : s.Val ι) → s.Fits P v → s.Fits Q (s.relabel f v)
  | .nil, _, _ => trivial
  | .cons p rest, v, hv => ⟨PTy.fits_relabel f h p v.1 hv.1, Schema.fits_relabel f h rest v.2 hv.2⟩
end

theorem NodeRec.fits_relabel {T : Table} {ι κ : Type} {P : ι → Prop} {Q : κ → Prop} (f : ι → κ) (h : ∀ n, P n → Q (f n))
    (n : NodeRec T ι) (hn : n.Fits P) : (n.relabel f).Fits Q where
  name := hn.name
  props := (T n.type).fits_relabel f h n.props hn.props
  preLen := by rw [NodeRec.relabel, List.length_map]; exact hn.preLen
  statLen := by rw [NodeRec.relabel, List.length_map]; exact hn.statLen
  dynLen := by rw [NodeRec.relabel, List.length_map]; exact hn.dynLen
  pre := fun d hd => by obtain ⟨x, hx, rfl⟩ := List.mem_map.1 hd; exact h _ (hn.pre x hx)
  stat := fun d hd => by obtain ⟨x, hx, rfl⟩ := List.mem_map.1 hd; exact h _ (hn.stat x hx)
  dyn := fun d hd => by obtain ⟨x, hx, rfl⟩ := List.mem_map.1 hd; exact h _ (hn.dyn x hx)

theorem deps_relabel_back {ι κ : Type} {P : ι → Prop} (f : ι → κ) (g : κ → ι) (h : ∀ n, P n → g (f n) = n) (ds : List (Dep ι))
    (hd : ∀ d ∈ ds, P d.node) : (ds.map (Dep.relabel f)).map (Dep.relabel g) = ds := by
  rw [List.map_map]
  conv => rhs; rw [← List.map_id ds]
  apply List.map_congr_left
  intro d hx
  show (⟨g (f d.node), d.stamp, d.weak⟩ : Dep ι) = d
  rw [h _ (hd d hx)]

theorem NodeRec.relabel_back {T : Table} {ι κ : Type} {P : ι → Prop} (f : ι → κ) (g : κ → ι) (h : ∀ n, P n → g (f n) = n)
    (n : NodeRec T ι) (hn : n.Fits P) : (n.relabel f).relabel g = n := by
  have e := (T n.type).relabel_relabel f g id h n.props hn.props
  rw [Schema.relabel_id] at e
  show (⟨n.type, n.name, n.nameHash, n.stamp, n.time, (T n.type).relabel g ((T n.type).relabel f n.props),
    (n.pre.map (Dep.relabel f)).map (Dep.relabel g), (n.stat.map (Dep.relabel f)).map (Dep.relabel g),
    (n.dyn.map (Dep.relabel f)).map (Dep.relabel g)⟩ : NodeRec T ι) = n
  rw [e, deps_relabel_back f g h n.pre hn.pre, deps_relabel_back f g h n.stat hn.stat, deps_relabel_back f g h n.dyn hn.dyn]

end Verif.Db
