/-
The statistics of a build: `FBuildStats`, Code/Tools/FBuild/FBuildCore/Helpers/FBuildStats.cpp. Formatting the numbers, reports
and `s_IgnoreCompilerNodeDeps` (used by tests only) are left out. Nodes are numbers.
-/
namespace Verif.Stats

/-- `NUM_NODE_TYPES`, Node.h:108, and two of them -/
abbrev numTypes : Nat := 25
def proxyNode : Fin numTypes := 0
def fileNode : Fin numTypes := 4

/-- what is read of a node: its type, the flags of Node.h:114-125, the times and the dependencies -/
structure Node where
  type : Fin numTypes
  built : Bool := false
  failed : Bool := false
  hit : Bool := false
  miss : Bool := false
  store : Bool := false
  light : Bool := false
  remote : Bool := false
  time : BitVec 32 := 0
  lastBuild : BitVec 32 := 0
  caching : BitVec 32 := 0
  preBuild : List Nat := []
  static_ : List Nat := []
  dynamic_ : List Nat := []

/-- `FBuildStats::Stats`, FBuildStats.h:57-73 -/
structure Counts where
  processed : BitVec 32 := 0
  built : BitVec 32 := 0
  hits : BitVec 32 := 0
  misses : BitVec 32 := 0
  stores : BitVec 32 := 0
  lightHits : BitVec 32 := 0
  lightMisses : BitVec 32 := 0
  lightStores : BitVec 32 := 0
  time : BitVec 32 := 0
  failed : BitVec 32 := 0
  caching : BitVec 32 := 0

/-- the members that are gathered -/
structure Acc where
  perType : Fin numTypes → Counts := fun _ => {}
  totals : Counts := {}
  localTime : BitVec 32 := 0
  remoteTime : BitVec 32 := 0
  byTime : List Nat := []

def bit (b : Bool) (x : BitVec 32) : BitVec 32 := if b then x + 1 else x

/-- the counting of one node, lines 274-331 -/
def countNode (g : Nat → Node) (n : Nat) (a : Acc) : Acc :=
  let nd := g n
  if nd.type = proxyNode then a
  else
    let c := a.perType nd.type
    let c : Counts := { c with processed := c.processed + 1, time := c.time + nd.time }
    let c : Counts := { c with built := bit nd.built c.built, failed := bit nd.failed c.failed, hits := bit nd.hit c.hits, misses := bit nd.miss c.misses }
    let c : Counts := if nd.store then { c with stores := c.stores + 1, caching := c.caching + nd.caching } else c
    let c : Counts :=
      if nd.light then
        if nd.hit then { c with lightHits := c.lightHits + 1 }
        else if nd.store then { c with lightStores := c.lightStores + 1 }
        else { c with lightMisses := c.lightMisses + 1 }
      else c
    { a with
      perType := fun t => if t = nd.type then c else a.perType t
      localTime := a.localTime + nd.time
      remoteTime := if nd.remote then a.remoteTime + nd.lastBuild else a.remoteTime
      byTime := if 0 < nd.time ∧ nd.type ≠ fileNode then a.byTime ++ [n] else a.byTime }

/-- the nodes with the tag `eTagStatsProcessed` -/
structure St where
  tagged : List Nat
  acc : Acc

/-- a loop of calls; `none` when the stack is used up -/
def all (f : Nat → St → Option St) : List Nat → St → Option St
  | [], s => some s
  | n :: l, s => match f n s with
    | some s => all f l s
    | none => none

/-- `GatherPostBuildStatisticsRecurse`, lines 263-354 -/
def gather (g : Nat → Node) : Nat → Nat → St → Option St
  | 0, _, _ => none
  | fuel + 1, n, s =>
    if n ∈ s.tagged then some s
    else
      let s : St := ⟨n :: s.tagged, countNode g n s.acc⟩
      match all (gather g fuel) (g n).preBuild s with
      | none => none
      | some s =>
        match all (gather g fuel) (g n).static_ s with
        | none => none
        | some s => all (gather g fuel) (g n).dynamic_ s

/-- the totals of one type, lines 112-123 (not all of the members) -/
def addTotals (t c : Counts) : Counts :=
  { t with processed := t.processed + c.processed, built := t.built + c.built, hits := t.hits + c.hits, misses := t.misses + c.misses,
           stores := t.stores + c.stores, lightHits := t.lightHits + c.lightHits, lightMisses := t.lightMisses + c.lightMisses,
           lightStores := t.lightStores + c.lightStores, caching := t.caching + c.caching }

/-- `GatherPostBuildStatistics`, lines 96-124; `sort` is `Array::Sort` by time -/
def statistics (g : Nat → Node) (sort : List Nat → List Nat) (fuel root : Nat) : Option Acc :=
  match gather g fuel root ⟨[], {}⟩ with
  | none => none
  | some s => some { s.acc with
      byTime := sort s.acc.byTime
      totals := (List.finRange numTypes).foldl (fun t i => addTotals t (s.acc.perType i)) s.acc.totals }

/-- the nodes of the list `Most Expensive`, lines 134-146 -/
def expensive (a : Acc) : List Nat := a.byTime.take (min a.byTime.length 20)

/-- `OnBuildStop`, lines 68-92: whether there is a summary, and a report -/
def shown (showSummary noSummaryOnError wantsReport buildOk : Bool) : Bool × Bool :=
  (showSummary && (!noSummaryOnError || buildOk), wantsReport)

end Verif.Stats
