import Verif.Model.Rules
/-
Model of rules/active_ruleset.go and rules/match_result.go.
-/
namespace Verif.Active
open Verif.Agg Verif.Policy Verif.Meta Verif.Id Verif.TagsFlt Verif.Rules

/-- The functions matching depends on.
`matches f id` is `filter.Matches(id)`; on a nil filter Go panics, and nothing is assumed about the value the
parameter has there (loaded rulesets have no nil filter, `Props/RuleSetProto.lean`).
`nameAndTags`, `tagPairs`, `newRollupID`, `isRollupID` are the options `NameAndTagsFn`, `SortedTagIteratorFn`
(everything the iterator yields before its end or its first error), `NewRollupIDFn`, `IsRollupIDFn`. -/
structure Env where
  filterMatches : Option TagsFilter → Bytes → Bool
  nameAndTags : Bytes → Option (Bytes × Bytes)
  tagPairs : Bytes → List TagPair
  newRollupID : Bytes → List TagPair → Bytes
  isRollupID : Bytes → Bytes → Bool

/-- `timeNanosMax`, rules/ruleset.go:43. -/
def timeNanosMax : Int := 9223372036854775807

/-- `activeRuleSet`, rules/active_ruleset.go:55-63 (the functions are in `Env`). -/
structure ActiveRuleSet where
  version : Int
  mappingRules : List MappingRule
  rollupRules : List RollupRule
  cutoverTimesAsc : List Int

/-- Insertion into the set `uniqueCutoverTimes`, rules/active_ruleset.go:76, 81. -/
def addTime (set : List Int) (t : Int) : List Int := if set.contains t then set else set ++ [t]

/-- `newActiveRuleSet`, rules/active_ruleset.go:65-100. -/
def newActiveRuleSet (version : Int) (ms : List MappingRule) (rs : List RollupRule) : ActiveRuleSet :=
  let set := ms.foldl (fun set r => r.snapshots.foldl (fun set s => addTime set s.cutoverNanos) set) []
  let set := rs.foldl (fun set r => r.snapshots.foldl (fun set s => addTime set s.cutoverNanos) set) set
  { version := version, mappingRules := ms, rollupRules := rs,
    cutoverTimesAsc := sortBy (fun a b => decide (a < b)) set }

/-- `ruleSet.ActiveSet`, rules/ruleset.go:211-230. -/
def activeSet (version : Int) (ms : List MappingRule) (rs : List RollupRule) (t : Int) : ActiveRuleSet :=
  newActiveRuleSet version (ms.map fun r => r.activeRule t) (rs.map fun r => r.activeRule t)

/-- `ruleMatchResults`, rules/active_ruleset.go:732-735. -/
structure MatchRes where
  cutoverNanos : Int := 0
  pipelines : List PipelineMetadata := []

/-- Loop of `mappingsForNonRollupID`, rules/active_ruleset.go:216-240. -/
def mappingLoop (env : Env) (id : Bytes) (t : Int) : List MappingRule → MatchRes → MatchRes
  | [], acc => acc
  | r :: rs, acc => match r.activeSnapshot t with
    | none => mappingLoop env id t rs acc
    | some s =>
      if !env.filterMatches s.filter id then mappingLoop env id t rs acc
      else
        let acc := if acc.cutoverNanos < s.cutoverNanos then { acc with cutoverNanos := s.cutoverNanos } else acc
        if s.tombstoned then mappingLoop env id t rs acc
        else mappingLoop env id t rs
          { acc with pipelines := acc.pipelines ++
              [{ aggID := s.aggID, storagePolicies := s.storagePolicies, drop := s.drop }] }

/-- `mappingsForNonRollupID`, rules/active_ruleset.go:208-253. -/
def mappingsFor (env : Env) (as : ActiveRuleSet) (id : Bytes) (t : Int) : MatchRes :=
  let r := mappingLoop env id t as.mappingRules {}
  let ps := (applyPipelines r.pipelines).1
  let ps := if ps.length = 0 then pipelineMetadatasClone defaultPipelineMetadatas else ps
  { cutoverNanos := r.cutoverNanos, pipelines := ps }

/-- `rollupTarget.clone`, rules/rollup_target.go:111-116. -/
def cloneTarget (t : RollupTarget) : RollupTarget :=
  { pipeline := Pipe.pipelineClone t.pipeline, storagePolicies := t.storagePolicies }

/-- Loop of `rollupResultsFor`, rules/active_ruleset.go:260-281. -/
def rollupLoop (env : Env) (id : Bytes) (t : Int) : List RollupRule → Int → List RollupTarget → Int × List RollupTarget
  | [], cut, ts => (cut, ts)
  | r :: rs, cut, ts => match r.activeSnapshot t with
    | none => rollupLoop env id t rs cut ts
    | some s =>
      if !env.filterMatches s.filter id then rollupLoop env id t rs cut ts
      else
        let cut := if cut < s.cutoverNanos then s.cutoverNanos else cut
        if s.tombstoned then rollupLoop env id t rs cut ts
        else rollupLoop env id t rs cut
          (ts ++ s.targets.map cloneTarget)

/-- Loop of `matchRollupTarget`, rules/active_ruleset.go:413-430: the remaining tags of the metric, the remaining
target tags, the pairs collected; `none`: not all target tags found (434-436). -/
def rollupTagLoop : List TagPair → List Bytes → List TagPair → Option (List TagPair)
  | _, [], acc => some acc
  | [], _ :: _, _ => none
  | p :: ps, t :: ts, acc =>
    if p.name = t then rollupTagLoop ps ts (acc ++ [p])
    else if bytesLt t p.name then none
    else rollupTagLoop ps (t :: ts) acc

/-- `matchRollupTarget`, rules/active_ruleset.go:401-441, with `generateRollupID` (`none`: no match). -/
def matchRollupTarget (env : Env) (sortedTags newName : Bytes) (rollupTags : List Bytes) : Option Bytes :=
  (rollupTagLoop (env.tagPairs sortedTags) rollupTags []).map fun ps => env.newRollupID newName ps

/-- `applyIDToPipeline`, rules/active_ruleset.go:443-482. -/
def applyIDToPipeline (env : Env) (sortedTags : Bytes) : Pipe.Pipeline → Option Applied.Pipeline
  | [] => some []
  | op :: ops =>
    let u : Option Applied.OpUnion :=
      if op.type = Pipe.TransformationOpType then
        some { type := Pipe.TransformationOpType, transformation := op.transformation }
      else if op.type = Pipe.RollupOpType then
        (matchRollupTarget env sortedTags op.rollup.newName op.rollup.tags).map fun id =>
          { type := Pipe.RollupOpType, rollup := { id := id, aggID := op.rollup.aggID } }
      else none
    match u with
    | none => none
    | some u => match applyIDToPipeline env sortedTags ops with
      | none => none
      | some us => some (u :: us)

/-- Body of the loop of `toRollupResults`, rules/active_ruleset.go:318-377: `none` when the target is skipped,
otherwise the rollup ID (`none`: the existing ID) and the pipeline. -/
def targetResult (env : Env) (sortedTags : Bytes) (target : RollupTarget) : Option (Option Bytes × PipelineMetadata) :=
  match target.pipeline with
  | [] => none
  | firstOp :: rest =>
    let start : Option (Agg.ID × Option Bytes × Pipe.Pipeline) :=
      if firstOp.type = Pipe.AggregationOpType then
        (compressTypes [firstOp.aggregation]).map fun aggID => (aggID, none, rest)
      else if firstOp.type = Pipe.TransformationOpType then some (DefaultID, none, firstOp :: rest)
      else if firstOp.type = Pipe.RollupOpType then
        (matchRollupTarget env sortedTags firstOp.rollup.newName firstOp.rollup.tags).map fun id =>
          (firstOp.rollup.aggID, some id, rest)
      else none
    match start with
    | none => none
    | some (aggID, rollupID, toApply) => match applyIDToPipeline env sortedTags toApply with
      | none => none
      | some applied => some (rollupID, { aggID := aggID, storagePolicies := target.storagePolicies, pipeline := applied })

/-- `rollupResults`, rules/active_ruleset.go:812-824. -/
structure RollupRes where
  forExistingID : MatchRes := {}
  forNewRollupIDs : List (Bytes × MatchRes) := []

/-- Loop of `toRollupResults`, rules/active_ruleset.go:317-390. -/
def targetLoop (env : Env) (sortedTags : Bytes) (cut : Int) : List RollupTarget →
    List PipelineMetadata → List (Bytes × MatchRes) → List PipelineMetadata × List (Bytes × MatchRes)
  | [], ps, ids => (ps, ids)
  | t :: ts, ps, ids => match targetResult env sortedTags t with
    | none => targetLoop env sortedTags cut ts ps ids
    | some (none, p) => targetLoop env sortedTags cut ts (ps ++ [p]) ids
    | some (some id, p) => targetLoop env sortedTags cut ts ps (ids ++ [(id, { cutoverNanos := cut, pipelines := [p] })])

/-- `toRollupResults`, rules/active_ruleset.go:294-396. -/
def toRollupResults (env : Env) (id : Bytes) (cut : Int) (targets : List RollupTarget) : RollupRes :=
  if targets.length = 0 then {}
  else match env.nameAndTags id with
    | none => {}
    | some (_, sortedTags) =>
      let r := targetLoop env sortedTags cut targets [] []
      { forExistingID := { cutoverNanos := cut, pipelines := r.1 }, forNewRollupIDs := r.2 }

/-- `rollupResultsFor`, rules/active_ruleset.go:255-285. -/
def rollupResultsFor (env : Env) (as : ActiveRuleSet) (id : Bytes) (t : Int) : RollupRes :=
  let r := rollupLoop env id t as.rollupRules 0 []
  toRollupResults env id r.1 r.2

/-- `merge`, rules/active_ruleset.go:738-744. -/
def MatchRes.merge (a b : MatchRes) : MatchRes :=
  { cutoverNanos := if a.cutoverNanos < b.cutoverNanos then b.cutoverNanos else a.cutoverNanos
    pipelines := a.pipelines ++ b.pipelines }

/-- Loop of `unique`, rules/active_ruleset.go:763-777, in place in the backing array: `n` iterations remain, from
index `i`; the entries up to and including `curr` are kept. -/
def uniqueLoop : (n : Nat) → (arr : List PipelineMetadata) → (i curr : Nat) → List PipelineMetadata × Nat
  | 0, arr, _, curr => (arr, curr)
  | n + 1, arr, i, curr => match arr[i]? with
    | none => (arr, curr)
    | some p =>
      if (arr.take (curr + 1)).any (fun q => q.equal p) then uniqueLoop n arr (i + 1) curr
      else uniqueLoop n (arr.set (curr + 1) p) (i + 1) (curr + 1)

/-- `unique`, rules/active_ruleset.go:747-783. -/
def MatchRes.unique (res : MatchRes) : MatchRes :=
  if res.pipelines.length = 0 then res
  else
    let r := applyPipelines res.pipelines
    match r.2 with
    | .applied => { res with pipelines := r.1 }
    | .removed =>
      let u := uniqueLoop (r.1.length - 1) r.1 1 0
      { res with pipelines := u.1.take (u.2 + 1) }

/-- `resolvedPipelines`, rules/active_ruleset.go:794-799. -/
def MatchRes.resolvedPipelines (res : MatchRes) : List PipelineMetadata :=
  if res.pipelines.length > 0 then res.pipelines else defaultPipelineMetadatas

/-- `toStagedMetadata`, rules/active_ruleset.go:786-792. -/
def MatchRes.toStaged (res : MatchRes) : StagedMetadata :=
  { cutoverNanos := res.cutoverNanos, tombstoned := false, pipelines := res.resolvedPipelines }

/-- `IDWithMetadatas`, rules/match_result.go:36-39. -/
structure IDWithMetadatas where
  id : Bytes
  metadatas : List StagedMetadata
  deriving DecidableEq

/-- `sort.Sort(IDWithMetadatasByIDAsc(…))`.  Go's sort is not stable; the model is, which matters only if an ID
occurs twice (`C39_together` is for any sort). -/
def sortByID (l : List IDWithMetadatas) : List IDWithMetadatas := sortBy (fun a b => bytesLt a.id b.id) l

/-- `forwardMatchResult`, rules/active_ruleset.go:826-829. -/
structure ForwardRes where
  forExistingID : StagedMetadata
  forNewRollupIDs : List IDWithMetadatas

/-- `forwardMatchAt`, rules/active_ruleset.go:182-206. -/
def forwardMatchAt (env : Env) (as : ActiveRuleSet) (id : Bytes) (t : Int) : ForwardRes :=
  let m := mappingsFor env as id t
  let r := rollupResultsFor env as id t
  { forExistingID := ((m.merge r.forExistingID).unique).toStaged
    forNewRollupIDs := sortByID (r.forNewRollupIDs.map fun p => ⟨p.1, [p.2.unique.toStaged]⟩) }

/-- Loop of `nextCutoverIdx`, rules/active_ruleset.go:600-607; the first argument bounds the number of iterations
(`j - i` at least halves), and `i ≤ j ≤ len` so the index is in range. -/
def nextCutoverLoop (ts : List Int) (t : Int) : Nat → (i j : Nat) → Nat
  | 0, i, _ => i
  | n + 1, i, j =>
    if i < j then
      let h := i + (j - i) / 2
      match ts[h]? with
      | none => i
      | some c => if c ≤ t then nextCutoverLoop ts t n (h + 1) j else nextCutoverLoop ts t n i h
    else i

/-- `nextCutoverIdx`, rules/active_ruleset.go:598-609. -/
def ActiveRuleSet.nextCutoverIdx (as : ActiveRuleSet) (t : Int) : Nat :=
  nextCutoverLoop as.cutoverTimesAsc t as.cutoverTimesAsc.length 0 as.cutoverTimesAsc.length

/-- `cutoverNanosAt`, rules/active_ruleset.go:612-617. -/
def ActiveRuleSet.cutoverNanosAt (as : ActiveRuleSet) (idx : Nat) : Int :=
  match as.cutoverTimesAsc[idx]? with
  | some c => c
  | none => timeNanosMax

/-- `mergeResultsForExistingID`, rules/active_ruleset.go:655-669. -/
def mergeExisting (curr : List StagedMetadata) (next : StagedMetadata) (nextCutover : Int) : List StagedMetadata :=
  match curr.getLast? with
  | none => [next]
  | some last =>
    let next := if last.cutoverNanos > next.cutoverNanos then { next with cutoverNanos := nextCutover } else next
    curr ++ [next]

/-- The tombstone, rules/active_ruleset.go:708. -/
def tombstoneAt (t : Int) : StagedMetadata := { cutoverNanos := t, tombstoned := true }

/-- Loop of `mergeResultsForNewRollupIDs`, rules/active_ruleset.go:686-717: the current results not yet passed
(updated in place) and the next results not yet passed; the result is what becomes of the former and what is
appended.  The first argument bounds the number of iterations, each of which passes at least one element.
`nextResults[nextIdx].Metadatas[0]`: these lists always have one element (`forwardMatchAt`). -/
def mergeRollupLoop (T : Int) : Nat → List IDWithMetadatas → List IDWithMetadatas →
    List IDWithMetadatas × List IDWithMetadatas
  | 0, cs, ns => (cs, ns)
  | _ + 1, [], ns => ([], ns)
  | k + 1, c :: cs, [] =>
    let r := mergeRollupLoop T k cs []
    ({ c with metadatas := c.metadatas ++ [tombstoneAt T] } :: r.1, r.2)
  | k + 1, c :: cs, n :: ns =>
    if c.id = n.id then
      let r := mergeRollupLoop T k cs ns
      ({ c with metadatas := c.metadatas ++ n.metadatas.take 1 } :: r.1, r.2)
    else if bytesLt c.id n.id then
      let r := mergeRollupLoop T k cs (n :: ns)
      ({ c with metadatas := c.metadatas ++ [tombstoneAt T] } :: r.1, r.2)
    else
      let r := mergeRollupLoop T k (c :: cs) ns
      (r.1, n :: r.2)

/-- `mergeResultsForNewRollupIDs`, rules/active_ruleset.go:677-720. -/
def mergeRollup (curr next : List IDWithMetadatas) (T : Int) : List IDWithMetadatas :=
  let r := mergeRollupLoop T (curr.length + next.length) curr next
  sortByID (r.1 ++ r.2)

/-- `MatchResult`, rules/match_result.go:49-62. -/
structure MatchResult where
  version : Int
  expireAtNanos : Int
  forExistingID : List StagedMetadata
  forNewRollupIDs : List IDWithMetadatas

/-- `EmptyMatchResult`, rules/match_result.go:32; `kv.UninitializedVersion` is 0. -/
def emptyMatchResult : MatchResult := ⟨0, timeNanosMax, defaultStagedMetadatas, []⟩

/-- `HasExpired`, rules/match_result.go:86. -/
def MatchResult.hasExpired (r : MatchResult) (t : Int) : Bool := decide (r.expireAtNanos ≤ t)

/-- Loop of `activeStagedMetadatasAt`, rules/match_result.go:111-115; the argument is the index plus one. -/
def activeStagedLoop (ms : List StagedMetadata) (t : Int) : Nat → List StagedMetadata
  | 0 => ms
  | k + 1 => match ms[k]? with
    | none => ms
    | some m => if m.cutoverNanos ≤ t then ms.drop k else activeStagedLoop ms t k

/-- `activeStagedMetadatasAt`, rules/match_result.go:107-117. -/
def activeStagedMetadatasAt (ms : List StagedMetadata) (t : Int) : List StagedMetadata :=
  activeStagedLoop ms t ms.length

/-- `ForExistingIDAt`, rules/match_result.go:93-95. -/
def MatchResult.forExistingIDAt (r : MatchResult) (t : Int) : List StagedMetadata :=
  activeStagedMetadatasAt r.forExistingID t

/-- `ForNewRollupIDsAt`, rules/match_result.go:99-103 (`none`: index out of range). -/
def MatchResult.forNewRollupIDsAt (r : MatchResult) (idx : Nat) (t : Int) : Option IDWithMetadatas :=
  r.forNewRollupIDs[idx]?.map fun x => ⟨x.id, activeStagedMetadatasAt x.metadatas t⟩

/-- Loop of `ForwardMatch`, rules/active_ruleset.go:130-136: `nextIdx` is represented by the cutover times from that
index on, `nextCutoverNanos` is the first of them or `timeNanosMax`. -/
def forwardLoop (env : Env) (as : ActiveRuleSet) (id : Bytes) (to : Int) : List Int → List StagedMetadata →
    List IDWithMetadatas → Int × List StagedMetadata × List IDWithMetadatas
  | [], ex, ids => (timeNanosMax, ex, ids)
  | c :: cs, ex, ids =>
    if c < to then
      let r := forwardMatchAt env as id c
      forwardLoop env as id to cs (mergeExisting ex r.forExistingID c) (mergeRollup ids r.forNewRollupIDs c)
    else (c, ex, ids)

/-- `ForwardMatch`, rules/active_ruleset.go:119-143. -/
def forwardMatch (env : Env) (as : ActiveRuleSet) (id : Bytes) (frm to : Int) : MatchResult :=
  let r := forwardMatchAt env as id frm
  let l := forwardLoop env as id to (as.cutoverTimesAsc.drop (as.nextCutoverIdx frm)) [r.forExistingID] r.forNewRollupIDs
  ⟨as.version, l.1, l.2.1, l.2.2⟩

/-! ### Reverse matching -/

/-- `IsContainedInDefaultAggregationTypes`, aggregation/types_options.go:325-336; `none` is any metric type other
than counter, timer and gauge. -/
def containedInDefault (o : Agg.Options) (at' : AType) : Option Kind → Bool
  | some .counter => typesContains o.defaultCounter at'
  | some .gauge => typesContains o.defaultGauge at'
  | some .timer => typesContains o.defaultTimer at'
  | none => typesContains [] at'

/-- Does a pipeline produce the aggregation type, rules/active_ruleset.go:629-634. -/
def containsAggType (o : Agg.Options) (mt : Option Kind) (at' : AType) (p : PipelineMetadata) : Bool :=
  if p.aggID.isDefault then containedInDefault o at' mt else p.aggID.contains at'

/-- Loop of `filteredPipelinesWithAggregationType`, rules/active_ruleset.go:628-642, in place: `n` iterations
remain, from index `i`. -/
def filterAggLoop (keep : PipelineMetadata → Bool) : (n : Nat) → (arr : List PipelineMetadata) → (i cur : Nat) →
    List PipelineMetadata × Nat
  | 0, arr, _, cur => (arr, cur)
  | n + 1, arr, i, cur => match arr[i]? with
    | none => (arr, cur)
    | some p =>
      if !keep p then filterAggLoop keep n arr (i + 1) cur
      else filterAggLoop keep n (if cur ≠ i then arr.set cur p else arr) (i + 1) (cur + 1)

/-- `filteredPipelinesWithAggregationType`, rules/active_ruleset.go:621-644. -/
def filteredPipelines (o : Agg.Options) (mt : Option Kind) (at' : AType) (ps : List PipelineMetadata) :
    List PipelineMetadata :=
  let r := filterAggLoop (containsAggType o mt at') ps.length ps 0 0
  r.1.take r.2

/-- `reverseMappingsForNonRollupID`, rules/active_ruleset.go:501-521 (`none`: not found; every caller ignores the
metadata returned then). -/
def reverseNonRollup (env : Env) (as : ActiveRuleSet) (id : Bytes) (t : Int) (mt : Option Kind) (at' : AType)
    (o : Agg.Options) : Option StagedMetadata :=
  let m := mappingsFor env as id t
  let ps := filteredPipelines o mt at' m.pipelines
  if ps.length = 0 then none
  else some { cutoverNanos := m.cutoverNanos, tombstoned := false, pipelines := ps }

/-- The operations of the targets of a snapshot in the order of the two inner loops, with the storage policies of
their target. -/
def rollupOpsOf (targets : List RollupTarget) : List (Pipe.OpUnion × List StoragePolicy) :=
  targets.flatMap fun t => t.pipeline.map fun op => (op, t.storagePolicies)

/-- The two inner loops of `reverseMappingsForRollupID`, rules/active_ruleset.go:548-591: `none` to go on with the
next rule, `some r` to return `r`. -/
def reverseOps (env : Env) (name sortedTags : Bytes) (mt : Option Kind) (at' : AType) (multi : Bool)
    (o : Agg.Options) (cutover : Int) : List (Pipe.OpUnion × List StoragePolicy) → Option (Option StagedMetadata)
  | [] => none
  | (op, sps) :: rest =>
    if op.type ≠ Pipe.RollupOpType then reverseOps env name sortedTags mt at' multi o cutover rest
    else if !(op.rollup.newName == name) then reverseOps env name sortedTags mt at' multi o cutover rest
    else match rollupTagLoop (env.tagPairs sortedTags) op.rollup.tags [] with
      | none => reverseOps env name sortedTags mt at' multi o cutover rest
      | some _ =>
        let p : PipelineMetadata := { aggID := op.rollup.aggID, storagePolicies := sps }
        let ps := if multi then filteredPipelines o mt at' [p] else [p]
        if ps.length = 0 then some none
        else some (some { cutoverNanos := cutover, tombstoned := false, pipelines := ps })

/-- `reverseMappingsForRollupID`, rules/active_ruleset.go:535-594. -/
def reverseRollup (env : Env) (name sortedTags : Bytes) (t : Int) (mt : Option Kind) (at' : AType) (multi : Bool)
    (o : Agg.Options) : List RollupRule → Option StagedMetadata
  | [] => none
  | r :: rs => match r.activeSnapshot t with
    | none => reverseRollup env name sortedTags t mt at' multi o rs
    | some s =>
      if s.tombstoned then reverseRollup env name sortedTags t mt at' multi o rs
      else match reverseOps env name sortedTags mt at' multi o s.cutoverNanos (rollupOpsOf s.targets) with
        | some res => res
        | none => reverseRollup env name sortedTags t mt at' multi o rs

/-- `reverseMappingsFor`, rules/active_ruleset.go:484-497. -/
def reverseMappingsFor (env : Env) (as : ActiveRuleSet) (id name tags : Bytes) (isRollup : Bool) (t : Int)
    (mt : Option Kind) (at' : AType) (multi : Bool) (o : Agg.Options) : Option StagedMetadata :=
  if !isRollup then reverseNonRollup env as id t mt at' o
  else reverseRollup env name tags t mt at' multi o as.rollupRules

/-- rules/active_ruleset.go:166-168, 170-172 -/
def reverseMerge (ex : List StagedMetadata) (r : Option StagedMetadata) (c : Int) : List StagedMetadata :=
  match r with
  | none => ex
  | some m => mergeExisting ex m c

/-- Loop of `ReverseMatch`, rules/active_ruleset.go:169-175. -/
def reverseLoop (f : Int → Option StagedMetadata) (to : Int) : List Int → List StagedMetadata →
    Int × List StagedMetadata
  | [], ex => (timeNanosMax, ex)
  | c :: cs, ex => if c < to then reverseLoop f to cs (reverseMerge ex (f c) c) else (c, ex)

/-- The name, tags and kind of an ID, rules/active_ruleset.go:161-164. -/
def reverseKind (env : Env) (id : Bytes) : Bytes × Bytes × Bool :=
  match env.nameAndTags id with
  | none => ([], [], false)
  | some (name, tags) => (name, tags, env.isRollupID name tags)

/-- `ReverseMatch`, rules/active_ruleset.go:145-177. -/
def reverseMatch (env : Env) (as : ActiveRuleSet) (id : Bytes) (frm to : Int) (mt : Option Kind) (at' : AType)
    (multi : Bool) (o : Agg.Options) : MatchResult :=
  let k := reverseKind env id
  let f := fun t => reverseMappingsFor env as id k.1 k.2.1 k.2.2 t mt at' multi o
  let l := reverseLoop f to (as.cutoverTimesAsc.drop (as.nextCutoverIdx frm)) (reverseMerge [] (f frm) frm)
  ⟨as.version, l.1, l.2, []⟩

end Verif.Active
