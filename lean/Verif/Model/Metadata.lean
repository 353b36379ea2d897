import Verif.Model.Pipeline
/-
Model of package `metadata` (metadata.go).
-/
namespace Verif.Meta
open Verif.Agg Verif.Policy

/-- `PipelineMetadata`, metadata/metadata.go:64-76. -/
structure PipelineMetadata where
  aggID : Agg.ID := 0
  storagePolicies : List StoragePolicy := []
  pipeline : Applied.Pipeline := []
  drop : DropPolicy := 0
  deriving DecidableEq

/-- `DropPipelineMetadatas`, metadata/metadata.go:47-51. -/
def dropPipelineMetadatas : List PipelineMetadata := [{ drop := DropMust }]

/-- `DefaultPipelineMetadatas`, metadata/metadata.go:32-35. -/
def defaultPipelineMetadatas : List PipelineMetadata := [{}]

/-- `PipelineMetadata.Equal`, metadata/metadata.go:79-84. -/
def PipelineMetadata.equal (a b : PipelineMetadata) : Bool :=
  a.aggID == b.aggID && storagePoliciesEqual a.storagePolicies b.storagePolicies &&
    Applied.pipelineEqual a.pipeline b.pipeline && a.drop == b.drop

/-- `PipelineMetadata.IsDefault`, metadata/metadata.go:87-92. -/
def PipelineMetadata.isDefault (m : PipelineMetadata) : Bool :=
  m.aggID.isDefault && m.storagePolicies.isEmpty && m.pipeline.isEmpty && m.drop == DropNone

/-- `PipelineMetadata.IsDropPolicyApplied`, metadata/metadata.go:96-101. -/
def PipelineMetadata.isDropPolicyApplied (m : PipelineMetadata) : Bool :=
  m.aggID.isDefault && m.storagePolicies.isEmpty && m.pipeline.isEmpty && !(m.drop == DropNone)

/-- `PipelineMetadata.Clone`, metadata/metadata.go:104-110: the drop policy is not copied. -/
def PipelineMetadata.clone (m : PipelineMetadata) : PipelineMetadata :=
  { aggID := m.aggID, storagePolicies := m.storagePolicies, pipeline := Applied.pipelineClone m.pipeline }

/-- `metricpb.PipelineMetadata` (the embedded messages are non-nullable). -/
structure PBPipelineMetadata where
  aggregationId : BitVec 64 := 0
  storagePolicies : List PBStoragePolicy := []
  pipeline : List Applied.PBOp := []
  dropPolicy : Int := 0
  deriving DecidableEq

/-- Go conversion `policypb.DropPolicy(m.DropPolicy)` (uint to int32). -/
def dropToProto (d : DropPolicy) : Int := (BitVec.ofNat 32 d).toInt

/-- Go conversion `policy.DropPolicy(pb.DropPolicy)` (int32 to 64-bit uint). -/
def dropFromProto (i : Int) : DropPolicy := (BitVec.ofInt 64 i).toNat

/-- `PipelineMetadata.ToProto`, metadata/metadata.go:113-133. -/
def PipelineMetadata.toProto (x : XTime) (pb : PBPipelineMetadata) (m : PipelineMetadata) :
    Option PBPipelineMetadata :=
  let pb := { pb with aggregationId := m.aggID }
  match Applied.pipelineToProto pb.pipeline m.pipeline with
  | none => none
  | some p =>
    let pb := { pb with pipeline := p }
    match convLoop (fun d s => s.toProto x d)
        (reuse {} pb.storagePolicies m.storagePolicies.length) m.storagePolicies with
    | none => none
    | some sps => some { pb with storagePolicies := sps, dropPolicy := dropToProto m.drop }

/-- `PipelineMetadata.FromProto`, metadata/metadata.go:136-156. -/
def PipelineMetadata.fromProto (x : XTime) (m : PipelineMetadata) (pb : PBPipelineMetadata) :
    Option PipelineMetadata :=
  let m := { m with aggID := pb.aggregationId }
  match Applied.pipelineFromProto m.pipeline pb.pipeline with
  | none => none
  | some p =>
    let m := { m with pipeline := p }
    match convLoop (fun d s => StoragePolicy.fromProto x d s)
        (reuse EmptyStoragePolicy m.storagePolicies pb.storagePolicies.length) pb.storagePolicies with
    | none => none
    | some sps => some { m with storagePolicies := sps, drop := dropFromProto pb.dropPolicy }

/-- `PipelineMetadatas.Equal`, metadata/metadata.go:162-172. -/
def pipelineMetadatasEqual (a b : List PipelineMetadata) : Bool :=
  listEqualBy PipelineMetadata.equal a b

/-- `PipelineMetadatas.Clone`, metadata/metadata.go:175-181. -/
def pipelineMetadatasClone (l : List PipelineMetadata) : List PipelineMetadata :=
  l.map PipelineMetadata.clone

/-- `ApplyOrRemoveDropPoliciesResult`, metadata/metadata.go:185-194. -/
inductive DropResult where
  | applied
  | removed
  deriving DecidableEq, Repr

/-- A slice over a mutable backing array: the array and the current length. Removing index `i` in place,
`result = append(result[0:i], result[i+1:]...)` (or `result[0:i]` for the last element): the elements
after `i` shift left and the last slot keeps its old value. -/
def removeAt (arr : List α) (len i : Nat) : List α × Nat :=
  if i = len - 1 then (arr, i)
  else (arr.take i ++ (arr.take len).drop (i + 1) ++ arr.drop (len - 1), len - 1)

/-- The counting loop, metadata/metadata.go:204-217; `none`: the early return on a must-drop. -/
def dropScan : List PipelineMetadata → (only non : Nat) → Option (Nat × Nat)
  | [], o, n => some (o, n)
  | m :: ms, o, n =>
    if m.drop = DropMust then none
    else if m.drop = DropIfOnlyMatch then dropScan ms (o + 1) n
    else dropScan ms o (n + 1)

/-- The removal loop, metadata/metadata.go:230-240, for `i = k-1, …, 0`. -/
def dropRemoveLoop : (k : Nat) → (arr : List PipelineMetadata) → (len : Nat) → List PipelineMetadata × Nat
  | 0, arr, len => (arr, len)
  | i + 1, arr, len =>
    match arr[i]? with
    | none => (arr, len)
    | some m =>
      if m.drop ≠ DropNone then
        let r := removeAt arr len i
        dropRemoveLoop i r.1 r.2
      else dropRemoveLoop i arr len

/-- `PipelineMetadatas.ApplyOrRemoveDropPolicies`, metadata/metadata.go:199-243. -/
def applyPipelines (ms : List PipelineMetadata) : List PipelineMetadata × DropResult :=
  match dropScan ms 0 0 with
  | none => (dropPipelineMetadatas, .applied)
  | some (o, n) =>
    if o = 0 then (ms, .removed)
    else if n = 0 then (dropPipelineMetadatas, .applied)
    else
      let r := dropRemoveLoop ms.length ms ms.length
      (r.1.take r.2, .removed)

/-- `Metadata`, metadata/metadata.go:246-248; `StagedMetadata`, 349-357 (the embedded `Metadata` is
flattened). -/
structure StagedMetadata where
  pipelines : List PipelineMetadata := []
  cutoverNanos : Int := 0
  tombstoned : Bool := false
  deriving DecidableEq

/-- `DefaultStagedMetadatas`, metadata/metadata.go:43-44. -/
def defaultStagedMetadatas : List StagedMetadata := [{ pipelines := defaultPipelineMetadatas }]

/-- `Metadata.IsDefault`, metadata/metadata.go:251-253. -/
def metadataIsDefault (ps : List PipelineMetadata) : Bool :=
  match ps with
  | [p] => p.isDefault
  | _ => false

/-- `Metadata.IsDropPolicyApplied`, metadata/metadata.go:257-259. -/
def metadataIsDropPolicyApplied (ps : List PipelineMetadata) : Bool :=
  match ps with
  | [p] => p.isDropPolicyApplied
  | _ => false

/-- `StagedMetadata.Equal`, metadata/metadata.go:360-364. -/
def StagedMetadata.equal (a b : StagedMetadata) : Bool :=
  pipelineMetadatasEqual a.pipelines b.pipelines && a.cutoverNanos == b.cutoverNanos &&
    a.tombstoned == b.tombstoned

/-- `StagedMetadata.IsDefault`, metadata/metadata.go:367-369. -/
def StagedMetadata.isDefault (s : StagedMetadata) : Bool :=
  s.cutoverNanos == 0 && !s.tombstoned && metadataIsDefault s.pipelines

/-- `StagedMetadata.IsDropPolicyApplied`, metadata/metadata.go:373-375. -/
def StagedMetadata.isDropPolicyApplied (s : StagedMetadata) : Bool :=
  !s.tombstoned && metadataIsDropPolicyApplied s.pipelines

/-- `StagedMetadatas.Equal`, metadata/metadata.go:401-411. -/
def stagedEqual (a b : List StagedMetadata) : Bool := listEqualBy StagedMetadata.equal a b

/-- `StagedMetadatas.IsDefault`, metadata/metadata.go:414-416. -/
def stagedIsDefault (s : List StagedMetadata) : Bool :=
  match s with
  | [m] => m.isDefault
  | _ => false

/-- `StagedMetadatas.IsDropPolicyApplied`, metadata/metadata.go:420-422. -/
def stagedIsDropPolicyApplied (s : List StagedMetadata) : Bool :=
  match s with
  | [m] => m.isDropPolicyApplied
  | _ => false

/-- State of the loop in `StagedMetadatas.ApplyOrRemoveDropPolicies`. -/
structure StagedLoop where
  arr : List StagedMetadata
  len : Nat
  drops : Nat
  nonDrops : Nat
  earliest : StagedMetadata

/-- The loop, metadata/metadata.go:444-470, for `i = k-1, …, 0`. `sms[i]` is read and written in the
shared backing array while `result` is being compacted in the same array. -/
def stagedLoop : (k : Nat) → StagedLoop → StagedLoop
  | 0, st => st
  | i + 1, st =>
    match st.arr[i]? with
    | none => st
    | some sm =>
      let r := applyPipelines sm.pipelines
      let sm := { sm with pipelines := r.1 }
      let arr := st.arr.set i sm
      match r.2 with
      | .applied =>
        let drops := st.drops + 1
        let earliest :=
          if drops = 1 ∨ sm.cutoverNanos < st.earliest.cutoverNanos then sm else st.earliest
        let rm := removeAt arr st.len i
        stagedLoop i { st with arr := rm.1, len := rm.2, drops := drops, earliest := earliest }
      | .removed => stagedLoop i { st with arr := arr, nonDrops := st.nonDrops + 1 }

/-- `StagedMetadatas.ApplyOrRemoveDropPolicies`, metadata/metadata.go:429-478. -/
def applyStaged (sms : List StagedMetadata) : List StagedMetadata × DropResult :=
  if sms.length = 0 then (sms, .removed)
  else
    let st := stagedLoop sms.length
      { arr := sms, len := sms.length, drops := 0, nonDrops := 0, earliest := {} }
    if st.nonDrops = 0 then ([st.earliest], .applied)
    else (st.arr.take st.len, .removed)

/-- `metricpb.StagedMetadata`. -/
structure PBStagedMetadata where
  pipelines : List PBPipelineMetadata := []
  cutoverNanos : Int := 0
  tombstoned : Bool := false
  deriving DecidableEq

/-- `Metadata.ToProto`, metadata/metadata.go:267-280. -/
def metadataToProto (x : XTime) (dst : List PBPipelineMetadata) (ps : List PipelineMetadata) :
    Option (List PBPipelineMetadata) :=
  convLoop (PipelineMetadata.toProto x) (reuse {} dst ps.length) ps

/-- `Metadata.FromProto`, metadata/metadata.go:283-296. -/
def metadataFromProto (x : XTime) (dst : List PipelineMetadata) (pbs : List PBPipelineMetadata) :
    Option (List PipelineMetadata) :=
  convLoop (PipelineMetadata.fromProto x) (reuse {} dst pbs.length) pbs

/-- `StagedMetadata.ToProto`, metadata/metadata.go:378-385. -/
def StagedMetadata.toProto (x : XTime) (pb : PBStagedMetadata) (s : StagedMetadata) :
    Option PBStagedMetadata :=
  match metadataToProto x pb.pipelines s.pipelines with
  | none => none
  | some ps => some { pb with pipelines := ps, cutoverNanos := s.cutoverNanos, tombstoned := s.tombstoned }

/-- `StagedMetadata.FromProto`, metadata/metadata.go:388-395. -/
def StagedMetadata.fromProto (x : XTime) (s : StagedMetadata) (pb : PBStagedMetadata) :
    Option StagedMetadata :=
  match metadataFromProto x s.pipelines pb.pipelines with
  | none => none
  | some ps => some { s with pipelines := ps, cutoverNanos := pb.cutoverNanos, tombstoned := pb.tombstoned }

/-- `StagedMetadatas.ToProto`, metadata/metadata.go:481-494. -/
def stagedToProto (x : XTime) (dst : List PBStagedMetadata) (s : List StagedMetadata) :
    Option (List PBStagedMetadata) :=
  convLoop (StagedMetadata.toProto x) (reuse {} dst s.length) s

/-- `StagedMetadatas.FromProto`, metadata/metadata.go:497-510. -/
def stagedFromProto (x : XTime) (dst : List StagedMetadata) (pbs : List PBStagedMetadata) :
    Option (List StagedMetadata) :=
  convLoop (StagedMetadata.fromProto x) (reuse {} dst pbs.length) pbs

/-- `ForwardMetadata`, metadata/metadata.go:299-314. -/
structure ForwardMetadata where
  aggID : Agg.ID := 0
  storagePolicy : StoragePolicy := EmptyStoragePolicy
  pipeline : Applied.Pipeline := []
  sourceID : BitVec 32 := 0
  numForwardedTimes : Int := 0
  deriving DecidableEq

/-- `metricpb.ForwardMetadata`. -/
structure PBForwardMetadata where
  aggregationId : BitVec 64 := 0
  storagePolicy : PBStoragePolicy := {}
  pipeline : List Applied.PBOp := []
  sourceId : BitVec 32 := 0
  numForwardedTimes : Int := 0
  deriving DecidableEq

/-- Go conversion `int32(n)` of an `int`. -/
def toInt32 (n : Int) : Int := (BitVec.ofInt 32 n).toInt

/-- `ForwardMetadata.ToProto`, metadata/metadata.go:317-330. -/
def ForwardMetadata.toProto (x : XTime) (pb : PBForwardMetadata) (m : ForwardMetadata) :
    Option PBForwardMetadata :=
  let pb := { pb with aggregationId := m.aggID }
  match m.storagePolicy.toProto x pb.storagePolicy with
  | none => none
  | some sp =>
    let pb := { pb with storagePolicy := sp }
    match Applied.pipelineToProto pb.pipeline m.pipeline with
    | none => none
    | some p => some { pb with pipeline := p, sourceId := m.sourceID,
                               numForwardedTimes := toInt32 m.numForwardedTimes }

/-- `ForwardMetadata.FromProto`, metadata/metadata.go:333-346. -/
def ForwardMetadata.fromProto (x : XTime) (m : ForwardMetadata) (pb : PBForwardMetadata) :
    Option ForwardMetadata :=
  let m := { m with aggID := pb.aggregationId }
  match m.storagePolicy.fromProto x pb.storagePolicy with
  | none => none
  | some sp =>
    let m := { m with storagePolicy := sp }
    match Applied.pipelineFromProto m.pipeline pb.pipeline with
    | none => none
    | some p => some { m with pipeline := p, sourceID := pb.sourceId,
                              numForwardedTimes := pb.numForwardedTimes }

/-- `TimedMetadata`, metadata/metadata.go:519-525. -/
structure TimedMetadata where
  aggID : Agg.ID := 0
  storagePolicy : StoragePolicy := EmptyStoragePolicy
  deriving DecidableEq

/-- `metricpb.TimedMetadata`. -/
structure PBTimedMetadata where
  aggregationId : BitVec 64 := 0
  storagePolicy : PBStoragePolicy := {}
  deriving DecidableEq

/-- `TimedMetadata.ToProto`, metadata/metadata.go:528-536. -/
def TimedMetadata.toProto (x : XTime) (pb : PBTimedMetadata) (m : TimedMetadata) :
    Option PBTimedMetadata :=
  let pb := { pb with aggregationId := m.aggID }
  match m.storagePolicy.toProto x pb.storagePolicy with
  | none => none
  | some sp => some { pb with storagePolicy := sp }

/-- `TimedMetadata.FromProto`, metadata/metadata.go:539-547. -/
def TimedMetadata.fromProto (x : XTime) (m : TimedMetadata) (pb : PBTimedMetadata) :
    Option TimedMetadata :=
  let m := { m with aggID := pb.aggregationId }
  match m.storagePolicy.fromProto x pb.storagePolicy with
  | none => none
  | some sp => some { m with storagePolicy := sp }

end Verif.Meta
