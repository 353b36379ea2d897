import Verif.Model.WireMessages
import Verif.Model.Namespace
/-
The stored messages, as lists of fields: generated/proto/rulepb/{rule,namespace}.pb.go and those of generated/proto/{policypb,
pipelinepb}/*.pb.go that occur in them.  `AggregationOp`, `TransformationOp` and `Pipeline`, which have a single field, are
represented by it.  Two kinds of fields occur that do not in the messages on the wire: repeated strings and repeated enumerations.
A string is its bytes.
-/
namespace Verif.Wire
open Verif.Policy Verif.Rules Verif.RuleSet

/-- One of the repeated strings: rule.pb.go:558-569. -/
def marshalStr (num : Nat) (s : Bytes) : Bytes := tag num 2 :: encodeVarint s.length ++ s

/-- `repeated string`: rule.pb.go:557-571 (MarshalTo), 909-914 (Size), 1556-1584 (Unmarshal). -/
def strsField (num : Nat) (get : M → List Bytes) (set : M → List Bytes → M) : Field M where
  num := num
  size m := ((get m).map fun s => 1 + s.length + sov s.length).sum
  marshal m := (get m).flatMap (marshalStr num)
  unmarshal l wt r m := if wt ≠ 2 then .err else match readSlice l r with
    | .err => .err
    | .panic => .panic
    | .ok (x, r') => .ok (set m (get m ++ [x]), r')

/-- One of the packed values, rule.pb.go:467-474.  The loop compares the value as a signed number: a negative one is written as one
byte, its lowest. -/
def packEnum (v : Int) : Bytes := if 0 ≤ v then encodeVarint v.toNat else [UInt8.ofNat (v % 256).toNat]

/-- The packed values. -/
def packEnums (vs : List Int) : Bytes := vs.flatMap packEnum

/-- The loop over packed values, rule.pb.go:1296-1313: it goes on while fewer than `n` bytes are consumed, and the last value may
end after `postIndex`. -/
def enumsLoop : Nat → Nat → Bytes → List Int → Option (List Int × Bytes)
  | 0, _, _, _ => none
  | f + 1, n, r, acc =>
    if n = 0 then some (acc, r)
    else match readVarint r with
      | none => none
      | some (v, r') => enumsLoop f (n - (r.length - r'.length)) r' (acc ++ [toI32 v])

/-- Packed `repeated` enumeration: rule.pb.go:463-479 (MarshalTo), 867-873 (Size), 1255-1316 (Unmarshal: one value with wire type 0,
packed values with wire type 2; an overflow of `postIndex` leaves the loop at once).

Simplification: `size` is the number of bytes written.  `Size` of the code is that for values that are not negative
(`packEnums_size`); for each negative value it is nine more. -/
def enumsField (num : Nat) (get : M → List Int) (set : M → List Int → M) : Field M where
  num := num
  size m := if (get m).length > 0 then 1 + sov (packEnums (get m)).length + (packEnums (get m)).length else 0
  marshal m := if (get m).length > 0 then tag num 2 :: encodeVarint (packEnums (get m)).length ++ packEnums (get m) else []
  unmarshal l wt r m :=
    if wt = 0 then match readVarint r with
      | none => .err
      | some (v, r') => .ok (set m (get m ++ [toI32 v]), r')
    else if wt = 2 then match readLen r with
      | none => .err
      | some (n, r') =>
        if l - r'.length + n ≥ 9223372036854775808 then .ok (m, r')
        else if n > r'.length then .err
        else match enumsLoop (n + 1) n r' (get m) with
          | none => .err
          | some (vs, r'') => .ok (set m vs, r'')
    else .err

/-- Repeated embedded messages behind pointers: rule.pb.go:440-451 (MarshalTo), 854-859 (Size), 1176-1206 (Unmarshal: into a new
element at the end).  Simplification: a nil element, on which `Size` and `MarshalTo` panic, is left out here; no theorem says
anything about messages with nil elements. -/
def ptrsField (num : Nat) (c : Codec A) (get : M → List (Option A)) (set : M → List (Option A) → M) : Field M :=
  repField num c (fun m => (get m).filterMap id) (fun m v => set m (v.map some))

/-! ### The messages -/

/-- `AggregationOp`, generated/proto/pipelinepb/pipeline.pb.go:335-346, 624-631, 752-820. -/
def aggregationOp : Codec Int := ⟨[int32Field 1 (fun m => m) (fun _ v => v)], 0⟩

/-- `RollupOp`, generated/proto/pipelinepb/pipeline.pb.go:381-425, 642-663, 890-1059. -/
def rollupOp : Codec Pipe.PBRollupOp :=
  ⟨[bytesField 1 (·.newName) (fun m v => { m with newName := v }),
    strsField 2 (·.tags) (fun m v => { m with tags := v }),
    enumsField 3 (·.aggTypes) (fun m v => { m with aggTypes := v })], {}⟩

/-- `PipelineOp`, generated/proto/pipelinepb/pipeline.pb.go:437-478, 665-684, 1060-1227. -/
def pipelineOp : Codec Pipe.PBOp :=
  ⟨[int32Field 1 (·.type) (fun m v => { m with type := v }),
    optField 2 aggregationOp (·.aggregation) (fun m v => { m with aggregation := v }),
    optField 3 transformationOp (·.transformation) (fun m v => { m with transformation := v }),
    optField 4 rollupOp (·.rollup) (fun m v => { m with rollup := v })], {}⟩

/-- `Pipeline`, generated/proto/pipelinepb/pipeline.pb.go:490-508, 686-696, 1228-1308. -/
def pipeline : Codec (List Pipe.PBOp) := ⟨[repField 1 pipelineOp (fun m => m) (fun _ v => v)], []⟩

/-- `Policy`, generated/proto/policypb/policy.pb.go:274-307, 353-368, 656-800. -/
def policy : Codec PBPolicy :=
  ⟨[optField 1 storagePolicy (·.storagePolicy) (fun m v => { m with storagePolicy := v }),
    enumsField 2 (·.aggregationTypes) (fun m v => { m with aggregationTypes := v })], ⟨none, []⟩⟩

/-- `MappingRuleSnapshot`, generated/proto/rulepb/rule.pb.go:408-498, 837-884, 1050-1387. -/
def mappingRuleSnapshot : Codec PBMappingSnapshot :=
  ⟨[bytesField 1 (·.name) (fun m v => { m with name := v }),
    boolField 2 (·.tombstoned) (fun m v => { m with tombstoned := v }),
    int64Field 3 (·.cutoverNanos) (fun m v => { m with cutoverNanos := v }),
    bytesField 4 (·.filter) (fun m v => { m with filter := v }),
    ptrsField 5 policy (·.policies) (fun m v => { m with policies := v }),
    int64Field 6 (·.lastUpdatedAtNanos) (fun m v => { m with lastUpdatedAtNanos := v }),
    bytesField 7 (·.lastUpdatedBy) (fun m v => { m with lastUpdatedBy := v }),
    enumsField 8 (·.aggregationTypes) (fun m v => { m with aggregationTypes := v }),
    ptrsField 9 storagePolicy (·.storagePolicies) (fun m v => { m with storagePolicies := v }),
    int32Field 10 (·.dropPolicy) (fun m v => { m with dropPolicy := v })], {}⟩

/-- `MappingRule`, generated/proto/rulepb/rule.pb.go:510-534, 886-900, 1388-1497; `RollupRule`, 717-741, 979-993, 2008-2117. -/
def rule (c : Codec P) : Codec (PBRule P) :=
  ⟨[bytesField 1 (·.uuid) (fun m v => { m with uuid := v }),
    ptrsField 2 c (·.snapshots) (fun m v => { m with snapshots := v })], {}⟩

/-- `RollupTarget`, generated/proto/rulepb/rule.pb.go:546-585, 902-922, 1498-1636. -/
def rollupTarget : Codec PBRollupTargetV1 :=
  ⟨[bytesField 1 (·.name) (fun m v => { m with name := v }),
    strsField 2 (·.tags) (fun m v => { m with tags := v }),
    ptrsField 3 policy (·.policies) (fun m v => { m with policies := v })], {}⟩

/-- `RollupTargetV2`, generated/proto/rulepb/rule.pb.go:597-625, 924-938, 1637-1750. -/
def rollupTargetV2 : Codec PBRollupTargetV2 :=
  ⟨[optField 1 pipeline (·.pipeline) (fun m v => { m with pipeline := v }),
    ptrsField 2 storagePolicy (·.storagePolicies) (fun m v => { m with storagePolicies := v })], {}⟩

/-- `RollupRuleSnapshot`, generated/proto/rulepb/rule.pb.go:637-705, 940-977, 1751-2007. -/
def rollupRuleSnapshot : Codec PBRollupSnapshot :=
  ⟨[bytesField 1 (·.name) (fun m v => { m with name := v }),
    boolField 2 (·.tombstoned) (fun m v => { m with tombstoned := v }),
    int64Field 3 (·.cutoverNanos) (fun m v => { m with cutoverNanos := v }),
    bytesField 4 (·.filter) (fun m v => { m with filter := v }),
    ptrsField 5 rollupTarget (·.targets) (fun m v => { m with targets := v }),
    int64Field 6 (·.lastUpdatedAtNanos) (fun m v => { m with lastUpdatedAtNanos := v }),
    bytesField 7 (·.lastUpdatedBy) (fun m v => { m with lastUpdatedBy := v }),
    ptrsField 8 rollupTargetV2 (·.targetsV2) (fun m v => { m with targetsV2 := v })], {}⟩

/-- `RuleSet`, generated/proto/rulepb/rule.pb.go:753-826, 995-1035, 2118-2393. -/
def ruleSet : Codec PBRuleSet :=
  ⟨[bytesField 1 (·.uuid) (fun m v => { m with uuid := v }),
    bytesField 2 (·.namespace_) (fun m v => { m with namespace_ := v }),
    int64Field 3 (·.createdAtNanos) (fun m v => { m with createdAtNanos := v }),
    int64Field 4 (·.lastUpdatedAtNanos) (fun m v => { m with lastUpdatedAtNanos := v }),
    boolField 5 (·.tombstoned) (fun m v => { m with tombstoned := v }),
    int64Field 6 (·.cutoverNanos) (fun m v => { m with cutoverNanos := v }),
    ptrsField 7 (rule mappingRuleSnapshot) (·.mappingRules) (fun m v => { m with mappingRules := v }),
    ptrsField 8 (rule rollupRuleSnapshot) (·.rollupRules) (fun m v => { m with rollupRules := v }),
    bytesField 9 (·.lastUpdatedBy) (fun m v => { m with lastUpdatedBy := v })], {}⟩

/-- `NamespaceSnapshot`, generated/proto/rulepb/namespace.pb.go:157-189, 266-283, 326-462. -/
def namespaceSnapshot : Codec NS.PBSnapshot :=
  ⟨[int32Field 1 (·.forRulesetVersion) (fun m v => { m with forRulesetVersion := v }),
    boolField 2 (·.tombstoned) (fun m v => { m with tombstoned := v }),
    int64Field 3 (·.lastUpdatedAtNanos) (fun m v => { m with lastUpdatedAtNanos := v }),
    bytesField 4 (·.lastUpdatedBy) (fun m v => { m with lastUpdatedBy := v })], ⟨0, false, 0, []⟩⟩

/-- `Namespace`, generated/proto/rulepb/namespace.pb.go:201-225, 285-299, 463-572. -/
def namespaceMsg : Codec NS.PBNamespace :=
  ⟨[bytesField 1 (·.name) (fun m v => { m with name := v }),
    ptrsField 2 namespaceSnapshot (·.snapshots) (fun m v => { m with snapshots := v })], ⟨[], []⟩⟩

/-- `Namespaces`, generated/proto/rulepb/namespace.pb.go:237-255, 301-311, 573-653. -/
def namespacesMsg : Codec NS.PBNamespaces :=
  ⟨[ptrsField 1 namespaceMsg (·.namespaces) (fun m v => { m with namespaces := v })], ⟨[]⟩⟩

end Verif.Wire
