import Verif.Model.Aggregation
/-
Model of package `policy`: resolution.go, retention.go, storage_policy.go, policy.go, drop_policy.go.
Durations are `Int` nanoseconds.  Package m3x/time is external: its functions are the parameter `XTime`.
-/
namespace Verif.Policy
open Verif.Agg

/-- The functions of the external package m3x/time used by package `policy`. -/
structure XTime where
  /-- `Unit.Value`: length of a unit in nanoseconds, or an error for an unknown unit. -/
  unitValue : Nat → Option Int
  /-- `UnitFromDuration`. -/
  unitFromDuration : Int → Option Nat
  /-- second result of `MaxUnitForDuration`. -/
  maxUnit : Int → Nat
  /-- `ToExtendedString`. -/
  extString : Int → Bytes
  /-- `ParseExtendedDuration`. -/
  parseExt : Bytes → Option Int
  /-- `Unit.String`. -/
  unitString : Nat → Bytes

/-- `Resolution`, policy/resolution.go:43-49 (`xtime.Unit` is a byte, modelled by `Nat`). -/
structure Resolution where
  window : Int
  precision : Nat
  deriving DecidableEq, Repr

/-- `StoragePolicy`, policy/storage_policy.go:49-52. -/
structure StoragePolicy where
  resolution : Resolution
  retention : Int
  deriving DecidableEq, Repr

/-- Zero value, `EmptyStoragePolicy` (policy/storage_policy.go:41). -/
def EmptyStoragePolicy : StoragePolicy := ⟨⟨0, 0⟩, 0⟩

instance : Inhabited StoragePolicy := ⟨EmptyStoragePolicy⟩

/-- `policypb.Resolution` (proto/policypb/policy.proto). -/
structure PBResolution where
  windowSize : Int := 0
  precision : Int := 0
  deriving DecidableEq, Repr

/-- `policypb.Retention`. -/
structure PBRetention where
  period : Int := 0
  deriving DecidableEq, Repr

/-- `policypb.StoragePolicy`: both fields are pointers, hence `Option`. -/
structure PBStoragePolicy where
  resolution : Option PBResolution := none
  retention : Option PBRetention := none
  deriving DecidableEq, Repr

/-- `Resolution.ToProto`, policy/resolution.go:52-60 (`none`: error, destination not used further). -/
def Resolution.toProto (x : XTime) (r : Resolution) (pb : PBResolution) : Option PBResolution :=
  match x.unitValue r.precision with
  | none => none
  | some p => some { pb with windowSize := r.window, precision := p }

/-- `Resolution.FromProto`, policy/resolution.go:63-74. -/
def Resolution.fromProto (x : XTime) (r : Resolution) (pb : Option PBResolution) :
    Option Resolution :=
  match pb with
  | none => none
  | some pb => match x.unitFromDuration pb.precision with
    | none => none
    | some p => some { r with window := pb.windowSize, precision := p }

/-- `StoragePolicy.ToProto`, policy/storage_policy.go:102-114. -/
def StoragePolicy.toProto (x : XTime) (p : StoragePolicy) (pb : PBStoragePolicy) :
    Option PBStoragePolicy :=
  let res := match pb.resolution with | none => ({} : PBResolution) | some r => r
  match p.resolution.toProto x res with
  | none => none
  | some res' =>
    let ret := match pb.retention with | none => ({} : PBRetention) | some r => r
    some { pb with resolution := some res', retention := some { ret with period := p.retention } }

/-- `StoragePolicy.FromProto`, policy/storage_policy.go:117-125 (with `Retention.FromProto`,
policy/retention.go:55-61). -/
def StoragePolicy.fromProto (x : XTime) (p : StoragePolicy) (pb : PBStoragePolicy) :
    Option StoragePolicy :=
  match p.resolution.fromProto x pb.resolution with
  | none => none
  | some res => match pb.retention with
    | none => none
    | some ret => some { p with resolution := res, retention := ret.period }

/-- `NewStoragePolicyFromProto`, policy/storage_policy.go:66-75. -/
def newStoragePolicyFromProto (x : XTime) : Option PBStoragePolicy → Option StoragePolicy
  | none => none
  | some pb => EmptyStoragePolicy.fromProto x pb

/-- `NewStoragePoliciesFromProto`, policy/storage_policy.go:193-205. -/
def newStoragePoliciesFromProto (x : XTime) :
    List (Option PBStoragePolicy) → Option (List StoragePolicy)
  | [] => some []
  | pb :: pbs => match newStoragePolicyFromProto x pb with
    | none => none
    | some sp => match newStoragePoliciesFromProto x pbs with
      | none => none
      | some sps => some (sp :: sps)

/-- `StoragePolicies.Proto`, policy/storage_policy.go:225-235: fresh destinations, none nil. -/
def storagePoliciesProto (x : XTime) : List StoragePolicy → Option (List (Option PBStoragePolicy))
  | [] => some []
  | sp :: sps => match sp.toProto x {} with
    | none => none
    | some pb => match storagePoliciesProto x sps with
      | none => none
      | some pbs => some (some pb :: pbs)

/-- `ByResolutionAscRetentionDesc.Less`, policy/storage_policy.go:256-273. -/
def spLess (a b : StoragePolicy) : Bool :=
  if a.resolution.window < b.resolution.window then true
  else if a.resolution.window > b.resolution.window then false
  else if a.retention > b.retention then true
  else if a.retention < b.retention then false
  else decide (a.resolution.precision < b.resolution.precision)

/-- Element-wise comparison loop, policy/storage_policy.go:216-220. -/
def allEq [BEq α] : List α → List α → Bool
  | [], _ => true
  | _ :: _, [] => true
  | a :: as, b :: bs => if !(a == b) then false else allEq as bs

/-- `StoragePolicies.Equal`, policy/storage_policy.go:208-222. -/
def storagePoliciesEqual (a b : List StoragePolicy) : Bool :=
  if a.length != b.length then false
  else allEq (sortBy spLess a) (sortBy spLess b)

/-- `Resolution.String`, policy/resolution.go:77-84. -/
def Resolution.string (x : XTime) (r : Resolution) : Bytes :=
  if x.maxUnit r.window = r.precision then x.extString r.window
  else x.extString r.window ++ (64 :: 49 :: x.unitString r.precision)

/-- `strings.Index(s, sep)` for a one-byte separator, as the pair of parts around it. -/
def cutAt (sep : UInt8) : Bytes → Option (Bytes × Bytes)
  | [] => none
  | c :: cs => if c = sep then some ([], cs) else (cutAt sep cs).map fun p => (c :: p.1, p.2)

/-- `ParseResolution`, policy/resolution.go:87-114. -/
def parseResolution (x : XTime) (s : Bytes) : Option Resolution :=
  match cutAt 64 s with
  | none => match x.parseExt s with
    | none => none
    | some w => some ⟨w, x.maxUnit w⟩
  | some (a, b) => match x.parseExt a with
    | none => none
    | some w => match x.parseExt b with
      | none => none
      | some d => match x.unitFromDuration d with
        | none => none
        | some p => some ⟨w, p⟩

/-- `StoragePolicy.String`, policy/storage_policy.go:78-80. -/
def StoragePolicy.string (x : XTime) (p : StoragePolicy) : Bytes :=
  p.resolution.string x ++ (58 :: x.extString p.retention)

/-- `ParseStoragePolicy`, policy/storage_policy.go:163-177. -/
def parseStoragePolicy (x : XTime) (s : Bytes) : Option StoragePolicy :=
  match splitOn 58 s with
  | [a, b] => match parseResolution x a with
    | none => none
    | some r => match x.parseExt b with
      | none => none
      | some d => some ⟨r, d⟩
  | _ => none

/-- `Policy`, policy/policy.go:45-48. -/
structure Policy where
  sp : StoragePolicy
  aggID : Agg.ID
  deriving DecidableEq

/-- `ID.String`, aggregation/id.go:90-96; the text for an invalid ID is a fixed placeholder here. -/
def aggIDString (id : Agg.ID) : Bytes :=
  match id.types with
  | none => bs "[invalid ID]"
  | some ts => typesString ts

/-- `Policy.String`, policy/policy.go:101-106. -/
def Policy.string (x : XTime) (p : Policy) : Bytes :=
  if p.aggID.isDefault then p.sp.string x
  else p.sp.string x ++ (124 :: aggIDString p.aggID)

/-- `ParsePolicy`, policy/policy.go:145-170. -/
def parsePolicy (x : XTime) (s : Bytes) : Option Policy :=
  match splitOn 124 s with
  | [a] => (parseStoragePolicy x a).map fun sp => ⟨sp, DefaultID⟩
  | [a, b] => match parseStoragePolicy x a with
    | none => none
    | some sp => match parseTypes b with
      | none => none
      | some ts => match compressTypes ts with
        | none => none
        | some id => some ⟨sp, id⟩
  | _ => none

/-- `policypb.Policy`. -/
structure PBPolicy where
  storagePolicy : Option PBStoragePolicy
  aggregationTypes : List Int

/-- `Policy.Proto`, policy/policy.go:77-98. -/
def Policy.proto (x : XTime) (p : Policy) : Option PBPolicy :=
  match p.sp.toProto x {} with
  | none => none
  | some sp => match p.aggID.types with
    | none => none
    | some ts => match typesProto ts with
      | none => none
      | some is => some ⟨some sp, is⟩

/-- `NewPolicyFromProto`, policy/policy.go:57-74. -/
def newPolicyFromProto (x : XTime) : Option PBPolicy → Option Policy
  | none => none
  | some pb => match newStoragePolicyFromProto x pb.storagePolicy with
    | none => none
    | some sp => match newIDFromProto pb.aggregationTypes with
      | none => none
      | some id => some ⟨sp, id⟩

/-- `NewPoliciesFromProto`, policy/policy.go:174-184. -/
def newPoliciesFromProto (x : XTime) : List (Option PBPolicy) → Option (List Policy)
  | [] => some []
  | pb :: pbs => match newPolicyFromProto x pb with
    | none => none
    | some p => match newPoliciesFromProto x pbs with
      | none => none
      | some ps => some (p :: ps)

/-- `Policies.Equals`, policy/policy.go:195-205. -/
def policiesEquals (a b : List Policy) : Bool :=
  if a.length != b.length then false else allEq a b

/-- `DropPolicy` is an unsigned integer enum; policy/drop_policy.go:24-43: DropNone, DropMust,
DropIfOnlyMatch.  Values above 2 are representable but invalid. -/
scoped macro "DropPolicy" : term => `(Nat)
def DropNone : DropPolicy := 0
def DropMust : DropPolicy := 1
def DropIfOnlyMatch : DropPolicy := 2

/-- `validDropPolicies`, policy/drop_policy.go:42-46. -/
def validDropPolicies : List DropPolicy := [DropNone, DropMust, DropIfOnlyMatch]

/-- `DropPolicy.IsValid`, policy/drop_policy.go:66-73. -/
def dropIsValid (p : DropPolicy) : Bool := validDropPolicies.any (· == p)

/-- `DropPolicy.String`, policy/drop_policy.go:53-63. -/
def dropString (p : DropPolicy) : Bytes :=
  if p = DropNone then bs "drop_none"
  else if p = DropMust then bs "drop_must"
  else if p = DropIfOnlyMatch then bs "drop_if_only_match"
  else bs "drop_none"

/-- `ParseDropPolicy`, policy/policy.go:230-238. -/
def parseDropPolicy (s : Bytes) : Option DropPolicy :=
  validDropPolicies.find? (fun p => dropString p == s)

/-! ### Known resolution and retention values -/

/-- `xtime.Second`, `xtime.Minute` as unit codes; `time.Second` etc. in nanoseconds. -/
def unitSecond : Nat := 1
def unitMinute : Nat := 5
def second : Int := 1000000000

/-- `valuesToResolution`, policy/resolution.go:173-179. -/
def valuesToResolution : List (Int × Resolution) :=
  [(1, ⟨second, unitSecond⟩), (2, ⟨10 * second, unitSecond⟩), (3, ⟨60 * second, unitMinute⟩),
   (4, ⟨300 * second, unitMinute⟩), (5, ⟨600 * second, unitMinute⟩)]

/-- `ResolutionValue.Resolution`, policy/resolution.go:149-155. -/
def resolutionOfValue (v : Int) : Option Resolution := valuesToResolution.lookup v

/-- `ValueFromResolution`, policy/resolution.go:164-170, with `resolutionToValues` as filled by
`init` (184-188). -/
def valueFromResolution (r : Resolution) : Option Int :=
  (valuesToResolution.map fun p => (p.2, p.1)).lookup r

/-- `valuesToRetention`, policy/retention.go:131-141. -/
def valuesToRetention : List (Int × Int) :=
  [(1, 3600 * second), (2, 6 * 3600 * second), (3, 12 * 3600 * second), (4, 24 * 3600 * second),
   (5, 48 * 3600 * second), (6, 168 * 3600 * second), (7, 336 * 3600 * second),
   (8, 720 * 3600 * second), (9, 1080 * 3600 * second)]

/-- `RetentionValue.Retention`, policy/retention.go:107-113. -/
def retentionOfValue (v : Int) : Option Int := valuesToRetention.lookup v

/-- `ValueFromRetention`, policy/retention.go:122-128. -/
def valueFromRetention (r : Int) : Option Int :=
  (valuesToRetention.map fun p => (p.2, p.1)).lookup r

end Verif.Policy
