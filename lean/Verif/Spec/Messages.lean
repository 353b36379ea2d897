import Verif.Model.Messages
/-
Specification for the messages: which of them have a protobuf form, what a message is apart from the fields of a union that do
not belong to its kind.  Independent of the conversions.
-/
namespace Verif.Spec.Msg
open Verif.Policy Verif.Meta Verif.Wire Verif.Msg

/-- A message of one of the five kinds. -/
inductive Message where
  | counter (m : CounterWithMetadatas)
  | batchTimer (m : BatchTimerWithMetadatas)
  | gauge (m : GaugeWithMetadatas)
  | forwarded (m : ForwardedMetricWithMetadata)
  | timed (m : TimedMetricWithMetadata)
  deriving DecidableEq

/-- The message in a union. -/
def view (u : Union) : Option Message :=
  if u.type = 1 then some (.counter u.counter)
  else if u.type = 2 then some (.batchTimer u.batchTimer)
  else if u.type = 3 then some (.gauge u.gauge)
  else if u.type = 4 then some (.forwarded u.forwarded)
  else if u.type = 5 then some (.timed u.timed)
  else none

/-- The precision is a known unit. -/
def PolicyForm (x : XTime) (p : StoragePolicy) : Prop := ∃ d, x.unitValue p.resolution.precision = some d

/-- A transformation of a known type, or a rollup. -/
def OpForm (u : Applied.OpUnion) : Prop := (u.type = 2 ∧ (u.transformation = 1 ∨ u.transformation = 2)) ∨ u.type = 3

def StagedForm (x : XTime) (s : StagedMetadata) : Prop :=
  ∀ m ∈ s.pipelines, (∀ p ∈ m.storagePolicies, PolicyForm x p) ∧ ∀ u ∈ m.pipeline, OpForm u

/-- A counter, timer or gauge. -/
def TypeForm (t : Int) : Prop := t = 1 ∨ t = 2 ∨ t = 3

/-- The metric types and their names. -/
def typeNames : List (Int × Bytes) := [(1, bs "counter"), (2, bs "timer"), (3, bs "gauge")]

/-- The message has a protobuf form. -/
def Form (x : XTime) : Message → Prop
  | .counter m => ∀ s ∈ m.metadata, StagedForm x s
  | .batchTimer m => ∀ s ∈ m.metadata, StagedForm x s
  | .gauge m => ∀ s ∈ m.metadata, StagedForm x s
  | .forwarded m => TypeForm m.metric.type ∧ PolicyForm x m.metadata.storagePolicy ∧ ∀ u ∈ m.metadata.pipeline, OpForm u
  | .timed m => TypeForm m.metric.type ∧ PolicyForm x m.metadata.storagePolicy

/-- A protobuf storage policy with both its parts, whose precision is a known unit. -/
def PBPolicyForm (x : XTime) (p : PBStoragePolicy) : Prop :=
  p.retention ≠ none ∧ ∃ r, p.resolution = some r ∧ ∃ u, x.unitFromDuration r.precision = some u

/-- A protobuf operation that contains what its type says. -/
def PBOpForm (o : Applied.PBOp) : Prop :=
  (o.type = 1 ∧ (o.transformation = some 1 ∨ o.transformation = some 2)) ∨ (o.type = 2 ∧ o.rollup ≠ none)

def PBStagedForm (x : XTime) (s : PBStagedMetadata) : Prop :=
  ∀ m ∈ s.pipelines, (∀ p ∈ m.storagePolicies, PBPolicyForm x p) ∧ ∀ u ∈ m.pipeline, PBOpForm u

/-- What the external table of units and the 32-bit fields need for a round trip: a unit is found by its length, and drop
policies and numbers of forwardings fit. -/
def Fits (x : XTime) : Message → Prop
  | .counter m => ∀ s ∈ m.metadata, ∀ p ∈ s.pipelines, (∀ q ∈ p.storagePolicies, UnitOK q.resolution.precision) ∧ p.drop < 2 ^ 31
  | .batchTimer m => ∀ s ∈ m.metadata, ∀ p ∈ s.pipelines, (∀ q ∈ p.storagePolicies, UnitOK q.resolution.precision) ∧ p.drop < 2 ^ 31
  | .gauge m => ∀ s ∈ m.metadata, ∀ p ∈ s.pipelines, (∀ q ∈ p.storagePolicies, UnitOK q.resolution.precision) ∧ p.drop < 2 ^ 31
  | .forwarded m => UnitOK m.metadata.storagePolicy.resolution.precision ∧
      -2 ^ 31 ≤ m.metadata.numForwardedTimes ∧ m.metadata.numForwardedTimes < 2 ^ 31
  | .timed m => UnitOK m.metadata.storagePolicy.resolution.precision
where UnitOK (u : Nat) : Prop := ∀ d, x.unitValue u = some d → x.unitFromDuration d = some u

/-- An operation without the payload of the other kind: what is in it does not matter. -/
def canonOp (u : Applied.OpUnion) : Applied.OpUnion :=
  if u.type = 2 then { u with rollup := {} } else { u with transformation := 0 }

def canonStaged (s : StagedMetadata) : StagedMetadata :=
  { s with pipelines := s.pipelines.map fun p => { p with pipeline := p.pipeline.map canonOp } }

/-- The message with canonical operations. -/
def canon : Message → Message
  | .counter m => .counter { m with metadata := m.metadata.map canonStaged }
  | .batchTimer m => .batchTimer { m with metadata := m.metadata.map canonStaged }
  | .gauge m => .gauge { m with metadata := m.metadata.map canonStaged }
  | .forwarded m => .forwarded { m with metadata := { m.metadata with pipeline := m.metadata.pipeline.map canonOp } }
  | .timed m => .timed m

/-- In the range of an `int64`. -/
def Int64 (n : Int) : Prop := -9223372036854775808 ≤ n ∧ n < 9223372036854775808

/-- The numbers of a storage policy are in range, and so is the length of its unit. -/
def PolicyRange (x : XTime) (p : StoragePolicy) : Prop :=
  Int64 p.resolution.window ∧ Int64 p.retention ∧ ∀ d, x.unitValue p.resolution.precision = some d → Int64 d

def StagedRange (x : XTime) (s : StagedMetadata) : Prop :=
  Int64 s.cutoverNanos ∧ ∀ m ∈ s.pipelines, ∀ p ∈ m.storagePolicies, PolicyRange x p

/-- All numbers of a message are in the range of their Go types, which is so for every message of the program. -/
def InRange (x : XTime) : Message → Prop
  | .counter m => Int64 m.metric.value ∧ ∀ s ∈ m.metadata, StagedRange x s
  | .batchTimer m => ∀ s ∈ m.metadata, StagedRange x s
  | .gauge m => ∀ s ∈ m.metadata, StagedRange x s
  | .forwarded m => Int64 m.metric.timeNanos ∧ PolicyRange x m.metadata.storagePolicy
  | .timed m => Int64 m.metric.timeNanos ∧ PolicyRange x m.metadata.storagePolicy

/-- A negative zero becomes a positive one. -/
def plainZero (v : F64) : F64 := if v = 0x8000000000000000 then 0 else v

/-- What comes out of a stream: a single value loses the sign of a zero (the generated code does not write zeros). -/
def received : Message → Message
  | .gauge m => .gauge { m with metric := { m.metric with value := plainZero m.metric.value } }
  | .timed m => .timed { m with metric := { m.metric with value := plainZero m.metric.value } }
  | m => m

/-- A message without any contents, of a kind that may be one: a counter, a timer or a gauge. -/
def Blank (m : Message) : Prop := m = .counter ⟨{}, []⟩ ∨ m = .batchTimer ⟨{}, []⟩ ∨ m = .gauge ⟨{}, []⟩

end Verif.Spec.Msg
