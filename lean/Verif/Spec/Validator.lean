import Verif.Model.RuleSet
import Verif.Spec.Filter
/-
What the validator is documented to require, written without its loops (rules/validator/validator.go:275-284 and the comments
of rules/validator/options.go).
-/
namespace Verif.Spec.Val
open Verif.Policy Verif.TagsFlt Verif.RuleSet
open Verif.Rules (RollupTarget)

/-- What a deployment allows. -/
structure Limits where
  namespaceOk : Bytes → Prop
  /-- the metric types a filter may match; `none` when they cannot be told -/
  typesOf : TagFilterValueMap → Option (List Int)
  storage : Int → StoragePolicy → Prop
  multi : Int → Prop
  first : Int → Int → Prop
  nonFirst : Int → Int → Prop
  required : List Bytes
  maxOrder : Int
  maxLevels : Int
  /-- texts without a forbidden character -/
  nameChars : Bytes → Prop
  tagChars : Bytes → Prop

/-- An aggregation ID, the set of the numbers of its types, is acceptable for the metric types. -/
structure AggOk (L : Limits) (allowed : Int → Int → Prop) (id : BitVec 64) (types : List Int) : Prop where
  known : ∀ i, id.getLsbD i = true → 1 ≤ i ∧ i ≤ 22
  multi : ∀ i j, id.getLsbD i = true → id.getLsbD j = true → i ≠ j → ∀ t ∈ types, L.multi t
  allowed : ∀ i : Nat, id.getLsbD i = true → ∀ t ∈ types, allowed t (i : Int)

/-- Storage policies are given, distinct and allowed. -/
structure StorageOk (L : Limits) (sps : List StoragePolicy) (types : List Int) : Prop where
  nonempty : sps ≠ []
  distinct : sps.Nodup
  allowed : ∀ t ∈ types, ∀ p ∈ sps, L.storage t p

/-- A filter text, its parsed form and the metric types it may match. -/
structure FilterOk (L : Limits) (text : Bytes) (m : TagFilterValueMap) (types : List Int) : Prop where
  parses : parseTagFilterValueMap text = some m
  patterns : ∀ e ∈ m, ∃ p : Verif.Spec.Flt.Pattern, p.WF ∧ e.2.pattern = p.render
  chars : ∀ e ∈ m, L.tagChars e.1
  matched : L.typesOf m = some types
  nonempty : types ≠ []

/-- A mapping rule on its own: it either keeps metrics, or drops them and says nothing else. -/
def MappingOk (L : Limits) (r : MappingView) : Prop :=
  ∃ m types, FilterOk L r.filter m types ∧ AggOk L L.first r.aggID types ∧
    ((r.drop = 0 ∧ StorageOk L r.storagePolicies types) ∨
     ((r.drop = 1 ∨ r.drop = 2) ∧ r.aggID = 0 ∧ r.storagePolicies = []))

/-- One rollup operation; `level` is the table of allowed aggregation types for its place. -/
structure RollupOk (L : Limits) (level : Int → Int → Prop) (r : Pipe.RollupOp) (types : List Int) : Prop where
  named : r.newName ≠ []
  nameChars : L.nameChars r.newName
  tagChars : ∀ t ∈ r.tags, L.tagChars t
  distinct : r.tags.Nodup
  required : ∀ t ∈ L.required, t ∈ r.tags
  agg : AggOk L level r.aggID types

/-- The rollup operations of a pipeline, in order. -/
def rollupsOf (ops : List Pipe.OpUnion) : List Pipe.RollupOp :=
  (ops.filter fun op => op.type == 3).map (·.rollup)

/-- The number of per-second transformations: the derivative order. -/
def perSeconds (ops : List Pipe.OpUnion) : Nat := ops.countP fun op => op.type == 2 && op.transformation == 2

/-- `b` has fewer tags than `a`, all from `a`. -/
def StrictlyFewer (a b : List Bytes) : Prop := (∀ t ∈ b, t ∈ a) ∧ ∃ t ∈ a, t ∉ b

/-- A rollup pipeline. -/
structure PipelineOk (L : Limits) (ops : List Pipe.OpUnion) (types : List Int) : Prop where
  known : ∀ op ∈ ops, op.type = 1 ∨ op.type = 2 ∨ op.type = 3
  aggregation : ∀ (i : Nat) (op : Pipe.OpUnion), ops[i]? = some op → op.type = 1 →
    i = 0 ∧ (1 ≤ op.aggregation ∧ op.aggregation ≤ 22) ∧ ∀ t ∈ types, L.first t op.aggregation
  transformation : ∀ op ∈ ops, op.type = 2 → op.transformation = 1 ∨ op.transformation = 2
  order : ∀ s, s <:+: ops → (∀ op ∈ s, op.type ≠ 3) → 0 < perSeconds s → (perSeconds s : Int) ≤ L.maxOrder
  rollup : ∀ (i : Nat) (op : Pipe.OpUnion), ops[i]? = some op → op.type = 3 →
    RollupOk L (if i = 0 then L.first else L.nonFirst) op.rollup types
  shrink : ∀ a b, [a, b] <:+: rollupsOf ops → StrictlyFewer a.tags b.tags
  nonempty : rollupsOf ops ≠ []
  levels : ((rollupsOf ops).length : Int) ≤ L.maxLevels

/-- A rollup rule on its own. -/
def RollupRuleOk (L : Limits) (r : RollupView) : Prop :=
  ∃ m types, FilterOk L r.filter m types ∧ ∀ t ∈ r.targets, PipelineOk L t.pipeline types ∧ StorageOk L t.storagePolicies types

/-- The live rules. -/
def liveM (s : RuleSetView) : List MappingView := s.mappingRules.filter fun r => !r.tombstoned
def liveR (s : RuleSetView) : List RollupView := s.rollupRules.filter fun r => !r.tombstoned

/-- All rollup operations of the live rollup rules. -/
def allRollups (s : RuleSetView) : List Pipe.RollupOp :=
  (liveR s).flatMap fun r => r.targets.flatMap fun t => rollupsOf t.pipeline

/-- Two rollup operations that would produce the same metrics: the same name and the same tags in any order. -/
def SameRollup (a b : Pipe.RollupOp) : Prop := a.newName = b.newName ∧ a.tags.Perm b.tags

/-- No two rules clash. -/
structure NoClash (s : RuleSetView) : Prop where
  mappingNames : ((liveM s).map (·.name)).Nodup
  rollupNames : ((liveR s).map (·.name)).Nodup
  rollups : (allRollups s).Pairwise fun a b => ¬ SameRollup a b

/-- Every live rule is acceptable on its own. -/
structure EachOk (L : Limits) (s : RuleSetView) : Prop where
  namespace_ : L.namespaceOk s.namespace_
  mapping : ∀ r ∈ liveM s, MappingOk L r
  rollup : ∀ r ∈ liveR s, RollupRuleOk L r

/-- The documented constraints on a snapshot. -/
def SnapshotOk (L : Limits) (s : RuleSetView) : Prop := EachOk L s ∧ NoClash s

/-- The UTF-8 form of a code point. -/
def utf8 (c : Nat) : Bytes :=
  if c < 0x80 then [UInt8.ofNat c]
  else if c < 0x800 then [UInt8.ofNat (0xC0 + c / 64), UInt8.ofNat (0x80 + c % 64)]
  else if c < 0x10000 then
    [UInt8.ofNat (0xE0 + c / 4096), UInt8.ofNat (0x80 + c / 64 % 64), UInt8.ofNat (0x80 + c % 64)]
  else [UInt8.ofNat (0xF0 + c / 262144), UInt8.ofNat (0x80 + c / 4096 % 64), UInt8.ofNat (0x80 + c / 64 % 64),
    UInt8.ofNat (0x80 + c % 64)]

/-- A Unicode scalar value. -/
def Scalar (c : Nat) : Prop := c < 0xD800 ∨ (0xE000 ≤ c ∧ c < 0x110000)

end Verif.Spec.Val
