import Verif.Spec.Validator
import Verif.Spec.Messages
import Verif.Props.Policy
import Verif.Model.Json
/- Which rules have a JSON form that says all of them. -/
namespace Verif.Spec.Json
open Verif.Policy Verif.RuleSet Verif.Json
open Verif.Rules (RollupTarget)
open Verif.MP (StagedPolicies)

/-- The text is UTF-8. -/
def Utf8 (s : Bytes) : Prop := ∃ cs : List Nat, (∀ c ∈ cs, Spec.Val.Scalar c) ∧ s = cs.flatMap Spec.Val.utf8

/-- What is read as a letter of a name, in UTF-8: the letter, small or capital; also the long s and the Kelvin sign. -/
def letterForms (c : UInt8) : List Bytes :=
  ((bs "abcdefghijklmnopqrstuvwxyz").zip (bs "ABCDEFGHIJKLMNOPQRSTUVWXYZ")).flatMap fun (s, t) =>
    if c = s ∨ c = t then [[s], [t]] ++ (if s = 115 then [[197, 191]] else []) ++ (if s = 107 then [[226, 132, 170]] else []) else []

/-- The text is read as this name. -/
def spelt : Bytes → Bytes → Bool
  | k, [] => k.isEmpty
  | k, c :: cs => (letterForms c).any fun p => p.isPrefixOf k && spelt (k.drop p.length) cs

/-- The aggregation ID has no types but known ones. -/
def KnownID (id : BitVec 64) : Prop := ∀ i : Nat, id.getLsbD i = true → 1 ≤ i ∧ i ≤ 22

/-- What is assumed of the external printer of durations. -/
def Printable (x : XTime) (p : StoragePolicy) : Prop :=
  DurationOK x p.resolution.window ∧ DurationOK x p.retention ∧ UnitOK x p.resolution.precision

/-- An operation of a known kind with a known type; `KnownOp` says nothing about texts. -/
inductive KnownOp : Pipe.OpUnion → Prop
  | aggregation (u : Pipe.OpUnion) : u.type = 1 → 1 ≤ u.aggregation ∧ u.aggregation ≤ 22 → KnownOp u
  | transformation (u : Pipe.OpUnion) : u.type = 2 → u.transformation = 1 ∨ u.transformation = 2 → KnownOp u
  | rollup (u : Pipe.OpUnion) : u.type = 3 → KnownID u.rollup.aggID → KnownOp u

/-- An operation that says nothing in the fields of other kinds, and whose texts are UTF-8. -/
structure PlainOp (u : Pipe.OpUnion) : Prop where
  aggregation : u.type ≠ 1 → u.aggregation = 0
  transformation : u.type ≠ 2 → u.transformation = 0
  rollup : u.type ≠ 3 → u.rollup = {}
  name : Utf8 u.rollup.newName
  tags : ∀ t ∈ u.rollup.tags, Utf8 t

structure MappingForm (x : XTime) (v : MappingView) : Prop where
  id : Utf8 v.id
  name : Utf8 v.name
  filter : Utf8 v.filter
  by_ : Utf8 v.lastUpdatedBy
  cutover : Spec.Msg.Int64 v.cutoverMillis
  at_ : Spec.Msg.Int64 v.lastUpdatedAtMillis
  aggID : KnownID v.aggID
  storage : ∀ p ∈ v.storagePolicies, Printable x p
  drop : v.drop < 2 ^ 64

structure TargetForm (x : XTime) (t : RollupTarget) : Prop where
  ops : ∀ u ∈ t.pipeline, KnownOp u ∧ PlainOp u
  storage : ∀ p ∈ t.storagePolicies, Printable x p

structure RollupForm (x : XTime) (v : RollupView) : Prop where
  id : Utf8 v.id
  name : Utf8 v.name
  filter : Utf8 v.filter
  by_ : Utf8 v.lastUpdatedBy
  cutover : Spec.Msg.Int64 v.cutoverMillis
  at_ : Spec.Msg.Int64 v.lastUpdatedAtMillis
  targets : ∀ t ∈ v.targets, TargetForm x t

structure RuleSetForm (x : XTime) (v : RuleSetView) : Prop where
  namespace_ : Utf8 v.namespace_
  version : Spec.Msg.Int64 v.version
  cutover : Spec.Msg.Int64 v.cutoverMillis
  mapping : ∀ r ∈ v.mappingRules, MappingForm x r
  rollup : ∀ r ∈ v.rollupRules, RollupForm x r

structure NamespaceForm (v : NS.NamespaceView) : Prop where
  id : Utf8 v.id
  version : Spec.Msg.Int64 v.forRuleSetVersion
  by_ : Utf8 v.lastUpdatedBy
  at_ : Spec.Msg.Int64 v.lastUpdatedAtMillis

structure ChangeForm (form : V → Prop) (c : ViewChange V) : Prop where
  op : Utf8 c.op
  id : ∀ i ∈ c.ruleID, Utf8 i
  data : ∀ d ∈ c.ruleData, form d

structure ChangesForm (x : XTime) (c : ViewChanges) : Prop where
  namespace_ : Utf8 c.namespace_
  mapping : ∀ m ∈ c.mapping, ChangeForm (MappingForm x) m
  rollup : ∀ m ∈ c.rollup, ChangeForm (RollupForm x) m

/-- Rules with known aggregation types, operations and transformations only. -/
structure Known (v : RuleSetView) : Prop where
  mapping : ∀ r ∈ v.mappingRules, KnownID r.aggID
  rollup : ∀ r ∈ v.rollupRules, ∀ t ∈ r.targets, ∀ u ∈ t.pipeline, KnownOp u

/-- The texts in a JSON value are UTF-8, as those of every JSON text are after it is read. -/
inductive Text : J → Prop
  | null : Text .null
  | bool (b : Bool) : Text (.bool b)
  | num (n : Int) : Text (.num n)
  | other : Text .other
  | str (s : Bytes) : Utf8 s → Text (.str s)
  | arr (l : List J) : (∀ j ∈ l, Text j) → Text (.arr l)
  | obj (l : List (Bytes × J)) : (∀ m ∈ l, Text m.2) → Text (.obj l)

/-- The assumption on the external printer and parser: what is parsed can be printed. -/
def PrintsParsed (x : XTime) : Prop := ∀ s p, parseStoragePolicy x s = some p → Printable x p

end Verif.Spec.Json
