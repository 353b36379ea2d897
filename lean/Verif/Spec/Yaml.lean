import Verif.Spec.JsonForm
import Verif.Model.Yaml
/- What configurations and pipelines look like as YAML, written after the tags in aggregation/type_config.go, rules/validator/config.go,
rules/validator/namespace/static/config.go and pipeline/type.go, without the field tables of the model. -/
namespace Verif.Spec.Yaml
open Verif.Policy Verif.Yaml Verif.Json
open Verif.Spec.Json (policyText)

/-- There is no null in a value. -/
inductive NullFree : Y → Prop
  | scalar (s : Bytes) (i : Option Int) : NullFree (.scalar s i)
  | seq (l : List Y) : (∀ y ∈ l, NullFree y) → NullFree (.seq l)
  | map (l : List (Bytes × Y)) : (∀ m ∈ l, NullFree m.2) → NullFree (.map l)

def say (s : Bytes) : Y := .scalar s none

/-- A member that is there if there is something to say. -/
def opt (name : Bytes) (v : Option Y) : List (Bytes × Y) := v.toList.map fun y => (name, y)

/-- The words of aggregation types, of metric types and of drop policies. -/
def typeWord (t : Int) : Bytes := typeWords.getD (t.toNat - 1) []
def metricWord (t : Int) : Bytes := if t = 1 then bs "counter" else if t = 2 then bs "timer" else bs "gauge"
def dropWord (p : Nat) : Bytes := if p = 0 then bs "drop_none" else if p = 1 then bs "drop_must" else bs "drop_if_only_match"

def typesDoc (ts : List Int) : Y := .seq (ts.map fun t => say (typeWord t))
def metricsDoc (ts : List Int) : Y := .seq (ts.map fun t => say (metricWord t))
def storageDoc (x : XTime) (ps : List StoragePolicy) : Y := .seq (ps.map fun p => say (policyText x p))
def textsDoc (l : List Bytes) : Y := .seq (l.map say)
def intDoc (n : Int) : Y := .scalar [] (some n)

def typesConfigDoc (c : Agg.TypesConfiguration) : Y := .map (
  opt (bs "defaultCounterAggregationTypes") (c.defaultCounter.map typesDoc) ++
  opt (bs "defaultTimerAggregationTypes") (c.defaultTimer.map typesDoc) ++
  opt (bs "defaultGaugeAggregationTypes") (c.defaultGauge.map typesDoc) ++
  opt (bs "counterTransformFnType") (c.counterFn.map say) ++
  opt (bs "timerTransformFnType") (c.timerFn.map say) ++
  opt (bs "gaugeTransformFnType") (c.gaugeFn.map say))

def policiesDoc (x : XTime) (c : Val.PoliciesConfig) : Y := .map (
  opt (bs "storagePolicies") (c.storage.map (storageDoc x)) ++
  opt (bs "firstLevelAggregationTypes") (c.first.map typesDoc) ++
  opt (bs "nonFirstLevelAggregationTypes") (c.nonFirst.map typesDoc))

def overrideDoc (x : XTime) (o : Val.Override) : Y :=
  .map [(bs "type", say (metricWord o.type)), (bs "allowed", policiesDoc x o.allowed)]

def configDoc (x : XTime) (c : Val.Config) : Y := .map (
  (bs "namespace", .map (opt (bs "static") (c.ns.static.map fun r => .map [(bs "validationResult", say r)]))) ::
  (bs "requiredRollupTags", textsDoc c.requiredTags) ::
  (opt (bs "maxTransformationDerivativeOrder") (c.maxOrder.map intDoc) ++
   opt (bs "maxRollupLevels") (c.maxLevels.map intDoc) ++
   [(bs "metricTypes", .map ((bs "typeTag", say c.typeTag) :: (bs "allowed", metricsDoc c.allowedTypes) ::
      opt (bs "multiAggregationTypesEnabledFor") (c.multi.map metricsDoc))),
    (bs "policies", .map [(bs "defaultAllowed", policiesDoc x c.default), (bs "overrides", .seq (c.overrides.map (overrideDoc x)))]),
    (bs "tagNameInvalidChars", say c.tagInvalid), (bs "metricNameInvalidChars", say c.nameInvalid)]))

def opDoc (u : Pipe.OpUnion) : Y :=
  if u.type = 1 then .map [(bs "aggregation", say (typeWord u.aggregation))]
  else if u.type = 2 then .map [(bs "transformation", say (if u.transformation = 1 then bs "Absolute" else bs "PerSecond"))]
  else .map [(bs "rollup", .map [(bs "newName", say u.rollup.newName), (bs "tags", textsDoc u.rollup.tags),
    (bs "aggregation", typesDoc (((List.range 64).filter u.rollup.aggID.getLsbD).map Int.ofNat))])]

/-! ### What can be said -/

def KnownType (t : Int) : Prop := 1 ≤ t ∧ t ≤ 22
def KnownMetric (t : Int) : Prop := t = 1 ∨ t = 2 ∨ t = 3
instance (t : Int) : Decidable (KnownType t) := inferInstanceAs (Decidable (_ ∧ _))
instance (t : Int) : Decidable (KnownMetric t) := inferInstanceAs (Decidable (_ ∨ _))

structure PoliciesForm (x : XTime) (c : Val.PoliciesConfig) : Prop where
  storage : ∀ ps ∈ c.storage, ∀ p ∈ ps, Spec.Json.Printable x p
  first : ∀ ts ∈ c.first, ∀ t ∈ ts, KnownType t
  nonFirst : ∀ ts ∈ c.nonFirst, ∀ t ∈ ts, KnownType t

structure ConfigForm (x : XTime) (c : Val.Config) : Prop where
  kv : c.ns.kv = none
  static : ∀ r ∈ c.ns.static, r = bs "valid" ∨ r = bs "invalid"
  order : ∀ n ∈ c.maxOrder, Spec.Msg.Int64 n
  levels : ∀ n ∈ c.maxLevels, Spec.Msg.Int64 n
  allowed : ∀ t ∈ c.allowedTypes, KnownMetric t
  multi : ∀ ts ∈ c.multi, ∀ t ∈ ts, KnownMetric t
  default : PoliciesForm x c.default
  overrides : ∀ o ∈ c.overrides, KnownMetric o.type ∧ PoliciesForm x o.allowed

structure TypesForm (c : Agg.TypesConfiguration) : Prop where
  counter : ∀ ts ∈ c.defaultCounter, ∀ t ∈ ts, KnownType t
  timer : ∀ ts ∈ c.defaultTimer, ∀ t ∈ ts, KnownType t
  gauge : ∀ ts ∈ c.defaultGauge, ∀ t ∈ ts, KnownType t
  fns : ∀ f, c.counterFn = some f ∨ c.timerFn = some f ∨ c.gaugeFn = some f → f = bs "noop" ∨ f = bs "empty" ∨ f = bs "suffix"

/-- Only known words have come into a configuration: storage policies are what some text means, a type that an override does not name
and a result that is not given are the zero ones. -/
structure KnownPolicies (x : XTime) (c : Val.PoliciesConfig) : Prop where
  storage : ∀ ps ∈ c.storage, ∀ p ∈ ps, ∃ s, parseStoragePolicy x s = some p
  first : ∀ ts ∈ c.first, ∀ t ∈ ts, KnownType t
  nonFirst : ∀ ts ∈ c.nonFirst, ∀ t ∈ ts, KnownType t

structure KnownConfig (x : XTime) (c : Val.Config) : Prop where
  static : ∀ r ∈ c.ns.static, r = bs "valid" ∨ r = bs "invalid" ∨ r = []
  allowed : ∀ t ∈ c.allowedTypes, KnownMetric t
  multi : ∀ ts ∈ c.multi, ∀ t ∈ ts, KnownMetric t
  default : KnownPolicies x c.default
  overrides : ∀ o ∈ c.overrides, (KnownMetric o.type ∨ o.type = 0) ∧ KnownPolicies x o.allowed

/-- The same with the zero value besides: nothing but known words and what no word stands for has come into a configuration. -/
structure ZeroOrKnownPolicies (x : XTime) (c : Val.PoliciesConfig) : Prop where
  storage : ∀ ps ∈ c.storage, ∀ p ∈ ps, p = ⟨⟨0, 0⟩, 0⟩ ∨ ∃ s, parseStoragePolicy x s = some p
  first : ∀ ts ∈ c.first, ∀ t ∈ ts, t = 0 ∨ KnownType t
  nonFirst : ∀ ts ∈ c.nonFirst, ∀ t ∈ ts, t = 0 ∨ KnownType t

structure ZeroOrKnownConfig (x : XTime) (c : Val.Config) : Prop where
  static : ∀ r ∈ c.ns.static, r = bs "valid" ∨ r = bs "invalid" ∨ r = []
  allowed : ∀ t ∈ c.allowedTypes, t = 0 ∨ KnownMetric t
  multi : ∀ ts ∈ c.multi, ∀ t ∈ ts, t = 0 ∨ KnownMetric t
  default : ZeroOrKnownPolicies x c.default
  overrides : ∀ o ∈ c.overrides, (o.type = 0 ∨ KnownMetric o.type) ∧ ZeroOrKnownPolicies x o.allowed

/-! ### JSON is YAML -/

/-- Pointwise. -/
inductive All2 (R : α → β → Prop) : List α → List β → Prop
  | nil : All2 R [] []
  | cons {a : α} {b : β} {l : List α} {m : List β} : R a b → All2 R l m → All2 R (a :: l) (b :: m)

/-- The names of members of operations. -/
def opNames : List Bytes := [bs "aggregation", bs "transformation", bs "rollup", bs "newName", bs "tags"]

/-- A JSON value of texts, arrays and objects, read as YAML; the names are spelled as they are written. -/
inductive Same : J → Y → Prop
  | str (s : Bytes) (i : Option Int) : Same (.str s) (.scalar s i)
  | arr (l : List J) (m : List Y) : All2 Same l m → Same (.arr l) (.seq m)
  | obj (l : List (Bytes × J)) (m : List (Bytes × Y)) : (∀ e ∈ m, e.1 ∈ opNames) → l.map (·.1) = m.map (·.1) →
      All2 Same (l.map (·.2)) (m.map (·.2)) → Same (.obj l) (.map m)

end Verif.Spec.Yaml
