import Verif.Model.Json
import Verif.Model.TypesConfig
import Verif.Model.ValidatorConfig
/-
Model of the `UnmarshalYAML` methods of aggregation, transformation, pipeline, policy, metric and rules/validator/namespace/static, and
of the configurations that are read by their field tags (aggregation/type_config.go, rules/validator/config.go).

The library gopkg.in/yaml.v2 is modelled on values, not on texts: a `Y` is what the text of a YAML value says, with its aliases, merges
and tags resolved.  A scalar that is not null has its text, and the integer it stands for if it stands for one.  As in the library a
null makes the zero value without a call of `UnmarshalYAML`; every other value for a type with this method is handed to it; an error of
a part is an error of the whole.  `strict` is whether the caller reads with `UnmarshalStrict` (names that are not known or are given
twice are errors) or with `Unmarshal` (the former are ignored, of the latter the last one counts).
-/
namespace Verif.Yaml
open Verif.Policy
open scoped Verif.Agg

/-- A YAML value. -/
inductive Y where
  | null
  | scalar (text : Bytes) (int : Option Int)
  | seq (l : List Y)
  | map (l : List (Bytes × Y))

/-- How a Go type is read over an older value; `none` is an error. -/
abbrev Rd (A : Type) := Y → A → Option A

/-! ### Values of the library -/

/-- A type with a method `UnmarshalYAML`. -/
def method (zero : A) (f : Y → Option A) : Rd A
  | .null, _ => some zero
  | y, _ => f y

/-- `unmarshal(&str)` for a value that is not null. -/
def text : Y → Option Bytes
  | .scalar s _ => some s
  | _ => none

def string : Rd Bytes := method [] text

/-- An integer of a Go type `int` of 64 bits. -/
def int : Rd Int
  | .null, _ => some 0
  | .scalar _ (some n), _ => if -9223372036854775808 ≤ n ∧ n ≤ 9223372036854775807 then some n else none
  | _, _ => none

def seqLoop (r : Rd A) (zero : A) : List Y → Option (List A)
  | [] => some []
  | y :: ys => match r y zero, seqLoop r zero ys with
    | some a, some as => some (a :: as)
    | _, _ => none

/-- A slice. -/
def slice (r : Rd A) (zero : A) : Rd (List A)
  | .null, _ => some []
  | .seq l, _ => seqLoop r zero l
  | _, _ => none

/-- A pointer. -/
def pointer (r : Rd A) (zero : A) : Rd (Option A)
  | .null, _ => some none
  | y, old => (r y (old.getD zero)).map some

/-- A field of a structure, with a tag `yaml:"name"`. -/
structure Field (M : Type) where
  name : Bytes
  read : Rd M

def field (name : Bytes) (r : Rd A) (get : M → A) (set : M → A → M) : Field M where
  name := name
  read y m := (r y (get m)).map (set m)

/-- The members of a mapping; `seen` are the names that have been met. -/
def members (strict : Bool) (fs : List (Field M)) : List (Bytes × Y) → List Bytes → M → Option M
  | [], _, m => some m
  | (k, y) :: l, seen, m => match fs.find? fun f => f.name == k with
    | none => if strict then none else members strict fs l seen m
    | some f =>
      if strict && seen.contains k then none
      else match f.read y m with
        | none => none
        | some m' => members strict fs l (k :: seen) m'

/-- A structure without methods of its own; `zero` makes its zero value. -/
def struct (strict : Bool) (zero : M → M) (fs : List (Field M)) : Rd M
  | .null, m => some (zero m)
  | .map l, m => members strict fs l [] m
  | _, _ => none

/-- The words of a type and their values: `var str string; if err := unmarshal(&str) …; parse(str)`. -/
def word (zero : A) (parse : Bytes → Option A) : Rd A := method zero fun y => match text y with
  | none => none
  | some s => parse s

/-! ### aggregation, transformation, metric, policy -/

/-- `Type.UnmarshalYAML`, aggregation/type.go:228-240. -/
def aggType : Rd AType := word 0 Agg.parseType

/-- `ID.UnmarshalYAML`, aggregation/id.go:122-133. -/
def aggID : Rd Agg.ID := method 0 fun y => match slice aggType 0 y [] with
  | none => none
  | some ts => Agg.compressTypes ts

/-- `transformFnType.UnmarshalYAML`, aggregation/type_config.go:127-143. -/
def transformFn : Rd Bytes := word [] Agg.readTransform

/-- `Type.UnmarshalYAML`, transformation/type.go:148-160. -/
def transType : Rd Int := word 0 Tf.parseType

/-- `Type.UnmarshalYAML`, metric/types.go:114-127. -/
def metricType : Rd Val.MetricType := word 0 Val.parseType

/-- `StoragePolicy.UnmarshalYAML`, policy/storage_policy.go:149-160. -/
def storagePolicy (x : XTime) : Rd StoragePolicy := word EmptyStoragePolicy (parseStoragePolicy x)

/-- `Policy.UnmarshalYAML`, policy/policy.go:130-142. -/
def policy (x : XTime) : Rd Policy := word ⟨EmptyStoragePolicy, 0⟩ (parsePolicy x)

/-- `DropPolicy.UnmarshalYAML`, policy/policy.go:208-227. -/
def dropPolicy : Rd DropPolicy := word 0 fun s => if s = [] then some DropNone else parseDropPolicy s

/-- `ValidationResult.UnmarshalYAML`, rules/validator/namespace/static/validator.go:47-62, with `validValidationResults`, lines 39-44. -/
def validationResult : Rd Bytes := word [] fun s => [bs "invalid", bs "valid"].find? (s == ·)

/-! ### pipeline -/

/-- `AggregationOp.UnmarshalYAML`, `TransformationOp.UnmarshalYAML`, pipeline/type.go:114-121, 190-197. -/
def aggOp : Rd Int := method 0 fun y => aggType y 0
def transOp : Rd Int := method 0 fun y => transType y 0

/-- `rollupMarshaler`, pipeline/type.go:330-334; the conversion of its texts, lines 344-350 and x/bytes/convert.go:24-30, copies them. -/
def rollupFields : List (Field Pipe.RollupOp) :=
  [field (bs "newName") string (·.newName) (fun m v => { m with newName := v }),
   field (bs "tags") (slice string []) (·.tags) (fun m v => { m with tags := v }),
   field (bs "aggregation") aggID (·.aggID) (fun m v => { m with aggID := v })]

/-- `RollupOp.UnmarshalYAML`, pipeline/type.go:321-328. -/
def rollupOp (strict : Bool) : Rd Pipe.RollupOp := method {} fun y => struct strict (fun _ => {}) rollupFields y {}

/-- `unionMarshaler`, pipeline/type.go:489-493. -/
def unionFields (strict : Bool) : List (Field Json.Union) :=
  [field (bs "aggregation") (pointer aggOp 0) (·.aggregation) (fun m v => { m with aggregation := v }),
   field (bs "transformation") (pointer transOp 0) (·.transformation) (fun m v => { m with transformation := v }),
   field (bs "rollup") (pointer (rollupOp strict) {}) (·.rollup) (fun m v => { m with rollup := v })]

/-- `OpUnion.UnmarshalYAML`, pipeline/type.go:475-486. -/
def opUnion (strict : Bool) : Rd Pipe.OpUnion := method { type := 0 } fun y =>
  match struct strict (fun _ => {}) (unionFields strict) y {} with
  | none => none
  | some c => c.opUnion

/-- `Pipeline.UnmarshalYAML`, pipeline/type.go:629-636. -/
def pipeline (strict : Bool) : Rd Pipe.Pipeline := method [] fun y => slice (opUnion strict) { type := 0 } y []

/-! ### Configurations -/

/-- `TypesConfiguration`, aggregation/type_config.go:31-55, without the pools. -/
def typesConfig (strict : Bool) : Rd Agg.TypesConfiguration := struct strict (fun _ => {})
  [field (bs "defaultCounterAggregationTypes") (pointer (slice aggType 0) []) (·.defaultCounter) (fun m v => { m with defaultCounter := v }),
   field (bs "defaultTimerAggregationTypes") (pointer (slice aggType 0) []) (·.defaultTimer) (fun m v => { m with defaultTimer := v }),
   field (bs "defaultGaugeAggregationTypes") (pointer (slice aggType 0) []) (·.defaultGauge) (fun m v => { m with defaultGauge := v }),
   field (bs "counterTransformFnType") (pointer transformFn []) (·.counterFn) (fun m v => { m with counterFn := v }),
   field (bs "timerTransformFnType") (pointer transformFn []) (·.timerFn) (fun m v => { m with timerFn := v }),
   field (bs "gaugeTransformFnType") (pointer transformFn []) (·.gaugeFn) (fun m v => { m with gaugeFn := v })]

/-- `policiesConfiguration`, rules/validator/config.go:178-182. -/
def policiesConfig (strict : Bool) (x : XTime) : Rd Val.PoliciesConfig := struct strict (fun _ => {})
  [field (bs "storagePolicies") (pointer (slice (storagePolicy x) EmptyStoragePolicy) []) (·.storage) (fun m v => { m with storage := v }),
   field (bs "firstLevelAggregationTypes") (pointer (slice aggType 0) []) (·.first) (fun m v => { m with first := v }),
   field (bs "nonFirstLevelAggregationTypes") (pointer (slice aggType 0) []) (·.nonFirst) (fun m v => { m with nonFirst := v })]

/-- `policiesOverrideConfiguration`, rules/validator/config.go:172-175. -/
def override (strict : Bool) (x : XTime) : Rd Val.Override := struct strict (fun _ => ⟨0, {}⟩)
  [field (bs "type") metricType (·.type) (fun m v => { m with type := v }),
   field (bs "allowed") (policiesConfig strict x) (·.allowed) (fun m v => { m with allowed := v })]

/-- `NamespaceValidatorConfiguration`, rules/validator/namespace/static/config.go:28-30. -/
def staticConfig (strict : Bool) : Rd Bytes := struct strict (fun _ => [])
  [field (bs "validationResult") validationResult id (fun _ v => v)]

/-- `namespaceValidatorConfiguration`, rules/validator/config.go:107-110; `kv` is how the other one is read. -/
def nsConfig (strict : Bool) (kv : Rd (Option (Option (Bytes → Option Val.VErr)))) : Rd Val.NsConfig := struct strict (fun _ => {})
  [field (bs "kv") kv (·.kv) (fun m v => { m with kv := v }),
   field (bs "static") (pointer (staticConfig strict) []) (·.static) (fun m v => { m with static := v })]

/-- `metricTypesValidationConfiguration`, rules/validator/config.go:128-137. -/
def metricTypes (strict : Bool) : Rd Val.Config := struct strict (fun m => { m with typeTag := [], allowedTypes := [], multi := none })
  [field (bs "typeTag") string (·.typeTag) (fun m v => { m with typeTag := v }),
   field (bs "allowed") (slice metricType 0) (·.allowedTypes) (fun m v => { m with allowedTypes := v }),
   field (bs "multiAggregationTypesEnabledFor") (pointer (slice metricType 0) []) (·.multi) (fun m v => { m with multi := v })]

/-- `policiesValidationConfiguration`, rules/validator/config.go:163-169. -/
def policies (strict : Bool) (x : XTime) : Rd Val.Config := struct strict (fun m => { m with default := {}, overrides := [] })
  [field (bs "defaultAllowed") (policiesConfig strict x) (·.default) (fun m v => { m with default := v }),
   field (bs "overrides") (slice (override strict x) ⟨0, {}⟩) (·.overrides) (fun m v => { m with overrides := v })]

/-- The zero value of `Configuration`. -/
def zeroConfig : Val.Config := { ns := {}, typeTag := [], allowedTypes := [] }

/-- `Configuration`, rules/validator/config.go:43-52. -/
def config (strict : Bool) (x : XTime) (kv : Rd (Option (Option (Bytes → Option Val.VErr)))) : Rd Val.Config :=
  struct strict (fun _ => zeroConfig)
  [field (bs "namespace") (nsConfig strict kv) (·.ns) (fun m v => { m with ns := v }),
   field (bs "requiredRollupTags") (slice string []) (·.requiredTags) (fun m v => { m with requiredTags := v }),
   field (bs "maxTransformationDerivativeOrder") (pointer int 0) (·.maxOrder) (fun m v => { m with maxOrder := v }),
   field (bs "maxRollupLevels") (pointer int 0) (·.maxLevels) (fun m v => { m with maxLevels := v }),
   field (bs "metricTypes") (metricTypes strict) id (fun _ v => v),
   field (bs "policies") (policies strict x) id (fun _ v => v),
   field (bs "tagNameInvalidChars") string (·.tagInvalid) (fun m v => { m with tagInvalid := v }),
   field (bs "metricNameInvalidChars") string (·.nameInvalid) (fun m v => { m with nameInvalid := v })]

end Verif.Yaml
