import Verif.Model.Validator
/-
Model of rules/validator/config.go, of rules/validator/namespace/static and of the texts of metric types (metric/types.go).

Simplifications: the configuration is the Go structure; reading it from YAML is left to the library.  A pointer that may be nil is an
`Option`.  The namespace validator on top of the key-value store (model in `Verif.Model.NsValidator`) is a parameter: `none` is an error on
creating it.
-/
namespace Verif.Val
open Verif.Policy Verif.TagsFlt Verif.Flt
open scoped Verif.Agg

/-! ### Metric types -/

/-- `validTypes`, metric/types.go:42-46. -/
def validTypes : List MetricType := [1, 2, 3]

/-- `Type.String`, metric/types.go:48-59. -/
def typeString (t : MetricType) : Bytes :=
  if t = 1 then bs "counter" else if t = 2 then bs "timer" else if t = 3 then bs "gauge" else bs "unknown"

/-- The loop of `ParseType`, metric/types.go:94-99. -/
def parseTypeLoop (s : Bytes) : List MetricType → Option MetricType
  | [] => none
  | v :: vs => if s = typeString v then some v else parseTypeLoop s vs

/-- `ParseType`, metric/types.go:92-102; also what `UnmarshalYAML` does with the string, lines 114-126. -/
def parseType (s : Bytes) : Option MetricType := parseTypeLoop s validTypes

/-- `Type.ToProto`, metric/types.go:62-74: `metricpb.MetricType`, generated/proto/metricpb/metric.pb.go. -/
def typeToProto (t : MetricType) : Option Int := if t = 1 then some 1 else if t = 2 then some 2 else if t = 3 then some 3 else none

/-- `Type.FromProto`, metric/types.go:77-89. -/
def typeFromProto (pb : Int) : Option MetricType := if pb = 1 then some 1 else if pb = 2 then some 2 else if pb = 3 then some 3 else none

/-! ### The namespace validator -/

/-- `validator.Validate` of the static validator, rules/validator/namespace/static/validator.go:73-80; the texts are `Invalid` and
`Valid`, lines 34-37. -/
def staticValidate (result : Bytes) (_ : Bytes) : Option VErr := if result = bs "invalid" then some .other else none

/-- `namespaceValidatorConfiguration`, rules/validator/config.go:107-110. -/
structure NsConfig where
  /-- what the validator on top of the key-value store comes to; its outcome `none` is an error on creating it -/
  kv : Option (Option (Bytes → Option VErr)) := none
  /-- `ValidationResult` of the static validator -/
  static : Option Bytes := none

/-- `NewNamespaceValidator`, rules/validator/config.go:112-125. -/
def NsConfig.newValidator (c : NsConfig) : Option (Bytes → Option VErr) :=
  match c.kv, c.static with
  | none, none => none
  | some _, some _ => none
  | some kv, none => kv
  | none, some r => some (staticValidate r)

/-! ### The configuration -/

/-- `policiesConfiguration`, rules/validator/config.go:178-182. -/
structure PoliciesConfig where
  storage : Option (List StoragePolicy) := none
  first : Option (List AType) := none
  nonFirst : Option (List AType) := none

/-- `policiesOverrideConfiguration`, rules/validator/config.go:172-175. -/
structure Override where
  type : MetricType
  allowed : PoliciesConfig

/-- `Configuration`, rules/validator/config.go:43-52, with `metricTypesValidationConfiguration`, lines 128-137, and
`policiesValidationConfiguration`, lines 163-169, inlined. -/
structure Config where
  ns : NsConfig
  requiredTags : List Bytes := []
  maxOrder : Option Int := none
  maxLevels : Option Int := none
  typeTag : Bytes
  allowedTypes : List MetricType
  multi : Option (List MetricType) := none
  default : PoliciesConfig := {}
  overrides : List Override := []
  tagInvalid : Bytes := []
  nameInvalid : Bytes := []

/-- The loop over the allowed types, rules/validator/config.go:153-157; `none` is a panic of `Matches`. -/
def typesLoop (f : Filter) : List MetricType → Option (List MetricType)
  | [] => some []
  | t :: ts => match f.matchesVal (typeString t), typesLoop f ts with
    | .ok true, some rest => some (t :: rest)
    | .ok false, some rest => some rest
    | _, _ => none

/-- `NewMetricTypesFn`, rules/validator/config.go:140-160.  Simplification: a panic of the filter is an error; there is none
(`C80_types_fn`). -/
def Config.metricTypesFn (c : Config) (m : TagFilterValueMap) : Option (List MetricType) :=
  match m.find? fun e => e.1 == c.typeTag with
  | none => some c.allowedTypes
  | some e => match newFilterFromFilterValue e.2 with
    | .ok f => typesLoop f c.allowedTypes
    | _ => none

/-- `if p != nil { opts = opts.Set…(*p) }`. -/
def ifSet (v : Option α) (f : α → Options → Options) (o : Options) : Options :=
  match v with
  | none => o
  | some a => f a o

/-- The body of the loop over the overrides, rules/validator/config.go:88-96. -/
def applyOverride (o : Options) (ov : Override) : Options :=
  ifSet ov.allowed.nonFirst (fun ts o => o.apply (.nonFirstFor ov.type ts))
    (ifSet ov.allowed.first (fun ts o => o.apply (.firstFor ov.type ts))
      (ifSet ov.allowed.storage (fun ps o => o.apply (.storageFor ov.type ps)) o))

/-- `newValidatorOptions`, rules/validator/config.go:66-105; `toRunes`, lines 184-190, is the list of code points. -/
def Config.newOptions (c : Config) (nsValidator : Bytes → Option VErr) : Options :=
  let o : Options := { Val.newOptions c.metricTypesFn with
    nsValidator := nsValidator, requiredTags := c.requiredTags, tagInvalid := runes c.tagInvalid, nameInvalid := runes c.nameInvalid }
  let o := ifSet c.multi (fun ts o => o.apply (.multi ts)) o
  let o := ifSet c.default.storage (fun ps o => o.apply (.defaultStorage ps)) o
  let o := ifSet c.default.first (fun ts o => o.apply (.defaultFirst ts)) o
  let o := ifSet c.default.nonFirst (fun ts o => o.apply (.defaultNonFirst ts)) o
  let o := c.overrides.foldl applyOverride o
  let o := ifSet c.maxOrder (fun n o => { o with maxOrder := n }) o
  ifSet c.maxLevels (fun n o => { o with maxLevels := n }) o

/-- `NewValidator`, rules/validator/config.go:55-64. -/
def Config.newValidator (c : Config) : Option Options := c.ns.newValidator.map c.newOptions

end Verif.Val
