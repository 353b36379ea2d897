import Verif.Model.RuleSet
/-
Model of rules/validator/validator.go and rules/validator/options.go.

Simplifications: error values are reduced to their kind; error texts are left out.  Go sets are lists asked for
membership.  The namespace validator and the function inferring metric types are parameters.
-/
namespace Verif.Val
open Verif.Policy Verif.TagsFlt Verif.RuleSet
open scoped Verif.Agg
open Verif.Rules (RollupTarget)

/-! ### Runes -/

/-- A continuation byte of UTF-8. -/
def isCont (b : UInt8) : Bool := decide (0x80 ≤ b.toNat) && decide (b.toNat ≤ 0xBF)

/-- The bounds of the second byte after the leading byte `b0` of a three or four byte sequence: Go's `acceptRanges`
(unicode/utf8). -/
def second (b0 : Nat) (b : UInt8) : Bool :=
  let lo := if b0 = 0xE0 then 0xA0 else if b0 = 0xF0 then 0x90 else 0x80
  let hi := if b0 = 0xED then 0x9F else if b0 = 0xF4 then 0x8F else 0xBF
  decide (lo ≤ b.toNat) && decide (b.toNat ≤ hi)

/-- What `for _, char := range str` reads from a non-empty string: the code point and the bytes left (the Go language
specification, "For statements with range clause"; ill-formed input yields U+FFFD and skips one byte). -/
def rune (b0 : UInt8) (rest : Bytes) : Nat × Bytes :=
  let n := b0.toNat
  if n < 0x80 then (n, rest)
  else if 0xC2 ≤ n ∧ n ≤ 0xDF then
    match rest with
    | b1 :: r => if isCont b1 then ((n - 0xC0) * 64 + (b1.toNat - 0x80), r) else (0xFFFD, rest)
    | _ => (0xFFFD, rest)
  else if 0xE0 ≤ n ∧ n ≤ 0xEF then
    match rest with
    | b1 :: b2 :: r =>
      if second n b1 && isCont b2 then ((n - 0xE0) * 4096 + (b1.toNat - 0x80) * 64 + (b2.toNat - 0x80), r) else (0xFFFD, rest)
    | _ => (0xFFFD, rest)
  else if 0xF0 ≤ n ∧ n ≤ 0xF4 then
    match rest with
    | b1 :: b2 :: b3 :: r =>
      if second n b1 && isCont b2 && isCont b3 then
        ((n - 0xF0) * 262144 + (b1.toNat - 0x80) * 4096 + (b2.toNat - 0x80) * 64 + (b3.toNat - 0x80), r)
      else (0xFFFD, rest)
    | _ => (0xFFFD, rest)
  else (0xFFFD, rest)

/-- The code points of a string, with as much fuel as it has bytes. -/
def runesLoop : Nat → Bytes → List Nat
  | _, [] => []
  | 0, _ => []
  | fuel + 1, b :: rest => let (c, r) := rune b rest; c :: runesLoop fuel r

def runes (s : Bytes) : List Nat := runesLoop s.length s

/-! ### Errors -/

/-- Kinds of errors: `errors.InvalidInputError`, `errors.ValidationError` (errors/types.go), any other. -/
inductive VErr where
  | invalidInput
  | validation
  | other
  | panic
  deriving DecidableEq, Repr

/-- `wrapError`, rules/validator/validator.go:475-487. -/
def wrapError : Option VErr → Option VErr
  | none => none
  | some .invalidInput => some .invalidInput
  | some .validation => some .validation
  | some .other => some .validation
  | some .panic => some .panic

/-! ### Options -/

/-- `validationMetadata`, rules/validator/options.go:137-141. -/
structure TypeMeta where
  storagePolicies : List StoragePolicy
  firstLevel : List AType
  nonFirstLevel : List AType
  deriving DecidableEq

/-- Metric types, metric/types.go:33-38: Unknown 0, Counter 1, Timer 2, Gauge 3. -/
abbrev MetricType := Int

/-- `options`, rules/validator/options.go:143-156. -/
structure Options where
  nsValidator : Bytes → Option VErr := fun _ => none
  defaultStorage : List StoragePolicy := []
  defaultFirst : List AType := []
  defaultNonFirst : List AType := []
  /-- `MetricTypesFn`; `none` is an error.  The function is taken to be set: calling the nil default panics. -/
  metricTypesFn : TagFilterValueMap → Option (List MetricType)
  multi : List MetricType := [2]
  requiredTags : List Bytes := []
  maxOrder : Int := 1
  maxLevels : Int := 1
  nameInvalid : List Nat := []
  tagInvalid : List Nat := []
  byType : List (MetricType × TypeMeta) := []

/-- `NewOptions`, rules/validator/options.go:159-167, with the static namespace validator that accepts everything and the
metric types function that has to be set before use. -/
def newOptions (fn : TagFilterValueMap → Option (List MetricType)) : Options := { metricTypesFn := fn }

/-- Lookup in `metadatasByType`. -/
def Options.find (o : Options) (t : MetricType) : Option TypeMeta := (o.byType.find? fun p => p.1 == t).map (·.2)

/-- `findOrCreateMetadata`, rules/validator/options.go:315-324. -/
def Options.findOrCreate (o : Options) (t : MetricType) : TypeMeta :=
  match o.find t with
  | some m => m
  | none => { storagePolicies := o.defaultStorage, firstLevel := o.defaultFirst, nonFirstLevel := o.defaultNonFirst }

/-- `o.metadatasByType[t] = metadata`. -/
def Options.put (o : Options) (t : MetricType) (m : TypeMeta) : Options :=
  { o with byType := (t, m) :: o.byType.filter fun p => !(p.1 == t) }

/-- The setters of `Options` that bear on what is allowed for a metric type, rules/validator/options.go:178-212, 223-226. -/
inductive Setter where
  | defaultStorage (ps : List StoragePolicy)
  | defaultFirst (ts : List AType)
  | defaultNonFirst (ts : List AType)
  | storageFor (t : MetricType) (ps : List StoragePolicy)
  | firstFor (t : MetricType) (ts : List AType)
  | nonFirstFor (t : MetricType) (ts : List AType)
  | multi (ts : List MetricType)
  deriving DecidableEq

/-- rules/validator/options.go:178-212, 223-226. -/
def Options.apply (o : Options) : Setter → Options
  | .defaultStorage ps => { o with defaultStorage := ps }
  | .defaultFirst ts => { o with defaultFirst := ts }
  | .defaultNonFirst ts => { o with defaultNonFirst := ts }
  | .storageFor t ps => o.put t { o.findOrCreate t with storagePolicies := ps }
  | .firstFor t ts => o.put t { o.findOrCreate t with firstLevel := ts }
  | .nonFirstFor t ts => o.put t { o.findOrCreate t with nonFirstLevel := ts }
  | .multi ts => { o with multi := ts }

/-- `IsAllowedStoragePolicyFor`, rules/validator/options.go:283-290. -/
def Options.allowsStorage (o : Options) (t : MetricType) (p : StoragePolicy) : Bool :=
  match o.find t with
  | some m => m.storagePolicies.contains p
  | none => o.defaultStorage.contains p

/-- `IsMultiAggregationTypesEnabledFor`, rules/validator/options.go:292-295. -/
def Options.allowsMulti (o : Options) (t : MetricType) : Bool := o.multi.contains t

/-- `IsAllowedFirstLevelAggregationTypeFor`, rules/validator/options.go:297-304. -/
def Options.allowsFirst (o : Options) (t : MetricType) (a : AType) : Bool :=
  match o.find t with
  | some m => m.firstLevel.contains a
  | none => o.defaultFirst.contains a

/-- `IsAllowedNonFirstLevelAggregationTypeFor`, rules/validator/options.go:306-313. -/
def Options.allowsNonFirst (o : Options) (t : MetricType) (a : AType) : Bool :=
  match o.find t with
  | some m => m.nonFirstLevel.contains a
  | none => o.defaultNonFirst.contains a

/-- `validateChars`, rules/validator/options.go:350-362. -/
def validateChars (s : Bytes) (invalid : List Nat) : Bool :=
  if invalid.length = 0 then true else !((runes s).any fun c => invalid.contains c)

/-! ### The checks -/

/-- The loop of `validateFilter` over the tags, rules/validator/validator.go:204-209. -/
def checkTagNames (o : Options) : TagFilterValueMap → Bool
  | [] => true
  | e :: es => if validateChars e.1 o.tagInvalid then checkTagNames o es else false

/-- `validateFilter`, rules/validator/validator.go:199-211. -/
def validateFilter (o : Options) (f : Bytes) : Out TagFilterValueMap :=
  match validateTagsFilter f with
  | .ok m => if checkTagNames o m then .ok m else .err
  | .err => .err
  | .panic => .panic

/-- `validateAggregationID`, rules/validator/validator.go:213-245; `first` selects the level. -/
def validateAggregationID (o : Options) (id : Agg.ID) (first : Bool) (types : List MetricType) : Bool :=
  if id.isDefault then true
  else match id.types with
    | none => false
    | some ts =>
      if decide (1 < ts.length) && !(types.all fun t => o.allowsMulti t) then false
      else types.all fun t => ts.all fun a => if first then o.allowsFirst t a else o.allowsNonFirst t a

/-- The duplicate check by a set of seen values, rules/validator/validator.go:256-263, 414-422. -/
def noDup [BEq α] : List α → List α → Bool
  | [], _ => true
  | x :: xs, seen => if seen.contains x then false else noDup xs (x :: seen)

/-- `validateStoragePolicies`, rules/validator/validator.go:247-274. -/
def validateStoragePolicies (o : Options) (sps : List StoragePolicy) (types : List MetricType) : Bool :=
  if sps.length = 0 then false
  else if !(noDup sps []) then false
  else types.all fun t => sps.all fun p => o.allowsStorage t p

/-- `transformation.Type.IsValid`, transformation/type.go:41-55: unary (Absolute 1) or binary (PerSecond 2). -/
def isBinaryTransform (t : Int) : Bool := t == 2
def isValidTransform (t : Int) : Bool := t == 1 || isBinaryTransform t

/-- `validateAggregationOp`, rules/validator/validator.go:347-356. -/
def validateAggregationOp (o : Options) (a : AType) (types : List MetricType) : Bool :=
  match Agg.compressTypes [a] with
  | none => false
  | some id => validateAggregationID o id true types

/-- `validateRollupMetricName`, rules/validator/validator.go:393-401. -/
def validateRollupName (o : Options) (name : Bytes) : Bool :=
  if name.length = 0 then false else validateChars name o.nameInvalid

/-- `m[tag] = struct{}{}` for every tag, rules/validator/validator.go:333-336. -/
def toSet : List Bytes → List Bytes → List Bytes
  | [], set => set
  | t :: ts, set => toSet ts (if set.contains t then set else t :: set)

/-- The comparison with the tags of the previous rollup, rules/validator/validator.go:427-438. -/
def shrinks (tags : List Bytes) : Option (List Bytes) → Bool
  | none => true
  | some prev =>
    if !(tags.all fun t => prev.contains t) then false
    else !(tags.length == prev.length)

/-- `validateRollupTags`, rules/validator/validator.go:403-452. -/
def validateRollupTags (o : Options) (tags : List Bytes) (prev : Option (List Bytes)) : Bool :=
  if !(tags.all fun t => validateChars t o.tagInvalid) then false
  else if !(noDup tags []) then false
  else if !(shrinks tags prev) then false
  else if o.requiredTags.length = 0 then true
  else o.requiredTags.all fun t => tags.contains t

/-- `validateRollupOp`, rules/validator/validator.go:365-391. -/
def validateRollupOp (o : Options) (op : Pipe.RollupOp) (i : Nat) (types : List MetricType) (prev : Option (List Bytes)) :
    Bool :=
  if !(validateRollupName o op.newName) then false
  else if !(validateRollupTags o op.tags prev) then false
  else validateAggregationID o op.aggID (!(decide (0 < i))) types

/-- The state carried by the loop of `validatePipeline`, rules/validator/validator.go:289-295. -/
structure PState where
  numAgg : Int := 0
  order : Int := 0
  numRollup : Int := 0
  prev : Option (List Bytes) := none

/-- The loop of `validatePipeline`, rules/validator/validator.go:296-340, at operation `i`. -/
def pipelineLoop (o : Options) (types : List MetricType) : Nat → PState → List Pipe.OpUnion → Bool
  | _, st, [] => !(st.numRollup == 0)
  | i, st, op :: ops =>
    if op.type = Pipe.AggregationOpType then
      if 1 < st.numAgg + 1 then false
      else if i ≠ 0 then false
      else if validateAggregationOp o op.aggregation types then
        pipelineLoop o types (i + 1) { st with numAgg := st.numAgg + 1 } ops
      else false
    else if op.type = Pipe.TransformationOpType then
      if isBinaryTransform op.transformation then
        if o.maxOrder < st.order + 1 then false
        else if isValidTransform op.transformation then
          pipelineLoop o types (i + 1) { st with order := st.order + 1 } ops
        else false
      else if isValidTransform op.transformation then pipelineLoop o types (i + 1) st ops
      else false
    else if op.type = Pipe.RollupOpType then
      if o.maxLevels < st.numRollup + 1 then false
      else if validateRollupOp o op.rollup i types st.prev then
        pipelineLoop o types (i + 1)
          { numAgg := st.numAgg, order := 0, numRollup := st.numRollup + 1, prev := some (toSet op.rollup.tags []) } ops
      else false
    else false

/-- `validatePipeline`, rules/validator/validator.go:285-345. -/
def validatePipeline (o : Options) (p : Pipe.Pipeline) (types : List MetricType) : Bool :=
  if p.length = 0 then false else pipelineLoop o types 0 {} p

/-- The checks on one mapping rule after that of its name, rules/validator/validator.go:107-147. -/
def mappingRule (o : Options) (r : MappingView) : Option VErr :=
  match validateFilter o r.filter with
  | .panic => some .panic
  | .err => some .other
  | .ok m => match o.metricTypesFn m with
    | none => some .other
    | some types =>
      if types.length = 0 then some .other
      else if !(validateAggregationID o r.aggID true types) then some .other
      else if !(dropIsValid r.drop) then some .other
      else if r.drop = DropNone then
        if validateStoragePolicies o r.storagePolicies types then none else some .other
      else if !r.aggID.isDefault then some .other
      else if r.storagePolicies.length ≠ 0 then some .other
      else none

/-- The loop of `validateMappingRules`, rules/validator/validator.go:95-150. -/
def mappingLoop (o : Options) : List MappingView → List Bytes → Option VErr
  | [], _ => none
  | r :: rs, seen =>
    if r.tombstoned then mappingLoop o rs seen
    else if seen.contains r.name then some .invalidInput
    else match mappingRule o r with
      | some e => some e
      | none => mappingLoop o rs (r.name :: seen)

/-- The loop over the targets of a rollup rule, rules/validator/validator.go:183-194. -/
def targetsLoop (o : Options) (types : List MetricType) : List RollupTarget → Bool
  | [] => true
  | t :: ts =>
    if !(validatePipeline o t.pipeline types) then false
    else if !(validateStoragePolicies o t.storagePolicies types) then false
    else targetsLoop o types ts

/-- The checks on one rollup rule after that of its name, rules/validator/validator.go:168-194. -/
def rollupRule (o : Options) (r : RollupView) : Option VErr :=
  match validateFilter o r.filter with
  | .panic => some .panic
  | .err => some .other
  | .ok m => match o.metricTypesFn m with
    | none => some .other
    | some types =>
      if types.length = 0 then some .other
      else if targetsLoop o types r.targets then none
      else some .other

/-- `validateNoDuplicateRollupIDIn`, rules/validator/validator.go:454-473: the inner loops on one pipeline; the result holds
the rollup operations met so far, newest first. -/
def dupOps : List Pipe.OpUnion → List Pipe.RollupOp → Option (List Pipe.RollupOp)
  | [], seen => some seen
  | op :: ops, seen =>
    if op.type ≠ Pipe.RollupOpType then dupOps ops seen
    else if seen.any fun e => op.rollup.sameTransform e then none
    else dupOps ops (op.rollup :: seen)

/-- `validateNoDuplicateRollupIDIn`, rules/validator/validator.go:454-473. -/
def dupPipelines : List Pipe.Pipeline → List Pipe.RollupOp → Option VErr
  | [], _ => none
  | p :: ps, seen => match dupOps p seen with
    | none => some .invalidInput
    | some seen => dupPipelines ps seen

/-- `validateRollupRules`, rules/validator/validator.go:152-197. -/
def rollupLoop (o : Options) : List RollupView → List Bytes → List Pipe.Pipeline → Option VErr
  | [], _, pipelines => dupPipelines pipelines []
  | r :: rs, seen, pipelines =>
    if r.tombstoned then rollupLoop o rs seen pipelines
    else if seen.contains r.name then some .invalidInput
    else match rollupRule o r with
      | some e => some e
      | none => rollupLoop o rs (r.name :: seen) (pipelines ++ r.targets.map (·.pipeline))

/-- `validateSnapshot`, rules/validator/validator.go:81-89. -/
def validateSnapshotRaw (o : Options) (s : RuleSetView) : Option VErr :=
  match o.nsValidator s.namespace_ with
  | some e => some e
  | none => match mappingLoop o s.mappingRules [] with
    | some e => some e
    | none => rollupLoop o s.rollupRules [] []

/-- `ValidateSnapshot`, rules/validator/validator.go:70-75. -/
def validateSnapshot (o : Options) (s : RuleSetView) : Option VErr := wrapError (validateSnapshotRaw o s)

/-- `Validate`, rules/validator/validator.go:60-68, for the outcome of `rs.Latest()`. -/
def validate (o : Options) : Option RuleSetView → Option VErr
  | none => wrapError (some .other)
  | some s => validateSnapshot o s

end Verif.Val
