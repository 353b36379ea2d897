import Verif.Model.Aggregation
import Verif.Model.Validator
/-
Options as objects behind pointers: what the setters of the options types do to the object they are called on.

All setters take a pointer.  Those of aggregation/types_options.go, encoding/msgpack/options.go, encoding/protobuf/unaggregated_options.go,
matcher/options.go, matcher/cache/options.go, rules/options.go and rules/validator/namespace/kv/options.go copy the object and write to
the copy; those of rules/validator/options.go write to the object and return it.

Simplifications: what options hold by reference (pools, functions, stores, byte slices, nested options) are values.  Of the
options that only hold what they are given, an object is the values of its fields.
-/
namespace Verif.Opts
open Verif.Policy Verif.TagsFlt
open scoped Verif.Agg

/-- What a setter does: `opts := *o; opts.f = value; return &opts`, or `o.f = value; return o`. -/
inductive Way where
  | copies
  | writes
  deriving DecidableEq, Repr

/-- The memory that options live in; a pointer is an index. -/
abbrev Heap (α : Type) := List α

/-- A setter called on the object behind `p`: the memory after it and the pointer returned.  A call on a pointer to nothing does not
return; nothing is done then. -/
def callSetter (w : Way) (h : Heap α) (p : Nat) (f : α → α) : Heap α × Nat :=
  match h[p]? with
  | none => (h, p)
  | some o => match w with
    | .copies => (h ++ [f o], h.length)
    | .writes => (h.set p (f o), p)

/-- What a program does with options of one type: make new ones, or call a setter on the `i`-th options it got. -/
inductive Call (σ : Type) where
  | new
  | set (i : Nat) (s : σ)
  deriving DecidableEq, Repr

/-- Memory and the pointers the program has got so far. -/
structure World (α : Type) where
  heap : Heap α := []
  ptrs : List Nat := []

/-- One call; calls on options the program does not have do nothing. -/
def World.step (w : Way) (new : α) (apply : σ → α → α) (v : World α) : Call σ → World α
  | .new => ⟨v.heap ++ [new], v.ptrs ++ [v.heap.length]⟩
  | .set i s => match v.ptrs[i]? with
    | none => v
    | some p => let r := callSetter w v.heap p (apply s); ⟨r.1, v.ptrs ++ [r.2]⟩

def World.run (w : Way) (new : α) (apply : σ → α → α) (v : World α) (cs : List (Call σ)) : World α :=
  cs.foldl (World.step w new apply) v

/-- What the `i`-th options hold. -/
def World.read (v : World α) (i : Nat) : Option α := v.ptrs[i]?.bind fun p => v.heap[p]?

/-! ### The types of options -/

/-- The fields of `options`, matcher/options.go:140-154; a setter per field, lines 172-296. -/
inductive MatcherField where
  | clockOpts | instrumentOpts | ruleSetOpts | initWatchTimeout | kvStore | namespacesKey | ruleSetKeyFn | namespaceTag
  | defaultNamespace | matchRangePast | onNamespaceAddedFn | onNamespaceRemovedFn | onRuleSetUpdatedFn
  deriving DecidableEq, Repr

/-- The fields of `options`, matcher/cache/options.go:101-110; a setter per field, lines 126-200. -/
inductive CacheField where
  | clockOpts | instrumentOpts | capacity | freshDuration | stutterDuration | evictionBatchSize | deletionBatchSize | invalidationMode
  deriving DecidableEq, Repr

/-- The fields of `options`, rules/options.go:49-53; a setter per field, lines 60-84. -/
inductive RulesField where
  | tagsFilterOpts | newRollupIDFn | isRollupIDFn
  deriving DecidableEq, Repr

/-- The fields of `namespaceValidatorOptions`, rules/validator/namespace/kv/options.go:67-73; a setter per field, lines 83-129. -/
inductive NsValidatorField where
  | instrumentOpts | kvStore | initWatchTimeout | validNamespacesKey | defaultValidNamespaces
  deriving DecidableEq, Repr

/-- The fields of `unaggregatedOptions`, encoding/protobuf/unaggregated_options.go:56-60; a setter per field, lines 73-97. -/
inductive ProtobufField where
  | bytesPool | initBufferSize | maxMessageSize
  deriving DecidableEq, Repr

/-- The fields of `bufferedEncoderPoolOptions`, encoding/msgpack/options.go:53-56; a setter per field, lines 66-80. -/
inductive EncoderPoolField where
  | maxCapacity | poolOpts
  deriving DecidableEq, Repr

/-- The fields of `unaggregatedIteratorOptions`, encoding/msgpack/options.go:86-92; a setter per field, lines 107-151. -/
inductive UnaggregatedField where
  | ignoreHigherVersion | readerBufferSize | largeFloatsSize | largeFloatsPool | iteratorPool
  deriving DecidableEq, Repr

/-- The fields of `aggregatedIteratorOptions`, encoding/msgpack/options.go:157-161; a setter per field, lines 171-195. -/
inductive AggregatedField where
  | ignoreHigherVersion | readerBufferSize | iteratorPool
  deriving DecidableEq, Repr

/-- Setting one field: `opts.f = value`. -/
def setField [DecidableEq φ] (s : φ × ν) (o : φ → ν) : φ → ν := fun g => if g = s.1 then s.2 else o g

/-- All setters of the validator options, rules/validator/options.go:169-277. -/
inductive VSetter where
  | of (s : Val.Setter)
  | nsValidator (v : Bytes → Option Val.VErr)
  | metricTypesFn (fn : TagFilterValueMap → Option (List Val.MetricType))
  | requiredTags (ts : List Bytes)
  | maxOrder (n : Int)
  | maxLevels (n : Int)
  | tagInvalid (cs : List Nat)
  | nameInvalid (cs : List Nat)

/-- rules/validator/options.go:169-277. -/
def VSetter.apply : VSetter → Val.Options → Val.Options
  | .of s, o => o.apply s
  | .nsValidator v, o => { o with nsValidator := v }
  | .metricTypesFn fn, o => { o with metricTypesFn := fn }
  | .requiredTags ts, o => { o with requiredTags := ts }
  | .maxOrder n, o => { o with maxOrder := n }
  | .maxLevels n, o => { o with maxLevels := n }
  | .tagInvalid cs, o => { o with tagInvalid := cs }
  | .nameInvalid cs, o => { o with nameInvalid := cs }

/-- What the setters of the validator options do, rules/validator/options.go:169-277. -/
def validatorWay : Way := .writes

/-- What the setters of the other options do: aggregation/types_options.go:200-281 and the lines given with the fields. -/
def otherWay : Way := .copies

/-- `validator`, rules/validator/validator.go:47-50: a pointer to the options and the namespace validator. -/
structure Validator where
  opts : Nat
  nsValidator : Bytes → Option Val.VErr

/-- `NewValidator`, rules/validator/validator.go:53-58: the namespace validator is taken from the options now, the rest when needed. -/
def newValidator (h : Heap Val.Options) (p : Nat) : Option Validator := h[p]?.map fun o => ⟨p, o.nsValidator⟩

/-- `ValidateSnapshot`, rules/validator/validator.go:70-93, with the options as they are now; `none` when they are not there. -/
def Validator.validate (h : Heap Val.Options) (v : Validator) (s : RuleSet.RuleSetView) : Option (Option Val.VErr) :=
  h[v.opts]?.map fun o => Val.validateSnapshot { o with nsValidator := v.nsValidator } s

end Verif.Opts
