import Verif.Model.Keys
import Verif.Model.ValidatorConfig
import Verif.Model.Cache
/-
What is built from configurations, with the configurations in memory: matcher/config.go, matcher/cache/config.go,
rules/validator/config.go and aggregation/type_config.go.

A configuration of a matcher is a structure behind a pointer, and the function for the keys of rule sets keeps the pointer; the lists
of types in a configuration are arrays behind slices, and the metric types function of a validator and the default types of aggregation
options keep the slice.  All else is copied when the options are made.

Simplifications: the clients, clocks, pools and metrics scopes of a configuration are left out, and creating a key-value store does not
fail; a slice covers its array; the callbacks of the options of a matcher (set by `NewMatcher` only) are left out.
-/
namespace Verif.Configured
open Verif.Keys Verif.TagsFlt
open scoped Verif.Agg

/-- `Configuration`, matcher/config.go:40-50, without the store and the pool. -/
structure MatcherConfig where
  initWatchTimeout : Int := 0
  namespacesKey : Bytes
  ruleSetKeyFmt : Bytes
  namespaceTag : Bytes
  defaultNamespace : Bytes
  nameTagKey : Bytes
  matchRangePast : Option Int := none
  deriving DecidableEq

/-- Where the key function of the options of a matcher takes its format from: the default, matcher/options.go:302-304, or a
configuration, matcher/config.go:126-129. -/
inductive KeyFn where
  | default
  | ofConfig (p : Nat)
  deriving DecidableEq

/-- `options`, matcher/options.go:140-154, with the tag of the names of the rule set options (rules/options.go). -/
structure MatcherOpts where
  initWatchTimeout : Int
  namespacesKey : Bytes
  keyFn : KeyFn
  namespaceTag : Bytes
  defaultNamespace : Bytes
  nameTagKey : Bytes
  matchRangePast : Int

/-- `NewOptions`, matcher/options.go:157-170, with the constants of lines 34-45; the rule set options there have no name tag. -/
def newMatcherOpts : MatcherOpts :=
  { initWatchTimeout := 10 * 1000000000, namespacesKey := defaultNamespacesKey, keyFn := .default, namespaceTag := bs "namespace"
    defaultNamespace := bs "default", nameTagKey := [], matchRangePast := 2 ^ 63 - 1 }

/-- `Configuration.NewOptions`, matcher/config.go:83-150, of the configuration `c` behind the pointer `p`. -/
def MatcherConfig.newOptions (c : MatcherConfig) (p : Nat) : MatcherOpts :=
  let o := { newMatcherOpts with
    nameTagKey := c.nameTagKey, namespacesKey := c.namespacesKey, keyFn := .ofConfig p, namespaceTag := c.namespaceTag
    defaultNamespace := c.defaultNamespace }
  let o := if c.initWatchTimeout ≠ 0 then { o with initWatchTimeout := c.initWatchTimeout } else o
  match c.matchRangePast with
  | none => o
  | some d => { o with matchRangePast := d }

/-- `Configuration`, matcher/cache/config.go:30-36. -/
structure CacheConfig where
  capacity : Int := 0
  freshDuration : Int := 0
  stutterDuration : Int := 0
  evictionBatchSize : Int := 0
  deletionBatchSize : Int := 0

/-- The options of a cache, matcher/cache/options.go:101-110. -/
structure CacheOpts where
  opts : Cache.Config
  deletionBatchSize : Int

/-- `NewOptions`, matcher/cache/options.go:113-124, with the constants of lines 41-48. -/
def newCacheOpts : CacheOpts :=
  { opts := { capacity := 200000, freshDuration := 300000000000, stutterDuration := 60000000000, evictionBatchSize := 1024
              invalidateAll := true }
    deletionBatchSize := 1024 }

/-- `Configuration.NewCache`, matcher/cache/config.go:39-64: the options given to the cache. -/
def CacheConfig.newOptions (c : CacheConfig) : CacheOpts :=
  let o := newCacheOpts
  let o := if c.capacity ≠ 0 then { o with opts := { o.opts with capacity := c.capacity } } else o
  let o := if c.freshDuration ≠ 0 then { o with opts := { o.opts with freshDuration := c.freshDuration } } else o
  let o := if c.stutterDuration ≠ 0 then { o with opts := { o.opts with stutterDuration := c.stutterDuration } } else o
  let o := if c.evictionBatchSize ≠ 0 then { o with opts := { o.opts with evictionBatchSize := c.evictionBatchSize } } else o
  if c.deletionBatchSize ≠ 0 then { o with deletionBatchSize := c.deletionBatchSize } else o

/-- A configuration of aggregation types whose lists are arrays in memory, aggregation/type_config.go:31-55. -/
structure TypesRef where
  counter : Option Nat := none
  timer : Option Nat := none
  gauge : Option Nat := none
  counterFn : Option Bytes := none
  timerFn : Option Bytes := none
  gaugeFn : Option Bytes := none

/-- What was built. -/
inductive Built where
  /-- options of a matcher -/
  | matcher (o : MatcherOpts)
  /-- options of a cache -/
  | cache (o : CacheOpts)
  /-- options of a validator, apart from the metric types function, and the type tag and the slice kept by that function -/
  | validator (o : Val.Options) (typeTag : Bytes) (allowed : Nat)
  /-- options of aggregation types, with the slices they keep in place of the lists -/
  | types (o : Agg.Options) (counter timer gauge : Option Nat)

/-- The configurations in memory and what was built from them. -/
structure St where
  matchers : List MatcherConfig := []
  caches : List CacheConfig := []
  arrays : List (List Int) := []
  built : List Built := []

/-- The list of types a slice stands for. -/
def St.array (s : St) (a : Nat) : List Int := s.arrays[a]?.getD []

/-- The configuration of aggregation types as it is now. -/
def TypesRef.now (c : TypesRef) (s : St) : Agg.TypesConfiguration :=
  { defaultCounter := c.counter.map s.array, defaultTimer := c.timer.map s.array, defaultGauge := c.gauge.map s.array
    counterFn := c.counterFn, timerFn := c.timerFn, gaugeFn := c.gaugeFn }

/-- The arrays it refers to are there. -/
def TypesRef.exist (c : TypesRef) (s : St) : Bool :=
  c.counter.all (· < s.arrays.length) && c.timer.all (· < s.arrays.length) && c.gauge.all (· < s.arrays.length)

/-- The steps of a program: it writes configurations, or builds from them. -/
inductive Act where
  | newMatcherConfig (c : MatcherConfig)
  | setMatcherConfig (p : Nat) (c : MatcherConfig)
  | newCacheConfig (c : CacheConfig)
  | setCacheConfig (p : Nat) (c : CacheConfig)
  | newArray (l : List Int)
  | setArray (a : Nat) (l : List Int)
  | buildMatcher (p : Nat)
  | buildCache (p : Nat)
  | buildValidator (c : Val.Config) (ns : Bytes → Option Val.VErr) (a : Nat)
  | buildTypes (c : TypesRef)

/-- One step; a step that refers to nothing does nothing, and so does a build that fails. -/
def St.step (s : St) : Act → St
  | .newMatcherConfig c => { s with matchers := s.matchers ++ [c] }
  | .setMatcherConfig p c => { s with matchers := s.matchers.set p c }
  | .newCacheConfig c => { s with caches := s.caches ++ [c] }
  | .setCacheConfig p c => { s with caches := s.caches.set p c }
  | .newArray l => { s with arrays := s.arrays ++ [l] }
  | .setArray a l => { s with arrays := s.arrays.set a l }
  | .buildMatcher p => match s.matchers[p]? with
    | none => s
    | some c => { s with built := s.built ++ [.matcher (c.newOptions p)] }
  | .buildCache p => match s.caches[p]? with
    | none => s
    | some c => { s with built := s.built ++ [.cache c.newOptions] }
  | .buildValidator c ns a => match s.arrays[a]? with
    | none => s
    | some l => { s with built := s.built ++ [.validator (({ c with allowedTypes := l } : Val.Config).newOptions ns) c.typeTag a] }
  | .buildTypes c => if !c.exist s then s else match (c.now s).newOptions with
    | none => s
    | some o => { s with built := s.built ++ [.types o c.counter c.timer c.gauge] }

def run (s : St) (acts : List Act) : St := acts.foldl St.step s

/-! ### What the built options answer -/

/-- `RuleSetKeyFn()(namespace)` of the options of a matcher, matcher/config.go:127-129 and matcher/options.go:302-304. -/
def ruleSetKey (s : St) (o : MatcherOpts) (ns : Bytes) : Option Bytes :=
  match o.keyFn with
  | .default => matcherKey defaultRuleSetKeyFormat ns
  | .ofConfig p => match s.matchers[p]? with
    | none => none
    | some c => matcherKey c.ruleSetKeyFmt ns

/-- The options of a validator as they answer now: the closure of rules/validator/config.go:140-160 reads the slice each time it is
called. -/
def validatorNow (s : St) (o : Val.Options) (tag : Bytes) (a : Nat) : Val.Options :=
  { o with metricTypesFn := ({ ns := {}, typeTag := tag, allowedTypes := s.array a } : Val.Config).metricTypesFn }

/-- The options of aggregation types as they answer now: aggregation/types_options.go:207-209, 218-220 and 229-231 return the slice
that was set. -/
def typesNow (s : St) (o : Agg.Options) (counter timer gauge : Option Nat) : Agg.Options :=
  { o with
    defaultCounter := (counter.map s.array).getD o.defaultCounter, defaultTimer := (timer.map s.array).getD o.defaultTimer
    defaultGauge := (gauge.map s.array).getD o.defaultGauge }

end Verif.Configured
