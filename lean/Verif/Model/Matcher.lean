import Verif.Model.Namespace
import Verif.Model.Cache
/-
Model of matcher/ruleset.go, matcher/namespaces.go and matcher/match.go: the rulesets the matcher watches, the processing of
namespace updates, and matching through the cache.

A ruleset is an object; the model names objects by numbers and keeps their contents in a function from numbers, so that the
map of rulesets and the cache refer to the same objects.  Watching a key is done by `runtime.Value` of m3cluster, which is not
part of the repository; the outcome of `Watch` is a parameter (`WatchOutcome`), with these assumptions: `Watch` on a value that
is watched does nothing; otherwise it either fails to create the watch, or creates it and may process a first value before
it returns; `Unwatch` ends the watch.  Metrics and logging are left out, `int` and `int64` are modelled by `Int`.
-/
namespace Verif.Matcher
open Verif.Agg Verif.Active Verif.Cache Verif.NS

/-- `ruleSet`, matcher/ruleset.go:73-91: what changes in it.  `watched` is the state of the embedded `runtime.Value`. -/
structure RS where
  version : Int
  cutoverNanos : Int
  tombstoned : Bool
  matcher : Option ActiveRuleSet
  watched : Bool

/-- `newRuleSet`, matcher/ruleset.go:93-121; `kv.UninitializedVersion` is 0. -/
def newRuleSet : RS := { version := 0, cutoverNanos := 0, tombstoned := false, matcher := none, watched := false }

/-- `process`, matcher/ruleset.go:201-210: a ruleset received at time `now` takes effect (the announcement is a separate
step, see `Event.updated`). -/
def RS.process (past : Int) (r : RS) (v : RuleSet.RuleSet) (now : Int) : RS :=
  { r with
    version := v.version
    cutoverNanos := v.cutoverNanos
    tombstoned := v.tombstoned
    matcher := some (v.activeSet (now - past)) }

/-- `ForwardMatch`, matcher/ruleset.go:151-163. -/
def RS.forwardMatch (env : Env) (r : RS) (id : Bytes) (frm to : Int) : MatchResult := match r.matcher with
  | none => emptyMatchResult
  | some as => Active.forwardMatch env as id frm to

/-- `ReverseMatch`, matcher/ruleset.go:165-184. -/
def RS.reverseMatch (env : Env) (r : RS) (id : Bytes) (frm to : Int) (mt : Option Kind) (at' : AType) (multi : Bool)
    (o : Agg.Options) : MatchResult := match r.matcher with
  | none => emptyMatchResult
  | some as => Active.reverseMatch env as id frm to mt at' multi o

/-- What `Watch` of an unwatched value does: it fails, or watches and processes the first value, if one arrives in time (with
the clock reading at that moment). -/
inductive WatchOutcome where
  | failed
  | watching (first : Option (RuleSet.RuleSet × Int))

/-- `ruleSet.Watch()`; the flag tells whether a value was processed. -/
def RS.watch (past : Int) (r : RS) (w : WatchOutcome) : RS × Bool :=
  if r.watched then (r, false)
  else match w with
    | .failed => (r, false)
    | .watching none => ({ r with watched := true }, false)
    | .watching (some v) => ({ r.process past v.1 v.2 with watched := true }, true)

/-- `ruleSet.Unwatch()`. -/
def RS.unwatch (r : RS) : RS := { r with watched := false }

/-- Calls of `onNamespaceAddedFn`, `onNamespaceRemovedFn` and `onRuleSetUpdatedFn` (matcher/match.go:53-61). -/
inductive Event where
  | added (ns : Bytes) (src : Nat)
  | removed (ns : Bytes)
  | updated (src : Nat)
  deriving DecidableEq

/-- `namespaces`, matcher/namespaces.go:101-118: the map of rulesets, and the objects it refers to. -/
structure NsSt where
  rules : List (Bytes × Nat)
  objs : Nat → RS

/-- The object is changed. -/
def NsSt.put (s : NsSt) (src : Nat) (r : RS) : NsSt := { s with objs := fun x => if x = src then r else s.objs x }

/-- What the processing of an update depends on: `matchRangePast`, the clock when an entry is looked at, the outcome of
`Watch`, the object `newRuleSet` allocates for a namespace, and the orders in which the two maps are iterated. -/
structure Env63 where
  past : Int
  now : Bytes → Int
  watch : Bytes → WatchOutcome
  fresh : Bytes → Nat
  order : List (Bytes × Namespace) → List (Bytes × Namespace)
  order2 : List (Bytes × Nat) → List (Bytes × Nat)

/-- The map of incoming namespaces, matcher/namespaces.go:242-253: a later entry of the same name replaces an earlier one. -/
def incoming (nss : List Namespace) : List (Bytes × Namespace) := nss.foldl (fun m n => mset m n.name n) []

/-- The ruleset of a namespace of the update is looked up or created, matcher/namespaces.go:261-270. -/
def NsSt.getOrNew (s : NsSt) (fresh : Bytes → Nat) (name : Bytes) : NsSt × Nat × Bool := match mget s.rules name with
  | some src => (s, src, true)
  | none => ({ s.put (fresh name) newRuleSet with rules := mset s.rules name (fresh name) }, fresh name, false)

/-- `shouldWatch`, matcher/namespaces.go:272-287. -/
def shouldWatch (elem : Namespace) (r : RS) : Bool := match elem.snaps.getLast? with
  | none => true
  | some s => !(s.tombstoned && s.forRuleSetVersion == r.version)

/-- Watching or unwatching the ruleset, matcher/namespaces.go:288-300. -/
def watchOrNot (e : Env63) (elem : Namespace) (ns : Bytes) (r : RS) : RS × Bool :=
  if !shouldWatch elem r then (r.unwatch, false) else r.watch e.past (e.watch ns)

/-- One iteration of the first loop of `process`, matcher/namespaces.go:258-305. -/
def addOne (e : Env63) (s : NsSt) (ns : Bytes) (elem : Namespace) : NsSt × List Event :=
  let g := s.getOrNew e.fresh ns
  let src := g.2.1
  let w := watchOrNot e elem ns (g.1.objs src)
  (g.1.put src w.1, (if w.2 then [.updated src] else []) ++ (if g.2.2 then [] else [.added ns src]))

/-- The first loop. -/
def addLoop (e : Env63) : List (Bytes × Namespace) → NsSt → NsSt × List Event
  | [], s => (s, [])
  | (ns, elem) :: rest, s =>
    let a := addOne e s ns elem
    let b := addLoop e rest a.1
    (b.1, a.2 ++ b.2)

/-- One iteration of the second loop of `process`, matcher/namespaces.go:307-323. -/
def removeOne (e : Env63) (inc : List (Bytes × Namespace)) (s : NsSt) (ns : Bytes) (src : Nat) : NsSt × List Event :=
  if (mget inc ns).isSome then (s, [])
  else if (s.objs src).tombstoned && decide ((s.objs src).cutoverNanos ≤ e.now ns - e.past) then
    ({ s.put src (s.objs src).unwatch with rules := mdel s.rules ns }, [.removed ns])
  else (s, [])

/-- The second loop. -/
def removeLoop (e : Env63) (inc : List (Bytes × Namespace)) : List (Bytes × Nat) → NsSt → NsSt × List Event
  | [], s => (s, [])
  | (ns, src) :: rest, s =>
    let a := removeOne e inc s ns src
    let b := removeLoop e inc rest a.1
    (b.1, a.2 ++ b.2)

/-- `process`, matcher/namespaces.go:242-326, with the calls it makes; updates of rulesets that arrive in the meantime are
steps of their own in the model of the whole matcher. -/
def process (e : Env63) (s : NsSt) (nss : List Namespace) : NsSt × List Event :=
  let inc := incoming nss
  let a := addLoop e (e.order inc) s
  let b := removeLoop e inc (e.order2 a.1.rules) a.1
  (b.1, a.2 ++ b.2)

/-- `Version`, matcher/namespaces.go:170-178. -/
def NsSt.version (s : NsSt) (ns : Bytes) : Int := match mget s.rules ns with
  | none => 0
  | some src => (s.objs src).version

/-- `ForwardMatch`, matcher/namespaces.go:180-186. -/
def NsSt.forwardMatch (env : Env) (s : NsSt) (ns id : Bytes) (frm to : Int) : MatchResult := match mget s.rules ns with
  | none => emptyMatchResult
  | some src => (s.objs src).forwardMatch env id frm to

/-- `ReverseMatch`, matcher/namespaces.go:188-202. -/
def NsSt.reverseMatch (env : Env) (s : NsSt) (ns id : Bytes) (frm to : Int) (mt : Option Kind) (at' : AType) (multi : Bool)
    (o : Agg.Options) : MatchResult := match mget s.rules ns with
  | none => emptyMatchResult
  | some src => (s.objs src).reverseMatch env id frm to mt at' multi o

/-- `Close`, matcher/namespaces.go:213-226. -/
def NsSt.close (s : NsSt) : NsSt :=
  { s with objs := fun x => if x ∈ s.rules.map (·.2) then (s.objs x).unwatch else s.objs x }

/-- The namespace of an identifier, matcher/match.go:78-83: the value of the namespace tag, or else the default namespace. -/
def namespaceOf (tagValue : Bytes → Bytes → Option Bytes) (tag dflt id : Bytes) : Bytes := match tagValue id tag with
  | some ns => ns
  | none => dflt

end Verif.Matcher
