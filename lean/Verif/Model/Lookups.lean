import Verif.Model.Matcher
/-
Model of matcher/namespaces.go and matcher/ruleset.go at the level of their locks: any number of lookups (`Version`,
`ForwardMatch`, `ReverseMatch`) are under way while a namespaces update is processed and rule sets get new values.

`Model/Matcher.lean` takes a whole lookup and a whole namespaces update for one step each.  Here a lookup is two steps: it reads
the map of rule sets under the lock of the namespaces, and asks the rule set it found under the lock of that rule set.  A
namespaces update holds the lock of the namespaces throughout, and reads and changes the map and each rule set by steps of their
own; in between, lookups ask rule sets they have found before, and rule sets get new values (they do not take the lock of the
namespaces).

The callbacks (registering with the cache) are left out here: see C58, C60 and C109 for the cache.  Of `runtime.Value`, which is
not part of the repository, it is assumed as in `Model/Matcher.lean` that no value is processed once `Unwatch` has returned.
-/
namespace Verif.Lookups
open Verif.Matcher Verif.Agg Verif.Active Verif.Cache Verif.NS

/-- What a lookup asks of a namespace, matcher/namespaces.go:170, 180, 188. -/
inductive Ask where
  | version
  | forward (id : Bytes) (frm to : Int)
  | reverse (id : Bytes) (frm to : Int) (mt : Option Kind) (at' : AType) (multi : Bool) (o : Agg.Options)

/-- What a lookup returns. -/
inductive Ans where
  | version (v : Int)
  | result (r : MatchResult)

/-- The rule set is asked, matcher/namespaces.go:177, 185, 201 (matcher/ruleset.go:130-135, 151-184). -/
def _root_.Verif.Matcher.RS.ask (env : Env) (r : RS) : Ask → Ans
  | .version => .version r.version
  | .forward id frm to => .result (r.forwardMatch env id frm to)
  | .reverse id frm to mt at' multi o => .result (r.reverseMatch env id frm to mt at' multi o)

/-- There is no rule set, matcher/namespaces.go:174-176, 182-184, 198-200. -/
def Ask.absent : Ask → Ans
  | .version => .version 0
  | .forward _ _ _ => .result emptyMatchResult
  | .reverse _ _ _ _ _ _ _ => .result emptyMatchResult

/-- Where in its code a lookup is. -/
inductive LPc where
  | idle
  /-- before line 171 or 205 -/
  | called (ns : Bytes) (q : Ask)
  /-- the map was read, line 173 or 207; no lock is held -/
  | looked (ns : Bytes) (q : Ask) (found : Option Nat)
  | done (ns : Bytes) (q : Ask) (a : Ans)

/-- Where in `process` a namespaces update is, matcher/namespaces.go:242-326.  All but `free` hold the lock. -/
inductive UPc where
  | free
  /-- line 258; `todo` are the entries that are left, `inc` all of them -/
  | first (todo inc : List (Bytes × Namespace))
  /-- line 272: the rule set of the entry is there -/
  | have (elem : Namespace) (src : Nat) (todo inc : List (Bytes × Namespace))
  /-- line 288: it is decided whether it is watched -/
  | decided (watch : Bool) (src : Nat) (todo inc : List (Bytes × Namespace))
  /-- line 307 -/
  | second (todo : List (Bytes × Nat)) (inc : List (Bytes × Namespace))
  /-- line 315, second condition: the rule set is tombstoned -/
  | dead (ns : Bytes) (src : Nat) (earliest : Int) (todo : List (Bytes × Nat)) (inc : List (Bytes × Namespace))
  /-- line 319: to be removed -/
  | old (ns : Bytes) (src : Nat) (todo : List (Bytes × Nat)) (inc : List (Bytes × Namespace))
  /-- line 320: removed from the map -/
  | removed (src : Nat) (todo : List (Bytes × Nat)) (inc : List (Bytes × Namespace))

/-- The namespaces and all that goes on. -/
structure Sys where
  /-- the map; under the lock of the namespaces -/
  rules : List (Bytes × Nat) := []
  /-- the rule sets; each under its own lock -/
  objs : Nat → RS := fun _ => newRuleSet
  /-- the next rule set `newRuleSet` makes -/
  next : Nat := 0
  upd : UPc := .free
  lookups : Nat → LPc := fun _ => .idle
  /-- what the clock reads -/
  clock : Int := 0
  /-- not part of the program: the map when the lock was given back last -/
  shown : List (Bytes × Nat) := []

/-- A rule set is changed. -/
def Sys.put (s : Sys) (src : Nat) (r : RS) : Sys := { s with objs := fun x => if x = src then r else s.objs x }

/-- A lookup moves on. -/
def Sys.at (s : Sys) (t : Nat) (p : LPc) : Sys := { s with lookups := fun x => if x = t then p else s.lookups x }

/-- The steps. -/
inductive Step (env : Env) (past : Int) : Sys → Sys → Prop
  /-- a lookup is called -/
  | call {s t} (ns : Bytes) (q : Ask) (h : s.lookups t = .idle) : Step env past s (s.at t (.called ns q))
  /-- lines 171-173, 205-207: the lock is free -/
  | look {s t ns q} (h : s.lookups t = .called ns q) (hf : s.upd = .free) : Step env past s (s.at t (.looked ns q (mget s.rules ns)))
  /-- lines 174-176, 182-184, 198-200 -/
  | absent {s t ns q} (h : s.lookups t = .looked ns q none) : Step env past s (s.at t (.done ns q q.absent))
  /-- lines 177, 185, 201: under the lock of the rule set -/
  | ask {s t ns q src} (h : s.lookups t = .looked ns q (some src)) :
      Step env past s (s.at t (.done ns q ((s.objs src).ask env q)))
  /-- the lookup has returned -/
  | again {s t ns q a} (h : s.lookups t = .done ns q a) : Step env past s (s.at t .idle)
  /-- lines 243-255: the entries, in any order -/
  | lock {s} (nss : List Namespace) (todo : List (Bytes × Namespace)) (h : s.upd = .free) (ho : todo.Perm (incoming nss)) :
      Step env past s { s with upd := .first todo (incoming nss) }
  /-- line 261: there is a rule set -/
  | exists {s ns elem todo inc src} (h : s.upd = .first ((ns, elem) :: todo) inc) (hm : mget s.rules ns = some src) :
      Step env past s { s with upd := .have elem src todo inc }
  /-- lines 262-270: a rule set is made -/
  | make {s ns elem todo inc} (h : s.upd = .first ((ns, elem) :: todo) inc) (hm : mget s.rules ns = none) :
      Step env past s { s.put s.next newRuleSet with rules := mset s.rules ns s.next, next := s.next + 1, upd := .have elem s.next todo inc }
  /-- lines 272-287 -/
  | decide {s elem src todo inc} (h : s.upd = .have elem src todo inc) :
      Step env past s { s with upd := .decided (shouldWatch elem (s.objs src)) src todo inc }
  /-- lines 288-290 -/
  | unwatch {s src todo inc} (h : s.upd = .decided false src todo inc) :
      Step env past s { s.put src (s.objs src).unwatch with upd := .first todo inc }
  /-- lines 291-300 -/
  | watch {s src todo inc} (w : WatchOutcome) (h : s.upd = .decided true src todo inc) :
      Step env past s { s.put src ((s.objs src).watch past w).1 with upd := .first todo inc }
  /-- line 307: the entries, in any order -/
  | secondLoop {s inc} (todo : List (Bytes × Nat)) (h : s.upd = .first [] inc) (ho : todo.Perm s.rules) :
      Step env past s { s with upd := .second todo inc }
  /-- lines 309-312 -/
  | keep {s ns src todo inc} (h : s.upd = .second ((ns, src) :: todo) inc) (hi : (mget inc ns).isSome) :
      Step env past s { s with upd := .second todo inc }
  /-- lines 314-315: `Tombstoned` answers no -/
  | alive {s ns src todo inc} (h : s.upd = .second ((ns, src) :: todo) inc) (hi : mget inc ns = none)
      (hd : (s.objs src).tombstoned = false) : Step env past s { s with upd := .second todo inc }
  /-- lines 314-315: the clock is read, `Tombstoned` answers yes -/
  | tombstoned {s ns src todo inc} (h : s.upd = .second ((ns, src) :: todo) inc) (hi : mget inc ns = none)
      (hd : (s.objs src).tombstoned = true) : Step env past s { s with upd := .dead ns src (s.clock - past) todo inc }
  /-- line 315: `CutoverNanos` is too late -/
  | recent {s ns src earliest todo inc} (h : s.upd = .dead ns src earliest todo inc) (hc : earliest < (s.objs src).cutoverNanos) :
      Step env past s { s with upd := .second todo inc }
  /-- line 315: `CutoverNanos` is early enough -/
  | past {s ns src earliest todo inc} (h : s.upd = .dead ns src earliest todo inc) (hc : (s.objs src).cutoverNanos ≤ earliest) :
      Step env past s { s with upd := .old ns src todo inc }
  /-- line 319 -/
  | delete {s ns src todo inc} (h : s.upd = .old ns src todo inc) :
      Step env past s { s with rules := mdel s.rules ns, upd := .removed src todo inc }
  /-- line 320 -/
  | unwatchRemoved {s src todo inc} (h : s.upd = .removed src todo inc) :
      Step env past s { s.put src (s.objs src).unwatch with upd := .second todo inc }
  /-- lines 256, 325: the lock is given back -/
  | unlock {s inc} (h : s.upd = .second [] inc) : Step env past s { s with upd := .free, shown := s.rules }
  /-- matcher/ruleset.go:201-208: a rule set that is watched gets a value at time `now`, under its lock -/
  | value {s src} (v : RuleSet.RuleSet) (now : Int) (h : (s.objs src).watched = true) :
      Step env past s (s.put src ((s.objs src).process past v now))
  /-- time passes -/
  | tick {s} (d : Nat) : Step env past s { s with clock := s.clock + d }
  /-- `Close`, lines 220-225: a rule set in the map is no longer watched; the read lock is held -/
  | close {s ns src} (hf : s.upd = .free) (h : mget s.rules ns = some src) : Step env past s (s.put src (s.objs src).unwatch)

/-- The states along an execution, the last one first. -/
inductive Run (env : Env) (past : Int) (s : Sys) : List Sys → Sys → Prop
  | here : Run env past s [s] s
  | step {l m m'} (h : Run env past s l m) (hs : Step env past m m') : Run env past s (m' :: l) m'

end Verif.Lookups
