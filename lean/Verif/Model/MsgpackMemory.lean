import Verif.Model.Msgpack
/-
The unaggregated msgpack iterator with its memory: encoding/msgpack/unaggregated_iterator.go with the arrays it uses again for each
message, and the pool of arrays for large timers, which iterators may share and whose arrays the callers give back
(metric/unaggregated/types.go:220-225).

Verif.Model.Msgpack has the same functions on values.  Here a slice is an array and a length, an array is written in place, and what
the caller sees of a metric or of a list of policies is what is in the arrays at the time the caller looks.

Simplifications: slices start at the beginning of their arrays (so they do in the code); arrays of identifiers, policies and staged
policies, which an iterator makes for itself and writes alone, are numbered per iterator; arrays of floats are numbered for all.
Making an array does not fail.  The pool (m3x `pool.FloatsPool`, outside of the repository) hands out some array that was given back to
it and is large enough, or a new one, as an argument says, and its slices are empty.  The iterator pool is left out (C91).
-/
namespace Verif.MPMem
open Verif.Policy Verif.Msg Verif.MP

/-- The part of an array that is in use. -/
structure Slice where
  arr : Nat
  len : Nat
  deriving DecidableEq

/-- Arrays; the length of one is its capacity. -/
abbrev Heap (α : Type) := List (List α)

def Heap.array (h : Heap α) (a : Nat) : List α := (h[a]?).getD []

/-- The contents of a slice. -/
def Heap.read (h : Heap α) (s : Slice) : List α := (h.array s.arr).take s.len

/-- The contents of a slice that may be nil. -/
def Heap.readOpt (h : Heap α) : Option Slice → List α
  | none => []
  | some s => h.read s

/-- `cap`. -/
def Heap.cap (h : Heap α) (s : Slice) : Nat := (h.array s.arr).length

/-- `cap` of a slice that may be nil. -/
def Heap.capOpt (h : Heap α) : Option Slice → Nat
  | none => 0
  | some s => h.cap s

/-- `make([]T, len, cap)`. -/
def Heap.make (h : Heap α) (zero : α) (len cap : Nat) : Slice × Heap α := (⟨h.length, len⟩, h ++ [List.replicate cap zero])

/-- Assignment to an element of an array. -/
def Heap.put (h : Heap α) (a i : Nat) (v : α) : Heap α := h.set a ((h.array a).set i v)

/-- `append(s, v)`: in place if there is room, else into a new array of twice the size. -/
def Heap.append (h : Heap α) (s : Slice) (v : α) : Slice × Heap α :=
  if s.len < h.cap s then (⟨s.arr, s.len + 1⟩, h.put s.arr s.len v)
  else (⟨h.length, s.len + 1⟩, h ++ [h.read s ++ v :: List.replicate s.len v])

/-- `unaggregated.MetricUnion`, metric/unaggregated/types.go:226-233; `pooled`: there is a pool in it. -/
structure MetricRef where
  type : Int := 0
  id : Option Slice := none
  counterVal : Int := 0
  timer : Option Slice := none
  gaugeVal : Wire.F64 := 0
  pooled : Bool := false

/-- `policy.StagedPolicies`, policy/staged_policy.go:36-46. -/
structure StagedRef where
  cutoverNanos : Int := 0
  tombstoned : Bool := false
  policies : Option Slice := none

/-- A list of policies: nil, the variable `policy.DefaultPoliciesList` (policy/staged_policy.go:32-33), or a slice. -/
inductive ListRef where
  | nil
  | default
  | slice (s : Slice)

/-- A slice that may be nil, as a list. -/
def ListRef.of : Option Slice → ListRef
  | none => .nil
  | some s => .slice s

/-- `unaggregatedIterator`, encoding/msgpack/unaggregated_iterator.go:41-56, and the arrays it has made. -/
structure Iter where
  base : Base := {}
  ignoreHigherVersion : Bool := false
  closed : Bool := false
  largeFloatsSize : Int := 0
  metric : MetricRef := {}
  policiesList : ListRef := .nil
  id : Option Slice := none
  timerValues : Slice
  cachedPolicies : List (Option Slice) := []
  cachedPoliciesList : Option Slice := none
  ids : Heap UInt8 := []
  pols : Heap Policy := []
  staged : Heap StagedRef := []

/-- An iterator with the arrays of floats, those in the pool, and those that were taken from it and not given back. -/
structure W where
  it : Iter
  floats : Heap Wire.F64
  pool : List Nat
  held : List Nat

/-- What the pool does when asked for an array: hands out the one at this place, if it is there and large enough, else a new one with
so much more room than asked for. -/
structure Pick where
  slot : Option Nat := none
  room : Nat := 0

/-! ### Steps on the state -/

/-- Use of the base iterator. -/
def onBase (m : D Base α) : D W α := fun w => match m w.it.base with
  | (a, s) => (a, { w with it := { w.it with base := s } })

def modify (f : W → W) : D W Unit := fun w => ((), f w)

def setMetric (f : MetricRef → MetricRef) : D W Unit := modify fun w => { w with it := { w.it with metric := f w.it.metric } }

/-- `io.ReadFull(it.reader(), it.id)`: reads into the array what there is. -/
def readFull (s : Slice) (w : W) : W :=
  let d := w.it.base.data
  let a := w.it.ids.array s.arr
  let ids := w.it.ids.set s.arr (d.take s.len ++ a.drop (d.take s.len).length)
  if s.len ≤ d.length then { w with it := { w.it with ids := ids, base := { w.it.base with data := d.drop s.len } } }
  else { w with it := { w.it with ids := ids, base := { data := [], err := some (if d.isEmpty then .eof else .other) } } }

/-- The slice for an identifier of this length, encoding/msgpack/unaggregated_iterator.go:316-320. -/
def idSlice (n : Nat) (w : W) : W :=
  if w.it.ids.capOpt w.it.id < n then
    let (s, ids) := w.it.ids.make 0 n n
    { w with it := { w.it with id := some s, ids := ids } }
  else { w with it := { w.it with id := w.it.id.map fun s => { s with len := n } } }

/-- `decodeID` and the assignment of what it returns to the identifier of the metric, encoding/msgpack/unaggregated_iterator.go:306-326,
193.  Lengths other than -1 that are negative do not occur (`Laws`). -/
def decodeID (l : Lib) : D W Unit := do
  let n ← onBase (decodeBytesLen l)
  modify fun w => match w.it.base.err with
    | some _ => { w with it := { w.it with metric := { w.it.metric with id := none } } }
    | none =>
      if n = -1 then
        let s := w.it.id.map fun s => { s with len := 0 }
        { w with it := { w.it with id := s, metric := { w.it.metric with id := s } } }
      else
        let w := idSlice n.toNat w
        let w := match w.it.id with
          | none => w
          | some s => readFull s w
        { w with it := { w.it with metric := { w.it.metric with id := if w.it.base.err.isSome then none else w.it.id } } }

/-- `decodeCounter`, encoding/msgpack/unaggregated_iterator.go:187-196. -/
def decodeCounter (l : Lib) : D W Unit := do
  match ← onBase (checkNumFields l counterType) with
  | none => return ()
  | some extra =>
    setMetric fun m => { m with type := CounterType }
    decodeID l
    let v ← onBase (decodeVarint l)
    setMetric fun m => { m with counterVal := v }
    onBase (skip l extra)

/-- `largeFloatsPool.Get(n)`. -/
def getFloats (c : Pick) (n : Nat) (w : W) : Slice × W :=
  let fresh : Slice × W :=
    let (s, fs) := w.floats.make 0 0 (n + c.room)
    (s, { w with floats := fs, held := s.arr :: w.held })
  match c.slot with
  | none => fresh
  | some i => match w.pool[i]? with
    | none => fresh
    | some a => if n ≤ (w.floats.array a).length then (⟨a, 0⟩, { w with pool := w.pool.eraseIdx i, held := a :: w.held }) else fresh

/-- Where the values of a timer go, encoding/msgpack/unaggregated_iterator.go:210-223, and whether that is from the pool. -/
def timerSlice (c : Pick) (n : Int) : D W (Slice × Bool) := fun w =>
  if (w.floats.cap w.it.timerValues : Int) ≥ n then
    let s := { w.it.timerValues with len := 0 }
    ((s, false), { w with it := { w.it with timerValues := s } })
  else if n ≤ w.it.largeFloatsSize then
    let newCapacity := max n (w.floats.cap w.it.timerValues * 2)
    let newCapacity := if newCapacity > w.it.largeFloatsSize then w.it.largeFloatsSize else newCapacity
    let (s, fs) := w.floats.make 0 0 newCapacity.toNat
    ((s, false), { w with it := { w.it with timerValues := s }, floats := fs })
  else match getFloats c n.toNat w with
    | (s, w) => ((s, true), w)

/-- `append(timerValues, v)`, encoding/msgpack/unaggregated_iterator.go:225. -/
def appendFloat (s : Slice) (v : Wire.F64) : D W Slice := fun w => match w.floats.append s v with
  | (s, fs) => (s, { w with floats := fs })

/-- The loop over the values, encoding/msgpack/unaggregated_iterator.go:224-226. -/
def appendFloats (l : Lib) : Nat → Slice → D W Slice
  | 0, s => return s
  | n + 1, s => do
    let v ← onBase (decodeFloat64 l)
    let s ← appendFloat s v
    appendFloats l n s

/-- The values of a timer, encoding/msgpack/unaggregated_iterator.go:205-230. -/
def decodeValues (l : Lib) (c : Pick) : D W Unit := do
  let n ← onBase (decodeArrayLen l)
  let (s, poolAlloc) ← timerSlice c n
  let s ← appendFloats l n.toNat s
  setMetric fun m => { m with timer := some s }
  if poolAlloc then setMetric fun m => { m with pooled := true }

/-- `decodeBatchTimer`, encoding/msgpack/unaggregated_iterator.go:198-232. -/
def decodeBatchTimer (l : Lib) (c : Pick) : D W Unit := do
  match ← onBase (checkNumFields l timerType) with
  | none => return ()
  | some extra =>
    setMetric fun m => { m with type := TimerType }
    decodeID l
    decodeValues l c
    onBase (skip l extra)

/-- `decodeGauge`, encoding/msgpack/unaggregated_iterator.go:234-243. -/
def decodeGauge (l : Lib) : D W Unit := do
  match ← onBase (checkNumFields l gaugeType) with
  | none => return ()
  | some extra =>
    setMetric fun m => { m with type := GaugeType }
    decodeID l
    let v ← onBase (decodeFloat64 l)
    setMetric fun m => { m with gaugeVal := v }
    onBase (skip l extra)

/-- The slice for so many policies of the staged policies at `i`, encoding/msgpack/unaggregated_iterator.go:293-297. -/
def policySlice (i : Nat) (n : Int) : D W (Option Slice) := fun w =>
  let old := (w.it.cachedPolicies[i]?).getD none
  if (w.it.pols.capOpt old : Int) < n then
    let (s, ps) := w.it.pols.make ⟨EmptyStoragePolicy, 0⟩ 0 n.toNat
    (some s, { w with it := { w.it with cachedPolicies := w.it.cachedPolicies.set i (some s), pols := ps } })
  else
    let s := old.map fun s => { s with len := 0 }
    (s, { w with it := { w.it with cachedPolicies := w.it.cachedPolicies.set i s } })

/-- `append(it.cachedPolicies[i], p)`, encoding/msgpack/unaggregated_iterator.go:299. -/
def appendPolicy (i : Nat) (s : Option Slice) (p : Policy) : D W (Option Slice) := fun w =>
  match s with
  | none =>
    let (s, ps) := w.it.pols.make p 1 1
    (some s, { w with it := { w.it with cachedPolicies := w.it.cachedPolicies.set i (some s), pols := ps } })
  | some s => match w.it.pols.append s p with
    | (s, ps) => (some s, { w with it := { w.it with cachedPolicies := w.it.cachedPolicies.set i (some s), pols := ps } })

/-- The loop over the policies, encoding/msgpack/unaggregated_iterator.go:298-300. -/
def appendPolicies (l : Lib) (x : XTime) (u : Units) (i : Nat) : Nat → Option Slice → D W (Option Slice)
  | 0, s => return s
  | n + 1, s => do
    let p ← onBase (decodePolicy l x u)
    let s ← appendPolicy i s p
    appendPolicies l x u i n s

/-- `decodeStagedPolicies`, encoding/msgpack/unaggregated_iterator.go:285-304. -/
def decodeStagedPolicies (l : Lib) (x : XTime) (u : Units) (i : Nat) : D W StagedRef := do
  match ← onBase (checkNumFields l stagedPoliciesType) with
  | none => return {}
  | some extra =>
    let cutoverNanos ← onBase (decodeVarint l)
    let tombstoned ← onBase (decodeBool l)
    let n ← onBase (decodeArrayLen l)
    let s ← policySlice i n
    let policies ← appendPolicies l x u i n.toNat s
    onBase (skip l extra)
    return { cutoverNanos, tombstoned, policies }

/-- The loop over `Reset`, encoding/msgpack/unaggregated_iterator.go:263-265. -/
def resetStaged (h : Heap StagedRef) (a : Nat) : Nat → Heap StagedRef
  | 0 => h
  | n + 1 => (resetStaged h a n).put a n {}

/-- The slice for so many staged policies, encoding/msgpack/unaggregated_iterator.go:260-267. -/
def listRoom (n : Int) (w : W) : W :=
  if (w.it.staged.capOpt w.it.cachedPoliciesList : Int) < n then
    let (s, h) := w.it.staged.make {} 0 n.toNat
    { w with it := { w.it with cachedPoliciesList := some s, staged := h } }
  else match w.it.cachedPoliciesList with
    | none => w
    | some s => { w with it := { w.it with staged := resetStaged w.it.staged s.arr s.len, cachedPoliciesList := some { s with len := 0 } } }

/-- The places for the slices of their policies, encoding/msgpack/unaggregated_iterator.go:268-270. -/
def placeRoom (n : Int) (w : W) : W :=
  if (w.it.cachedPolicies.length : Int) < n then
    { w with it := { w.it with cachedPolicies := List.replicate n.toNat none } }
  else w

/-- `append(it.cachedPoliciesList, …)`, encoding/msgpack/unaggregated_iterator.go:273. -/
def appendStaged (p : StagedRef) : D W Unit := modify fun w =>
  match w.it.cachedPoliciesList with
  | none =>
    let (s, h) := w.it.staged.make p 1 1
    { w with it := { w.it with cachedPoliciesList := some s, staged := h } }
  | some s => match w.it.staged.append s p with
    | (s, h) => { w with it := { w.it with cachedPoliciesList := some s, staged := h } }

/-- The loop over the staged policies, encoding/msgpack/unaggregated_iterator.go:271-274, from `i` on. -/
def appendAll (l : Lib) (x : XTime) (u : Units) : Nat → Nat → D W Unit
  | 0, _ => return ()
  | n + 1, i => do
    let p ← decodeStagedPolicies l x u i
    appendStaged p
    appendAll l x u n (i + 1)

/-- The case of a list, encoding/msgpack/unaggregated_iterator.go:259-275. -/
def decodeCustom (l : Lib) (x : XTime) (u : Units) : D W Unit := do
  let n ← onBase (decodeArrayLen l)
  modify (listRoom n)
  modify (placeRoom n)
  appendAll l x u n.toNat 0
  modify fun w => { w with it := { w.it with policiesList := .of w.it.cachedPoliciesList } }

/-- `decodePoliciesList`, encoding/msgpack/unaggregated_iterator.go:245-280. -/
def decodePoliciesList (l : Lib) (x : XTime) (u : Units) : D W Unit := do
  match ← onBase (decodeTyped l) with
  | none => return ()
  | some (t, extra) =>
    if t = defaultPoliciesListType then do
      modify fun w => { w with it := { w.it with policiesList := .default } }
      onBase (skip l extra)
    else if t = customPoliciesListType then do
      decodeCustom l x u
      onBase (skip l extra)
    else do
      onBase (setErr (some .other))
      onBase (skip l extra)

/-- The metric of an object type, encoding/msgpack/unaggregated_iterator.go:154-165, 172-182. -/
def decodeKind (l : Lib) (c : Pick) (t : Int) : D W Unit :=
  if t = counterType ∨ t = counterWithPoliciesListType then decodeCounter l
  else if t = timerType ∨ t = batchTimerWithPoliciesListType then decodeBatchTimer l c
  else decodeGauge l

/-- `decodeMetricWithPoliciesList`, encoding/msgpack/unaggregated_iterator.go:167-185. -/
def decodeMetricWithPolicies (l : Lib) (x : XTime) (u : Units) (c : Pick) (t : Int) : D W Unit := do
  match ← onBase (checkNumFields l t) with
  | none => return ()
  | some extra =>
    decodeKind l c t
    decodePoliciesList l x u
    onBase (skip l extra)

/-- The body of `decodeRootObject` for versions that are supported, encoding/msgpack/unaggregated_iterator.go:133-151. -/
def decodeBody (l : Lib) (x : XTime) (u : Units) (c : Pick) : D W Bool := do
  match ← onBase (checkNumFields l rootObjectType) with
  | none => return false
  | some extra =>
    let t ← onBase (decodeObjectType l)
    match ← onBase getErr with
    | some _ => return false
    | none =>
      if t = counterType ∨ t = timerType ∨ t = gaugeType then decodeKind l c t
      else if t = counterWithPoliciesListType ∨ t = batchTimerWithPoliciesListType ∨ t = gaugeWithPoliciesListType then
        decodeMetricWithPolicies l x u c t
      else onBase (setErr (some .other))
      onBase (skip l extra)
      let e ← onBase getErr
      return e.isNone

/-- `Next` and `decodeRootObject`, encoding/msgpack/unaggregated_iterator.go:90-100, 117-131. -/
def nextLoop (l : Lib) (x : XTime) (u : Units) (c : Pick) : Nat → D W Bool
  | 0 => fun w => (false, { w with it := { w.it with base := { w.it.base with err := some .other } } })
  | f + 1 => fun w =>
    if w.it.base.err.isSome || w.it.closed then (false, w)
    else
      let w := { w with it := { w.it with metric := { w.it.metric with timer := none, pooled := false } } }
      match onBase (decodeVarint l) w with
      | (version, w) =>
        if w.it.base.err.isSome then (false, w)
        else if version > 1 then
          if w.it.ignoreHigherVersion then
            match onBase (decodeArrayLen l) w with
            | (n, w) => match onBase (skip l n) w with
              | (_, w) => nextLoop l x u c f w
          else (false, { w with it := { w.it with base := { w.it.base with err := some .other } } })
        else decodeBody l x u c w

/-- `Next`, encoding/msgpack/unaggregated_iterator.go:90-100. -/
def next (l : Lib) (x : XTime) (u : Units) (c : Pick) : D W Bool := fun w => nextLoop l x u c (w.it.base.data.length + 2) w

/-- `Reset`, encoding/msgpack/unaggregated_iterator.go:76-80, base_iterator.go:63-68. -/
def Iter.reset (it : Iter) (reader : Bytes) : Iter := { it with closed := false, metric := {}, base := { data := reader } }

/-- `Close`, encoding/msgpack/unaggregated_iterator.go:102-115, without the pool of iterators. -/
def Iter.close (it : Iter) : Iter :=
  if it.closed then it
  else { it with closed := true, base := {}, metric := {}, policiesList := .nil, cachedPolicies := [], cachedPoliciesList := none }

/-! ### Iterators that share a pool -/

/-- Iterators, the arrays of floats, those in the pool, and those that were taken from it and not given back. -/
structure Sys where
  its : List Iter := []
  floats : Heap Wire.F64 := []
  pool : List Nat := []
  held : List Nat := []

/-- What is done with the iterators, and with the pool by their callers and by others. -/
inductive Act where
  /-- `NewUnaggregatedIterator`, encoding/msgpack/unaggregated_iterator.go:59-72 -/
  | new (reader : Bytes) (ignoreHigherVersion : Bool) (largeFloatsSize : Int)
  | next (k : Nat) (c : Pick)
  | reset (k : Nat) (reader : Bytes)
  | close (k : Nat)
  /-- an array that was taken from the pool is given back -/
  | put (a : Nat)
  /-- someone else takes one out of the pool -/
  | get (i : Nat)
  /-- whoever has taken an array writes into it -/
  | write (a i : Nat) (v : Wire.F64)

/-- Each may do what it may: give back and write what was taken from the pool. -/
def Sys.may (s : Sys) : Act → Prop
  | .put a => a ∈ s.held
  | .write a _ _ => a ∈ s.held
  | _ => True

/-- Iterator `k` of the system, as `W`. -/
def Sys.world (s : Sys) (it : Iter) : W := ⟨it, s.floats, s.pool, s.held⟩

/-- The system after iterator `k` has become that of `w`. -/
def Sys.back (s : Sys) (k : Nat) (w : W) : Sys := ⟨s.its.set k w.it, w.floats, w.pool, w.held⟩

def Sys.step (l : Lib) (x : XTime) (u : Units) (s : Sys) : Act → Sys
  | .new reader ig large =>
    let (t, fs) := s.floats.make 0 0 16
    { s with its := s.its ++ [{ base := { data := reader }, ignoreHigherVersion := ig, largeFloatsSize := large, timerValues := t }]
             floats := fs }
  | .next k c => match s.its[k]? with
    | none => s
    | some it => s.back k (MPMem.next l x u c (s.world it)).2
  | .reset k reader => match s.its[k]? with
    | none => s
    | some it => { s with its := s.its.set k (it.reset reader) }
  | .close k => match s.its[k]? with
    | none => s
    | some it => { s with its := s.its.set k it.close }
  | .put a => { s with pool := a :: s.pool, held := s.held.erase a }
  | .get i => match s.pool[i]? with
    | none => s
    | some a => { s with pool := s.pool.eraseIdx i, held := a :: s.held }
  | .write a i v => { s with floats := s.floats.put a i v }

/-- What can come about. -/
inductive Reach (l : Lib) (x : XTime) (u : Units) : Sys → Prop where
  | start : Reach l x u {}
  | step {s a} : Reach l x u s → s.may a → Reach l x u (s.step l x u a)

end Verif.MPMem
