import Verif.Model.CacheList
/-
Model of matcher/cache/cache.go: the cache of match results as a state machine.

Each step below is one critical section of the code.  `RLock`/`Lock` of the cache exclude each other, so that the body of
`ForwardMatch` up to `RUnlock`, its second part, `Register`, `Refresh`, `Unregister` and `doEvict` are atomic with respect
to each other.  The deletion goroutine takes only the lock of the list while it removes elements; it does not touch the maps,
so that its removals may be ordered before or after each of these sections, and each removal is a step of its own here
(the code gives up the lock only after each batch).  A map of elements is only changed while it belongs to a namespace: once
it is in `toDelete` it is not changed any more; maps are therefore modelled as values.  The generated hash maps
(elem_map_gen.go, namespace_results_map_gen.go) are modelled as maps keyed by the bytes.  Sources are numbered (they are
compared as pointers); what a source answers at a step is a parameter of the step.  Metrics are not modelled.
-/
namespace Verif.Cache
open Verif.Active

/-! ### Maps -/

/-- Get of a generated map. -/
def mget {α : Type} (m : List (Bytes × α)) (k : Bytes) : Option α := (m.find? fun e => e.1 = k).map (·.2)

/-- Delete of a generated map. -/
def mdel {α : Type} (m : List (Bytes × α)) (k : Bytes) : List (Bytes × α) := m.filter fun e => e.1 ≠ k

/-- Set of a generated map. -/
def mset {α : Type} (m : List (Bytes × α)) (k : Bytes) (v : α) : List (Bytes × α) := mdel m k ++ [(k, v)]

/-! ### State -/

/-- `elemMap`. -/
abbrev ElemMap := List (Bytes × Ptr)

/-- `results`, matcher/cache/cache.go:82-85. -/
structure Results where
  elems : ElemMap
  source : Nat

/-- The options used, matcher/cache/cache.go:131-138. -/
structure Config where
  capacity : Int
  freshDuration : Int
  stutterDuration : Int
  evictionBatchSize : Int
  invalidateAll : Bool

/-- What the eviction goroutine is doing: waiting, about to run `doEvict`, or finished. -/
inductive Evictor where
  | waiting
  | awake
  | gone
  deriving DecidableEq

/-- What the deletion goroutine is doing: waiting, about to run `doDelete`, removing the elements that are left, or
finished. -/
inductive Deleter where
  | waiting
  | awake
  | removing (left : List Ptr)
  | gone
  deriving DecidableEq

/-- `cache`, matcher/cache/cache.go:124-148.  `nextPtr` is the next element to be allocated; the channels hold at most one
value. -/
structure St where
  heap : Heap
  nextPtr : Ptr
  list : LinkedList
  namespaces : List (Bytes × Results)
  toDelete : List ElemMap
  evictCh : Bool
  deleteCh : Bool
  closed : Bool
  evictor : Evictor
  deleter : Deleter

/-- `NewCache`, matcher/cache/cache.go:151-176. -/
def newCache (h : Heap) : St :=
  { heap := h, nextPtr := 0, list := ⟨none, none, 0⟩, namespaces := [], toDelete := [], evictCh := false, deleteCh := false
    closed := false, evictor := .waiting, deleter := .waiting }

/-- Clock reading and random number used by a step. -/
structure Tick where
  now : Int
  rnd : Int

/-- `newPromotionExpiry`, matcher/cache/cache.go:481-487. -/
def newPromotionExpiry (cfg : Config) (t : Tick) : Int :=
  let expiry := t.now + cfg.freshDuration
  if cfg.stutterDuration > 0 then expiry + t.rnd else expiry

/-- `notifyEviction`, matcher/cache/cache.go:467-472. -/
def St.notifyEviction (s : St) : St := { s with evictCh := true }

/-- `notifyDeletion`, matcher/cache/cache.go:474-479. -/
def St.notifyDeletion (s : St) : St := { s with deleteCh := true }

/-- `c.list.Remove`. -/
def St.listRemove (s : St) (p : Option Ptr) : St :=
  let r := remove s.heap s.list p
  { s with heap := r.1, list := r.2 }

/-- `add`, matcher/cache/cache.go:342-348 (the size is that of the list afterwards). -/
def St.add (s : St) (p : Ptr) : St :=
  let r := pushFront s.heap s.list (some p)
  { s with heap := r.1, list := r.2 }

/-- `promote`, matcher/cache/cache.go:350-362. -/
def St.promote (cfg : Config) (s : St) (t : Tick) (p : Ptr) : St :=
  if !(s.heap p).shouldPromote t.now then s
  else
    let h := s.heap.upd p fun e => { e with expiryNanos := newPromotionExpiry cfg t }
    let r := moveToFront h s.list (some p)
    { s with heap := r.1, list := r.2 }

/-- `refreshWithLock`, matcher/cache/cache.go:334-340. -/
def St.refreshWithLock (s : St) (ns : Bytes) (source : Nat) (r : Results) : St :=
  let s := { s with toDelete := s.toDelete ++ [r.elems] }
  let s := s.notifyDeletion
  { s with namespaces := mset s.namespaces ns { elems := [], source := source } }

/-- `invalidateWithLock`, matcher/cache/cache.go:364-379. -/
def St.invalidateWithLock (cfg : Config) (s : St) (ns id : Bytes) (r : Results) : St × Results :=
  if cfg.invalidateAll then
    let s := { s with toDelete := s.toDelete ++ [r.elems] }
    let s := s.notifyDeletion
    let r := { r with elems := [] }
    ({ s with namespaces := mset s.namespaces ns r }, r)
  else
    let elem := mget r.elems id
    let r := { r with elems := mdel r.elems id }
    let s := { s with namespaces := mset s.namespaces ns r }
    (s.listRemove elem, r)

/-- The first part of `setWithLock`, matcher/cache/cache.go:315-317. -/
def St.invalidateIf (cfg : Config) (s : St) (ns id : Bytes) (r : Results) (invalidate : Bool) : St × Results :=
  if invalidate then s.invalidateWithLock cfg ns id r else (s, r)

/-- `setWithLock`, matcher/cache/cache.go:306-330.  `fm` is `ForwardMatch` of each source. -/
def St.setWithLock (cfg : Config) (fm : Nat → Bytes → Int → Int → MatchResult) (s : St) (t : Tick) (ns id : Bytes)
    (frm to : Int) (r : Results) (invalidate : Bool) : St × MatchResult :=
  let x := s.invalidateIf cfg ns id r invalidate
  let s := x.1
  let r := x.2
  let res := fm r.source id frm to
  let p := s.nextPtr
  let s := { s with nextPtr := p + 1
                    heap := s.heap.upd p fun _ => { newElement ns id res with expiryNanos := newPromotionExpiry cfg t } }
  let s := { s with namespaces := mset s.namespaces ns { r with elems := mset r.elems id p } }
  let s := s.add p
  let s := if s.list.length > cfg.capacity + cfg.evictionBatchSize then s.notifyEviction else s
  (s, res)

/-- `tryGetWithLock`, matcher/cache/cache.go:262-304. -/
def St.tryGetWithLock (cfg : Config) (fm : Nat → Bytes → Int → Int → MatchResult) (s : St) (t : Tick) (ns id : Bytes)
    (frm to : Int) (setIfNotFound : Bool) : St × MatchResult × Bool :=
  match mget s.namespaces ns with
  | none => (s, emptyMatchResult, true)
  | some r => match mget r.elems id with
    | some p =>
      let res := (s.heap p).result
      if !res.hasExpired to then
        if (s.heap p).shouldPromote t.now then (s.promote cfg t p, res, true) else (s, res, true)
      else if !setIfNotFound then (s, res, false)
      else
        let x := s.setWithLock cfg fm t ns id frm to r true
        (x.1, x.2, true)
    | none =>
      if !setIfNotFound then (s, emptyMatchResult, false)
      else
        let x := s.setWithLock cfg fm t ns id frm to r false
        (x.1, x.2, true)

/-- `Register`, matcher/cache/cache.go:193-204. -/
def St.register (s : St) (ns : Bytes) (source : Nat) : St := match mget s.namespaces ns with
  | none => { s with namespaces := mset s.namespaces ns { elems := [], source := source } }
  | some r => s.refreshWithLock ns source r

/-- `Refresh`, matcher/cache/cache.go:206-228. -/
def St.refresh (s : St) (ns : Bytes) (source : Nat) : St := match mget s.namespaces ns with
  | none => s
  | some r => if r.source ≠ source then s else s.refreshWithLock ns source r

/-- `Unregister`, matcher/cache/cache.go:230-243. -/
def St.unregister (s : St) (ns : Bytes) : St := match mget s.namespaces ns with
  | none => s
  | some r =>
    let s := { s with namespaces := mdel s.namespaces ns }
    let s := { s with toDelete := s.toDelete ++ [r.elems] }
    s.notifyDeletion

/-- The loop of `doEvict`, matcher/cache/cache.go:398-412.  `none` is the panic on the last element of an empty list; the
first argument bounds the iterations (each shortens the list by one). -/
def evictLoop (cfg : Config) : Nat → St → Option St
  | 0, s => some s
  | n + 1, s =>
    if s.list.length > cfg.capacity then match s.list.tail with
      | none => none
      | some p =>
        let s := s.listRemove (some p)
        match mget s.namespaces (s.heap p).ns with
        | none => evictLoop cfg n s
        | some r =>
          evictLoop cfg n { s with namespaces := mset s.namespaces (s.heap p).ns { r with elems := mdel r.elems (s.heap p).id } }
    else some s

/-- `doEvict`, matcher/cache/cache.go:394-416. -/
def St.doEvict (cfg : Config) (s : St) : Option St := evictLoop cfg s.list.length.toNat s

/-- The first part of `doDelete`, matcher/cache/cache.go:431-441: what is to be removed. -/
def St.takeDeletions (s : St) : St :=
  if s.toDelete.length = 0 then { s with deleter := .waiting }
  else { s with toDelete := [], deleter := .removing ((s.toDelete.flatMap id).map (·.2)) }

/-! ### Steps -/

/-- The steps of the goroutines.  A lookup is `get` and, if that finds nothing, `fill` later on. -/
inductive Act where
  | get (t : Tick) (ns id : Bytes) (frm to : Int)
  | fill (t : Tick) (ns id : Bytes) (frm to : Int)
  | register (ns : Bytes) (source : Nat)
  | refresh (ns : Bytes) (source : Nat)
  | unregister (ns : Bytes)
  /-- a lookup that found the list too long tells the eviction goroutine, matcher/cache/cache.go:325-327: it does so after it
  gave back the lock of the list, so that this may come after the notification that is part of `fill` was received -/
  | notify
  /-- the eviction goroutine receives from its channel, matcher/cache/cache.go:386 -/
  | evictWake
  | evictRun
  /-- the eviction goroutine sees that the cache is closed, matcher/cache/cache.go:388 -/
  | evictExit
  | deleteWake
  | deleteTake
  /-- the deletion goroutine removes one of the elements left; the order is that of iteration over Go maps -/
  | deleteOne (k : Nat)
  /-- the deletion goroutine has removed everything, matcher/cache/cache.go:463-464 -/
  | deleteDone
  | deleteExit
  | close

/-- One step; `none` if the step is not possible in the state, or panics. -/
def St.step (cfg : Config) (fm : Nat → Bytes → Int → Int → MatchResult) (s : St) : Act → Option St
  | .get t ns id frm to => some (s.tryGetWithLock cfg fm t ns id frm to false).1
  | .fill t ns id frm to => some (s.tryGetWithLock cfg fm t ns id frm to true).1
  | .register ns source => some (s.register ns source)
  | .refresh ns source => some (s.refresh ns source)
  | .unregister ns => some (s.unregister ns)
  | .notify => some s.notifyEviction
  | .evictWake => if s.evictor = .waiting ∧ s.evictCh then some { s with evictCh := false, evictor := .awake } else none
  | .evictRun => if s.evictor = .awake then (s.doEvict cfg).map fun s => { s with evictor := .waiting } else none
  | .evictExit => if s.evictor = .waiting ∧ s.closed then some { s with evictor := .gone } else none
  | .deleteWake => if s.deleter = .waiting ∧ s.deleteCh then some { s with deleteCh := false, deleter := .awake } else none
  | .deleteTake => if s.deleter = .awake then some s.takeDeletions else none
  | .deleteOne k => match s.deleter with
    | .removing left => match left[k]? with
      | none => none
      | some p => some { s.listRemove (some p) with deleter := .removing (left.eraseIdx k) }
    | _ => none
  | .deleteDone => if s.deleter = .removing [] then some { s with deleter := .waiting } else none
  | .deleteExit => if s.deleter = .waiting ∧ s.closed then some { s with deleter := .gone } else none
  | .close => some { s with closed := true }

end Verif.Cache
