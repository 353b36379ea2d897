import Verif.Model.Cache
/-
Model of matcher/cache/cache.go at the level of its locks: any number of calls are under way, each somewhere in its code, and
one of them, or one of the two goroutines, or a source, makes a step.

`Model/Cache.lean` takes what a call does under the lock of the cache for one step.  Here the steps are smaller: the lock of the
cache (a readers/writer lock) is taken and given back by steps of their own; each access to the list is one step, under the lock
of the list; each notification of a goroutine is one step; the rules of a source are asked in one step; and between these steps
the goroutine that deletes may remove elements from the list, other lookups may read and promote, and sources may get new rules.

Steps that stay as they are: what `doEvict` does (it holds both locks throughout), what `doDelete` takes to be deleted (under
the lock), and single removals of `doDelete`.  Sources get new rules in one step (matcher/ruleset.go:199-216, under the lock
of the rule set).  The writer preference of `sync.RWMutex` is left out: it only excludes executions.
-/
namespace Verif.Cache
open Verif.Active

/-- The arguments of `ForwardMatch`, matcher/cache/cache.go:178. -/
structure Query where
  ns : Bytes
  id : Bytes
  frm : Int
  to : Int

/-- The calls that change what is registered. -/
inductive Change where
  /-- matcher/cache/cache.go:193 -/
  | register (ns : Bytes) (src : Nat)
  /-- matcher/cache/cache.go:206 -/
  | refresh (ns : Bytes) (src : Nat)
  /-- matcher/cache/cache.go:230 -/
  | unregister (ns : Bytes)

/-- Where in its code a call is, and its local variables. -/
inductive Pc where
  | idle
  /-- before line 179 -/
  | called (q : Query)
  /-- the read lock is held, line 180 -/
  | reading (q : Query)
  /-- the read lock is held; about to promote the element, line 289 -/
  | promoting (q : Query) (t : Tick) (p : Ptr) (res : MatchResult)
  /-- the read lock is held; about to give it back and return, line 181 -/
  | found (q : Query) (res : MatchResult)
  /-- the read lock is held; about to give it back, line 181 -/
  | absent (q : Query)
  /-- no lock is held, line 186 -/
  | missed (q : Query)
  /-- the lock is held, line 187 -/
  | writing (q : Query)
  /-- the lock is held; about to promote the element, line 289 -/
  | promotingW (q : Query) (t : Tick) (p : Ptr) (res : MatchResult)
  /-- the lock is held; the elements are given up, about to notify, line 367 -/
  | gaveUp (q : Query) (r : Results)
  /-- the lock is held; about to put an empty map in place, line 368 -/
  | told (q : Query) (r : Results)
  /-- the lock is held; the entry is gone from the map, about to remove its element from the list, line 374 -/
  | unlinking (q : Query) (r : Results) (elem : Option Ptr)
  /-- the lock is held; about to ask the source, line 318 -/
  | computing (q : Query) (r : Results)
  /-- the lock is held; about to make the element and put it in the map, line 319 -/
  | storing (q : Query) (r : Results) (res : MatchResult)
  /-- the lock is held; about to put the element in the list, line 325 -/
  | adding (q : Query) (p : Ptr) (res : MatchResult)
  /-- the lock is held; about to notify, line 326 -/
  | telling (q : Query) (res : MatchResult)
  /-- the lock is held; about to give it back and return, line 188 -/
  | wrote (q : Query) (res : MatchResult)
  | done (q : Query) (res : MatchResult)
  /-- before line 194, 207 or 231 -/
  | change (c : Change)
  /-- the lock is held -/
  | changing (c : Change)
  /-- the lock is held; the elements are given up, about to notify, line 336 or 241 -/
  | changeGaveUp (c : Change) (r : Results)
  /-- the lock is held; about to put the source and an empty map in place, line 337 -/
  | changeTold (c : Change) (r : Results)
  /-- the lock is held; about to give it back -/
  | changed (c : Change)
  | changeDone (c : Change)

/-- The call holds the read lock. -/
def Pc.reads : Pc → Bool
  | .reading _ | .promoting _ _ _ _ | .found _ _ | .absent _ => true
  | _ => false

/-- The call holds the lock. -/
def Pc.writes : Pc → Bool
  | .writing _ | .promotingW _ _ _ _ | .gaveUp _ _ | .told _ _ | .unlinking _ _ _ | .computing _ _ | .storing _ _ _ | .adding _ _ _
  | .telling _ _ | .wrote _ _ | .changing _ | .changeGaveUp _ _ | .changeTold _ _ | .changed _ => true
  | _ => false

/-- A new element is made and put in the map, matcher/cache/cache.go:319-321. -/
def St.store (cfg : Config) (s : St) (t : Tick) (q : Query) (r : Results) (res : MatchResult) : St :=
  { s with
    nextPtr := s.nextPtr + 1
    heap := s.heap.upd s.nextPtr fun _ => { newElement q.ns q.id res with expiryNanos := newPromotionExpiry cfg t }
    namespaces := mset s.namespaces q.ns { r with elems := mset r.elems q.id s.nextPtr } }

/-- The steps of a call between its locks.  `fm` is `ForwardMatch` of the sources now. -/
inductive Move (cfg : Config) (fm : Nat → Bytes → Int → Int → MatchResult) : Pc → St → Pc → St → Prop
  /-- lines 268-272 -/
  | noNamespace {q s} (h : mget s.namespaces q.ns = none) : Move cfg fm (.reading q) s (.found q emptyMatchResult) s
  /-- lines 273-280 and 293-294: not to be promoted -/
  | hit {q s r p} (t : Tick) (h : mget s.namespaces q.ns = some r) (hp : mget r.elems q.id = some p)
      (hv : (s.heap p).result.hasExpired q.to = false) (hn : (s.heap p).shouldPromote t.now = false) :
      Move cfg fm (.reading q) s (.found q (s.heap p).result) s
  /-- lines 288-289: to be promoted -/
  | stale {q s r p} (t : Tick) (h : mget s.namespaces q.ns = some r) (hp : mget r.elems q.id = some p)
      (hv : (s.heap p).result.hasExpired q.to = false) (hn : (s.heap p).shouldPromote t.now = true) :
      Move cfg fm (.reading q) s (.promoting q t p (s.heap p).result) s
  /-- lines 350-362 -/
  | promote {q s t p res} : Move cfg fm (.promoting q t p res) s (.found q res) (s.promote cfg t p)
  /-- lines 296-300 -/
  | expired {q s r p} (h : mget s.namespaces q.ns = some r) (hp : mget r.elems q.id = some p)
      (hv : (s.heap p).result.hasExpired q.to = true) : Move cfg fm (.reading q) s (.absent q) s
  /-- lines 298-300 -/
  | notThere {q s r} (h : mget s.namespaces q.ns = some r) (hp : mget r.elems q.id = none) : Move cfg fm (.reading q) s (.absent q) s
  /-- lines 268-272 -/
  | noNamespaceW {q s} (h : mget s.namespaces q.ns = none) : Move cfg fm (.writing q) s (.wrote q emptyMatchResult) s
  /-- lines 273-280 and 293-294 -/
  | hitW {q s r p} (t : Tick) (h : mget s.namespaces q.ns = some r) (hp : mget r.elems q.id = some p)
      (hv : (s.heap p).result.hasExpired q.to = false) (hn : (s.heap p).shouldPromote t.now = false) :
      Move cfg fm (.writing q) s (.wrote q (s.heap p).result) s
  /-- lines 288-289 -/
  | staleW {q s r p} (t : Tick) (h : mget s.namespaces q.ns = some r) (hp : mget r.elems q.id = some p)
      (hv : (s.heap p).result.hasExpired q.to = false) (hn : (s.heap p).shouldPromote t.now = true) :
      Move cfg fm (.writing q) s (.promotingW q t p (s.heap p).result) s
  /-- lines 350-362 -/
  | promoteW {q s t p res} : Move cfg fm (.promotingW q t p res) s (.wrote q res) (s.promote cfg t p)
  /-- line 303: there is no entry -/
  | new {q s r} (h : mget s.namespaces q.ns = some r) (hp : mget r.elems q.id = none) : Move cfg fm (.writing q) s (.computing q r) s
  /-- lines 365-366: the entry is not valid and all entries are to go -/
  | giveUp {q s r p} (h : mget s.namespaces q.ns = some r) (hp : mget r.elems q.id = some p)
      (hv : (s.heap p).result.hasExpired q.to = true) (hc : cfg.invalidateAll = true) :
      Move cfg fm (.writing q) s (.gaveUp q r) { s with toDelete := s.toDelete ++ [r.elems] }
  /-- line 367 -/
  | tell {q s r} : Move cfg fm (.gaveUp q r) s (.told q r) s.notifyDeletion
  /-- lines 368-369 -/
  | clear {q s r} : Move cfg fm (.told q r) s (.computing q { r with elems := [] })
      { s with namespaces := mset s.namespaces q.ns { r with elems := [] } }
  /-- lines 371-373: the entry is not valid and only this entry is to go -/
  | drop {q s r p} (h : mget s.namespaces q.ns = some r) (hp : mget r.elems q.id = some p)
      (hv : (s.heap p).result.hasExpired q.to = true) (hc : cfg.invalidateAll = false) :
      Move cfg fm (.writing q) s (.unlinking q { r with elems := mdel r.elems q.id } (some p))
        { s with namespaces := mset s.namespaces q.ns { r with elems := mdel r.elems q.id } }
  /-- lines 374-376 -/
  | unlink {q s r e} : Move cfg fm (.unlinking q r e) s (.computing q r) (s.listRemove e)
  /-- line 318 -/
  | compute {q s r} : Move cfg fm (.computing q r) s (.storing q r (fm r.source q.id q.frm q.to)) s
  /-- lines 319-321 -/
  | store {q s r res} (t : Tick) : Move cfg fm (.storing q r res) s (.adding q s.nextPtr res) (s.store cfg t q r res)
  /-- lines 342-348 and 325: the list is too long now -/
  | addLong {q s p res} (hl : (s.add p).list.length > cfg.capacity + cfg.evictionBatchSize) :
      Move cfg fm (.adding q p res) s (.telling q res) (s.add p)
  /-- lines 342-348 and 325: it is not -/
  | add {q s p res} (hl : ¬ (s.add p).list.length > cfg.capacity + cfg.evictionBatchSize) :
      Move cfg fm (.adding q p res) s (.wrote q res) (s.add p)
  /-- line 326 -/
  | tellEvictor {q s res} : Move cfg fm (.telling q res) s (.wrote q res) s.notifyEviction
  /-- lines 197-198 -/
  | registerNew {ns src s} (h : mget s.namespaces ns = none) :
      Move cfg fm (.changing (.register ns src)) s (.changed (.register ns src)) { s with namespaces := mset s.namespaces ns { elems := [], source := src } }
  /-- lines 201 and 335 -/
  | registerOld {ns src s r} (h : mget s.namespaces ns = some r) :
      Move cfg fm (.changing (.register ns src)) s (.changeGaveUp (.register ns src) r) { s with toDelete := s.toDelete ++ [r.elems] }
  /-- lines 210-217 -/
  | refreshNone {ns src s} (h : mget s.namespaces ns = none) : Move cfg fm (.changing (.refresh ns src)) s (.changed (.refresh ns src)) s
  /-- lines 222-225 -/
  | refreshOther {ns src s r} (h : mget s.namespaces ns = some r) (hs : r.source ≠ src) : Move cfg fm (.changing (.refresh ns src)) s (.changed (.refresh ns src)) s
  /-- lines 226 and 335 -/
  | refresh {ns src s r} (h : mget s.namespaces ns = some r) (hs : r.source = src) :
      Move cfg fm (.changing (.refresh ns src)) s (.changeGaveUp (.refresh ns src) r) { s with toDelete := s.toDelete ++ [r.elems] }
  /-- lines 234-238 -/
  | unregisterNone {ns s} (h : mget s.namespaces ns = none) : Move cfg fm (.changing (.unregister ns)) s (.changed (.unregister ns)) s
  /-- lines 239-240 -/
  | unregister {ns s r} (h : mget s.namespaces ns = some r) :
      Move cfg fm (.changing (.unregister ns)) s (.changeGaveUp (.unregister ns) r)
        { s with namespaces := mdel s.namespaces ns, toDelete := s.toDelete ++ [r.elems] }
  /-- line 336 -/
  | changeTellRegister {ns src s r} : Move cfg fm (.changeGaveUp (.register ns src) r) s (.changeTold (.register ns src) r) s.notifyDeletion
  /-- line 336 -/
  | changeTellRefresh {ns src s r} : Move cfg fm (.changeGaveUp (.refresh ns src) r) s (.changeTold (.refresh ns src) r) s.notifyDeletion
  /-- line 241 -/
  | changeTellUnregister {ns s r} : Move cfg fm (.changeGaveUp (.unregister ns) r) s (.changed (.unregister ns)) s.notifyDeletion
  /-- lines 337-339 -/
  | changeSetRegister {ns src s r} : Move cfg fm (.changeTold (.register ns src) r) s (.changed (.register ns src))
      { s with namespaces := mset s.namespaces ns { elems := [], source := src } }
  /-- lines 337-339 -/
  | changeSetRefresh {ns src s r} : Move cfg fm (.changeTold (.refresh ns src) r) s (.changed (.refresh ns src))
      { s with namespaces := mset s.namespaces ns { elems := [], source := src } }

/-- The source whose change is announced by the step (for `Fine.pending`). -/
def announced : Pc → Pc → Option Nat
  | .changing (.refresh _ src), .changed _ => some src
  | .changeGaveUp (.refresh _ src) _, .changeTold _ _ => some src
  | _, _ => none

/-- The calls of the cache. -/
inductive Op where
  | look (q : Query)
  | change (c : Change)

/-- What is seen from outside: calls and their returning, with what they return, and that a source gets new rules (`k` tells these
apart). -/
inductive Event (G : Type) where
  | call (i : Nat) (op : Op)
  | ret (i : Nat) (op : Op) (res : Option MatchResult)
  | publish (k src : Nat) (g : G)

/-- The cache with its calls, numbered, and its sources (`gen` and `pending` as in `World`). -/
structure Fine (G : Type) where
  cache : St
  gen : Nat → G
  pending : List Nat
  pcs : Nat → Pc
  hist : List (Event G)

variable {G : Type}

/-- A call goes on. -/
def setPc (pcs : Nat → Pc) (i : Nat) (pc : Pc) : Nat → Pc := fun j => if j = i then pc else pcs j

/-- Steps of the goroutines that need no lock of the cache; and the closing of the channel by `Close`, line 255. -/
def Act.lockFree : Act → Bool
  | .evictWake | .evictExit | .deleteWake | .deleteOne _ | .deleteDone | .deleteExit | .close => true
  | _ => false

/-- Steps of the goroutines under the lock of the cache. -/
def Act.underLock : Act → Bool
  | .evictRun | .deleteTake => true
  | _ => false

/-- The steps. -/
inductive FStep (cfg : Config) (matchAt : Nat → G → Bytes → Int → Int → MatchResult) (nsOf : Nat → Bytes) : Fine G → Fine G → Prop
  | call (f : Fine G) (i : Nat) (q : Query) (h : f.pcs i = .idle) :
      FStep cfg matchAt nsOf f { f with pcs := setPc f.pcs i (.called q), hist := f.hist ++ [.call i (.look q)] }
  /-- line 179 -/
  | rlock (f : Fine G) (i : Nat) (q : Query) (h : f.pcs i = .called q) (hfree : ∀ j, (f.pcs j).writes = false) :
      FStep cfg matchAt nsOf f { f with pcs := setPc f.pcs i (.reading q) }
  /-- lines 181-184 -/
  | runlockFound (f : Fine G) (i : Nat) (q : Query) (res : MatchResult) (h : f.pcs i = .found q res) :
      FStep cfg matchAt nsOf f { f with pcs := setPc f.pcs i (.done q res), hist := f.hist ++ [.ret i (.look q) (some res)] }
  /-- line 181 -/
  | runlockAbsent (f : Fine G) (i : Nat) (q : Query) (h : f.pcs i = .absent q) :
      FStep cfg matchAt nsOf f { f with pcs := setPc f.pcs i (.missed q) }
  /-- line 186 -/
  | lock (f : Fine G) (i : Nat) (q : Query) (h : f.pcs i = .missed q) (hfree : ∀ j, (f.pcs j).writes = false ∧ (f.pcs j).reads = false) :
      FStep cfg matchAt nsOf f { f with pcs := setPc f.pcs i (.writing q) }
  /-- lines 188-190 -/
  | unlock (f : Fine G) (i : Nat) (q : Query) (res : MatchResult) (h : f.pcs i = .wrote q res) :
      FStep cfg matchAt nsOf f { f with pcs := setPc f.pcs i (.done q res), hist := f.hist ++ [.ret i (.look q) (some res)] }
  /-- a source is only registered, or refreshed, for its namespace -/
  | callChange (f : Fine G) (i : Nat) (c : Change) (h : f.pcs i = .idle) (hreg : ∀ ns src, c = .register ns src ∨ c = .refresh ns src → nsOf src = ns) :
      FStep cfg matchAt nsOf f { f with pcs := setPc f.pcs i (.change c), hist := f.hist ++ [.call i (.change c)] }
  /-- lines 194, 207, 231 -/
  | lockChange (f : Fine G) (i : Nat) (c : Change) (h : f.pcs i = .change c) (hfree : ∀ j, (f.pcs j).writes = false ∧ (f.pcs j).reads = false) :
      FStep cfg matchAt nsOf f { f with pcs := setPc f.pcs i (.changing c) }
  /-- lines 195, 208, 232 -/
  | unlockChange (f : Fine G) (i : Nat) (c : Change) (h : f.pcs i = .changed c) :
      FStep cfg matchAt nsOf f { f with pcs := setPc f.pcs i (.changeDone c), hist := f.hist ++ [.ret i (.change c) none] }
  /-- a call makes a step between its locks -/
  | move (f : Fine G) (i : Nat) (pc' : Pc) (s' : St) (h : Move cfg (fun src => matchAt src (f.gen src)) (f.pcs i) f.cache pc' s') :
      FStep cfg matchAt nsOf f { f with cache := s', pcs := setPc f.pcs i pc'
                                        pending := match announced (f.pcs i) pc' with
                                          | some src => f.pending.erase src
                                          | none => f.pending }
  /-- new rules take effect in a source -/
  | publish (f : Fine G) (k src : Nat) (g : G) (hk : ∀ src' g', Event.publish k src' g' ∉ f.hist) :
      FStep cfg matchAt nsOf f { f with gen := fun x => if x = src then g else f.gen x, pending := src :: f.pending
                                        hist := f.hist ++ [.publish k src g] }
  /-- a goroutine makes a step, or the cache is closed -/
  | work (f : Fine G) (act : Act) (c : St) (ha : act.lockFree = true)
      (h : f.cache.step cfg (fun src => matchAt src (f.gen src)) act = some c) : FStep cfg matchAt nsOf f { f with cache := c }
  /-- a goroutine makes a step under the lock -/
  | workLocked (f : Fine G) (act : Act) (c : St) (ha : act.underLock = true) (hfree : ∀ j, (f.pcs j).writes = false ∧ (f.pcs j).reads = false)
      (h : f.cache.step cfg (fun src => matchAt src (f.gen src)) act = some c) : FStep cfg matchAt nsOf f { f with cache := c }

/-- What can come about after `NewCache`, when the sources have the rules `gen0` at first. -/
inductive FReach (cfg : Config) (matchAt : Nat → G → Bytes → Int → Int → MatchResult) (nsOf : Nat → Bytes) (gen0 : Nat → G) : Fine G → Prop
  | init (h : Heap) : FReach cfg matchAt nsOf gen0 ⟨newCache h, gen0, [], fun _ => .idle, []⟩
  | step {f f'} : FReach cfg matchAt nsOf gen0 f → FStep cfg matchAt nsOf f f' → FReach cfg matchAt nsOf gen0 f'

end Verif.Cache
