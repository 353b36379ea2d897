import Verif.Base
/-
The locks of the matcher: which locks every function of matcher/match.go, matcher/namespaces.go, matcher/ruleset.go and
matcher/cache/cache.go takes, in which order, and what shared state it touches meanwhile.

A function is a program whose runs are lists of operations: taking and giving back a lock, reading and writing shared state.
What the branches of the code depend on is left open: a branch is a free choice, a loop any number of rounds.  So the runs of
the program here include all the runs of the code.

`sync.RWMutex` is the one of Go: a writer first announces itself, from then on no reader and no other writer comes in, and it
gets the lock when the readers that are in have left.  `sync.Mutex` is a `sync.RWMutex` that is never read-locked.

`runtime.Value` (m3cluster) is outside of /repo.  Taken from its documented behaviour and the comment at
matcher/namespaces.go:214-217: `Watch`, `Unwatch` and the goroutine that processes updates hold the lock of the value, the
latter and `Watch` also while they call the functions given to the constructor for unmarshalling and processing.
-/
namespace Verif.Locks

inductive Mode where
  | shared
  | excl
  deriving DecidableEq, Repr

/-- One operation of a thread, on locks `L` and shared state `F`. -/
inductive Op (L F : Type) where
  | lock (l : L)
  | unlock (l : L)
  | rlock (l : L)
  | runlock (l : L)
  | read (f : F)
  | write (f : F)
  deriving DecidableEq, Repr

/-- A program. -/
inductive Prog (L F : Type) where
  | skip
  | op (o : Op L F)
  | seq (p q : Prog L F)
  /-- a branch -/
  | alt (p q : Prog L F)
  /-- a loop -/
  | star (p : Prog L F)
  /-- whichever object it is called on -/
  | any (p : Nat → Prog L F)

variable {L F : Type}

/-- The runs of a program. -/
inductive Runs : Prog L F → List (Op L F) → Prop where
  | skip : Runs .skip []
  | op (o) : Runs (.op o) [o]
  | seq {p q a b} : Runs p a → Runs q b → Runs (.seq p q) (a ++ b)
  | left {p q a} : Runs p a → Runs (.alt p q) a
  | right {p q a} : Runs q a → Runs (.alt p q) a
  | stop {p} : Runs (.star p) []
  | again {p a b} : Runs p a → Runs (.star p) b → Runs (.star p) (a ++ b)
  | any {p : Nat → Prog L F} {a} (i) : Runs (p i) a → Runs (.any p) a

/-- A thread: the locks it holds, whether it has announced that it wants the lock next in its list, and what it has still to do. -/
structure Thread (L F : Type) where
  held : List (L × Mode)
  announced : Bool
  todo : List (Op L F)
  deriving DecidableEq, Repr

/-- The thread is a writer of the lock that waits for the readers to leave. -/
def Thread.Waits (t : Thread L F) (l : L) : Prop := t.announced = true ∧ ∃ r, t.todo = .lock l :: r

/-- No thread holds the lock alone or waits for the readers to leave. -/
def Open (ts : List (Thread L F)) (l : L) : Prop := ∀ u ∈ ts, (l, Mode.excl) ∉ u.held ∧ ¬ u.Waits l

/-- No thread holds the lock. -/
def Free (ts : List (Thread L F)) (l : L) : Prop := ∀ u ∈ ts, ∀ m, (l, m) ∉ u.held

/-- A thread makes one step among the threads `ts`. -/
inductive Move [DecidableEq L] (ts : List (Thread L F)) : Thread L F → Thread L F → Prop where
  | rlock {h l r} : Open ts l → Move ts ⟨h, false, .rlock l :: r⟩ ⟨(l, .shared) :: h, false, r⟩
  | runlock {h l r} : (l, Mode.shared) ∈ h → Move ts ⟨h, false, .runlock l :: r⟩ ⟨h.erase (l, .shared), false, r⟩
  /-- a writer announces itself -/
  | announce {h l r} : Open ts l → Move ts ⟨h, false, .lock l :: r⟩ ⟨h, true, .lock l :: r⟩
  /-- it gets the lock -/
  | lock {h l r} : Free ts l → Move ts ⟨h, true, .lock l :: r⟩ ⟨(l, .excl) :: h, false, r⟩
  | unlock {h l r} : (l, Mode.excl) ∈ h → Move ts ⟨h, false, .unlock l :: r⟩ ⟨h.erase (l, .excl), false, r⟩
  | read {h f r} : Move ts ⟨h, false, .read f :: r⟩ ⟨h, false, r⟩
  | write {h f r} : Move ts ⟨h, false, .write f :: r⟩ ⟨h, false, r⟩

/-- One of the threads makes a step. -/
inductive Step [DecidableEq L] : List (Thread L F) → List (Thread L F) → Prop where
  | mk {pre t t' post} : Move (pre ++ t :: post) t t' → Step (pre ++ t :: post) (pre ++ t' :: post)

/-- So many steps of the threads that are there. -/
inductive Steps [DecidableEq L] : Nat → List (Thread L F) → List (Thread L F) → Prop where
  | done (ts) : Steps 0 ts ts
  | step {n ts ts' ts''} : Step ts ts' → Steps n ts' ts'' → Steps (n + 1) ts ts''

/-- What can come about when at any time a new thread may start with one of the programs of `E`. -/
inductive Reach [DecidableEq L] (E : Prog L F → Prop) : List (Thread L F) → Prop where
  | init : Reach E []
  | start {ts p a} : Reach E ts → E p → Runs p a → Reach E (⟨[], false, a⟩ :: ts)
  | step {ts ts'} : Reach E ts → Step ts ts' → Reach E ts'

/-- `l.Lock(); p; l.Unlock()` -/
def locked (l : L) (p : Prog L F) : Prog L F := .seq (.op (.lock l)) (.seq p (.op (.unlock l)))

/-- `l.RLock(); p; l.RUnlock()` -/
def rlocked (l : L) (p : Prog L F) : Prog L F := .seq (.op (.rlock l)) (.seq p (.op (.runlock l)))

/-- `if … { p }` -/
def opt (p : Prog L F) : Prog L F := .alt .skip p

/-- The locks of a matcher; the number tells the rule set objects apart. -/
inductive Lock where
  /-- the lock of the value of the namespaces, matcher/namespaces.go:103 -/
  | nsValue
  /-- matcher/namespaces.go:102 -/
  | ns
  /-- the lock of the value of a rule set, matcher/ruleset.go:75 -/
  | ruleValue (i : Nat)
  /-- matcher/cache/cache.go:129 -/
  | cache
  /-- matcher/ruleset.go:74 -/
  | rule (i : Nat)
  /-- matcher/cache/list.go:163 -/
  | list
  /-- rules/validator/namespace/kv/validator.go:40 -/
  | validator
  deriving DecidableEq, Repr

/-- The shared state. -/
inductive Field where
  /-- `rules` and `proto`, matcher/namespaces.go:115-116 -/
  | nsState
  /-- `proto`, `version`, `cutoverNanos`, `tombstoned` and `matcher`, matcher/ruleset.go:86-90 -/
  | ruleState (i : Nat)
  /-- `namespaces`, with the maps of elements in it, `toDelete` and `closed`, matcher/cache/cache.go:140-146 -/
  | cacheState
  /-- `list` with the links and the deletion marks of its elements, matcher/cache/cache.go:141.  (Namespace, ID and result of an
  element are never changed once it is there; the promotion expiry is accessed with atomic operations.) -/
  | listState
  /-- `closed` and `validNamespaces`, rules/validator/namespace/kv/validator.go:48-51 -/
  | validatorState
  deriving DecidableEq, Repr

abbrev P := Prog Lock Field

/-! ### Rule sets -/

/-- `ForwardMatch` and `ReverseMatch` of a rule set, matcher/ruleset.go:151-184; likewise `Namespace`, `Version`, `CutoverNanos` and
`Tombstoned`, lines 123-149: they read under the read lock. -/
def ruleRead (i : Nat) : P := rlocked (.rule i) (.op (.read (.ruleState i)))

/-- `toRuleSet`, matcher/ruleset.go:186-198. -/
def toRuleSet (i : Nat) : P := locked (.rule i) (opt (.op (.write (.ruleState i))))

/-! ### The cache -/

/-- `promote`, matcher/cache/cache.go:350-362. -/
def promote : P := locked .list (opt (.op (.write .listState)))

/-- `add`, matcher/cache/cache.go:342-348. -/
def add : P := locked .list (.seq (.op (.write .listState)) (.op (.read .listState)))

/-- `invalidateWithLock`, matcher/cache/cache.go:364-379. -/
def invalidateWithLock : P :=
  .alt (.op (.write .cacheState))
    (.seq (.op (.read .cacheState)) (.seq (.op (.write .cacheState)) (locked .list (.op (.write .listState)))))

/-- `setWithLock`, matcher/cache/cache.go:306-330; the source is some rule set. -/
def setWithLock : P :=
  .seq (opt invalidateWithLock) (.seq (.any ruleRead) (.seq (.op (.write .cacheState)) add))

/-- `tryGetWithLock` that is not to set anything, matcher/cache/cache.go:262-300. -/
def tryGet : P := .seq (.op (.read .cacheState)) (opt promote)

/-- `tryGetWithLock` that is to set what it does not find, matcher/cache/cache.go:262-304. -/
def tryGetOrSet : P := .seq (.op (.read .cacheState)) (.alt (opt promote) setWithLock)

/-- `ForwardMatch` of the cache, matcher/cache/cache.go:178-191. -/
def cacheMatch : P := .seq (rlocked .cache tryGet) (opt (locked .cache tryGetOrSet))

/-- `refreshWithLock`, matcher/cache/cache.go:334-340; the notification at line 336 never waits (lines 474-479). -/
def refreshWithLock : P := .op (.write .cacheState)

/-- `Register`, matcher/cache/cache.go:193-204. -/
def register : P := locked .cache (.seq (.op (.read .cacheState)) (.alt (.op (.write .cacheState)) refreshWithLock))

/-- `Refresh`, matcher/cache/cache.go:206-228. -/
def refresh : P := locked .cache (.seq (.op (.read .cacheState)) (opt refreshWithLock))

/-- `Unregister`, matcher/cache/cache.go:230-243. -/
def unregister : P := locked .cache (.seq (.op (.read .cacheState)) (opt (.op (.write .cacheState))))

/-- `Close` of the cache, matcher/cache/cache.go:245-254; what follows, waiting for the two workers, is done without any lock. -/
def cacheClose : P := locked .cache (.seq (.op (.read .cacheState)) (opt (.op (.write .cacheState))))

/-- `doEvict`, matcher/cache/cache.go:394-416. -/
def doEvict : P :=
  locked .cache (locked .list (.seq (.op (.read .listState)) (.star (.seq (.op (.write .listState)) (.seq (.op (.read .cacheState)) (opt (.op (.write .cacheState))))))))

/-- `doDelete`, matcher/cache/cache.go:431-465.  The maps it goes through were taken out of the cache before. -/
def doDelete : P :=
  .seq (locked .cache (.seq (.op (.read .cacheState)) (opt (.op (.write .cacheState)))))
    (opt (locked .list (.star (.seq (.op (.write .listState)) (opt (.seq (.op (.unlock .list)) (.op (.lock .list))))))))

/-! ### Rule sets, continued -/

/-- `process` of a rule set, matcher/ruleset.go:201-217, with the callback that `NewMatcher` sets, matcher/match.go:60-62. -/
def ruleProcess (i : Nat) : P := .seq (locked (.rule i) (.op (.write (.ruleState i)))) (opt refresh)

/-- `Watch` of a rule set and the processing of an update of its value (`runtime.Value`, set up at matcher/ruleset.go:113-119). -/
def ruleUpdate (i : Nat) : P := locked (.ruleValue i) (opt (.seq (toRuleSet i) (opt (ruleProcess i))))

/-- `Unwatch` of a rule set (`runtime.Value`). -/
def ruleUnwatch (i : Nat) : P := locked (.ruleValue i) .skip

/-! ### Namespaces -/

/-- `ruleSet`, matcher/namespaces.go:203-211. -/
def nsRuleSet : P := rlocked .ns (.op (.read .nsState))

/-- `ForwardMatch` and `ReverseMatch` of the namespaces, matcher/namespaces.go:180-201, and `Version`, lines 170-178. -/
def nsMatch : P := .seq nsRuleSet (opt (.any ruleRead))

/-- `toNamespaces`, matcher/namespaces.go:228-240. -/
def toNamespaces : P := locked .ns (opt (.op (.write .nsState)))

/-- A round of the first loop of `process`, matcher/namespaces.go:258-304, with the callback of matcher/match.go:54-56. -/
def nsIncoming (i : Nat) : P :=
  .seq (.op (.read .nsState)) (.seq (opt (.op (.write .nsState)))
    (.seq (opt (ruleRead i)) (.seq (.alt (ruleUnwatch i) (ruleUpdate i)) (opt register))))

/-- A round of the second loop of `process`, matcher/namespaces.go:306-322, with the callback of matcher/match.go:57-59. -/
def nsGone (i : Nat) : P :=
  .seq (.op (.read .nsState))
    (opt (.seq (ruleRead i) (opt (.seq (ruleRead i) (opt (.seq (.seq (ruleRead i) unregister) (.seq (.op (.write .nsState)) (ruleUnwatch i))))))))

/-- `process`, matcher/namespaces.go:242-325. -/
def nsProcess : P := locked .ns (.seq (.star (.any nsIncoming)) (.star (.any nsGone)))

/-- `Open`, matcher/namespaces.go:147-168, that is `Watch` of the value, and the processing of an update of the value
(`runtime.Value`, set up at matcher/namespaces.go:137-143). -/
def nsUpdate : P := locked .nsValue (opt (.seq toNamespaces (opt nsProcess)))

/-- `Close` of the namespaces, matcher/namespaces.go:213-226. -/
def nsClose : P := .seq (locked .nsValue .skip) (rlocked .ns (.seq (.op (.read .nsState)) (.star (.any ruleUnwatch))))

/-! ### The namespace validator -/

/-- `Validate`, rules/validator/namespace/kv/validator.go:72-83. -/
def validate : P := rlocked .validator (.op (.read .validatorState))

/-- `Close`, rules/validator/namespace/kv/validator.go:85-93; what follows, waiting for the goroutine, is done without the lock. -/
def validatorClose : P := locked .validator (.seq (.op (.read .validatorState)) (opt (.op (.write .validatorState))))

/-- `processUpdate`, rules/validator/namespace/kv/validator.go:134-144. -/
def validatorUpdate : P := opt (locked .validator (.op (.write .validatorState)))

/-- What threads start: the calls of users and one round of each goroutine. -/
inductive Entry : P → Prop where
  /-- `ForwardMatch` of the matcher, matcher/match.go:78-84 -/
  | cacheMatch : Entry cacheMatch
  /-- `Close` of the matcher, matcher/match.go:86-89 -/
  | close : Entry (.seq nsClose cacheClose)
  /-- `NewMatcher`, matcher/match.go:49-76, opens the namespaces; and the goroutine of their value -/
  | nsUpdate : Entry nsUpdate
  | ruleUpdate (i) : Entry (ruleUpdate i)
  | ruleUnwatch (i) : Entry (ruleUnwatch i)
  | ruleRead (i) : Entry (ruleRead i)
  | nsMatch : Entry nsMatch
  | nsClose : Entry nsClose
  | register : Entry register
  | refresh : Entry refresh
  | unregister : Entry unregister
  | cacheClose : Entry cacheClose
  /-- the worker `evict`, matcher/cache/cache.go:381-392 -/
  | doEvict : Entry doEvict
  /-- the worker `delete`, matcher/cache/cache.go:418-429 -/
  | doDelete : Entry doDelete
  | validate : Entry validate
  | validatorClose : Entry validatorClose
  | validatorUpdate : Entry validatorUpdate

end Verif.Locks
