import Verif.Model.Policy
/-
Model of filters/filter.go.  Index and slice expressions are modelled with an explicit `panic`
outcome, so that the absence of panics is a theorem and not a modelling decision.
-/
namespace Verif

/-- Result of a Go call: a value, an error value, or a run-time panic. -/
inductive Out (α : Type) where
  | ok (a : α)
  | err
  | panic
  deriving DecidableEq, Repr

namespace Out
def bind (o : Out α) (f : α → Out β) : Out β :=
  match o with
  | ok a => f a
  | err => err
  | panic => panic
instance : Monad Out where
  pure := ok
  bind := bind
@[simp] theorem ok_bind (a : α) (f : α → Out β) : (Out.ok a >>= f) = f a := rfl
@[simp] theorem err_bind (f : α → Out β) : ((Out.err : Out α) >>= f) = Out.err := rfl
@[simp] theorem panic_bind (f : α → Out β) : ((Out.panic : Out α) >>= f) = Out.panic := rfl
@[simp] theorem pure_eq (a : α) : (pure a : Out α) = Out.ok a := rfl
end Out

/-- `p[i]`. -/
def goIndex (p : List α) (i : Nat) : Out α :=
  match p[i]? with
  | some c => .ok c
  | none => .panic

/-- `p[lo:hi]` (bounded by the length, which for the byte slices here is how they are always used). -/
def goSlice (p : List α) (lo hi : Nat) : Out (List α) :=
  if lo ≤ hi ∧ hi ≤ p.length then .ok ((p.take hi).drop lo) else .panic

/-- `bytes.IndexRune` for an ASCII rune. -/
def indexByte (c : UInt8) : Bytes → Option Nat
  | [] => none
  | d :: ds => if d = c then some 0 else (indexByte c ds).map (· + 1)

/-- `bytes.HasPrefix`, `bytes.HasSuffix`, `bytes.Contains`. -/
def hasPrefix : (val pat : Bytes) → Bool
  | _, [] => true
  | [], _ :: _ => false
  | v :: vs, p :: ps => v == p && hasPrefix vs ps
def hasSuffix (val pat : Bytes) : Bool := hasPrefix val.reverse pat.reverse
def containsBytes (val pat : Bytes) : Bool :=
  match val with
  | [] => hasPrefix [] pat
  | v :: vs => hasPrefix (v :: vs) pat || containsBytes vs pat

namespace Flt

scoped macro "cStar" : term => `((42 : UInt8))     -- '*'
scoped macro "cNeg" : term => `((33 : UInt8))      -- '!'
scoped macro "cAny" : term => `((63 : UInt8))      -- '?'
scoped macro "cLBrack" : term => `((91 : UInt8))   -- '['
scoped macro "cRBrack" : term => `((93 : UInt8))   -- ']'
scoped macro "cDash" : term => `((45 : UInt8))     -- '-'
scoped macro "cLBrace" : term => `((123 : UInt8))  -- '{'
scoped macro "cRBrace" : term => `((125 : UInt8))  -- '}'
scoped macro "cComma" : term => `((44 : UInt8))    -- ','

/-- The kinds of `chainFilter`: filters/filter.go:361-364, 386-389, 450-454, 497-501, 544-547. -/
inductive ChainKind where
  | equality (pattern : Bytes)
  | anyChar
  | singleRange (patterns : List Bytes) (negate : Bool)
  | singleCharSet (pattern : Bytes) (negate : Bool)
  | multiCharSequence (patterns : List Bytes)
  deriving DecidableEq, Repr

structure ChainFilter where
  kind : ChainKind
  backwards : Bool
  deriving DecidableEq, Repr

/-- `chainSegment`, filters/filter.go:39, 48-50. -/
inductive Seg where
  | middle | start | stop
  deriving DecidableEq, Repr

/-- Loop over the ranges of a `singleRangeFilter`, filters/filter.go:481-486. -/
def rangeHit (c : UInt8) : List Bytes → Out Bool
  | [] => .ok false
  | p :: ps => do
    let lo ← goIndex p 0
    if c ≥ lo then
      let hi ← goIndex p 2
      if c ≤ hi then .ok true else rangeHit c ps
    else rangeHit c ps

/-- Loop over the characters of a `singleCharSetFilter`, filters/filter.go:518-529. -/
def setHit (backwards : Bool) (val : Bytes) : Bytes → Out Bool
  | [] => .ok false
  | p :: ps => do
    let idx := if backwards then val.length - 1 else 0
    let c ← goIndex val idx
    if c = p then .ok true else setHit backwards val ps

/-- Loop of `multiCharSequenceFilter.matches`, filters/filter.go:569-577. -/
def seqHit (backwards : Bool) (val : Bytes) : List Bytes → Out (Bytes × Bool)
  | [] => .ok ([], false)
  | p :: ps =>
    if backwards && hasSuffix val p then do
      let r ← goSlice val 0 (val.length - p.length)
      .ok (r, true)
    else if !backwards && hasPrefix val p then do
      let r ← goSlice val p.length val.length
      .ok (r, true)
    else seqHit backwards val ps

/-- filters/filter.go:475-479 -/
def rangeRemainder (backwards : Bool) (val : Bytes) (idx : Nat) (rem1 : Bytes) : Out Bytes :=
  if backwards then goSlice val 0 idx else .ok rem1

/-- `matches` of the chain filters: filters/filter.go:374-384, 401-411, 468-494, 513-540, 564-580. -/
def ChainFilter.matchesVal (f : ChainFilter) (val : Bytes) : Out (Bytes × Bool) :=
  match f.kind with
  | .equality p =>
    if f.backwards && hasSuffix val p then do
      let r ← goSlice val 0 (val.length - p.length)
      .ok (r, true)
    else if !f.backwards && hasPrefix val p then do
      let r ← goSlice val p.length val.length
      .ok (r, true)
    else .ok ([], false)
  | .anyChar =>
    if val.length = 0 then .ok ([], false)
    else if f.backwards then do
      let r ← goSlice val 0 (val.length - 1)
      .ok (r, true)
    else do
      let r ← goSlice val 1 val.length
      .ok (r, true)
  | .singleRange ps negate =>
    if val.length = 0 then .ok ([], false)
    else do
      let rem1 ← goSlice val 1 val.length
      let idx := if f.backwards then val.length - 1 else 0
      let remainder ← rangeRemainder f.backwards val idx rem1
      let c ← goIndex val idx
      let m ← rangeHit c ps
      .ok (remainder, if negate then !m else m)
  | .singleCharSet p negate =>
    if val.length = 0 then .ok ([], false)
    else do
      let m ← setHit f.backwards val p
      let m := if negate then !m else m
      if f.backwards then do
        let r ← goSlice val 0 (val.length - 1)
        .ok (r, m)
      else do
        let r ← goSlice val 1 val.length
        .ok (r, m)
  | .multiCharSequence ps =>
    if val.length = 0 then .ok ([], false) else seqHit f.backwards val ps

/-- Logical operators, filters/filter.go:44-47. -/
inductive LogicalOp where
  | conjunction | disjunction
  deriving DecidableEq, Repr

/-- The filters (each wrapped in an `immutableFilter`, which only delegates, filters/filter.go:651-670). -/
inductive Filter where
  | allow
  | equality (pattern : Bytes)
  | contains (pattern : Bytes)
  | negation (f : Filter)
  | multi (filters : List Filter) (op : LogicalOp)
  | chain (filters : List ChainFilter) (seg : Seg) (backwards : Bool)

/-- The loops of `multiChainFilter.Matches`, filters/filter.go:627-642, over the filters in the order
in which they are visited; `none`: some filter did not match. -/
def runChain : List ChainFilter → Bytes → Out (Option Bytes)
  | [], val => .ok (some val)
  | f :: fs, val => do
    let r ← f.matchesVal val
    if !r.2 then .ok none else runChain fs r.1

/-- `multiChainFilter.Matches`, filters/filter.go:620-649. -/
def chainMatches (filters : List ChainFilter) (seg : Seg) (backwards : Bool) (val : Bytes) : Out Bool :=
  if filters.length = 0 then .ok true
  else do
    let r ← runChain (if backwards then filters.reverse else filters) val
    match r with
    | none => .ok false
    | some rest => if seg = .middle ∧ rest.length ≠ 0 then .ok false else .ok true

mutual
/-- `Matches`, filters/filter.go:249, 265, 286, 303, 332, 620. -/
def Filter.matchesVal : Filter → Bytes → Out Bool
  | .allow, _ => .ok true
  | .equality p, val => .ok (p == val)
  | .contains p, val => .ok (containsBytes val p)
  | .negation f, val => do
    let m ← f.matchesVal val
    .ok (!m)
  | .multi fs op, val =>
    match fs with
    | [] => .ok true
    | f :: fs => multiLoop (f :: fs) op val
  | .chain fs seg bw, val => chainMatches fs seg bw val

/-- Loop of `multiFilter.Matches`, filters/filter.go:337-348. -/
def multiLoop : List Filter → LogicalOp → Bytes → Out Bool
  | [], op, _ => .ok (op == .conjunction)
  | f :: fs, op, val => do
    let m ← f.matchesVal val
    if op = .conjunction ∧ !m then .ok false
    else if op = .disjunction ∧ m then .ok true
    else multiLoop fs op val
end

/-- Loop of `newSingleRangeFilter`, filters/filter.go:434-440; the argument is the position `i`. -/
def splitRanges (p : Bytes) (i : Nat) : Out (List Bytes) :=
  if i < p.length then do
    let c1 ← goIndex p (i + 1)
    if c1 ≠ cDash then .err
    else do
      let c0 ← goIndex p i
      let c2 ← goIndex p (i + 2)
      if c0 > c2 then .err
      else do
        let s ← goSlice p i (i + 3)
        let rest ← splitRanges p (i + 3)
        .ok (s :: rest)
  else .ok []
termination_by p.length - i

/-- filters/filter.go:421-424 -/
def stripNeg (pattern : Bytes) (c0 : UInt8) : Out Bytes :=
  if c0 = cNeg then goSlice pattern 1 pattern.length else .ok pattern

/-- The condition filters/filter.go:426. -/
def dashAt1 (pattern : Bytes) : Out Bool :=
  if pattern.length > 1 then (goIndex pattern 1).bind fun c1 => .ok (c1 == cDash) else .ok false

/-- `newSingleRangeFilter`, filters/filter.go:415-446. -/
def newSingleRangeFilter (pattern : Bytes) (backwards : Bool) : Out ChainFilter :=
  if pattern.length = 0 then .err
  else do
    let c0 ← goIndex pattern 0
    let negate := c0 == cNeg
    let pattern ← stripNeg pattern c0
    let dash ← dashAt1 pattern
    if dash then
      if pattern.length % 3 ≠ 0 then .err
      else do
        let ps ← splitRanges pattern 0
        .ok ⟨.singleRange ps negate, backwards⟩
    else .ok ⟨.singleCharSet pattern negate, backwards⟩

/-- `newMultiCharSequenceFilter`, filters/filter.go:549-558. -/
def newMultiCharSequenceFilter (patterns : Bytes) (backwards : Bool) : Out ChainFilter :=
  if patterns.length = 0 then .err
  else .ok ⟨.multiCharSequence (splitOn cComma patterns), backwards⟩

/-- The flush of a pending equality part, e.g. filters/filter.go:186-189. -/
def flushEq (pattern : Bytes) (eqIdx : Option Nat) (i : Nat) (backwards : Bool)
    (filters : List ChainFilter) : Out (List ChainFilter) :=
  match eqIdx with
  | none => .ok filters
  | some e => do
    let s ← goSlice pattern e i
    .ok (filters ++ [⟨.equality s, backwards⟩])

/-- filters/filter.go:232-235: remember where an equality part starts. -/
def markEq (eqIdx : Option Nat) (i : Nat) : Option Nat :=
  match eqIdx with
  | none => some i
  | some e => some e

/-- The loop of `newRangeFilter`, filters/filter.go:182-236, followed by the final flush 238-240. -/
def rangeLoop (pattern : Bytes) (backwards : Bool) (i : Nat) (eqIdx : Option Nat)
    (filters : List ChainFilter) : Out (List ChainFilter) :=
  if i < pattern.length then do
    let c ← goIndex pattern i
    if c = cLBrack then do
      let filters ← flushEq pattern eqIdx i backwards filters
      let tail ← goSlice pattern (i + 1) pattern.length
      match indexByte cRBrack tail with
      | none => .err
      | some endIdx => do
        let inner ← goSlice pattern (i + 1) (i + 1 + endIdx)
        let f ← newSingleRangeFilter inner backwards
        rangeLoop pattern backwards (i + endIdx + 1 + 1) none (filters ++ [f])
    else if c = cLBrace then do
      let filters ← flushEq pattern eqIdx i backwards filters
      let tail ← goSlice pattern (i + 1) pattern.length
      match indexByte cRBrace tail with
      | none => .err
      | some endIdx => do
        let inner ← goSlice pattern (i + 1) (i + 1 + endIdx)
        let f ← newMultiCharSequenceFilter inner backwards
        rangeLoop pattern backwards (i + endIdx + 1 + 1) none (filters ++ [f])
    else if c = cAny then do
      let filters ← flushEq pattern eqIdx i backwards filters
      rangeLoop pattern backwards (i + 1) none (filters ++ [⟨.anyChar, backwards⟩])
    else
      rangeLoop pattern backwards (i + 1) (markEq eqIdx i) filters
  else flushEq pattern eqIdx pattern.length backwards filters
termination_by pattern.length - i

/-- `newRangeFilter`, filters/filter.go:179-243. -/
def newRangeFilter (pattern : Bytes) (backwards : Bool) (seg : Seg) : Out Filter := do
  let fs ← rangeLoop pattern backwards 0 none []
  .ok (.chain fs seg backwards)

/-- `newContainsFilter`, filters/filter.go:274-280; the invalid characters are "?[{". -/
def newContainsFilter (pattern : Bytes) : Out Filter :=
  if pattern.any (fun c => c == cAny || c == cLBrack || c == cLBrace) then .err
  else .ok (.contains pattern)

/-- `newWildcardFilter`, filters/filter.go:130-175. -/
def newWildcardFilter (pattern : Bytes) : Out Filter :=
  match indexByte cStar pattern with
  | none => newRangeFilter pattern false .middle
  | some wIdx =>
    if pattern.length = 1 then .ok .allow
    else if wIdx = pattern.length - 1 then do
      let p ← goSlice pattern 0 (pattern.length - 1)
      newRangeFilter p false .start
    else do
      let tail ← goSlice pattern (wIdx + 1) pattern.length
      match indexByte cStar tail with
      | none =>
        if wIdx = 0 then do
          let p ← goSlice pattern 1 pattern.length
          newRangeFilter p true .stop
        else do
          let p1 ← goSlice pattern 0 wIdx
          let first ← newRangeFilter p1 false .start
          let p2 ← goSlice pattern (wIdx + 1) pattern.length
          let second ← newRangeFilter p2 true .stop
          .ok (.multi [first, second] .conjunction)
      | some secondWIdx =>
        if wIdx = 0 ∧ (secondWIdx : Int) = (pattern.length : Int) - 2 ∧ pattern.length > 2 then do
          let p ← goSlice pattern 1 (pattern.length - 1)
          newContainsFilter p
        else .err

/-- `NewFilter`, filters/filter.go:105-126. -/
def newFilter (pattern : Bytes) : Out Filter :=
  if pattern.length = 0 then .ok (.equality pattern)
  else do
    let c ← goIndex pattern 0
    if c ≠ cNeg then newWildcardFilter pattern
    else if pattern.length = 1 then .err
    else do
      let p ← goSlice pattern 1 pattern.length
      let f ← newWildcardFilter p
      .ok (.negation f)

/-- `FilterValue` and `NewFilterFromFilterValue`, filters/filter.go:70-73, 90-99. -/
structure FilterValue where
  pattern : Bytes
  negate : Bool
  deriving DecidableEq, Repr

def newFilterFromFilterValue (fv : FilterValue) : Out Filter := do
  let f ← newFilter fv.pattern
  .ok (if fv.negate then .negation f else f)

end Flt
end Verif
