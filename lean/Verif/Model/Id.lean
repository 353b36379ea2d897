import Verif.Model.Filter
/- Model of metric/id/m3/id.go.  Index and slice expressions can panic explicitly. -/
namespace Verif.Id

scoped macro "cPlus" : term => `((43 : UInt8))   -- '+' componentSplitter, metric/id/m3/id.go:42
scoped macro "cEq" : term => `((61 : UInt8))     -- '=' tagNameSplitter
scoped macro "cComma" : term => `((44 : UInt8))  -- ',' tagPairSplitter

/-- `id.TagPair`, metric/id/tag.go:30 -/
structure TagPair where
  name : Bytes
  value : Bytes
  deriving DecidableEq, Repr

/-- metric/id/m3/id.go:49 -/
def m3Prefix : Bytes := [109, 51, 43]

/-- metric/id/m3/id.go:50-53: m3_rollup=true -/
def rollupTagPair : TagPair :=
  ⟨[109, 51, 95, 114, 111, 108, 108, 117, 112], [116, 114, 117, 101]⟩

/-- `TagPairsByNameAsc`: comparison by name. -/
def pairLt (a b : TagPair) : Bool := bytesLt a.name b.name

/-- The loop writing tag pairs, metric/id/m3/id.go:69-76. -/
def writePairs : List TagPair → Bytes
  | [] => []
  | [p] => p.name ++ cEq :: p.value
  | p :: ps => p.name ++ cEq :: p.value ++ cComma :: writePairs ps

/-- `NewRollupID`, metric/id/m3/id.go:59-79.  `sort.Sort` is modelled as an insertion sort; for pairs of
distinct names every sorting algorithm gives the same result.  The in-place mutation of the argument is
not modelled. -/
def newRollupID (name : Bytes) (tagPairs : List TagPair) : Bytes :=
  m3Prefix ++ name ++ cPlus :: writePairs (sortBy pairLt (tagPairs ++ [rollupTagPair]))

/-- `NameAndTags`, metric/id/m3/id.go:137-150. -/
def nameAndTags (id : Bytes) : Out (Bytes × Bytes) :=
  match indexByte cPlus id with
  | none => do
    -- firstSplitterIdx = -1: the prefix test is against id[:0]
    let pre ← goSlice id 0 0
    if !hasSuffix pre m3Prefix then .err
    else do
      let rest ← goSlice id 0 id.length
      match indexByte cPlus rest with
      | none => .err
      | some j => do
        let name ← goSlice id 0 j
        let tags ← goSlice id (j + 1) id.length
        .ok (name, tags)
  | some i => do
    let pre ← goSlice id 0 (i + 1)
    if !hasSuffix pre m3Prefix then .err
    else do
      let rest ← goSlice id (i + 1) id.length
      match indexByte cPlus rest with
      | none => .err
      | some j => do
        let name ← goSlice id (i + 1) (i + 1 + j)
        let tags ← goSlice id (i + 1 + j + 1) id.length
        .ok (name, tags)

/-- `sortedTagIterator`, metric/id/m3/id.go:152-159. -/
structure TagIter where
  data : Bytes
  idx : Nat
  cur : TagPair
  err : Bool
  deriving DecidableEq, Repr

/-- `Reset`, metric/id/m3/id.go:173-179. -/
def TagIter.reset (data : Bytes) : TagIter := ⟨data, 0, ⟨[], []⟩, false⟩

/-- metric/id/m3/id.go:191-196 -/
def pairEnd (data : Bytes) (nameIdx : Nat) (rest : Bytes) : Nat :=
  match indexByte cComma rest with
  | some j => nameIdx + 1 + j
  | none => data.length

/-- `Next`, metric/id/m3/id.go:181-201. -/
def TagIter.next (it : TagIter) : Out (TagIter × Bool) :=
  if it.err || decide (it.idx ≥ it.data.length) then .ok (it, false)
  else do
    let rest ← goSlice it.data it.idx it.data.length
    match indexByte cEq rest with
    | none => .ok ({ it with err := true }, false)
    | some k => do
      let nameIdx := it.idx + k
      let rest2 ← goSlice it.data (nameIdx + 1) it.data.length
      let e := pairEnd it.data nameIdx rest2
      let name ← goSlice it.data it.idx nameIdx
      let value ← goSlice it.data (nameIdx + 1) e
      .ok ({ it with cur := ⟨name, value⟩, idx := e + 1 }, true)

/-- `for it.Next() { … it.Current() … }` run to the end: all pairs seen and `it.Err() != nil`; the first
argument bounds the number of steps. -/
def TagIter.drain : Nat → TagIter → Out (List TagPair × Bool)
  | 0, it => .ok ([], it.err)
  | fuel + 1, it => do
    let r ← it.next
    if r.2 then do
      let q ← TagIter.drain fuel r.1
      .ok (r.1.cur :: q.1, q.2)
    else .ok ([], r.1.err)

/-- The search loop shared by `IsRollupID` (metric/id/m3/id.go:97-103) and `TagValue` (127-133). -/
def TagIter.search (p : TagPair → Bool) : Nat → TagIter → Out (Option TagPair)
  | 0, _ => .ok none
  | fuel + 1, it => do
    let r ← it.next
    if r.2 then
      if p r.1.cur then .ok (some r.1.cur) else TagIter.search p fuel r.1
    else .ok none

/-- `IsRollupID`, metric/id/m3/id.go:85-102 (a pooled iterator is reset before use). -/
def isRollupID (tags : Bytes) : Out Bool := do
  let r ← TagIter.search (fun q => q.name == rollupTagPair.name && q.value == rollupTagPair.value)
    (tags.length + 1) (.reset tags)
  .ok r.isSome

/-- Result of `TagValue` after the search. -/
def valueOf (r : Option TagPair) : Option Bytes := r.map (·.value)

/-- `metricID.TagValue`, metric/id/m3/id.go:117-135. -/
def tagValue (id tagName : Bytes) : Out (Option Bytes) :=
  match nameAndTags id with
  | .panic => .panic
  | .err => .ok none
  | .ok (_, tags) => do
    let r ← TagIter.search (fun q => tagName == q.name) (tags.length + 1) (.reset tags)
    .ok (valueOf r)

end Verif.Id
