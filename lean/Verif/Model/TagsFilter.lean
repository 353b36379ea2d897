import Verif.Model.Filter
import Verif.Model.Id
/- Model of filters/tags_filter.go. -/
namespace Verif.TagsFlt
open Verif.Flt Verif.Id

/-! ### Text -/

/-- The UTF-8 encodings of the code points for which `unicode.IsSpace` holds. -/
def spaces : List Bytes :=
  [[9], [10], [11], [12], [13], [32], [0xC2, 0x85], [0xC2, 0xA0], [0xE1, 0x9A, 0x80],
   [0xE2, 0x80, 0x80], [0xE2, 0x80, 0x81], [0xE2, 0x80, 0x82], [0xE2, 0x80, 0x83], [0xE2, 0x80, 0x84],
   [0xE2, 0x80, 0x85], [0xE2, 0x80, 0x86], [0xE2, 0x80, 0x87], [0xE2, 0x80, 0x88], [0xE2, 0x80, 0x89],
   [0xE2, 0x80, 0x8A], [0xE2, 0x80, 0xA8], [0xE2, 0x80, 0xA9], [0xE2, 0x80, 0xAF], [0xE2, 0x81, 0x9F],
   [0xE3, 0x80, 0x80]]

/-- Drop white space at the beginning; the first argument bounds the number of removals. -/
def trimLeftN (sp : List Bytes) : Nat → Bytes → Bytes
  | 0, s => s
  | n + 1, s =>
    match sp.find? (fun e => hasPrefix s e) with
    | some e => trimLeftN sp n (s.drop e.length)
    | none => s

def trimLeft (sp : List Bytes) (s : Bytes) : Bytes := trimLeftN sp s.length s

/-- `strings.TrimSpace` (standard library, on possibly invalid UTF-8: a byte sequence is white space at an
end of the string exactly when it is the encoding of a white-space code point). -/
def trimSpace (s : Bytes) : Bytes :=
  (trimLeft (spaces.map List.reverse) (trimLeft spaces s).reverse).reverse

/-- `parseTagFilter`, filters/tags_filter.go:83-99; the only separator is ":" without negation. -/
def parseTagFilter (s : Bytes) : Option (Bytes × Bytes) :=
  match splitOn 58 s with
  | [n, p] => if n = [] then none else if p = [] then none else some (n, p)
  | _ => none

/-- `TagFilterValueMap`: a Go map as a list of entries with distinct keys; the order of the list stands for
the (arbitrary) iteration order of the Go map. -/
abbrev TagFilterValueMap := List (Bytes × FilterValue)

/-- Loop of `ParseTagFilterValueMap`, filters/tags_filter.go:64-79. -/
def parseLoop : List Bytes → TagFilterValueMap → Option TagFilterValueMap
  | [], res => some res
  | p :: ps, res =>
    let sanitized := trimSpace p
    if sanitized = [] then parseLoop ps res
    else match parseTagFilter sanitized with
      | none => none
      | some (n, v) =>
        if res.any (fun e => e.1 == n) then none
        else parseLoop ps (res ++ [(n, ⟨v, false⟩)])

/-- `ParseTagFilterValueMap`, filters/tags_filter.go:60-81. -/
def parseTagFilterValueMap (s : Bytes) : Option TagFilterValueMap :=
  parseLoop (splitOn 32 (trimSpace s)) []

/-- Loop of `ValidateTagsFilter`, filters/tags_filter.go:269-274. -/
def validateLoop : TagFilterValueMap → Out Unit
  | [] => .ok ()
  | e :: es => do
    let _ ← newFilterFromFilterValue e.2
    validateLoop es

/-- `ValidateTagsFilter`, filters/tags_filter.go:264-276. -/
def validateTagsFilter (s : Bytes) : Out TagFilterValueMap :=
  match parseTagFilterValueMap s with
  | none => .err
  | some m => do
    let _ ← validateLoop m
    .ok m

/-! ### Matching -/

/-- `tagFilter`, filters/tags_filter.go:102-105. -/
structure TagFilter where
  name : Bytes
  valueFilter : Filter

/-- `tagsFilter`, filters/tags_filter.go:129-134 (without the options). -/
structure TagsFilter where
  nameFilter : Option Filter
  tagFilters : List TagFilter
  op : LogicalOp

/-- Loop of `NewTagsFilter` over the map, filters/tags_filter.go:145-159. -/
def newLoop (nameTagKey : Bytes) : TagFilterValueMap → Option Filter → List TagFilter →
    Out (Option Filter × List TagFilter)
  | [], nf, tfs => .ok (nf, tfs)
  | e :: es, nf, tfs => do
    let f ← newFilterFromFilterValue e.2
    if nameTagKey = e.1 then newLoop nameTagKey es (some f) tfs
    else newLoop nameTagKey es nf (tfs ++ [⟨e.1, f⟩])

/-- `NewTagsFilter`, filters/tags_filter.go:136-168. -/
def newTagsFilter (nameTagKey : Bytes) (filters : TagFilterValueMap) (op : LogicalOp) : Out TagsFilter := do
  let r ← newLoop nameTagKey filters none []
  .ok ⟨r.1, sortBy (fun a b => bytesLt a.name b.name) r.2, op⟩

/-- The sequence of tags a `SortedTagIterator` yields and whether it ends with an error.  The iterator is
only read forwards, one `Next` at a time. -/
structure TagStream where
  pairs : List TagPair
  failed : Bool

/-- The inner loop filters/tags_filter.go:225-227; the index into the filters is represented by the list of
the remaining ones. -/
def skipSmaller (name : Bytes) : List TagFilter → List TagFilter
  | [] => []
  | g :: gs => if bytesLt g.name name then skipSmaller name gs else g :: gs

/-- filters/tags_filter.go:240-251; `k` is the rest of the loop, given the remaining filters. -/
def matchStep (op : LogicalOp) (p : TagPair) (g : TagFilter) (gs : List TagFilter)
    (k : List TagFilter → Out Bool) : Out Bool := do
  let m ← g.valueFilter.matchesVal p.value
  if m && op == .disjunction then .ok true
  else if !m && op == .conjunction then .ok false
  else k gs

/-- The loop filters/tags_filter.go:210-252 and the code after it, 254-258. -/
def matchLoop (op : LogicalOp) (failed : Bool) : List TagPair → List TagFilter → Out Bool
  | [], fs =>
    -- `Next` returned false; `Err` is set iff the stream failed
    if failed || op == .disjunction then .ok false else .ok fs.isEmpty
  | p :: rest, fs =>
    match fs with
    | [] => -- all filters used up: `Err` is nil
      if op == .disjunction then .ok false else .ok true
    | f :: fs' =>
      if bytesLt p.name f.name then matchLoop op failed rest (f :: fs')
      else if bytesLt f.name p.name then
        if op == .conjunction then .ok false
        else match skipSmaller p.name fs' with
          | [] => .ok false
          | g :: gs =>
            if bytesLt p.name g.name then matchLoop op failed rest (g :: gs)
            else matchStep op p g gs (matchLoop op failed rest)
      else matchStep op p f fs' (matchLoop op failed rest)

/-- The part of `Matches` after the identifier is split, filters/tags_filter.go:198-258. -/
def matchNameTags (f : TagsFilter) (name : Bytes) (ts : TagStream) : Out Bool :=
  match f.nameFilter with
  | none => matchLoop f.op ts.failed ts.pairs f.tagFilters
  | some nf => do
    let m ← nf.matchesVal name
    if m && f.op == .disjunction then .ok true
    else if !m && f.op == .conjunction then .ok false
    else matchLoop f.op ts.failed ts.pairs f.tagFilters

/-- `tagsFilter.Matches`, filters/tags_filter.go:189-259.  `nameAndTagsFn` and `iterFn` are the options
`NameAndTagsFn` and `SortedTagIteratorFn`. -/
def TagsFilter.matchesVal (f : TagsFilter) (nameAndTagsFn : Bytes → Option (Bytes × Bytes))
    (iterFn : Bytes → TagStream) (id : Bytes) : Out Bool :=
  if f.nameFilter.isNone && f.tagFilters.isEmpty then .ok true
  else match nameAndTagsFn id with
    | none => .ok false
    | some (name, tags) => matchNameTags f name (iterFn tags)

end Verif.TagsFlt
