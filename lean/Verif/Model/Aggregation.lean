import Verif.Base
/-
Model of package `aggregation`: type.go, type_string.go, id.go, id_compress.go, types_options.go.
-/
namespace Verif.Agg

/-- `type Type int` (aggregation/type.go:108). Go `int` is modelled by `Int`. -/
scoped macro "AType" : term => `(Int)

/-- Aggregation type constants, aggregation/type.go:33-57. -/
def Last : AType := 1
def Min : AType := 2
def Max : AType := 3
def Mean : AType := 4
def Median : AType := 5
def Count : AType := 6
def Sum : AType := 7
def SumSq : AType := 8
def Stdev : AType := 9
def P10 : AType := 10
def P20 : AType := 11
def P30 : AType := 12
def P40 : AType := 13
def P50 : AType := 14
def P60 : AType := 15
def P70 : AType := 16
def P80 : AType := 17
def P90 : AType := 18
def P95 : AType := 19
def P99 : AType := 20
def P999 : AType := 21
def P9999 : AType := 22

/-- `maxTypeID`, aggregation/type.go:67. -/
def maxTypeID : Nat := 22

/-- The keys of `ValidTypes`, aggregation/type.go:79-102 (a Go map; its iteration order is
irrelevant to every use below, the model fixes the constant order). -/
def ValidTypes : List AType :=
  [Last, Min, Max, Mean, Median, Count, Sum, SumSq, Stdev, P10, P20, P30, P40, P50, P60, P70, P80,
   P90, P95, P99, P999, P9999]

/-- `Type.IsValid`, aggregation/type.go:125-128. -/
def isValid (t : AType) : Bool := ValidTypes.contains t

/-- `Type.IsValidForGauge`, aggregation/type.go:131-138. -/
def isValidForGauge (t : AType) : Bool :=
  [Last, Min, Max, Mean, Count, Sum, SumSq, Stdev].contains t

/-- `Type.IsValidForCounter`, aggregation/type.go:141-148. -/
def isValidForCounter (t : AType) : Bool :=
  [Min, Max, Mean, Count, Sum, SumSq, Stdev].contains t

/-- `Type.IsValidForTimer`, aggregation/type.go:151-158. -/
def isValidForTimer (t : AType) : Bool := !(t == Last)

/-- `Type.Quantile`, aggregation/type.go:161-192.  The float64 literal is represented exactly as a
number of ten-thousandths (0.95 is `9500`). -/
def quantile (t : AType) : Option Nat :=
  if t = P10 then some 1000
  else if t = P20 then some 2000
  else if t = P30 then some 3000
  else if t = P40 then some 4000
  else if t = P50 ∨ t = Median then some 5000
  else if t = P60 then some 6000
  else if t = P70 then some 7000
  else if t = P80 then some 8000
  else if t = P90 then some 9000
  else if t = P95 then some 9500
  else if t = P99 then some 9900
  else if t = P999 then some 9990
  else if t = P9999 then some 9999
  else none

/-- `_Type_name`, aggregation/type_string.go:27. -/
def typeNameTable : Bytes :=
  bs "UnknownTypeLastMinMaxMeanMedianCountSumSumSqStdevP10P20P30P40P50P60P70P80P90P95P99P999P9999"

/-- `_Type_index`, aggregation/type_string.go:29. -/
def typeIndexTable : List Nat :=
  [0, 11, 15, 18, 21, 25, 31, 36, 39, 44, 49, 52, 55, 58, 61, 64, 67, 70, 73, 76, 79, 82, 86, 91]

/-- `Type.String` for `0 ≤ i < 23`, aggregation/type_string.go:31-36: a slice of the name table. -/
def typeNameAt (i : Nat) : Bytes :=
  ((typeNameTable.drop (typeIndexTable.getD i 0)).take
    (typeIndexTable.getD (i + 1) 0 - typeIndexTable.getD i 0))

/-- `Type.String`, aggregation/type_string.go:31-36. The text printed for out-of-range values
(`fmt.Sprintf("Type(%d)")`) is a parameter. -/
def typeString (outOfRange : Int → Bytes) (t : AType) : Bytes :=
  if t < 0 ∨ t ≥ 23 then outOfRange t else typeNameAt t.toNat

/-- Decimal rendering of an integer as `fmt.Sprintf("Type(%d)", i)` prints it. -/
def goOutOfRange (t : Int) : Bytes := bs ("Type(" ++ toString t ++ ")")

/-- `typeStringMap` as filled by `init`, aggregation/type.go:406-411. -/
def typeStringMap : List (Bytes × AType) := ValidTypes.map fun t => (typeNameAt t.toNat, t)

/-- `ParseType`, aggregation/type.go:251-257. -/
def parseType (s : Bytes) : Option AType := typeStringMap.lookup s

/-- `Types.String`, aggregation/type.go:291-301. -/
def typesString (ts : List AType) : Bytes :=
  if ts.length = 0 then []
  else joinWith 44 (ts.map (typeString goOutOfRange))

/-- The parse loop of `ParseTypes`, aggregation/type.go:395-401. -/
def parseParts : List Bytes → Option (List AType)
  | [] => some []
  | p :: ps => match parseType p with
    | none => none
    | some t => match parseParts ps with
      | none => none
      | some ts => some (t :: ts)

/-- `ParseTypes`, aggregation/type.go:392-403. -/
def parseTypes (s : Bytes) : Option (List AType) := parseParts (splitOn 44 s)

/-- State of the `PooledQuantiles` loop, aggregation/type.go:338-369 (`initialized` and `pooled`
concern only where the slice comes from and are not modelled; a pooled slice has length 0). -/
def quantilesLoop : List AType → Bool → List Nat → List Nat
  | [], _, res => res
  | t :: ts, medianAdded, res => match quantile t with
    | none => quantilesLoop ts medianAdded res
    | some q =>
      if t = P50 ∨ t = Median then
        if medianAdded then quantilesLoop ts medianAdded res
        else quantilesLoop ts true (res ++ [q])
      else quantilesLoop ts medianAdded (res ++ [q])

/-- `Types.PooledQuantiles`, aggregation/type.go:338-369. -/
def pooledQuantiles (ts : List AType) : List Nat := quantilesLoop ts false []

/-- `Types.Contains`, aggregation/type.go:276-283. -/
def typesContains (ts : List AType) (t : AType) : Bool := ts.any (· == t)

/-- `type ID [IDLen]uint64` with `IDLen = 1`, aggregation/id.go:29-46. -/
abbrev ID := BitVec 64

/-- `DefaultID`, aggregation/id.go:42. -/
def DefaultID : ID := 0

/-- `ID.IsDefault`, aggregation/id.go:65-67. -/
def ID.isDefault (id : ID) : Bool := id == DefaultID

/-- `ID.Contains`, aggregation/id.go:75-82 (`idx` is always 0 for a valid type). -/
def ID.contains (id : ID) (t : AType) : Bool :=
  if !isValid t then false
  else (id &&& ((1#64) <<< (t.toNat % 64))) != 0#64

/-- `bitset.Set` of the one-word bit set used by the compressor (external library willf/bitset). -/
def bitSet (w : BitVec 64) (i : Nat) : BitVec 64 := w ||| ((1#64) <<< i)

/-- Loop of `idCompressor.Compress`, aggregation/id_compress.go:64-69. -/
def compressLoop : List AType → BitVec 64 → Option (BitVec 64)
  | [], w => some w
  | t :: ts, w => if !isValid t then none else compressLoop ts (bitSet w t.toNat)

/-- `idCompressor.Compress`, aggregation/id_compress.go:62-79.  `prev` is the word left in the bit
set by the previous use of the same compressor; `ClearAll` zeroes it. -/
def compress (prev : BitVec 64) (ts : List AType) : Option ID := compressLoop ts (prev &&& 0)

/-- `CompressTypes`, aggregation/id.go:154-156: a fresh compressor. -/
def compressTypes (ts : List AType) : Option ID := compress 0 ts

/-- `bitset.NextSet` on one word (external library willf/bitset): least set bit at or after `i`. -/
def nextSet (w : BitVec 64) (i : Nat) : Option Nat :=
  (List.range' i (64 - i)).find? (fun j => w.getLsbD j)

/-- Loop of `idDecompressor.Decompress`, aggregation/id_compress.go:128-135. The fuel bounds the
number of iterations; 65 suffices since each iteration passes at least one of 64 bits. -/
def decompressLoop (w : BitVec 64) : Nat → Nat → List AType → Option (List AType)
  | 0, _, _ => none
  | fuel + 1, i, res => match nextSet w i with
    | none => some res
    | some j => if !isValid (j : Int) then none else decompressLoop w fuel (j + 1) (res ++ [(j : Int)])

/-- `idDecompressor.Decompress`, aggregation/id_compress.go:110-138. -/
def decompress (id : ID) : Option (List AType) :=
  if id.isDefault then some []
  else decompressLoop id 65 0 []

/-- `ID.Types`, aggregation/id.go:85-87. -/
def ID.types (id : ID) : Option (List AType) := decompress id

/-- `NewTypeFromProto`, aggregation/type.go:111-117 (protobuf enum values are int32, modelled by
`Int`). -/
def newTypeFromProto (i : Int) : Option AType := if isValid i then some i else none

/-- `NewTypesFromProto`, aggregation/type.go:263-273. -/
def newTypesFromProto : List Int → Option (List AType)
  | [] => some []
  | i :: is => match newTypeFromProto i with
    | none => none
    | some t => (newTypesFromProto is).map (t :: ·)

/-- `Type.Proto`, aggregation/type.go:195-201: the enum value must have a name, which the values
`0 … 22` have (generated aggregationpb).  Simplification: the `int` to `int32` conversion is exact
for every value considered here. -/
def typeProto (t : AType) : Option Int := if 0 ≤ t ∧ t ≤ 22 then some t else none

/-- `Types.Proto`, aggregation/type.go:372-389. -/
def typesProto : List AType → Option (List Int)
  | [] => some []
  | t :: ts => match typeProto t with
    | none => none
    | some p => (typesProto ts).map (p :: ·)

/-- `NewIDFromProto`, aggregation/id.go:49-62. -/
def newIDFromProto (is : List Int) : Option ID :=
  match newTypesFromProto is with
  | none => none
  | some ts => compressTypes ts

/-! ### types_options.go -/

/-- `defaultTypeStringsMap`, aggregation/types_options.go:144-154. -/
def defaultTypeStringsMap : List (AType × Bytes) :=
  [(Last, bs "last"), (Sum, bs "sum"), (SumSq, bs "sum_sq"), (Mean, bs "mean"),
   (Min, bs "lower"), (Max, bs "upper"), (Count, bs "count"), (Stdev, bs "stdev"),
   (Median, bs "median")]

/-- `options`, aggregation/types_options.go:157-172 (pools omitted). Byte slices may be nil; nil and
empty are identified, as `bytes.Equal` does. -/
structure Options where
  defaultCounter : List AType
  defaultTimer : List AType
  defaultGauge : List AType
  quantileFn : Nat → Bytes
  counterFn : Bytes → Bytes
  timerFn : Bytes → Bytes
  gaugeFn : Bytes → Bytes
  counterStrings : List Bytes
  timerStrings : List Bytes
  gaugeStrings : List Bytes
  quantiles : List Nat

/-- The string computed for one aggregation type before storing it,
aggregation/types_options.go:364-373. -/
def typeStringOf (quantileFn : Nat → Bytes) (fn : Bytes → Bytes) (t : AType) : Bytes :=
  fn (match defaultTypeStringsMap.lookup t with
    | some s => s
    | none => match quantile t with
      | some q => quantileFn q
      | none => [])

/-- Loop of `computeTypeStrings`, aggregation/types_options.go:361-377: `res[aggType.ID()] = …` for
every valid type. -/
def computeTypeStringsLoop (quantileFn : Nat → Bytes) (fn : Bytes → Bytes) :
    List AType → List Bytes → List Bytes
  | [], res => res
  | t :: ts, res =>
    computeTypeStringsLoop quantileFn fn ts (res.set t.toNat (typeStringOf quantileFn fn t))

/-- `computeTypeStrings`, aggregation/types_options.go:361-377. -/
def computeTypeStrings (quantileFn : Nat → Bytes) (fn : Bytes → Bytes) : List Bytes :=
  computeTypeStringsLoop quantileFn fn ValidTypes (List.replicate (maxTypeID + 1) [])

/-- `computeAllDerived`, aggregation/types_options.go:338-359. -/
def Options.computeAllDerived (o : Options) : Options :=
  { o with
    quantiles := pooledQuantiles o.defaultTimer
    counterStrings := computeTypeStrings o.quantileFn o.counterFn
    timerStrings := computeTypeStrings o.quantileFn o.timerFn
    gaugeStrings := computeTypeStrings o.quantileFn o.gaugeFn }

/-- The setter calls, aggregation/types_options.go:200-281 (the two pool setters do not touch the
modelled state: `setPool`). -/
inductive Setter where
  | defaultCounter (ts : List AType)
  | defaultTimer (ts : List AType)
  | defaultGauge (ts : List AType)
  | quantileFn (f : Nat → Bytes)
  | counterFn (f : Bytes → Bytes)
  | timerFn (f : Bytes → Bytes)
  | gaugeFn (f : Bytes → Bytes)
  | setPool

/-- aggregation/types_options.go:200-281. -/
def Options.apply (o : Options) : Setter → Options
  | .defaultCounter ts => Options.computeAllDerived { o with defaultCounter := ts }
  | .defaultTimer ts => Options.computeAllDerived { o with defaultTimer := ts }
  | .defaultGauge ts => Options.computeAllDerived { o with defaultGauge := ts }
  | .quantileFn f => Options.computeAllDerived { o with quantileFn := f }
  | .counterFn f => Options.computeAllDerived { o with counterFn := f }
  | .timerFn f => Options.computeAllDerived { o with timerFn := f }
  | .gaugeFn f => Options.computeAllDerived { o with gaugeFn := f }
  | .setPool => o

/-- `NewTypesOptions`, aggregation/types_options.go:175-188. The default quantile string function
(float formatting, lines 392-399) is the parameter `qfn`. -/
def newTypesOptions (qfn : Nat → Bytes) : Options :=
  Options.computeAllDerived
    { defaultCounter := [Sum]
      defaultTimer := [Sum, SumSq, Mean, Min, Max, Count, Stdev, Median, P50, P95, P99]
      defaultGauge := [Last]
      quantileFn := qfn
      counterFn := id
      timerFn := id
      gaugeFn := id
      counterStrings := [], timerStrings := [], gaugeStrings := [], quantiles := [] }

/-- `metric.Type` restricted to what `types_options` dispatches on (metric/types.go:31-37). -/
inductive Kind where
  | counter | timer | gauge
  deriving DecidableEq, Repr

def Options.strings (o : Options) : Kind → List Bytes
  | .counter => o.counterStrings
  | .timer => o.timerStrings
  | .gauge => o.gaugeStrings

/-- `TypeStringForCounter/Timer/Gauge`, aggregation/types_options.go:297-307: slice indexing, `none`
is the Go panic. -/
def Options.typeStringFor (o : Options) (k : Kind) (t : AType) : Option Bytes :=
  if t < 0 then none else (o.strings k)[t.toNat]?

/-- `typeFor`, aggregation/types_options.go:379-389. -/
def typeForLoop (value : Bytes) : Nat → List Bytes → AType
  | _, [] => 0
  | id, s :: ss =>
    if !(value == s) then typeForLoop value (id + 1) ss
    else if isValid (id : Int) then (id : Int)
    else typeForLoop value (id + 1) ss

/-- `TypeForCounter/Timer/Gauge`, aggregation/types_options.go:309-319. -/
def Options.typeFor (o : Options) (k : Kind) (value : Bytes) : AType :=
  typeForLoop value 0 (o.strings k)

end Verif.Agg
