import Verif.Model.Float
import Verif.Model.Pipeline
/- Package `transformation`: the functions and how they are found by type. -/
namespace Verif.Tf
open Verif.F

/-- `Datapoint`, transformation/func.go:31-34. -/
structure Datapoint where
  timeNanos : Int
  value : F64
  deriving DecidableEq, Repr

/-- `emptyDatapoint`, transformation/func.go:25-27. -/
def emptyDatapoint : Datapoint := ⟨0, .nan⟩

/-- `IsEmpty`, transformation/func.go:37. -/
def Datapoint.isEmpty (dp : Datapoint) : Bool := dp.value.isNaN

/-- `nanosPerSecond`, transformation/binary.go:29, as a `float64`. -/
def nanosPerSecond : F64 := ofInt 1000000000

/-- `absolute`, transformation/unary.go:25-30. -/
def absolute (dp : Datapoint) : Datapoint := ⟨dp.timeNanos, dp.value.abs⟩

/-- `perSecond`, transformation/binary.go:37-47. -/
def perSecond (prev curr : Datapoint) : Datapoint :=
  if prev.timeNanos ≥ curr.timeNanos ∨ prev.value.isNaN = true ∨ curr.value.isNaN = true then emptyDatapoint
  else
    let diff := curr.value.sub prev.value
    if diff.lt (.fin false 0) = true then emptyDatapoint
    else
      let rate := (diff.mul nanosPerSecond).div (ofInt (wrap64 (curr.timeNanos - prev.timeNanos)))
      ⟨curr.timeNanos, rate⟩

/-- `unaryTransforms`, transformation/type.go:172-174. -/
def unaryTransform (t : Int) : Option (Datapoint → Datapoint) := if t = 1 then some absolute else none

/-- `binaryTransforms`, transformation/type.go:175-177. -/
def binaryTransform (t : Int) : Option (Datapoint → Datapoint → Datapoint) := if t = 2 then some perSecond else none

/-- `IsUnaryTransform`, `IsBinaryTransform`, `IsValid`, transformation/type.go:41-55. -/
def isUnary (t : Int) : Bool := (unaryTransform t).isSome
def isBinary (t : Int) : Bool := (binaryTransform t).isSome
def isValid (t : Int) : Bool := isUnary t || isBinary t

/-- `String`, transformation/type_string.go:31-36; `none` stands for `Type(n)`. -/
def typeString (t : Int) : Option Bytes :=
  if t = 0 then some (bs "UnknownType") else if t = 1 then some (bs "Absolute") else if t = 2 then some (bs "PerSecond") else none

/-- `ParseType`, transformation/type.go:163-169; the table is filled by `init`, lines 181-189, from the two maps. -/
def parseType (s : Bytes) : Option Int := if s = bs "Absolute" then some 1 else if s = bs "PerSecond" then some 2 else none

end Verif.Tf
