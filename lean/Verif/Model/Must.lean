import Verif.Model.Policy
import Verif.Model.Messages
import Verif.Model.Transformation
import Verif.Model.Filter
/-
Model of the functions that panic where others return an error.
-/
namespace Verif.Must
open Verif.Policy

/-- `MustParseResolution`, policy/resolution.go:119-125. -/
def parseResolution (x : XTime) (s : Bytes) : Out Resolution := match Policy.parseResolution x s with
  | none => .panic
  | some r => .ok r

/-- `MustParseRetention`, policy/retention.go:73-79, with `ParseRetention`, 64-70. -/
def parseRetention (x : XTime) (s : Bytes) : Out Int := match x.parseExt s with
  | none => .panic
  | some d => .ok d

/-- `MustParseStoragePolicy`, policy/storage_policy.go:181-187. -/
def parseStoragePolicy (x : XTime) (s : Bytes) : Out StoragePolicy := match Policy.parseStoragePolicy x s with
  | none => .panic
  | some p => .ok p

/-- `MustParseType`, metric/types.go:105-111. -/
def parseType (s : Bytes) : Out Int := match Msg.parseType s with
  | none => .panic
  | some t => .ok t

/-- `idCompressor.MustCompress`, aggregation/id_compress.go:81-87; `prev` as in `compress`. -/
def compress (prev : BitVec 64) (ts : List Int) : Out Agg.ID := match Agg.compress prev ts with
  | none => .panic
  | some id => .ok id

/-- `MustCompressTypes`, aggregation/id.go:160-166. -/
def compressTypes (ts : List Int) : Out Agg.ID := match Agg.compressTypes ts with
  | none => .panic
  | some id => .ok id

/-- `idDecompressor.MustDecompress`, aggregation/id_compress.go:139-145. -/
def decompress (id : Agg.ID) : Out (List Int) := match Agg.decompress id with
  | none => .panic
  | some ts => .ok ts

/-- `UnaryTransform`, transformation/type.go:59-65. -/
def unaryTransform (t : Int) : Out (Tf.Datapoint → Tf.Datapoint) := match Tf.unaryTransform t with
  | none => .err
  | some f => .ok f

/-- `MustUnaryTransform`, transformation/type.go:69-75. -/
def mustUnaryTransform (t : Int) : Out (Tf.Datapoint → Tf.Datapoint) := match unaryTransform t with
  | .ok f => .ok f
  | _ => .panic

/-- `BinaryTransform`, transformation/type.go:79-85. -/
def binaryTransform (t : Int) : Out (Tf.Datapoint → Tf.Datapoint → Tf.Datapoint) := match Tf.binaryTransform t with
  | none => .err
  | some f => .ok f

/-- `MustBinaryTransform`, transformation/type.go:89-95. -/
def mustBinaryTransform (t : Int) : Out (Tf.Datapoint → Tf.Datapoint → Tf.Datapoint) := match binaryTransform t with
  | .ok f => .ok f
  | _ => .panic

end Verif.Must
