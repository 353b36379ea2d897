import Verif.Model.HashMap
/- What a map is. -/
namespace Verif.Spec.HashMap
open Verif.HashMap

/-- The value at a key after calls in a row: the one set last, if the key was not deleted nor the map reset since. -/
def value {V : Type} (k : Bytes) (old : Option V) : List (Op V) → Option V
  | [] => old
  | .set k' v :: ops => value k (if k = k' then some v else old) ops
  | .delete k' :: ops => value k (if k = k' then none else old) ops
  | .reset :: ops => value k none ops

/-- The keys that occur. -/
def keys {V : Type} : List (Op V) → List Bytes
  | [] => []
  | .set k _ :: ops => k :: keys ops
  | .delete k :: ops => k :: keys ops
  | .reset :: ops => keys ops

/-- The map says of all keys what `f` says, its length is the number of keys that have a value, and a loop over it sees each of
them once, with its value. -/
structure Is {V : Type} (hash : Bytes → UInt64) (m : HMap V) (f : Bytes → Option V) : Prop where
  get : ∀ k, m.get hash k = f k
  iter : ∀ k v, (k, v) ∈ m.iter ↔ f k = some v
  once : (m.iter.map (·.1)).Nodup
  len : m.len = m.iter.length

end Verif.Spec.HashMap
