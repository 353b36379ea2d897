import Verif.Base
/-
Objects that go back to a pool when they are closed: buffered encoders (encoding/msgpack/buffered_encoder.go), msgpack iterators
(encoding/msgpack/unaggregated_iterator.go, aggregated_iterator.go) and sorted tag iterators (metric/id/m3/id.go).

Of an object only what matters here is kept: the flag `closed` and what it holds, the bytes written since the last reset of an
encoder or the bytes that an iterator reads.  `pool.ObjectPool` (m3x) is a bag: `Get` takes out any of the objects in it or
allocates a new one, `Put` puts one in or drops it.
-/
namespace Verif.Pools

/-- How the `Close` of a kind of object differs. -/
structure Kind where
  /-- it has a flag `closed` and does nothing when that is set -/
  flagged : Bool
  /-- it forgets what it holds -/
  clears : Bool
  deriving DecidableEq

/-- `bufferedEncoder`, encoding/msgpack/buffered_encoder.go:28-74. -/
def encoder : Kind := ⟨true, false⟩

/-- `unaggregatedIterator` and `aggregatedIterator`, encoding/msgpack/unaggregated_iterator.go:41-115 and
encoding/msgpack/aggregated_iterator.go:32-86. -/
def iterator : Kind := ⟨true, true⟩

/-- `sortedTagIterator`, metric/id/m3/id.go:152-220. -/
def tagIterator : Kind := ⟨false, true⟩

structure Obj where
  closed : Bool
  content : Bytes
  deriving DecidableEq

/-- The objects, the next one to be allocated and those in the pool. -/
structure World where
  objs : Nat → Obj
  next : Nat
  pool : List Nat

def World.upd (w : World) (o : Nat) (f : Obj → Obj) : World := { w with objs := fun x => if x = o then f (w.objs x) else w.objs x }

/-- `Get` of the pools, encoding/msgpack/buffered_encoder_pool.go:47-49, encoding/msgpack/unaggregated_iterator_pool.go:40-42,
encoding/msgpack/aggregated_iterator_pool.go:40-42, metric/id/tag.go:96-98: the `k`-th object of the pool, or a new one, as made by
`NewPooledBufferedEncoderSize` (encoding/msgpack/buffered_encoder.go:49-55) or the constructors of the iterators. -/
def World.get (w : World) (k : Nat) : World × Nat := match w.pool[k]? with
  | some o => ({ w with pool := w.pool.eraseIdx k }, o)
  | none => ({ (w.upd w.next fun _ => ⟨false, []⟩) with next := w.next + 1 }, w.next)

/-- `Reset`, encoding/msgpack/buffered_encoder.go:61-64 (the bytes are then none), encoding/msgpack/unaggregated_iterator.go:76-80,
encoding/msgpack/aggregated_iterator.go:59-62, metric/id/m3/id.go:173-179. -/
def World.reset (w : World) (o : Nat) (d : Bytes) : World := w.upd o fun _ => ⟨false, d⟩

/-- The encoding calls of an encoder (`msgpack.Encoder` on the buffer, encoding/msgpack/buffered_encoder.go:52). -/
def World.write (w : World) (o : Nat) (d : Bytes) : World := w.upd o fun x => { x with content := x.content ++ d }

/-- `Put` of the pools, encoding/msgpack/buffered_encoder_pool.go:51-56, encoding/msgpack/unaggregated_iterator_pool.go:44-46,
encoding/msgpack/aggregated_iterator_pool.go:44-46, metric/id/tag.go:100-102.  It may drop the object: one that has grown too large,
or any if the pool is full. -/
def World.put (w : World) (o : Nat) (kept : Bool) : World := if kept then { w with pool := o :: w.pool } else w

/-- `Close`, encoding/msgpack/buffered_encoder.go:66-74, encoding/msgpack/unaggregated_iterator.go:102-115,
encoding/msgpack/aggregated_iterator.go:75-85, metric/id/m3/id.go:211-220. -/
def World.close (k : Kind) (w : World) (o : Nat) (kept : Bool) : World :=
  if k.flagged && (w.objs o).closed then w
  else (w.upd o fun x => ⟨k.flagged, if k.clears then [] else x.content⟩).put o kept

end Verif.Pools
