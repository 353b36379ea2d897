import Verif.Model.HashMap
/-
The generated hash maps with the arrays of their keys: matcher/cache/elem_map_gen.go with elem_new_map_gen.go,
namespace_results_map_gen.go with namespace_results_new_map_gen.go (matcher/cache), and the two pairs of package matcher.  Lines are
those of the first pair.  A key is a reference to an array: one of a caller, which the caller may overwrite at any time, or one of
the map's own.  Keys may be copied into arrays of a pool (`KeyCopyPool`), which get back there when the key is removed.  A slice is
the whole of its array: what a pool hands out is cut to the length of the key before it is filled.
-/
namespace Verif.KeyMemory
open Verif.HashMap (HMap)

/-- Where a key is: in the array of a caller or of the map. -/
inductive Ref where
  | caller (i : Nat)
  | own (i : Nat)
  deriving DecidableEq

/-- `_elemMapKey`, matcher/cache/elem_map_gen.go:103-106. -/
structure Key where
  ref : Ref
  finalize : Bool
  deriving DecidableEq

/-- A map with the memory it is in: the arrays of callers and of the map, the Go map (lines 64-72), the arrays that are free in the
pool of keys, if there is one (matcher/cache/elem_new_map_gen.go:33-62). -/
structure World (V : Type) where
  callers : List Bytes := []
  arrays : List Bytes := []
  lookup : List (UInt64 × (Key × V)) := []
  pool : Option (List Nat) := none

variable {V : Type}

/-- What a reference refers to now. -/
def World.at (w : World V) : Ref → Bytes
  | .caller i => w.callers.getD i []
  | .own i => w.arrays.getD i []

/-- `m.lookup[hash]`. -/
def World.slot (w : World V) (h : UInt64) : Option (Key × V) := (w.lookup.find? fun e => e.1 == h).map (·.2)

/-- `delete(m.lookup, hash)`. -/
def World.drop (w : World V) (h : UInt64) : World V := { w with lookup := w.lookup.filter fun e => !(e.1 == h) }

/-- `m.lookup[hash] = …`. -/
def World.put (w : World V) (h : UInt64) (e : Key × V) : World V :=
  { w with lookup := (w.lookup.filter fun e => !(e.1 == h)) ++ [(h, e)] }

/-- The loop of `Get`, `set` and `Delete`, matcher/cache/elem_map_gen.go:145-152, 187-198, 227-235, with fuel: where it ends and
what is found there. -/
def World.walk (w : World V) (k : Bytes) : Nat → UInt64 → UInt64 × Option (Key × V)
  | 0, h => (h, none)
  | f + 1, h => match w.slot h with
    | none => (h, none)
    | some (k', v) => if w.at k'.ref = k then (h, some (k', v)) else w.walk k f (h + 1)

def World.locate (hash : Bytes → UInt64) (w : World V) (k : Bytes) : UInt64 × Option (Key × V) :=
  w.walk k (w.lookup.length + 1) (hash k)

/-- `m.copy`, matcher/cache/elem_new_map_gen.go:48-62: the array is new, or one that the pool hands out (`pick`, if it is free). -/
def World.copy (w : World V) (k : Bytes) (pick : Option Nat) : World V × Ref :=
  match w.pool, pick with
  | some free, some i =>
    if i ∈ free then ({ w with arrays := w.arrays.set i k, pool := some (free.filter fun j => j ≠ i) }, .own i)
    else ({ w with arrays := w.arrays ++ [k] }, .own w.arrays.length)
  | _, _ => ({ w with arrays := w.arrays ++ [k] }, .own w.arrays.length)

/-- `newMapKey`, matcher/cache/elem_map_gen.go:126-134, of the key at `r`. -/
def World.newKey (w : World V) (r : Ref) (copyKey finalizeKey : Bool) (pick : Option Nat) : World V × Key :=
  if !copyKey then (w, ⟨r, finalizeKey⟩)
  else
    let x := w.copy (w.at r) pick
    (x.1, ⟨x.2, finalizeKey⟩)

/-- `m.finalize`, matcher/cache/elem_new_map_gen.go:59-61; without a pool it is nil, and a call panics. -/
def World.finalize (w : World V) (r : Ref) : Option (World V) := match w.pool with
  | none => none
  | some free => match r with
    | .own i => some { w with pool := some (i :: free) }
    -- an array of a caller is in the pool now: not followed further
    | .caller _ => some w

/-- `removeMapKey`, matcher/cache/elem_map_gen.go:136-141. -/
def World.removeKey (w : World V) (h : UInt64) (k : Key) : Option (World V) :=
  let w := w.drop h
  if k.finalize then w.finalize k.ref else some w

/-- `set`, matcher/cache/elem_map_gen.go:186-204. -/
def World.set (hash : Bytes → UInt64) (w : World V) (r : Ref) (v : V) (copyKey finalizeKey : Bool) (pick : Option Nat) : World V :=
  match w.locate hash (w.at r) with
  | (h, some (k, _)) => w.put h (k, v)
  | (h, none) =>
    let x := w.newKey r copyKey finalizeKey pick
    x.1.put h (x.2, v)

/-- `Get`, matcher/cache/elem_map_gen.go:144-155. -/
def World.get (hash : Bytes → UInt64) (w : World V) (r : Ref) : Option V := (w.locate hash (w.at r)).2.map (·.2)

/-- `Delete`, matcher/cache/elem_map_gen.go:226-236; `none`: the call panics. -/
def World.delete (hash : Bytes → UInt64) (w : World V) (r : Ref) : Option (World V) :=
  match w.locate hash (w.at r) with
  | (h, some (k, _)) => w.removeKey h k
  | (_, none) => some w

/-- The loop of `Reset`, matcher/cache/elem_map_gen.go:240-244, over the entries in some order. -/
def World.removeAll : List (UInt64 × (Key × V)) → World V → Option (World V)
  | [], w => some w
  | (h, (k, _)) :: rest, w => (w.removeKey h k).bind (removeAll rest)

/-- `Reset`, matcher/cache/elem_map_gen.go:240-244. -/
def World.reset (w : World V) : Option (World V) := World.removeAll w.lookup w

/-- `Reallocate`, matcher/cache/elem_map_gen.go:249-255: the keys are not given back. -/
def World.reallocate (w : World V) : World V := { w with lookup := [] }

/-- What callers do: make an array, write in one of theirs, and call the map with the contents of one of theirs. -/
inductive Op (V : Type) where
  | make (b : Bytes)
  | write (i : Nat) (b : Bytes)
  | get (i : Nat)
  | set (i : Nat) (v : V) (pick : Option Nat)
  /-- `SetUnsafe`, matcher/cache/elem_map_gen.go:174-179 -/
  | setUnsafe (i : Nat) (v : V) (noCopyKey noFinalizeKey : Bool) (pick : Option Nat)
  | delete (i : Nat)
  | reset
  | reallocate
  deriving DecidableEq

/-- One step: the answer, if the call has one, and what is afterwards; `none`: the call panics. -/
def World.step (hash : Bytes → UInt64) (w : World V) : Op V → Option (Option (Option V) × World V)
  | .make b => some (none, { w with callers := w.callers ++ [b] })
  | .write i b => some (none, { w with callers := w.callers.set i b })
  | .get i => some (some (w.get hash (.caller i)), w)
  | .set i v pick => some (none, w.set hash (.caller i) v true w.pool.isSome pick)
  | .setUnsafe i v nc nf pick => some (none, w.set hash (.caller i) v (!nc) (!nf) pick)
  | .delete i => (w.delete hash (.caller i)).map fun w => (none, w)
  | .reset => w.reset.map fun w => (none, w)
  | .reallocate => some (none, w.reallocate)

/-- Steps in a row: the answers. -/
def World.run (hash : Bytes → UInt64) : World V → List (Op V) → Option (List (Option V) × World V)
  | w, [] => some ([], w)
  | w, op :: ops => (w.step hash op).bind fun x => (World.run hash x.2 ops).map fun y => (x.1.toList ++ y.1, y.2)

end Verif.KeyMemory
