import Verif.Base
/-
The generated hash maps: matcher/cache/elem_map_gen.go, matcher/cache/namespace_results_map_gen.go,
matcher/namespace_rule_sets_map_gen.go, matcher/rule_namespaces_map_gen.go.  The four files differ in names and in the type of the
values only; lines are those of the first.  The hash function (xxhash) is a parameter.  Keys are values: the code copies a key when
it is set, so that later changes by the caller do not matter; the pool of keys is left out (none of the maps is given one).  For the
maps with the arrays of their keys see `Model/KeyMemory.lean`.
-/
namespace Verif.HashMap

/-- `elemMap`, matcher/cache/elem_map_gen.go:64-72: the Go map from hashes to entries of a key and a value. -/
structure HMap (V : Type) where
  lookup : List (UInt64 × (Bytes × V)) := []

variable {V : Type}

/-- `m.lookup[hash]`. -/
def HMap.slot (m : HMap V) (h : UInt64) : Option (Bytes × V) := (m.lookup.find? fun e => e.1 == h).map (·.2)

/-- `delete(m.lookup, hash)`, matcher/cache/elem_map_gen.go:136-141. -/
def HMap.remove (m : HMap V) (h : UInt64) : HMap V := ⟨m.lookup.filter fun e => !(e.1 == h)⟩

/-- `m.lookup[hash] = …`. -/
def HMap.put (m : HMap V) (h : UInt64) (e : Bytes × V) : HMap V := ⟨(m.remove h).lookup ++ [(h, e)]⟩

/-- The loop of `Get`, `set` and `Delete`, matcher/cache/elem_map_gen.go:145-152, 187-198, 227-235: the slot at which it ends and
the value found there, with fuel. -/
def HMap.walk (m : HMap V) (k : Bytes) : Nat → UInt64 → UInt64 × Option V
  | 0, h => (h, none)
  | f + 1, h => match m.slot h with
    | none => (h, none)
    | some (k', v) => if k' = k then (h, some v) else m.walk k f (h + 1)

/-- With as much fuel as there can be steps. -/
def HMap.locate (hash : Bytes → UInt64) (m : HMap V) (k : Bytes) : UInt64 × Option V := m.walk k (m.lookup.length + 1) (hash k)

/-- `Get`, matcher/cache/elem_map_gen.go:144-155. -/
def HMap.get (hash : Bytes → UInt64) (m : HMap V) (k : Bytes) : Option V := (m.locate hash k).2

/-- `Set` and `set`, matcher/cache/elem_map_gen.go:158-163, 186-204. -/
def HMap.set (hash : Bytes → UInt64) (m : HMap V) (k : Bytes) (v : V) : HMap V := m.put (m.locate hash k).1 (k, v)

/-- `Delete`, matcher/cache/elem_map_gen.go:226-236. -/
def HMap.delete (hash : Bytes → UInt64) (m : HMap V) (k : Bytes) : HMap V :=
  match m.locate hash k with
  | (h, some _) => m.remove h
  | (_, none) => m

/-- `Reset`, matcher/cache/elem_map_gen.go:240-244, and `Reallocate`, lines 249-255. -/
def HMap.reset (_ : HMap V) : HMap V := {}

/-- `Contains`, matcher/cache/elem_map_gen.go:220-223. -/
def HMap.contains (hash : Bytes → UInt64) (m : HMap V) (k : Bytes) : Bool := (m.get hash k).isSome

/-- `Len`, matcher/cache/elem_map_gen.go:214-216. -/
def HMap.len (m : HMap V) : Nat := m.lookup.length

/-- What a loop over `Iter` sees, matcher/cache/elem_map_gen.go:209-211, in some order. -/
def HMap.iter (m : HMap V) : List (Bytes × V) := m.lookup.map (·.2)

/-- A call that changes a map. -/
inductive Op (V : Type) where
  | set (k : Bytes) (v : V)
  | delete (k : Bytes)
  | reset
  deriving DecidableEq

def HMap.step (hash : Bytes → UInt64) (m : HMap V) : Op V → HMap V
  | .set k v => m.set hash k v
  | .delete k => m.delete hash k
  | .reset => m.reset

/-- Calls in a row. -/
def HMap.run (hash : Bytes → UInt64) (m : HMap V) (ops : List (Op V)) : HMap V := ops.foldl (HMap.step hash) m

end Verif.HashMap
