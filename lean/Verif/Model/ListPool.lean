import Verif.Model.MsgpackMemory
/-
The pools of lists of package `aggregation`: the pool of aggregation types, from which `idDecompressor.Decompress` takes the lists it
returns (aggregation/id_compress.go, types_pool.go), and the pool of floats, from which `Types.PooledQuantiles` takes its lists
(aggregation/type.go).  The lists are slices of arrays here, as in Verif.Model.MsgpackMemory.

`pool.ObjectPool` and `pool.FloatsPool` (m3x) are bags: `Get` takes out any of the lists in it or makes a new one, which has no
elements, and `Put` puts one in or drops it.
-/
namespace Verif.ListPool
open Verif.Agg Verif.MPMem

/-- `append(s, v)` to a slice that may be nil. -/
def append (h : Heap α) (s : Option Slice) (v : α) : Option Slice × Heap α := match s with
  | none => (some ⟨h.length, 1⟩, h ++ [[v]])
  | some s => (some (h.append s v).1, (h.append s v).2)

/-- What a pool does when it is asked for a list: hands out the one at this place, if there is one, else makes one with so much room
(`TypesAlloc`, aggregation/types_pool.go:25-26, or the `make` of `FloatsPool`). -/
structure Pick where
  slot : Nat
  room : Nat

/-- The arrays, and the lists in the pool. -/
structure Pool (α : Type) where
  heap : Heap α := []
  free : List (Option Slice) := []

/-- `Get`, aggregation/types_pool.go:55-57. -/
def Pool.get (p : Pool α) (zero : α) (c : Pick) : Option Slice × Pool α := match p.free[c.slot]? with
  | some s => (s, { p with free := p.free.eraseIdx c.slot })
  | none => (some (p.heap.make zero 0 c.room).1, { p with heap := (p.heap.make zero 0 c.room).2 })

/-- `Put`, aggregation/types_pool.go:59-61: `value[:0]`; `kept`: the pool has room. -/
def Pool.put (p : Pool α) (s : Option Slice) (kept : Bool) : Pool α :=
  if kept then { p with free := (s.map fun s => { s with len := 0 }) :: p.free } else p

/-- The loop of `Decompress`, aggregation/id_compress.go:128-135, on the word of the decompressor; `none`: the error. -/
def decompressLoop (word : BitVec 64) : Nat → Nat → Option Slice → Heap AType → Option (Option Slice) × Heap AType
  | 0, _, _, h => (none, h)
  | f + 1, i, s, h => match nextSet word i with
    | none => (some s, h)
    | some j => if !isValid (j : Int) then (none, h)
      else decompressLoop word f (j + 1) (append h s (j : Int)).1 (append h s (j : Int)).2

/-- `idDecompressor.Decompress`, aggregation/id_compress.go:110-138.  `pool` is the flag whether there is one; without it the list is
made, with room for all types (`maxTypeID` is 22).  `word` is what the decompressor has in its bit set from before. -/
def decompress (pool : Bool) (c : Pick) (word : BitVec 64) (id : Agg.ID) (p : Pool AType) :
    Option (Option Slice) × BitVec 64 × Pool AType :=
  if id.isDefault then (some none, word, p)
  else
    let word := id
    match if pool then p.get 0 c else (some (p.heap.make 0 0 22).1, { p with heap := (p.heap.make 0 0 22).2 }) with
    | (s, p) => match decompressLoop word 65 0 s p.heap with
      | (r, h) => (r, word, { p with heap := h })

/-- The loop of `PooledQuantiles`, aggregation/type.go:338-369, on the list so far, which is `none` until there is a quantile
(`initialized`): `n` is the number of types, `pool` whether there is one. -/
def quantilesLoop (pool : Bool) (c : Pick) (n : Nat) : List AType → Bool → Option (Option Slice) → Pool Nat → Option (Option Slice) × Pool Nat
  | [], _, res, p => (res, p)
  | t :: ts, medianAdded, res, p => match quantile t with
    | none => quantilesLoop pool c n ts medianAdded res p
    | some q =>
      if (t = P50 ∨ t = Median) ∧ medianAdded then quantilesLoop pool c n ts medianAdded res p
      else
        match match res with
          | some s => (s, p)
          | none => if pool then p.get 0 c else (some (p.heap.make 0 0 n).1, { p with heap := (p.heap.make 0 0 n).2 }) with
        | (s, p) => quantilesLoop pool c n ts (medianAdded || decide (t = P50 ∨ t = Median)) (some (append p.heap s q).1)
            { p with heap := (append p.heap s q).2 }

/-- `PooledQuantiles`, aggregation/type.go:338-369: the list, and whether it is from the pool. -/
def pooledQuantiles (pool : Bool) (c : Pick) (ts : List AType) (p : Pool Nat) : Option Slice × Bool × Pool Nat :=
  match quantilesLoop pool c ts.length ts false none p with
  | (none, p) => (none, false, p)
  | (some s, p) => (s, pool, p)

/-! ### The users of a pool -/

/-- A pool, the words of the decompressors (for the pool of types), and the lists that were handed out, in this order: `none` when a
list was given back. -/
structure World (α : Type) where
  pool : Pool α := {}
  words : Nat → BitVec 64 := fun _ => 0
  lists : List (Option (Option Slice)) := []

/-- What list `k` holds, if it was not given back. -/
def World.list (w : World α) (k : Nat) : Option (List α) := match w.lists[k]? with
  | some (some s) => some (w.pool.heap.readOpt s)
  | _ => none

/-- What the user of a list does with it: changes an element (if it is there), appends one, gives it back. -/
inductive UserAct (α : Type) where
  | set (k i : Nat) (v : α)
  | append (k : Nat) (v : α)
  | put (k : Nat) (kept : Bool)

/-- The list the user has. -/
def UserAct.of : UserAct α → Nat
  | .set k _ _ => k
  | .append k _ => k
  | .put k _ => k

/-- A user does something with a list that they have not given back. -/
def World.user (w : World α) (a : UserAct α) : World α := match w.lists[a.of]? with
  | some (some s) => match a with
    | .set _ i v => match s with
      | none => w
      | some s => if i < s.len then { w with pool := { w.pool with heap := w.pool.heap.put s.arr i v } } else w
    | .append k v => { w with
        pool := { w.pool with heap := (ListPool.append w.pool.heap s v).2 }
        lists := w.lists.set k (some (ListPool.append w.pool.heap s v).1) }
    | .put k kept => { w with pool := w.pool.put s kept, lists := w.lists.set k none }
  | _ => w

/-- A list that is returned is one more list. -/
def World.handOut (w : World α) (p : Pool α) (s : Option Slice) : World α := { w with pool := p, lists := w.lists ++ [some s] }

/-- `Decompress` of decompressor `d`; `none`: the error. -/
def World.decompress (w : World AType) (d : Nat) (pooled : Bool) (c : Pick) (id : Agg.ID) : Bool × World AType :=
  match ListPool.decompress pooled c (w.words d) id w.pool with
  | (r, word, p) =>
    let w := { w with words := fun x => if x = d then word else w.words x }
    match r with
    | none => (false, { w with pool := p })
    | some s => (true, w.handOut p s)

/-- `PooledQuantiles`. -/
def World.quantiles (w : World Nat) (pooled : Bool) (c : Pick) (ts : List AType) : Bool × World Nat :=
  match pooledQuantiles pooled c ts w.pool with
  | (s, b, p) => (b, w.handOut p s)

end Verif.ListPool
