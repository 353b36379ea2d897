import Verif.Model.ActiveRuleSet
/-
Model of matcher/cache/list.go: the elements of the cache and the doubly linked list of them.

Elements live in a heap; a pointer is the number of an element and `none` is nil.  The assignments of a Go function are
modelled one after the other, so that aliasing (an element that is its own neighbour, say) is seen.  The atomic accesses
to `expiryNanos` are plain reads and writes.
-/
namespace Verif.Cache
open Verif.Active

/-- Pointers to elements. -/
scoped macro "Ptr" : term => `(Nat)

/-- `element`, matcher/cache/list.go:32-40. -/
structure Element where
  ns : Bytes
  id : Bytes
  result : MatchResult
  deleted : Bool
  expiryNanos : Int
  prev : Option Ptr
  next : Option Ptr

/-- The heap of elements. -/
abbrev Heap := Ptr → Element

/-- Assignment to fields of an element. -/
def Heap.upd (h : Heap) (p : Ptr) (f : Element → Element) : Heap := fun q => if q = p then f (h q) else h q

/-- `list`, matcher/cache/list.go:68-72. -/
structure LinkedList where
  head : Option Ptr
  tail : Option Ptr
  length : Int
  deriving DecidableEq

/-- `newElement`, matcher/cache/list.go:42-51. -/
def newElement (ns id : Bytes) (result : MatchResult) : Element :=
  { ns := ns, id := id, result := result, deleted := false, expiryNanos := 0, prev := none, next := none }

/-- `ShouldPromote`, matcher/cache/list.go:55-57. -/
def Element.shouldPromote (e : Element) (now : Int) : Bool := decide (e.expiryNanos ≤ now)


/-- `PushFront`, matcher/cache/list.go:83-99, of an element that is not nil and not deleted. -/
def pushFrontElem (h : Heap) (l : LinkedList) (p : Ptr) : Heap × LinkedList := match l.head with
  | none =>
    let l := { l with head := some p, tail := some p }
    let h := h.upd p fun e => { e with prev := none }
    let h := h.upd p fun e => { e with next := none }
    (h, { l with length := l.length + 1 })
  | some q =>
    let h := h.upd p fun e => { e with next := some q }
    let h := h.upd p fun e => { e with prev := none }
    let h := h.upd q fun e => { e with prev := some p }
    (h, { l with head := some p, length := l.length + 1 })

/-- `PushFront`, matcher/cache/list.go:83-99. -/
def pushFront (h : Heap) (l : LinkedList) (elem : Option Ptr) : Heap × LinkedList := match elem with
  | none => (h, l)
  | some p => if (h p).deleted then (h, l) else pushFrontElem h l p

/-- `PushBack`, matcher/cache/list.go:102-118. -/
def pushBack (h : Heap) (l : LinkedList) (elem : Option Ptr) : Heap × LinkedList := match elem with
  | none => (h, l)
  | some p => if (h p).deleted then (h, l) else match l.tail with
    | none =>
      let l := { l with head := some p, tail := some p }
      let h := h.upd p fun e => { e with prev := none }
      let h := h.upd p fun e => { e with next := none }
      (h, { l with length := l.length + 1 })
    | some q =>
      let h := h.upd p fun e => { e with prev := some q }
      let h := h.upd p fun e => { e with next := none }
      let h := h.upd q fun e => { e with next := some p }
      (h, { l with tail := some p, length := l.length + 1 })

/-- The first assignment of `remove`, matcher/cache/list.go:146-150. -/
def unlinkPrev (h : Heap) (l : LinkedList) (prev next : Option Ptr) : Heap × LinkedList := match prev with
  | none => (h, { l with head := next })
  | some a => (h.upd a fun e => { e with next := next }, l)

/-- The second assignment of `remove`, matcher/cache/list.go:151-155. -/
def unlinkNext (h : Heap) (l : LinkedList) (prev next : Option Ptr) : Heap × LinkedList := match next with
  | none => (h, { l with tail := prev })
  | some b => (h.upd b fun e => { e with prev := prev }, l)

/-- `remove`, matcher/cache/list.go:143-160. -/
def removeElem (h : Heap) (l : LinkedList) (p : Ptr) (markDeleted : Bool) : Heap × LinkedList :=
  let prev := (h p).prev
  let next := (h p).next
  let s := unlinkPrev h l prev next
  let s := unlinkNext s.1 s.2 prev next
  let l := { s.2 with length := s.2.length - 1 }
  let h := s.1.upd p fun e => { e with prev := none }
  let h := h.upd p fun e => { e with next := none }
  let h := h.upd p fun e => { e with deleted := markDeleted }
  (h, l)

/-- `Remove`, matcher/cache/list.go:121-128. -/
def remove (h : Heap) (l : LinkedList) (elem : Option Ptr) : Heap × LinkedList := match elem with
  | none => (h, l)
  | some p => if (h p).deleted then (h, l) else removeElem h l p true

/-- `MoveToFront`, matcher/cache/list.go:131-141. -/
def moveToFront (h : Heap) (l : LinkedList) (elem : Option Ptr) : Heap × LinkedList := match elem with
  | none => (h, l)
  | some p =>
    if (h p).deleted then (h, l)
    else
      let s := removeElem h l p false
      pushFront s.1 s.2 elem

end Verif.Cache
