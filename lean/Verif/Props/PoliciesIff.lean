import Verif.Props.Migration
/- C25 and C26: exactly when the policies reported for messages without policies are none. -/
namespace Verif.MP
open Verif.Wire Verif.Spec.MP

/-- A message on its own: the metric and the policies it has; nothing for a message of a higher version. -/
def own : Item → Option (Option Sample × List StagedPolicies)
  | .bare m => some (some m, [])
  | .policies m pl => some (some m, pl)
  | .higher _ => none

/-- The policies of the last message that has a list of policies, or else those given. -/
def lastPolicies : List Item → List StagedPolicies → List StagedPolicies
  | [], pl => pl
  | .policies _ pl :: is, _ => lastPolicies is pl
  | _ :: is, pl => lastPolicies is pl

theorem forall_split {α : Type} {P : List α → α → Prop} (i : α) (is : List α) :
    (∀ a j c, i :: is = a ++ j :: c → P a j) ↔ P [] i ∧ ∀ a j c, is = a ++ j :: c → P (i :: a) j := by
  constructor
  · intro h
    exact ⟨h [] i is rfl, fun a j c e => h (i :: a) j c (by rw [e]; rfl)⟩
  · rintro ⟨h1, h2⟩ a j c e
    cases a with
    | nil => cases e; exact h1
    | cons k a =>
      simp only [List.cons_append, List.cons.injEq] at e
      obtain ⟨rfl, e⟩ := e
      exact h2 a j c e

theorem expect_own (ig : Bool) : ∀ (is : List Item) (pl : List StagedPolicies), (ig = false → ∀ v, .higher v ∉ is) →
    ((expect ig is pl).1 = is.filterMap own ↔ ∀ a j c, is = a ++ j :: c → ∀ m, j = .bare m → lastPolicies a pl = [])
  | [], pl, _ => by simp [expect]
  | i :: is, pl, h => by
    have h' : ig = false → ∀ v, Item.higher v ∉ is := fun e v hv => h e v (List.mem_cons_of_mem _ hv)
    rw [forall_split (P := fun a j => ∀ m, j = Item.bare m → lastPolicies a pl = [])]
    cases i with
    | bare m =>
      have ih := expect_own ig is pl h'
      simp only [expect, List.filterMap_cons, own, List.cons.injEq, Prod.mk.injEq, true_and, lastPolicies]
      rw [ih]
      constructor
      · rintro ⟨e, g⟩; exact ⟨fun _ _ => e, g⟩
      · rintro ⟨e, g⟩; exact ⟨e m rfl, g⟩
    | policies m pl' =>
      have ih := expect_own ig is pl' h'
      simp only [expect, List.filterMap_cons, own, List.cons.injEq, true_and, lastPolicies]
      rw [ih]
      exact ⟨fun g => ⟨fun _ e => Item.noConfusion e, g⟩, fun g => g.2⟩
    | higher v =>
      have hi : ig = true := by
        cases ig with
        | true => rfl
        | false => exact absurd List.mem_cons_self (h rfl v)
      have ih := expect_own ig is pl h'
      simp only [expect, hi, if_true, List.filterMap_cons, own, lastPolicies] at ih ⊢
      rw [ih]
      exact ⟨fun g => ⟨fun _ e => Item.noConfusion e, g⟩, fun g => g.2⟩

/-- C25, exactly: reading a stream to its end, the policies reported are those of the messages if and only if before every message
without policies the last list of policies, in the stream or before it, is empty.  (Messages of higher versions are passed over, if the
iterator is told to; else there must be none.) -/
theorem C25_iff {l : Lib} (L : Laws l) {x : Policy.XTime} {u : Units} (is : List Item) (b : Bytes) (h : WList (WItem l x u) is b) (it : Iter)
    (ha : At it b) (hv : it.ignoreHigherVersion = false → ∀ v, .higher v ∉ is) (n : Nat) (hn : is.length < n) :
    (drain l x u n it).1 = is.filterMap own ↔
      ∀ before m after, is = before ++ .bare m :: after → lastPolicies before it.policiesList = [] := by
  obtain ⟨it', h1, _⟩ := C22_stream L is b h it ha n hn
  rw [h1, expect_own _ is _ hv]
  exact ⟨fun g a m c e => g a _ c e m rfl, fun g a j c e m hj => g a m c (hj ▸ e)⟩

/-- Both sides: the policies of the first message are reported for the third, unless the second has an empty list. -/
example : lastPolicies [.policies (.gauge ⟨bs "g", 5⟩) exPolicies, .higher 2] [] = exPolicies ∧
    lastPolicies [.policies (.gauge ⟨bs "g", 5⟩) exPolicies, .policies (.gauge ⟨bs "g", 5⟩) []] [] = [] := by decide +kernel

end Verif.MP

namespace Verif.Mig
open Verif.Policy Verif.Meta Verif.Spec.Mig Verif.Spec.Msg
open Verif.MP (StagedPolicies Lib Units Sample forall_split)
open Verif.Spec.MP (WList Laws)
open Verif.PIter (Enough)

/-- The policies of the last msgpack message that has a list of policies, or else those given. -/
def lastPolicies : List Item → List StagedPolicies → List StagedPolicies
  | [], pl => pl
  | .policies _ pl :: is, _ => lastPolicies is pl
  | _ :: is, pl => lastPolicies is pl

theorem message_nil (m : Sample) (pl : List StagedPolicies) : message m pl = message m [] ↔ pl = [] := by
  cases m <;> simp [message]

theorem expect_own : ∀ (is : List Item) (pl : List StagedPolicies),
    (expect is pl = is.map fun i => some (itemMessage i)) ↔
      ∀ a j c, is = a ++ j :: c → ∀ m, j = .bare m → lastPolicies a pl = []
  | [], pl => by simp [expect]
  | i :: is, pl => by
    rw [forall_split (P := fun a j => ∀ m, j = Item.bare m → lastPolicies a pl = [])]
    cases i with
    | bare m =>
      have ih := expect_own is pl
      rw [List.map_cons]
      generalize (is.map fun i => some (itemMessage i)) = own at ih ⊢
      simp only [expect, itemMessage, List.cons.injEq, Option.some.injEq, message_nil, lastPolicies]
      rw [ih]
      constructor
      · rintro ⟨e, g⟩; exact ⟨fun _ _ => e, g⟩
      · rintro ⟨e, g⟩; exact ⟨e m rfl, g⟩
    | policies m pl' =>
      have ih := expect_own is pl'
      rw [List.map_cons]
      generalize (is.map fun i => some (itemMessage i)) = own at ih ⊢
      simp only [expect, itemMessage, List.cons.injEq, true_and, lastPolicies]
      rw [ih]
      exact ⟨fun g => ⟨fun _ e => Item.noConfusion e, g⟩, fun g => g.2⟩
    | protobuf un m pb =>
      have ih := expect_own is pl
      rw [List.map_cons]
      generalize (is.map fun i => some (itemMessage i)) = own at ih ⊢
      simp only [expect, itemMessage, List.cons.injEq, true_and, lastPolicies]
      rw [ih]
      exact ⟨fun g => ⟨fun _ e => Item.noConfusion e, g⟩, fun g => g.2⟩

/-- C26, exactly: a stream of messages of the current versions is read as the sequence of its messages as they are on their own if and
only if before every msgpack message without policies the last list of policies is empty, or there was none. -/
theorem C26_iff {l : Lib} (L : Laws l) {x : XTime} {u : Units} (max : Int) (fresh : Nat → Nat → Bytes) (hf : ∀ k, Enough (fresh k))
    (is : List Item) (b : Bytes) (hb : WList (WItem l x u max) is b) (ig : Bool) (buf : Bytes) :
    (∃ it', drain l x u fresh (is.length + 1) (new b ig max buf) = .ok (is.map fun i => some (itemMessage i), it')) ↔
      ∀ before m after, is = before ++ .bare m :: after → lastPolicies before [] = [] := by
  obtain ⟨it', h1, _⟩ := C26_stream L max fresh hf is b hb _ [] (at_new b ig max buf) (is.length + 1) (by omega)
  rw [h1]
  have e := expect_own is []
  constructor
  · rintro ⟨it'', g⟩ a m c he
    simp only [Out.ok.injEq, Prod.mk.injEq] at g
    exact e.1 g.1 a _ c he m rfl
  · intro g
    exact ⟨it', by rw [e.2 fun a j c he m hj => g a m c (hj ▸ he)]⟩

/-- Both sides: a protobuf message in between changes nothing. -/
example : lastPolicies [.policies (.gauge ⟨bs "g", 5⟩) MP.exPolicies, .protobuf PIter.exUnion exMessage PIter.exPB] [] = MP.exPolicies ∧
    lastPolicies [.bare (.gauge ⟨bs "g", 5⟩), .protobuf PIter.exUnion exMessage PIter.exPB] [] = [] := by decide +kernel

end Verif.Mig
