import Verif.Model.ChangeSort
/- What sorting promises, and the order of changes users see. -/
namespace Verif.Spec.ChangeSort
open Verif.RuleSet Verif.Json

/-- No element is less than the one before it. -/
def NoDescent {α : Type} (less : α → α → Bool) : List α → Prop
  | [] => True
  | [_] => True
  | a :: b :: l => less b a = false ∧ NoDescent less (b :: l)

/-- What `sort.Sort` is relied on for: the same elements, arranged without descents. -/
def Sorts {α : Type} (less : α → α → Bool) (l out : List α) : Prop := out.Perm l ∧ NoDescent less out

/-- A change as documented: adding and changing carry the rule, deleting carries an identifier only. -/
inductive Documented {V : Type} : ViewChange V → Prop
  | add (id d) : Documented ⟨bs "add", id, some d⟩
  | change (id d) : Documented ⟨bs "change", id, some d⟩
  | delete (id) : Documented ⟨bs "delete", some id, none⟩

/-- Additions first, then modifications, then deletions. -/
def rank {V : Type} (c : ViewChange V) : Nat := if c.op = bs "add" then 0 else if c.op = bs "change" then 1 else 2

/-- The name of the rule for additions and modifications, its identifier for deletions. -/
def label {V : Type} (name : V → Bytes) (c : ViewChange V) : Bytes :=
  match c.ruleData with
  | some d => name d
  | none => c.ruleID.getD []

/-- One change comes before another: by operation, then by name or identifier. -/
def Before {V : Type} (name : V → Bytes) (a b : ViewChange V) : Prop :=
  rank a < rank b ∨ (rank a = rank b ∧ bytesLt (label name b) (label name a) = false)

end Verif.Spec.ChangeSort
