import Verif.Spec.Msgpack
/-
The messages that are read: which bytes a message may be, in terms of what the library takes for an integer, a length and so on.
Unlike the relations of Spec/Msgpack, which say what may be written, these leave out nothing that is accepted.
-/
namespace Verif.Spec.MP
open Verif.MP Verif.Policy Verif.Msg Verif.Wire

/-- The bytes are read as this value, whatever follows. -/
def As (g : Bytes → Except Err (α × Bytes)) (v : α) (b : Bytes) : Prop := ∀ t, g (b ++ t) = .ok (v, t)

/-- The bytes are passed over as one value, whatever follows. -/
def Whole (l : Lib) (b : Bytes) : Prop := ∀ t, l.skip (b ++ t) = .ok t

/-- Forms one after the other. -/
def Seq : List (Bytes → Prop) → Bytes → Prop
  | [], b => b = []
  | f :: fs, b => ∃ c d, f c ∧ Seq fs d ∧ b = c ++ d

/-- So many values of any kind. -/
def Wholes (l : Lib) : Nat → Bytes → Prop
  | 0, b => b = []
  | n + 1, b => ∃ c d, Whole l c ∧ Wholes l n d ∧ b = c ++ d

/-- An object: the number of its fields, those that are known, and as many values as there are further fields. -/
def Object (l : Lib) (known : List (Bytes → Prop)) (b : Bytes) : Prop :=
  ∃ n : Nat, known.length ≤ n ∧ Seq (As l.getArrayLen (n : Int) :: known ++ [Wholes l (n - known.length)]) b

/-- An array: its length and its elements. Instead of the length of an empty array there may be a negative number, as which nil is read. -/
def Elems (l : Lib) (f : α → Bytes → Prop) (as : List α) (b : Bytes) : Prop :=
  ∃ n : Int, n.toNat = as.length ∧ Seq [As l.getArrayLen n, WList f as] b

/-- An aggregation identifier: the default, an integer, or an array of at most one integer. -/
def AggID (l : Lib) (id : Agg.ID) (b : Bytes) : Prop :=
  (id = 0 ∧ Object l [As l.getInt 18] b) ∨
  (∃ v, id = BitVec.ofInt 64 v ∧ Object l [As l.getInt 19, As l.getInt v] b) ∨
  (∃ vs : List Int, vs.length ≤ 1 ∧ id = BitVec.ofInt 64 (vs.headD 0) ∧ Object l [As l.getInt 20, Elems l (As l.getInt) vs] b)

/-- A resolution: one of the known ones by its number, or a window and a precision, of which the last byte counts. -/
def Resol (l : Lib) (x : XTime) (u : Units) (r : Resolution) (b : Bytes) : Prop :=
  (∃ v, (v, r) ∈ KnownResolution u ∧ Object l [As l.getInt 14, As l.getInt v] b) ∨
  (∃ p, r.precision = (p % 256).toNat ∧ (x.unitValue r.precision).isSome ∧ Object l [As l.getInt 15, As l.getInt r.window, As l.getInt p] b)

/-- A retention: one of the known ones by its number, or any. -/
def Retent (l : Lib) (r : Int) (b : Bytes) : Prop :=
  (∃ v h, (v, h) ∈ KnownRetention ∧ r = h * 3600000000000 ∧ Object l [As l.getInt 16, As l.getInt v] b) ∨
  Object l [As l.getInt 17, As l.getInt r] b

def Storage (l : Lib) (x : XTime) (u : Units) (p : StoragePolicy) (b : Bytes) : Prop :=
  Object l [Resol l x u p.resolution, Retent l p.retention] b

def APolicy (l : Lib) (x : XTime) (u : Units) (p : Policy) (b : Bytes) : Prop :=
  Object l [Storage l x u p.sp, AggID l p.aggID] b

def Staged (l : Lib) (x : XTime) (u : Units) (p : StagedPolicies) (b : Bytes) : Prop :=
  Object l [As l.getInt p.cutoverNanos, As l.getBool p.tombstoned, Elems l (APolicy l x u) p.policies] b

/-- A policies list: the default, or a list. -/
def Policies (l : Lib) (x : XTime) (u : Units) (pl : List StagedPolicies) (b : Bytes) : Prop :=
  (pl = [{}] ∧ Object l [As l.getInt 10] b) ∨ Object l [As l.getInt 11, Elems l (Staged l x u) pl] b

/-- An identifier: its length and its bytes; instead of the length 0 there may be a negative number, as which nil is read. -/
def Ident (l : Lib) (id : Bytes) (b : Bytes) : Prop := ∃ n : Int, n.toNat = id.length ∧ Seq [As l.getBytesLen n, (· = id)] b

/-- A metric of each type. -/
def Metric (l : Lib) : Sample → Bytes → Prop
  | .counter c => Object l [Ident l c.id, As l.getInt c.value]
  | .timer t => Object l [Ident l t.id, Elems l (As l.getF64) t.values]
  | .gauge g => Object l [Ident l g.id, As l.getF64 g.value]

/-- A message: the version, which is 1 or less, and the object with the metric and its policies list, if any. -/
def Message (l : Lib) (x : XTime) (u : Units) (m : Sample) (pl : Option (List StagedPolicies)) (b : Bytes) : Prop :=
  ∃ v ≤ 1, Seq [As l.getInt v, Object l [As l.getInt (number m pl.isSome), match pl with
    | none => Metric l m
    | some pl => Object l [Metric l m, Policies l x u pl]]] b

/-- Messages of higher versions: the version, the number of values, and the values. -/
inductive Later (l : Lib) : Bytes → Prop
  | none : Later l []
  | one (v : Int) (n : Nat) (b c : Bytes) : 1 < v → Seq [As l.getInt v, As l.getArrayLen (n : Int), Wholes l n] b → Later l c → Later l (b ++ c)

/-- A message of an aggregated stream: the bytes of a metric, its storage policy, and the encode time if there is one. -/
def AMessage (l : Lib) (x : XTime) (u : Units) (raw : Bytes) (p : StoragePolicy) (t : Option Int) (b : Bytes) : Prop :=
  ∃ v ≤ 1, Seq [As l.getInt v, match t with
    | none => Object l [As l.getInt 5, Object l [As l.getBytes raw, Storage l x u p]]
    | some t => Object l [As l.getInt 22, Object l [As l.getBytes raw, Storage l x u p, As l.getInt t]]] b

/-- A stream: messages one after the other, before each of them messages of higher versions if those are ignored, and in the end bytes
that do not start with a message. -/
inductive Stream (l : Lib) (ignore : Bool) (M : α → Bytes → Prop) : Bytes → List α → Prop
  | ends (d : Bytes) : (¬ ∃ ls p r a, d = ls ++ (p ++ r) ∧ Later l ls ∧ (ignore = false → ls = []) ∧ M a p) → Stream l ignore M d []
  | more (ls p r : Bytes) (a : α) (as : List α) : Later l ls → (ignore = false → ls = []) → M a p → Stream l ignore M r as →
      Stream l ignore M (ls ++ (p ++ r)) (a :: as)

/-- What is seen of the messages of a stream, if `pl` was the policies list before: a message without one leaves it as it is. -/
def seen (pl : List StagedPolicies) : List (Sample × Option (List StagedPolicies)) → List (Option Sample × List StagedPolicies)
  | [] => []
  | (m, o) :: ms => (some m, o.getD pl) :: seen (o.getD pl) ms

/-- The start of the bytes of a metric, up to the identifier: the version, the number of fields, the length of the identifier and the
identifier. Instead of the length 0 there may be -1, as which nil is read. -/
def PointID (l : Lib) (id : Bytes) (b : Bytes) : Prop :=
  ∃ v ≤ 1, ∃ n : Int, 3 ≤ n ∧ ∃ k : Int, (k = id.length ∨ k = -1 ∧ id = []) ∧
    Seq [As l.getInt v, As l.getArrayLen n, As l.getBytesLen k, (· = id)] b

end Verif.Spec.MP
