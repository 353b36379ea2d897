import Verif.Model.MsgpackMemory
/-
What the caller of a msgpack iterator sees, for C104: the contents of the arrays that its metric and its list of policies refer to, at the
time the caller looks.
-/
namespace Verif.MPMem
open Verif.Policy Verif.MP

/-- `Metric()`. -/
def MetricRef.see (m : MetricRef) (ids : Heap UInt8) (floats : Heap Wire.F64) : Msg.MetricUnion :=
  { type := m.type, id := ids.readOpt m.id, counterVal := m.counterVal, batchTimerVal := floats.readOpt m.timer, gaugeVal := m.gaugeVal }

def StagedRef.see (p : StagedRef) (pols : Heap Policy) : StagedPolicies := ⟨p.cutoverNanos, p.tombstoned, pols.readOpt p.policies⟩

/-- `PoliciesList()`. -/
def ListRef.see (staged : Heap StagedRef) (pols : Heap Policy) : ListRef → List StagedPolicies
  | .nil => []
  | .default => defaultPoliciesList
  | .slice s => (staged.read s).map (·.see pols)

/-- An iterator, with values in place of the slices. -/
def Iter.see (it : Iter) (floats : Heap Wire.F64) : MP.Iter :=
  { base := it.base, ignoreHigherVersion := it.ignoreHigherVersion, closed := it.closed, metric := it.metric.see it.ids floats
    policiesList := it.policiesList.see it.staged it.pols }

def W.see (w : W) : MP.Iter := w.it.see w.floats

/-- What is seen of iterator `k`. -/
def Sys.see (s : Sys) (k : Nat) : Option MP.Iter := (s.its[k]?).map (·.see s.floats)

/-- The array that an iterator uses for timers. -/
def timerArr (it : Iter) : Nat := it.timerValues.arr

/-- The array from the pool that the metric of an iterator refers to. -/
def Iter.lent (it : Iter) : Option Nat := if it.metric.pooled then it.metric.timer.map (·.arr) else none

/-- What `Next` of iterator `k` answers. -/
def Sys.answer (l : Lib) (x : XTime) (u : Units) (s : Sys) (k : Nat) (c : Pick) : Option Bool :=
  (s.its[k]?).map fun it => (MPMem.next l x u c (s.world it)).1

/-- One thing after another. -/
def Sys.run (l : Lib) (x : XTime) (u : Units) : Sys → List Act → Sys
  | s, [] => s
  | s, a :: as => Sys.run l x u (s.step l x u a) as

/-- Each does what it may. -/
def Sys.mayAll (l : Lib) (x : XTime) (u : Units) : Sys → List Act → Prop
  | _, [] => True
  | s, a :: as => s.may a ∧ Sys.mayAll l x u (s.step l x u a) as

/-- Not a call of iterator `k`, and not a use of the array that was handed out with its metric. -/
def Act.elsewhere (k : Nat) (lent : Option Nat) : Act → Prop
  | .next j _ => j ≠ k
  | .reset j _ => j ≠ k
  | .close j => j ≠ k
  | .put a => lent ≠ some a
  | .write a _ _ => lent ≠ some a
  | _ => True

/-- What the calls of iterator `k` do to an iterator on values that shares nothing with anyone. -/
def alone (l : Lib) (x : XTime) (u : Units) (k : Nat) (v : MP.Iter) : Act → MP.Iter
  | .next j _ => if j = k then (MP.next l x u v).2 else v
  | .reset j reader => if j = k then v.reset reader else v
  | .close j => if j = k then v.close else v
  | _ => v

/-- The same but for the values of a timer, which may have been given back. -/
def Like (v v' : MP.Iter) : Prop :=
  v.base = v'.base ∧ v.ignoreHigherVersion = v'.ignoreHigherVersion ∧ v.closed = v'.closed ∧ v.policiesList = v'.policiesList ∧
  v.metric.type = v'.metric.type ∧ v.metric.id = v'.metric.id ∧ v.metric.counterVal = v'.metric.counterVal ∧ v.metric.gaugeVal = v'.metric.gaugeVal

end Verif.MPMem
