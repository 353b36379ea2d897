import Verif.Model.Validator
/-
The namespace validators: rules/validator/namespace/static/validator.go and rules/validator/namespace/kv/validator.go.

The second one has a goroutine that waits for notifications of the key-value store.  Its steps, those of the callers and those of
the store are interleaved at will; each critical section is one step.  The store (m3cluster `kv.ValueWatch`) is the current value
and a notification channel of capacity one.  `parse` is `kvutil.StringArrayFromValue` (m3cluster), which turns a value, also the
nil value, into a list of names or an error.
-/
namespace Verif.NsVal

/-- `Validate` of the static validator, rules/validator/namespace/static/validator.go:73-80; `none` is no error. -/
def staticValidate (result : Bytes) (_ns : Bytes) : Option Val.VErr := if result = bs "invalid" then some .other else none

/-- `UnmarshalYAML`, rules/validator/namespace/static/validator.go:47-62, of a string. -/
def staticParse (s : Bytes) : Option Bytes := if s = bs "invalid" ∨ s = bs "valid" then some s else none

/-- Where the constructor and then the goroutine are, rules/validator/namespace/kv/validator.go:101-144. -/
inductive Phase where
  /-- the constructor waits for the first value or the timeout, lines 107-116 -/
  | start
  /-- notified, about to read the value and parse it, lines 109 and 135; in the constructor or in the goroutine -/
  | notified
  /-- about to store the new set, lines 141-143 -/
  | parsed (names : List Bytes)
  /-- the goroutine waits, lines 123-128 -/
  | idle
  /-- the goroutine has ended, lines 126-127 -/
  | ended
  deriving DecidableEq

/-- What `Validate` says, rules/validator/namespace/kv/validator.go:72-83. -/
inductive Answer where
  | ok
  | closed
  | invalid
  deriving DecidableEq, Repr

variable {V : Type}

/-- `validator`, rules/validator/namespace/kv/validator.go:39-52, with the store. -/
structure St (V : Type) where
  value : V
  pending : Bool
  phase : Phase
  /-- the constructor has returned -/
  returned : Bool
  valid : List Bytes
  closed : Bool
  doneClosed : Bool
  /-- calls of `Close` that wait for the goroutine -/
  waiting : Nat
  panicked : Bool

/-- `NewNamespaceValidator`, rules/validator/namespace/kv/validator.go:55-64, once the watch is there: the value of the key and
whether there is a notification already. -/
def init (defaults : List Bytes) (value : V) (pending : Bool) : St V :=
  ⟨value, pending, .start, false, defaults, false, false, 0, false⟩

/-- The steps. -/
inductive Step (V : Type) where
  /-- the store gets a new value and notifies -/
  | publish (v : V)
  /-- `<-watch.C()`, lines 108 and 124 -/
  | notify
  /-- `<-time.After(…)`, line 110 -/
  | timeout
  /-- `watch.Get()` and `StringArrayFromValue`, lines 109, 125, 135 -/
  | read
  /-- `v.validNamespaces = m`, lines 141-143 -/
  | store
  /-- `<-v.doneCh`, line 126 -/
  | done
  /-- `Validate`, lines 72-83 -/
  | validate (ns : Bytes)
  /-- `Close`, lines 86-93 -/
  | close
  /-- `v.wg.Wait()` returns, line 98 -/
  | closeReturns

/-- The goroutine goes on: from the constructor's select, the constructor returns (lines 117-131). -/
def St.goOn (st : St V) : St V := { st with phase := .idle, returned := true }

/-- One step; `none` if it cannot be taken now. -/
def St.step (parse : V → Option (List Bytes)) (st : St V) : Step V → Option (St V)
  | .publish v => some { st with value := v, pending := true }
  | .notify => if (st.phase = .start ∨ st.phase = .idle) ∧ st.pending = true then some { st with phase := .notified, pending := false } else none
  | .timeout => if st.phase = .start then some st.goOn else none
  | .read => if st.phase = .notified then
      match parse st.value with
      | none => some st.goOn
      | some names => some { st with phase := .parsed names }
    else none
  | .store => match st.phase with
    | .parsed names => some { st.goOn with valid := names }
    | _ => none
  | .done => if st.phase = .idle ∧ st.doneClosed = true then some { st with phase := .ended } else none
  | .validate _ => if st.returned = true then some st else none
  | .close => if st.returned = true then
      if st.closed = true then some st
      else some { st with closed := true, doneClosed := true, panicked := st.panicked || st.doneClosed, waiting := st.waiting + 1 }
    else none
  | .closeReturns => if st.phase = .ended ∧ 0 < st.waiting then some { st with waiting := st.waiting - 1 } else none

/-- `Validate`, rules/validator/namespace/kv/validator.go:72-83. -/
def St.validate (st : St V) (ns : Bytes) : Answer :=
  if st.closed = true then .closed else if st.valid.contains ns then .ok else .invalid

/-- Several steps. -/
def St.run (parse : V → Option (List Bytes)) (st : St V) : List (Step V) → Option (St V)
  | [] => some st
  | s :: ss => match st.step parse s with
    | none => none
    | some st' => st'.run parse ss

end Verif.NsVal
