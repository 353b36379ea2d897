import Verif.Base
/-
The options and the configuration of the namespace validator over a key-value store, with the lists of default namespaces in memory:
rules/validator/namespace/kv/options.go, config.go and validator.go.

A list of names is an array behind a slice.  The setter of the default namespaces copies its argument; the getter returns the slice
that the options keep, and the other setters copy the options with the slice, so that options share the array.  A validator keeps the
options and reads the list again whenever the store has no value.

Simplifications: the store and the instrument options are left out and creating the store does not fail; a slice covers its array, nil
slices are `none`; the valid names of a validator, a Go map, are the list they were made from; watching, timing out and closing are in
Verif/Model/NsValidator.lean; calls on objects that do not exist and assignments beyond the end of a list, which panic, do nothing.
-/
namespace Verif.NsOpts

/-- The names behind a slice; a nil slice has none. -/
def names (arrays : List (List Bytes)) (r : Option Nat) : List Bytes := r.elim [] fun a => (arrays[a]?).getD []

/-- `namespaceValidatorOptions`, rules/validator/namespace/kv/options.go:67-73, and `NewNamespaceValidatorOptions`, lines 76-81, with
the constant of line 31. -/
structure Opts where
  initWatchTimeout : Int := 10 * 1000000000
  key : Bytes := []
  defaults : Option Nat := none

/-- `validator`, rules/validator/namespace/kv/validator.go:39-52. -/
structure Validator where
  opts : Opts
  valid : List Bytes

/-- The memory of a program: the arrays, the options and validators made so far, and the slices that the program has. -/
structure St where
  arrays : List (List Bytes) := []
  held : List (Option Nat) := []
  opts : List Opts := []
  validators : List Validator := []

/-- What a program does.  Options, validators and slices are numbered in the order of their making. -/
inductive Act where
  /-- the program makes a list of its own -/
  | list (l : List Bytes)
  /-- `slice[i] = x` -/
  | assign (slice i : Nat) (x : Bytes)
  /-- `NewNamespaceValidatorOptions` -/
  | newOptions
  | setInitWatchTimeout (o : Nat) (d : Int)
  | setKey (o : Nat) (k : Bytes)
  | setDefaults (o slice : Nat)
  /-- `DefaultValidNamespaces`, whose result the program keeps -/
  | getDefaults (o : Nat)
  /-- `NewNamespaceValidator` of the options -/
  | newValidator (o : Nat)
  /-- `NewNamespaceValidator` of a configuration -/
  | configured (d : Option Int) (k : Bytes) (slice : Option Nat)
  /-- the validator is notified of a value of the store, `none` when there is no value -/
  | update (v : Nat) (value : Option (List Bytes))

/-- `SetDefaultValidNamespaces`, rules/validator/namespace/kv/options.go:123-129: the new array is the last one. -/
def copyNames (s : St) (r : Option Nat) : List (List Bytes) × Option Nat := (s.arrays ++ [names s.arrays r], some s.arrays.length)

/-- `NewNamespaceValidator`, rules/validator/namespace/kv/validator.go:55-69. -/
def mkValidator (arrays : List (List Bytes)) (o : Opts) : Validator := ⟨o, names arrays o.defaults⟩

/-- The options that a configuration makes before the default namespaces are set, rules/validator/namespace/kv/config.go:51-56. -/
def configOpts (d : Option Int) (k : Bytes) : Opts :=
  let o : Opts := { key := k }
  match d with
  | none => o
  | some d => { o with initWatchTimeout := d }

/-- One step.  The setters are rules/validator/namespace/kv/options.go:103-129, the getter lines 131-133; the configuration is
rules/validator/namespace/kv/config.go:40-61; the update is rules/validator/namespace/kv/validator.go:134-144. -/
def step (s : St) : Act → St
  | .list l => { s with arrays := s.arrays ++ [l], held := s.held ++ [some s.arrays.length] }
  | .assign h i x =>
    match s.held[h]? with
    | some (some a) => { s with arrays := s.arrays.modify a fun l => l.set i x }
    | _ => s
  | .newOptions => { s with opts := s.opts ++ [{}] }
  | .setInitWatchTimeout o d =>
    match s.opts[o]? with
    | some p => { s with opts := s.opts ++ [{ p with initWatchTimeout := d }] }
    | none => s
  | .setKey o k =>
    match s.opts[o]? with
    | some p => { s with opts := s.opts ++ [{ p with key := k }] }
    | none => s
  | .setDefaults o h =>
    match s.opts[o]?, s.held[h]? with
    | some p, some r => { s with arrays := (copyNames s r).1, opts := s.opts ++ [{ p with defaults := (copyNames s r).2 }] }
    | _, _ => s
  | .getDefaults o => { s with held := s.held ++ [(s.opts[o]?).bind (·.defaults)] }
  | .newValidator o =>
    match s.opts[o]? with
    | some p => { s with validators := s.validators ++ [mkValidator s.arrays p] }
    | none => s
  | .configured d k none => { s with validators := s.validators ++ [mkValidator s.arrays (configOpts d k)] }
  | .configured d k (some h) =>
    match s.held[h]? with
    | some r =>
      { s with
        arrays := (copyNames s r).1
        validators := s.validators ++ [mkValidator (copyNames s r).1 { configOpts d k with defaults := (copyNames s r).2 }] }
    | none => s
  | .update v value =>
    { s with validators := s.validators.modify v fun w => { w with valid := value.getD (names s.arrays w.opts.defaults) } }

def run (s : St) (acts : List Act) : St := acts.foldl step s

/-- `Validate`, rules/validator/namespace/kv/validator.go:72-83, of a validator that is not closed: whether there is no error. -/
def Validator.accepts (w : Validator) (ns : Bytes) : Bool := w.valid.contains ns

end Verif.NsOpts
