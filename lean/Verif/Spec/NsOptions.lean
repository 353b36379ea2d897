import Verif.Model.NsOptions
/-
What options and validators of namespaces should be: values.  Only the calls (`Act`) are taken from the model.
-/
namespace Verif.NsOpts

/-- Options as a value. -/
structure IOpts where
  initWatchTimeout : Int := 10 * 1000000000
  key : Bytes := []
  defaults : List Bytes := []
  deriving DecidableEq

/-- Lists, options and validators (with the names they accept) as values. -/
structure ISt where
  lists : List (List Bytes) := []
  opts : List IOpts := []
  validators : List (IOpts × List Bytes) := []
  deriving DecidableEq

/-- The options with a setting changed, as new options. -/
def ISt.derive (s : ISt) (o : Nat) (f : IOpts → IOpts) : ISt :=
  { s with opts := s.opts ++ ((s.opts[o]?).map f).toList }

/-- What a call does to values: an assignment changes one list of the program and nothing else. -/
def istep (s : ISt) : Act → ISt
  | .list l => { s with lists := s.lists ++ [l] }
  | .assign h i x => { s with lists := s.lists.modify h fun l => l.set i x }
  | .newOptions => { s with opts := s.opts ++ [{}] }
  | .setInitWatchTimeout o d => s.derive o fun p => { p with initWatchTimeout := d }
  | .setKey o k => s.derive o fun p => { p with key := k }
  | .setDefaults o h =>
    match s.lists[h]? with
    | some l => s.derive o fun p => { p with defaults := l }
    | none => s
  | .getDefaults o => { s with lists := s.lists ++ [((s.opts[o]?).map (·.defaults)).getD []] }
  | .newValidator o => { s with validators := s.validators ++ ((s.opts[o]?).map fun p => (p, p.defaults)).toList }
  | .configured d k none => { s with validators := s.validators ++ [(⟨d.getD (10 * 1000000000), k, []⟩, [])] }
  | .configured d k (some h) =>
    { s with validators := s.validators ++ ((s.lists[h]?).map fun l => ((⟨d.getD (10 * 1000000000), k, l⟩ : IOpts), l)).toList }
  | .update v value => { s with validators := s.validators.modify v fun w => (w.1, value.getD w.1.defaults) }

def irun (acts : List Act) : ISt := acts.foldl istep {}

/-- Which lists of a program came from the getter, in the order in which it got its lists. -/
def origins (acts : List Act) : List Bool :=
  acts.filterMap fun
    | .list _ => some false
    | .getDefaults _ => some true
    | _ => none

/-- The program assigns to no list that the getter returned. -/
def LeavesGotten (acts : List Act) : Prop :=
  ∀ (before after : List Act) (h i : Nat) (x : Bytes), acts = before ++ .assign h i x :: after → (origins before)[h]? ≠ some true

/-- What validator `v`, with the default namespaces `l`, accepts after one more call. -/
def acceptedStep (v : Nat) (l cur : List Bytes) : Act → List Bytes
  | .update u value => if u = v then value.getD l else cur
  | _ => cur

/-- What validator `v` accepts after the calls: the names of the last value that it was notified of, the default namespaces `l` when
there was no value. -/
def accepted (v : Nat) (l cur : List Bytes) (acts : List Act) : List Bytes := acts.foldl (acceptedStep v l) cur

end Verif.NsOpts
