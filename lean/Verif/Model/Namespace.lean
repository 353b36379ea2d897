import Verif.Model.RuleSet
/-
Model of rules/namespace.go: namespaces, their snapshots, edits, views, copies and stored form.

Edits return the namespaces afterwards together with the outcome.  `int` is modelled by `Int` (no overflow at 64
bits); the conversions to and from the 32 bits of the stored form are modelled exactly.  A `*Namespace` returned by
a lookup points into the slice; an edit through it is an update of that entry.
-/
namespace Verif.NS
open Verif.Meta Verif.RuleSet Verif.Rules

/-- `NamespaceSnapshot`, rules/namespace.go:52-57. -/
structure Snapshot where
  forRuleSetVersion : Int
  tombstoned : Bool
  lastUpdatedAtNanos : Int
  lastUpdatedBy : Bytes
  deriving DecidableEq, Inhabited

/-- Stored form of a namespace snapshot (generated rulepb.NamespaceSnapshot; `ForRulesetVersion` is an int32). -/
structure PBSnapshot where
  forRulesetVersion : Int
  tombstoned : Bool
  lastUpdatedAtNanos : Int
  lastUpdatedBy : Bytes
  deriving DecidableEq

/-- `newNamespaceSnapshot`, rules/namespace.go:59-69; `none` as the argument is a nil message. -/
def newNamespaceSnapshot : Option PBSnapshot → Option Snapshot
  | none => none
  | some s => some { forRuleSetVersion := s.forRulesetVersion, tombstoned := s.tombstoned
                     lastUpdatedAtNanos := s.lastUpdatedAtNanos, lastUpdatedBy := s.lastUpdatedBy }

/-- `NamespaceSnapshot.Proto`, rules/namespace.go:84-91. -/
def Snapshot.proto (s : Snapshot) : PBSnapshot :=
  { forRulesetVersion := toInt32 s.forRuleSetVersion, tombstoned := s.tombstoned
    lastUpdatedAtNanos := s.lastUpdatedAtNanos, lastUpdatedBy := s.lastUpdatedBy }

/-- `Namespace`, rules/namespace.go:94-97; `none` for a nil slice of snapshots. -/
structure Namespace where
  name : Bytes
  snapshots : Option (List Snapshot)
  deriving DecidableEq

/-- The elements of the slice. -/
def Namespace.snaps (n : Namespace) : List Snapshot := n.snapshots.getD []

/-- Stored form of a namespace (generated rulepb.Namespace). -/
structure PBNamespace where
  name : Bytes
  snapshots : List (Option PBSnapshot)

/-- `newNamespace`, rules/namespace.go:100-116. -/
def newNamespace : Option PBNamespace → Option Namespace
  | none => none
  | some n => (mapM' newNamespaceSnapshot n.snapshots).map fun s => { name := n.name, snapshots := some s }

/-- `view.Namespace`, rules/view/namespace.go. -/
structure NamespaceView where
  id : Bytes
  forRuleSetVersion : Int
  tombstoned : Bool
  lastUpdatedBy : Bytes
  lastUpdatedAtMillis : Int
  deriving DecidableEq

/-- `NamespaceView`, rules/namespace.go:119-131. -/
def Namespace.view (n : Namespace) (i : Int) : Option NamespaceView :=
  if i < 0 ∨ i ≥ n.snaps.length then none
  else (n.snaps[i.toNat]?).map fun s =>
    { id := n.name, forRuleSetVersion := s.forRuleSetVersion, tombstoned := s.tombstoned
      lastUpdatedBy := s.lastUpdatedBy, lastUpdatedAtMillis := toMillis s.lastUpdatedAtNanos }

/-- `clone`, rules/namespace.go:133-142: the copied slice is never nil. -/
def Namespace.clone (n : Namespace) : Namespace := { name := n.name, snapshots := some n.snaps }

/-- `Namespace.Proto`, rules/namespace.go:151-167. -/
def Namespace.proto (n : Namespace) : Option PBNamespace := match n.snapshots with
  | none => none
  | some ss => some { name := n.name, snapshots := ss.map fun s => some s.proto }

/-- `Tombstoned`, rules/namespace.go:204-209. -/
def Namespace.tombstoned (n : Namespace) : Bool := match n.snaps.getLast? with
  | none => true
  | some s => s.tombstoned

/-- `markTombstoned`, rules/namespace.go:169-181; `none` is the error. -/
def Namespace.markTombstoned (n : Namespace) (version : Int) (m : UpdateMeta) : Option Namespace :=
  if n.tombstoned then none
  else some { n with snapshots := some (n.snaps ++
    [{ forRuleSetVersion := version, tombstoned := true
       lastUpdatedAtNanos := m.updatedAtNanos, lastUpdatedBy := m.updatedBy }]) }

/-- `revive`, rules/namespace.go:183-201; `none` is an error. -/
def Namespace.revive (n : Namespace) (m : UpdateMeta) : Option Namespace :=
  if !n.tombstoned then none
  else match n.snaps.getLast? with
    | none => none
    | some last => some { n with snapshots := some (n.snaps ++
        [{ forRuleSetVersion := last.forRuleSetVersion + 1, tombstoned := false
           lastUpdatedAtNanos := m.updatedAtNanos, lastUpdatedBy := m.updatedBy }]) }

/-- `Namespaces`, rules/namespace.go:212-215. -/
structure Namespaces where
  version : Int
  namespaces : List Namespace
  deriving DecidableEq

/-- Stored form of the namespaces (generated rulepb.Namespaces). -/
structure PBNamespaces where
  namespaces : List (Option PBNamespace)

/-- `NewNamespaces`, rules/namespace.go:218-234. -/
def newNamespaces (version : Int) : Option PBNamespaces → Option Namespaces
  | none => none
  | some nss => (mapM' newNamespace nss.namespaces).map fun l => { version := version, namespaces := l }

/-- `NamespacesView`, rules/namespace.go:237-250; the version is that of the namespaces. -/
def Namespaces.views (nss : Namespaces) : Option (List NamespaceView) :=
  mapM' (fun n : Namespace => n.view ((n.snaps.length : Int) - 1)) nss.namespaces

/-- `Namespaces.Clone`, rules/namespace.go:253-262. -/
def Namespaces.clone (nss : Namespaces) : Namespaces := { nss with namespaces := nss.namespaces.map Namespace.clone }

/-- `Namespaces.Proto`, rules/namespace.go:271-285. -/
def Namespaces.proto (nss : Namespaces) : Option PBNamespaces :=
  (mapM' Namespace.proto nss.namespaces).map fun l => { namespaces := l.map some }

/-- What a lookup by name says: the position found, or one of the two errors. -/
inductive Lookup where
  | found (i : Nat)
  | notFound
  | multiple
  deriving DecidableEq

/-- The loop of `Namespaces.Namespace`, rules/namespace.go:291-301: position `i` is next, `res` is the match so far. -/
def lookupLoop (name : Bytes) : List Namespace → Nat → Option Nat → Lookup
  | [], _, none => .notFound
  | [], _, some r => .found r
  | n :: ns, i, res =>
    if n.name ≠ name then lookupLoop name ns (i + 1) res
    else match res with
      | none => lookupLoop name ns (i + 1) (some i)
      | some _ => .multiple

/-- `Namespaces.Namespace`, rules/namespace.go:288-308. -/
def Namespaces.lookup (nss : Namespaces) (name : Bytes) : Lookup := lookupLoop name nss.namespaces 0 none

/-- `AddNamespace`, rules/namespace.go:314-344: the namespaces afterwards and whether the namespace was revived, `none`
being an error. -/
def Namespaces.add (nss : Namespaces) (name : Bytes) (m : UpdateMeta) : Namespaces × Option Bool :=
  match nss.lookup name with
  | .multiple => (nss, none)
  | .notFound =>
    let s : Snapshot := { forRuleSetVersion := 1, tombstoned := false
                          lastUpdatedAtNanos := m.updatedAtNanos, lastUpdatedBy := m.updatedBy }
    ({ nss with namespaces := nss.namespaces ++ [{ name := name, snapshots := some [s] }] }, some false)
  | .found i => match nss.namespaces[i]? with
    | none => (nss, none)
    | some n => match n.revive m with
      | none => (nss, none)
      | some n' => ({ nss with namespaces := nss.namespaces.set i n' }, some true)

/-- `DeleteNamespace`, rules/namespace.go:347-358: the namespaces afterwards and whether the call succeeded. -/
def Namespaces.delete (nss : Namespaces) (name : Bytes) (currRuleSetVersion : Int) (m : UpdateMeta) : Namespaces × Bool :=
  match nss.lookup name with
  | .multiple => (nss, false)
  | .notFound => (nss, false)
  | .found i => match nss.namespaces[i]? with
    | none => (nss, false)
    | some n => match n.markTombstoned (currRuleSetVersion + 1) m with
      | none => (nss, false)
      | some n' => ({ nss with namespaces := nss.namespaces.set i n' }, true)

end Verif.NS
