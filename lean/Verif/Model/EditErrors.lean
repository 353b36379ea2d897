import Verif.Lemmas.RuleOps
/-
Model of the errors of edits: what kind of error the functions of rules/ruleset.go return.  The edits themselves are in
Model/RuleSet.lean; here they are followed once more, for the error only.

Simplification: of an error only its type is kept.  `xerrors.Wrap` (m3x/errors) keeps the error it is given inside the one it returns,
where callers get it back.
-/
namespace Verif.RuleSet
open Verif.Policy Verif.Rules

/-- An error: `merrors.InvalidInputError` (errors/errors.go:23-29), one of no type of its own (`errors.New`, `fmt.Errorf`), or one that
`xerrors.Wrap` made of another. -/
inductive EErr where
  | invalidInput
  | plain
  | wrapped (inner : EErr)
  deriving DecidableEq

section Generic
variable {S : Type} [Snap S] {D : Type}

/-- The error of `addSnapshot`, rules/mapping.go:340-364, rules/rollup.go:308-328: that of `filters.ValidateTagsFilter`. -/
def addSnapshotErr (k : Kit S D) (r : Rule S) (d : D) (m : UpdateMeta) : Option EErr := if (k.add r d m).2 then none else some .plain

/-- The error of `markTombstoned`, rules/mapping.go:366-377, rules/rollup.go:330-341. -/
def markTombstonedErr (r : Rule S) : Option EErr :=
  match r.name with
  | none => some .plain
  | some _ =>
    if r.tombstoned then some .invalidInput
    else match r.snapshots.getLast? with
      | none => some .plain
      | some _ => none

/-- The error of `revive`, rules/mapping.go:390-407, rules/rollup.go:354-368. -/
def reviveErr (k : Kit S D) (r : Rule S) (d : D) (m : UpdateMeta) : Option EErr :=
  match r.name with
  | none => some .plain
  | some _ => if !r.tombstoned then some .invalidInput else addSnapshotErr k r d m

/-- The error of `AddMappingRule` and `AddRollupRule`, rules/ruleset.go:344-376, 410-439. -/
def addErr (k : Kit S D) (rules : List (Rule S)) (d : D) (m : UpdateMeta) : Option EErr :=
  match getRuleByName k.strict (k.nameOf d) rules with
  | none => some (.wrapped .plain)
  | some none => (addSnapshotErr k { uuid := [], snapshots := [] } d m).map .wrapped
  | some (some i) => match rules[i]? with
    | none => none
    | some r => (reviveErr k r d m).map .wrapped

/-- The error of `UpdateMappingRule` and `UpdateRollupRule`, rules/ruleset.go:378-395, 441-457. -/
def updateErr (k : Kit S D) (rules : List (Rule S)) (id : Bytes) (d : D) (m : UpdateMeta) : Option EErr :=
  match getRuleByID id rules with
  | none => some .invalidInput
  | some i => match rules[i]? with
    | none => none
    | some r => (addSnapshotErr k r d m).map .wrapped

/-- The error of `DeleteMappingRule` and `DeleteRollupRule`, rules/ruleset.go:397-408, 459-470. -/
def deleteErr (rules : List (Rule S)) (id : Bytes) : Option EErr :=
  match getRuleByID id rules with
  | none => some .invalidInput
  | some i => match rules[i]? with
    | none => none
    | some r => (markTombstonedErr r).map .wrapped

end Generic

/-- The errors of the edits; `Delete` and `Revive`: rules/ruleset.go:472-475, 503-506. -/
def RuleSet.editErr (rs : RuleSet) (m : UpdateMeta) : Edit → Option EErr
  | .addMapping _ d => addErr mappingKit rs.mappingRules d m
  | .updateMapping id d => updateErr mappingKit rs.mappingRules id d m
  | .deleteMapping id => deleteErr rs.mappingRules id
  | .addRollup _ d => addErr rollupKit rs.rollupRules d m
  | .updateRollup id d => updateErr rollupKit rs.rollupRules id d m
  | .deleteRollup id => deleteErr rs.rollupRules id
  | .delete => if rs.tombstoned then some .plain else none
  | .revive => if !rs.tombstoned then some (.wrapped .plain) else none

/-- The error of one change, rules/ruleset.go:599-614, 622-637; without the data the change needs there is none, as the call panics. -/
def RuleSet.changeErr (add : D → Edit) (update : Bytes → D → Edit) (delete : Bytes → Edit) (rs : RuleSet) (c : Change D)
    (m : UpdateMeta) : Option EErr :=
  if c.op = bs "add" then c.ruleData.bind fun d => rs.editErr m (add d.2)
  else if c.op = bs "change" then c.ruleData.bind fun d => rs.editErr m (update d.1 d.2)
  else if c.op = bs "delete" then c.ruleID.bind fun id => rs.editErr m (delete id)
  else some .invalidInput

/-- The error of a loop over changes, rules/ruleset.go:597-641: that of the first change that fails. -/
def loopErr (f : RuleSet → C → UpdateMeta → RuleSet × Out Unit) (err : RuleSet → C → UpdateMeta → Option EErr) (m : UpdateMeta) :
    List C → RuleSet → Option EErr
  | [], _ => none
  | c :: cs, rs => match f rs c m with
    | (rs', .ok _) => loopErr f err m cs rs'
    | _ => err rs c m

/-- The error of `ApplyRuleSetChanges`, rules/ruleset.go:496-501. -/
def RuleSet.applyErr (rs : RuleSet) (ms : List (Change MappingData)) (rr : List (Change RollupData)) (m : UpdateMeta) : Option EErr :=
  match applyLoop RuleSet.mappingChange m ms rs with
  | (rs', .ok _) => loopErr RuleSet.rollupChange (RuleSet.changeErr (.addRollup []) .updateRollup .deleteRollup) m rr rs'
  | _ => loopErr RuleSet.mappingChange (RuleSet.changeErr (.addMapping []) .updateMapping .deleteMapping) m ms rs

end Verif.RuleSet
