import Verif.Model.Validator
import Verif.Model.Namespace
import Verif.Model.Transformation
import Verif.Model.Msgpack
/-
Model of the JSON forms: the `MarshalJSON` and `UnmarshalJSON` methods of aggregation, transformation, pipeline and policy, and the
views of rules, rule sets, namespaces and changes (rules/view, rules/view/changes), which are written by their field tags.

The library encoding/json is modelled on values, not on texts: a `J` is what the text of a JSON value says.  Simplifications: numbers are
integers or `other`; of a list that is read in place of an older one the elements are read over the older elements at their place
(the library may also find elements that an even older, longer list has left).  An error of a part is an error of the whole, as the
callers see it.  `strconv.Quote` and `strconv.Unquote` are applied by this repository to texts without quotes, backslashes and control
characters; a JSON text that spells such a text with the escape `\/` or with a surrogate pair is refused by `Unquote`.
A nil slice is written as null, an empty one as []; both are lists `[]` here, and both forms are read.
-/
namespace Verif.Json
open Verif.Policy Verif.RuleSet
open Verif.Rules (RollupTarget)
open Verif.MP (StagedPolicies)

/-- A JSON value. -/
inductive J where
  | null
  | bool (b : Bool)
  | num (n : Int)
  | other
  | str (s : Bytes)
  | arr (l : List J)
  | obj (l : List (Bytes × J))

/-- How a Go type is written and read (over an older value); `none` is an error. -/
structure Codec (A : Type) where
  enc : A → Option J
  dec : J → A → Option A

/-! ### Values of the library -/

/-- The UTF-8 form of a code point (`utf8.EncodeRune`). -/
def encodeRune (c : Nat) : Bytes :=
  if c < 0x80 then [UInt8.ofNat c]
  else if c < 0x800 then [UInt8.ofNat (0xC0 + c / 64), UInt8.ofNat (0x80 + c % 64)]
  else if c < 0x10000 then
    [UInt8.ofNat (0xE0 + c / 4096), UInt8.ofNat (0x80 + c / 64 % 64), UInt8.ofNat (0x80 + c % 64)]
  else [UInt8.ofNat (0xF0 + c / 262144), UInt8.ofNat (0x80 + c / 4096 % 64), UInt8.ofNat (0x80 + c / 64 % 64),
    UInt8.ofNat (0x80 + c % 64)]

/-- What is written of a string: bytes that are not UTF-8 are replaced by U+FFFD. -/
def coerce (s : Bytes) : Bytes := (Val.runes s).flatMap encodeRune

def string : Codec Bytes where
  enc s := some (.str (coerce s))
  dec
    | .null, old => some old
    | .str s, _ => some s
    | _, _ => none

def boolean : Codec Bool where
  enc b := some (.bool b)
  dec
    | .null, old => some old
    | .bool b, _ => some b
    | _, _ => none

/-- An integer of a Go type with these bounds. -/
def integer (lo hi : Int) : Codec Int where
  enc n := some (.num n)
  dec
    | .null, old => some old
    | .num n, _ => if lo ≤ n ∧ n ≤ hi then some n else none
    | _, _ => none

def int64 : Codec Int := integer (-9223372036854775808) 9223372036854775807

/-- `uint`, as a natural number. -/
def uint : Codec Nat where
  enc n := some (.num n)
  dec
    | .null, old => some old
    | .num n, _ => if 0 ≤ n ∧ n ≤ 18446744073709551615 then some n.toNat else none
    | _, _ => none

def arrEnc (c : Codec A) : List A → Option (List J)
  | [] => some []
  | a :: as => match c.enc a, arrEnc c as with
    | some j, some js => some (j :: js)
    | _, _ => none

def arrDec (c : Codec A) (zero : A) : List J → List A → Option (List A)
  | [], _ => some []
  | j :: js, old => match c.dec j (old.headD zero), arrDec c zero js old.tail with
    | some a, some as => some (a :: as)
    | _, _ => none

/-- A slice. -/
def slice (c : Codec A) (zero : A) : Codec (List A) where
  enc l := (arrEnc c l).map .arr
  dec
    | .null, _ => some []
    | .arr l, old => arrDec c zero l old
    | _, _ => none

/-- A pointer. -/
def pointer (c : Codec A) (zero : A) : Codec (Option A) where
  enc
    | none => some .null
    | some a => c.enc a
  dec
    | .null, _ => some none
    | j, old => (c.dec j (old.getD zero)).map some

/-! ### Structures -/

/-- A field of a structure; `enc` gives `some none` for a field that is left out. -/
structure Field (M : Type) where
  name : Bytes
  enc : M → Option (Option J)
  dec : J → M → Option M

/-- A field with a tag `json:"name"`. -/
def field (name : Bytes) (c : Codec A) (get : M → A) (set : M → A → M) : Field M where
  name := name
  enc m := (c.enc (get m)).map some
  dec j m := (c.dec j (get m)).map (set m)

/-- A field with a tag `json:"name,omitempty"`. -/
def omitField (name : Bytes) (c : Codec A) (empty : A → Bool) (get : M → A) (set : M → A → M) : Field M where
  name := name
  enc m := if empty (get m) then some none else (c.enc (get m)).map some
  dec j m := (c.dec j (get m)).map (set m)

def lower (b : UInt8) : UInt8 := if 65 ≤ b ∧ b ≤ 90 then b + 32 else b

/-- What the library (encoding/json/fold.go) takes for the same name if the names of the fields are ASCII letters: capitals for small
letters, the long s for s and the Kelvin sign for k. -/
def foldName : Bytes → Bytes
  | [] => []
  | 0xC5 :: 0xBF :: r => 0x73 :: foldName r
  | 0xE2 :: 0x84 :: 0xAA :: r => 0x6B :: foldName r
  | b :: r => lower b :: foldName r

/-- The field for a name: the one with this name, else the first one with the name up to case. -/
def findField (fs : List (Field M)) (k : Bytes) : Option (Field M) :=
  match fs.find? fun f => f.name == k with
  | some f => some f
  | none => fs.find? fun f => foldName f.name == foldName k

def encFields (m : M) : List (Field M) → Option (List (Bytes × J))
  | [] => some []
  | f :: fs => match f.enc m, encFields m fs with
    | some none, some l => some l
    | some (some j), some l => some ((f.name, j) :: l)
    | _, _ => none

def decMembers (fs : List (Field M)) : List (Bytes × J) → M → Option M
  | [], m => some m
  | (k, j) :: l, m => match findField fs k with
    | none => decMembers fs l m
    | some f => match f.dec j m with
      | none => none
      | some m' => decMembers fs l m'

/-- A structure without methods of its own. -/
def struct (fs : List (Field M)) : Codec M where
  enc m := (encFields m fs).map .obj
  dec
    | .null, m => some m
    | .obj l, m => decMembers fs l m
    | _, _ => none

/-! ### aggregation, transformation -/

/-- `MarshalJSON`, `UnmarshalJSON` of `aggregation.Type`, aggregation/type.go:204-225. -/
def aggType : Codec Int where
  enc t := if Agg.isValid t then some (.str (Agg.typeString Agg.goOutOfRange t)) else none
  dec
    | .str s, _ => Agg.parseType s
    | _, _ => none

/-- `MarshalJSON`, `UnmarshalJSON` of `aggregation.ID`, aggregation/id.go:99-119. -/
def aggID : Codec Agg.ID where
  enc id := match id.types with
    | none => none
    | some ts => (slice aggType 0).enc ts
  dec j _ := match (slice aggType 0).dec j [] with
    | none => none
    | some ts => Agg.compressTypes ts

/-- `MarshalJSON`, `UnmarshalJSON` of `transformation.Type`, transformation/type.go:124-145. -/
def transType : Codec Int where
  enc t := if Tf.isValid t then (Tf.typeString t).map .str else none
  dec
    | .str s, _ => Tf.parseType s
    | _, _ => none

/-! ### policy -/

/-- `MarshalJSON`, `UnmarshalJSON` of `StoragePolicy`, policy/storage_policy.go:128-146. -/
def storagePolicy (x : XTime) : Codec StoragePolicy where
  enc p := some (.str (p.string x))
  dec
    | .str s, _ => parseStoragePolicy x s
    | _, _ => none

/-- `MarshalJSON`, `UnmarshalJSON` of `Policy`, policy/policy.go:109-127. -/
def policy (x : XTime) : Codec Policy where
  enc p := some (.str (p.string x))
  dec
    | .str s, _ => parsePolicy x s
    | _, _ => none

def zeroSP : StoragePolicy := EmptyStoragePolicy
def zeroPolicy : Policy := ⟨EmptyStoragePolicy, 0⟩

/-- `stagedPoliciesJSON`, policy/staged_policy.go:120-124. -/
def stagedFields (x : XTime) : List (Field StagedPolicies) :=
  [field (bs "cutoverNanos") int64 (·.cutoverNanos) (fun m v => { m with cutoverNanos := v }),
   field (bs "tombstoned") boolean (·.tombstoned) (fun m v => { m with tombstoned := v }),
   field (bs "policies") (slice (policy x) zeroPolicy) (·.policies) (fun m v => { m with policies := v })]

/-- `MarshalJSON`, `UnmarshalJSON` of `StagedPolicies`, policy/staged_policy.go:104-117, 126-136. -/
def stagedPolicies (x : XTime) : Codec StagedPolicies where
  enc p := (struct (stagedFields x)).enc p
  dec j _ := (struct (stagedFields x)).dec j {}

/-! ### pipeline -/

/-- `MarshalJSON`, `UnmarshalJSON` of `AggregationOp` and `TransformationOp`, pipeline/type.go:99-111, 175-187. -/
def aggOp : Codec Int where
  enc := aggType.enc
  dec j _ := aggType.dec j 0

def transOp : Codec Int where
  enc := transType.enc
  dec j _ := transType.dec j 0

/-- `rollupMarshaler`, pipeline/type.go:330-334.  `aggregation.ID` is an array of one element, so it is never empty and never left out. -/
def rollupFields : List (Field Pipe.RollupOp) :=
  [field (bs "newName") string (·.newName) (fun m v => { m with newName := v }),
   field (bs "tags") (slice string []) (·.tags) (fun m v => { m with tags := v }),
   omitField (bs "aggregation") aggID (fun _ => false) (·.aggID) (fun m v => { m with aggID := v })]

/-- `MarshalJSON`, `UnmarshalJSON` of `RollupOp`, pipeline/type.go:306-318, 336-350. -/
def rollupOp : Codec Pipe.RollupOp where
  enc op := (struct rollupFields).enc op
  dec j _ := (struct rollupFields).dec j {}

/-- `unionMarshaler`, pipeline/type.go:489-493. -/
structure Union where
  aggregation : Option Int := none
  transformation : Option Int := none
  rollup : Option Pipe.RollupOp := none

def unionFields : List (Field Union) :=
  [omitField (bs "aggregation") (pointer aggOp 0) Option.isNone (·.aggregation) (fun m v => { m with aggregation := v }),
   omitField (bs "transformation") (pointer transOp 0) Option.isNone (·.transformation) (fun m v => { m with transformation := v }),
   omitField (bs "rollup") (pointer rollupOp {}) Option.isNone (·.rollup) (fun m v => { m with rollup := v })]

/-- `newUnionMarshaler`, pipeline/type.go:495-508. -/
def newUnion (u : Pipe.OpUnion) : Option Union :=
  if u.type = Pipe.AggregationOpType then some { aggregation := some u.aggregation }
  else if u.type = Pipe.TransformationOpType then some { transformation := some u.transformation }
  else if u.type = Pipe.RollupOpType then some { rollup := some u.rollup }
  else none

/-- `unionMarshaler.OpUnion`, pipeline/type.go:510-521. -/
def Union.opUnion (m : Union) : Option Pipe.OpUnion :=
  match m.aggregation with
  | some a => some { type := Pipe.AggregationOpType, aggregation := a }
  | none => match m.transformation with
    | some t => some { type := Pipe.TransformationOpType, transformation := t }
    | none => match m.rollup with
      | some r => some { type := Pipe.RollupOpType, rollup := r }
      | none => none

/-- `MarshalJSON`, `UnmarshalJSON` of `OpUnion`, pipeline/type.go:452-472. -/
def opUnion : Codec Pipe.OpUnion where
  enc u := match newUnion u with
    | none => none
    | some c => (struct unionFields).enc c
  dec j _ := match (struct unionFields).dec j {} with
    | none => none
    | some c => c.opUnion

/-- `MarshalJSON`, `UnmarshalJSON` of `Pipeline`, pipeline/type.go:614-626. -/
def pipeline : Codec Pipe.Pipeline where
  enc p := (slice opUnion { type := 0 }).enc p
  dec j _ := (slice opUnion { type := 0 }).dec j []

/-! ### rules/view -/

/-- `view.MappingRule`, rules/view/mapping.go:29-40. -/
def mappingFields (x : XTime) : List (Field MappingView) :=
  [omitField (bs "id") string List.isEmpty (·.id) (fun m v => { m with id := v }),
   field (bs "name") string (·.name) (fun m v => { m with name := v }),
   field (bs "tombstoned") boolean (·.tombstoned) (fun m v => { m with tombstoned := v }),
   omitField (bs "cutoverMillis") int64 (· == 0) (·.cutoverMillis) (fun m v => { m with cutoverMillis := v }),
   field (bs "filter") string (·.filter) (fun m v => { m with filter := v }),
   field (bs "aggregation") aggID (·.aggID) (fun m v => { m with aggID := v }),
   field (bs "storagePolicies") (slice (storagePolicy x) zeroSP) (·.storagePolicies) (fun m v => { m with storagePolicies := v }),
   field (bs "dropPolicy") uint (·.drop) (fun m v => { m with drop := v }),
   field (bs "lastUpdatedBy") string (·.lastUpdatedBy) (fun m v => { m with lastUpdatedBy := v }),
   field (bs "lastUpdatedAtMillis") int64 (·.lastUpdatedAtMillis) (fun m v => { m with lastUpdatedAtMillis := v })]

def zeroMapping : MappingView := ⟨[], [], false, 0, [], 0, [], 0, [], 0⟩
def mappingView (x : XTime) : Codec MappingView := struct (mappingFields x)

/-- `view.RollupTarget`, rules/view/rollup.go:29-32. -/
def targetFields (x : XTime) : List (Field RollupTarget) :=
  [field (bs "pipeline") pipeline (·.pipeline) (fun m v => { m with pipeline := v }),
   field (bs "storagePolicies") (slice (storagePolicy x) zeroSP) (·.storagePolicies) (fun m v => { m with storagePolicies := v })]

def zeroTarget : RollupTarget := ⟨[], []⟩
def target (x : XTime) : Codec RollupTarget := struct (targetFields x)

/-- `view.RollupRule`, rules/view/rollup.go:46-55. -/
def rollupViewFields (x : XTime) : List (Field RollupView) :=
  [omitField (bs "id") string List.isEmpty (·.id) (fun m v => { m with id := v }),
   field (bs "name") string (·.name) (fun m v => { m with name := v }),
   field (bs "tombstoned") boolean (·.tombstoned) (fun m v => { m with tombstoned := v }),
   omitField (bs "cutoverMillis") int64 (· == 0) (·.cutoverMillis) (fun m v => { m with cutoverMillis := v }),
   field (bs "filter") string (·.filter) (fun m v => { m with filter := v }),
   field (bs "targets") (slice (target x) zeroTarget) (·.targets) (fun m v => { m with targets := v }),
   field (bs "lastUpdatedBy") string (·.lastUpdatedBy) (fun m v => { m with lastUpdatedBy := v }),
   field (bs "lastUpdatedAtMillis") int64 (·.lastUpdatedAtMillis) (fun m v => { m with lastUpdatedAtMillis := v })]

def zeroRollup : RollupView := ⟨[], [], false, 0, [], [], [], 0⟩
def rollupView (x : XTime) : Codec RollupView := struct (rollupViewFields x)

/-- `view.RuleSet`, rules/view/ruleset.go:28-34. -/
def ruleSetFields (x : XTime) : List (Field RuleSetView) :=
  [field (bs "id") string (·.namespace_) (fun m v => { m with namespace_ := v }),
   field (bs "version") int64 (·.version) (fun m v => { m with version := v }),
   field (bs "cutoverMillis") int64 (·.cutoverMillis) (fun m v => { m with cutoverMillis := v }),
   field (bs "mappingRules") (slice (mappingView x) zeroMapping) (·.mappingRules) (fun m v => { m with mappingRules := v }),
   field (bs "rollupRules") (slice (rollupView x) zeroRollup) (·.rollupRules) (fun m v => { m with rollupRules := v })]

def zeroRuleSet : RuleSetView := ⟨[], 0, 0, [], []⟩
def ruleSetView (x : XTime) : Codec RuleSetView := struct (ruleSetFields x)

/-- `view.Namespace`, rules/view/namespace.go:24-30. -/
def namespaceFields : List (Field NS.NamespaceView) :=
  [field (bs "id") string (·.id) (fun m v => { m with id := v }),
   field (bs "forRuleSetVersion") int64 (·.forRuleSetVersion) (fun m v => { m with forRuleSetVersion := v }),
   field (bs "tombstoned") boolean (·.tombstoned) (fun m v => { m with tombstoned := v }),
   field (bs "lastUpdatedBy") string (·.lastUpdatedBy) (fun m v => { m with lastUpdatedBy := v }),
   field (bs "lastUpdatedAtMillis") int64 (·.lastUpdatedAtMillis) (fun m v => { m with lastUpdatedAtMillis := v })]

def zeroNamespace : NS.NamespaceView := ⟨[], 0, false, [], 0⟩
def namespaceView : Codec NS.NamespaceView := struct namespaceFields

/-- `view.Namespaces`, rules/view/namespace.go:33-36. -/
structure NamespacesView where
  version : Int := 0
  namespaces : List NS.NamespaceView := []
  deriving DecidableEq

def namespacesView : Codec NamespacesView := struct
  [field (bs "version") int64 (·.version) (fun m v => { m with version := v }),
   field (bs "namespaces") (slice namespaceView zeroNamespace) (·.namespaces) (fun m v => { m with namespaces := v })]

/-! ### rules/view/changes -/

/-- `MappingRuleChange`, `RollupRuleChange`, rules/view/changes/mapping.go:26-30, rollup.go:26-30; `Op` is a string (op.go). -/
structure ViewChange (V : Type) where
  op : Bytes := []
  ruleID : Option Bytes := none
  ruleData : Option V := none
  deriving DecidableEq

def changeFields (c : Codec V) (zero : V) : List (Field (ViewChange V)) :=
  [field (bs "op") string (·.op) (fun m v => { m with op := v }),
   omitField (bs "ruleID") (pointer string []) Option.isNone (·.ruleID) (fun m v => { m with ruleID := v }),
   omitField (bs "ruleData") (pointer c zero) Option.isNone (·.ruleData) (fun m v => { m with ruleData := v })]

def change (c : Codec V) (zero : V) : Codec (ViewChange V) := struct (changeFields c zero)

/-- `RuleSetChanges`, rules/view/changes/ruleset.go:28-32. -/
structure ViewChanges where
  namespace_ : Bytes := []
  mapping : List (ViewChange MappingView) := []
  rollup : List (ViewChange RollupView) := []
  deriving DecidableEq

def changesFields (x : XTime) : List (Field ViewChanges) :=
  [field (bs "namespace") string (·.namespace_) (fun m v => { m with namespace_ := v }),
   field (bs "mappingRuleChanges") (slice (change (mappingView x) zeroMapping) {}) (·.mapping) (fun m v => { m with mapping := v }),
   field (bs "rollupRuleChanges") (slice (change (rollupView x) zeroRollup) {}) (·.rollup) (fun m v => { m with rollup := v })]

def changes (x : XTime) : Codec ViewChanges := struct (changesFields x)

end Verif.Json
