import Verif.Model.Metadata
import Verif.Model.MsgpackMemory
/-
Metadata objects that are decoded into again and again, and whose drop policies are resolved, with their memory.

`FromProto` writes into the arrays that the object has, where they are large enough (metadata/metadata.go:136-156, 283-296, 497-510,
pipeline/applied/type.go:246-259).  `ApplyOrRemoveDropPolicies` removes elements in place, which moves the elements behind them, with the
slices in them, and leaves the last one where it was too (metadata/metadata.go:229-240, 456-464); and for a drop it puts the package
variable `DropPipelineMetadatas` into the object (50-51, 210, 225, 446).  So here slices are arrays and lengths.

Simplifications: each object makes arrays for itself, which are numbered per object, and no slice of one object is assigned to another,
but that of the package variable.  The variable has one element, whose own slices nothing else has, so that it is modelled as a value.
The identifiers in rollup operations are not written in place by any code here, and are values.  After an error the object is not used.
-/
namespace Verif.MetaMem
open Verif.Policy Verif.Meta Verif.MPMem

/-- `PipelineMetadata`, metadata/metadata.go:64-76. -/
structure PMRef where
  aggID : Agg.ID := 0
  sps : Option Slice := none
  ops : Option Slice := none
  drop : DropPolicy := 0

/-- Pipelines: nil, a slice of an array of the object, or of that of `DropPipelineMetadatas`. -/
inductive Pipes where
  | nil
  | own (s : Slice)
  | shared (len : Nat)

/-- The slice of an array of the object. -/
def Pipes.slice : Pipes → Option Slice
  | .own s => some s
  | _ => none

def Pipes.of : Option Slice → Pipes
  | none => .nil
  | some s => .own s

/-- `StagedMetadata`, metadata/metadata.go:349-357. -/
structure SRef where
  pipelines : Pipes := .nil
  cutoverNanos : Int := 0
  tombstoned : Bool := false

/-- A variable of type `StagedMetadatas`, and the arrays made for it. -/
structure Obj where
  sps : Heap StoragePolicy := []
  ops : Heap Applied.OpUnion := []
  pms : Heap PMRef := []
  stg : Heap SRef := []
  cur : Option Slice := none

/-- One object, and the element of `DropPipelineMetadatas`. -/
structure W extends Obj where
  global : PipelineMetadata

/-! ### What is seen -/

def Obj.pm (o : Obj) (c : PMRef) : PipelineMetadata :=
  { aggID := c.aggID, storagePolicies := o.sps.readOpt c.sps, pipeline := o.ops.readOpt c.ops, drop := c.drop }

def W.pipes (w : W) : Pipes → List PipelineMetadata
  | .nil => []
  | .own s => (w.pms.read s).map w.pm
  | .shared len => [w.global].take len

def W.stage (w : W) (c : SRef) : StagedMetadata :=
  { pipelines := w.pipes c.pipelines, cutoverNanos := c.cutoverNanos, tombstoned := c.tombstoned }

def W.value (w : W) : List StagedMetadata := (w.stg.readOpt w.cur).map w.stage

/-! ### FromProto -/

/-- `if cap(s) >= n { s = s[:n] } else { s = make([]T, n) }`. -/
def room (h : Heap α) (zero : α) (s : Option Slice) (n : Nat) : Option Slice × Heap α :=
  if n ≤ h.capOpt s then (s.map fun s => { s with len := n }, h)
  else (some (h.make zero n n).1, (h.make zero n n).2)

/-- The first elements of the array of a slice become these. -/
def fill (h : Heap α) (s : Option Slice) (vs : List α) : Heap α :=
  match s with
  | none => h
  | some s => h.set s.arr (vs ++ (h.array s.arr).drop vs.length)

/-- `room` and the loop over the elements, for elements without slices. -/
def leaf (conv : α → β → Option α) (zero : α) (h : Heap α) (s : Option Slice) (pbs : List β) : Option (Option Slice × Heap α) :=
  match convLoop conv ((room h zero s pbs.length).2.readOpt (room h zero s pbs.length).1) pbs with
  | none => none
  | some vs => some ((room h zero s pbs.length).1, fill (room h zero s pbs.length).2 (room h zero s pbs.length).1 vs)

/-- `PipelineMetadata.FromProto`, metadata/metadata.go:136-156, with `Pipeline.FromProto`, pipeline/applied/type.go:246-259; the new
contents of the element. -/
def decodePM (x : XTime) (w : W) (c : PMRef) (pb : PBPipelineMetadata) : Option (PMRef × W) :=
  match leaf Applied.OpUnion.fromProto {} w.ops c.ops pb.pipeline with
  | none => none
  | some (ops, oh) => match leaf (StoragePolicy.fromProto x) EmptyStoragePolicy w.sps c.sps pb.storagePolicies with
    | none => none
    | some (sps, sh) => some ({ aggID := pb.aggregationId, sps, ops, drop := dropFromProto pb.dropPolicy }, { w with sps := sh, ops := oh })

/-- `for i := 0; i < n; i++ { if err := dst[i].FromProto(pb[i]); err != nil { return err } }`, from `i` on: `dst[i]` is read from the array
at the time. -/
def each (heap : W → Heap α) (set : W → Heap α → W) (dec : W → α → β → Option (α × W)) (a : Nat) : List β → Nat → W → Option W
  | [], _, w => some w
  | pb :: pbs, i, w => match ((heap w).array a)[i]? with
    | none => none
    | some c => match dec w c pb with
      | none => none
      | some (c', w') => each heap set dec a pbs (i + 1) (set w' ((heap w').put a i c'))

/-- The elements of pipelines, metadata/metadata.go:290-294. -/
def decodePMs (x : XTime) (a : Nat) (pbs : List PBPipelineMetadata) (w : W) : Option W :=
  each (·.pms) (fun w h => { w with pms := h }) (decodePM x) a pbs 0 w

/-- `Metadata.FromProto`, metadata/metadata.go:283-296. -/
def decodePipes (x : XTime) (w : W) (p : Pipes) (pbs : List PBPipelineMetadata) : Option (Pipes × W) :=
  match p, decide (pbs.length ≤ 1) with
  | .shared _, true => match metadataFromProto x [w.global] pbs with
    | none => none
    | some ps => some (.shared pbs.length, { w with global := ps.headD w.global })
  | p, _ => match (room w.pms {} p.slice pbs.length).1 with
    | none => some (.nil, w)
    | some s => match decodePMs x s.arr pbs { w with pms := (room w.pms {} p.slice pbs.length).2 } with
      | none => none
      | some w => some (.own s, w)

/-- `StagedMetadata.FromProto`, metadata/metadata.go:388-395. -/
def decodeStage (x : XTime) (w : W) (c : SRef) (pb : PBStagedMetadata) : Option (SRef × W) :=
  match decodePipes x w c.pipelines pb.pipelines with
  | none => none
  | some (p, w) => some ({ pipelines := p, cutoverNanos := pb.cutoverNanos, tombstoned := pb.tombstoned }, w)

/-- `StagedMetadatas.FromProto`, metadata/metadata.go:497-510. -/
def decode (x : XTime) (w : W) (pbs : List PBStagedMetadata) : Option W :=
  match (room w.stg {} w.cur pbs.length).1 with
  | none => some w
  | some s => each (·.stg) (fun w h => { w with stg := h }) (decodeStage x) s.arr pbs 0
      { w with stg := (room w.stg {} w.cur pbs.length).2, cur := some s }

/-! ### ApplyOrRemoveDropPolicies -/

/-- The counting loop, metadata/metadata.go:204-217; `none`: the early return on a must-drop. -/
def scan : List PMRef → (only non : Nat) → Option (Nat × Nat)
  | [], o, n => some (o, n)
  | m :: ms, o, n =>
    if m.drop = DropMust then none
    else if m.drop = DropIfOnlyMatch then scan ms (o + 1) n
    else scan ms o (n + 1)

/-- The removal loop, metadata/metadata.go:230-240, for `i = k-1, …, 0`. -/
def removeLoop : (k : Nat) → (arr : List PMRef) → (len : Nat) → List PMRef × Nat
  | 0, arr, len => (arr, len)
  | i + 1, arr, len =>
    match arr[i]? with
    | none => (arr, len)
    | some m =>
      if m.drop ≠ DropNone then removeLoop i (removeAt arr len i).1 (removeAt arr len i).2
      else removeLoop i arr len

/-- `PipelineMetadatas.ApplyOrRemoveDropPolicies`, metadata/metadata.go:199-243, on an array of the object; `none`: a drop. -/
def resolveCells (arr : List PMRef) (len : Nat) : Option (List PMRef × Nat) :=
  match scan (arr.take len) 0 0 with
  | none => none
  | some (o, n) =>
    if o = 0 then some (arr, len)
    else if n = 0 then none
    else some (removeLoop len arr len)

/-- `PipelineMetadatas.ApplyOrRemoveDropPolicies`, metadata/metadata.go:199-243.  Of the one element of the variable nothing is moved. -/
def resolvePipes (w : W) : Pipes → Pipes × W × DropResult
  | .nil => (.nil, w, .removed)
  | .shared len => match (applyPipelines ([w.global].take len)).2 with
    | .applied => (.shared 1, w, .applied)
    | .removed => (.shared len, w, .removed)
  | .own s => match resolveCells (w.pms.array s.arr) s.len with
    | none => (.shared 1, w, .applied)
    | some (arr, len) => (.own { s with len := len }, { w with pms := w.pms.set s.arr arr }, .removed)

/-- State of the loop in `StagedMetadatas.ApplyOrRemoveDropPolicies`; `arr` is the array. -/
structure Loop where
  arr : List SRef
  len : Nat
  drops : Nat := 0
  nonDrops : Nat := 0
  earliest : SRef := {}
  w : W

/-- The loop, metadata/metadata.go:444-470, for `i = k-1, …, 0`. -/
def stagesLoop : (k : Nat) → Loop → Loop
  | 0, st => st
  | i + 1, st =>
    match st.arr[i]? with
    | none => st
    | some c => match resolvePipes st.w c.pipelines with
      | (p, w, .applied) =>
        stagesLoop i
          { arr := (removeAt (st.arr.set i { c with pipelines := p }) st.len i).1
            len := (removeAt (st.arr.set i { c with pipelines := p }) st.len i).2
            drops := st.drops + 1
            nonDrops := st.nonDrops
            earliest := if st.drops + 1 = 1 ∨ c.cutoverNanos < st.earliest.cutoverNanos then { c with pipelines := p } else st.earliest
            w := w }
      | (p, w, .removed) => stagesLoop i { st with arr := st.arr.set i { c with pipelines := p }, nonDrops := st.nonDrops + 1, w := w }

/-- `StagedMetadatas.ApplyOrRemoveDropPolicies`, metadata/metadata.go:429-478; the result is assigned to the variable. -/
def resolve (w : W) : W × DropResult :=
  match w.cur with
  | none => (w, .removed)
  | some s =>
    if s.len = 0 then (w, .removed)
    else
      let st := stagesLoop s.len { arr := w.stg.array s.arr, len := s.len, w := w }
      let h : Heap SRef := st.w.stg.set s.arr st.arr
      if st.nonDrops = 0 then ({ st.w with stg := (h.make st.earliest 1 1).2, cur := some (h.make st.earliest 1 1).1 }, .applied)
      else ({ st.w with stg := h, cur := some { s with len := st.len } }, .removed)

/-! ### Any number of objects -/

/-- The element of `DropPipelineMetadatas`, and the objects. -/
structure Mem where
  global : PipelineMetadata
  objs : Nat → Obj

def Mem.world (m : Mem) (i : Nat) : W := { toObj := m.objs i, global := m.global }

def Mem.back (m : Mem) (i : Nat) (w : W) : Mem := { global := w.global, objs := fun j => if j = i then w.toObj else m.objs j }

/-- What object `i` holds. -/
def Mem.value (m : Mem) (i : Nat) : List StagedMetadata := (m.world i).value

inductive Use where
  | decode (i : Nat) (pbs : List PBStagedMetadata)
  | resolve (i : Nat)

def Mem.use (x : XTime) (m : Mem) : Use → Option Mem
  | .decode i pbs => (MetaMem.decode x (m.world i) pbs).map (m.back i)
  | .resolve i => some (m.back i (MetaMem.resolve (m.world i)).1)

def Mem.uses (x : XTime) (m : Mem) : List Use → Option Mem
  | [] => some m
  | u :: us => match m.use x u with
    | none => none
    | some m => m.uses x us

/-- At the start: variables that are nil, and the package variable as it is initialised, metadata/metadata.go:47-51. -/
def Mem.init : Mem := { global := { drop := DropMust }, objs := fun _ => {} }

end Verif.MetaMem
