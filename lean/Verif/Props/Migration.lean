import Verif.Model.Migration
import Verif.Spec.Migration
import Verif.Props.Msgpack
import Verif.Props.ProtoIterator
/-
C26, C27: streams of both protocols, and the conversion of policies to metadata.
-/
namespace Verif.Mig
open Verif.Policy Verif.Meta Verif.Spec.Mig
open Verif.MP (StagedPolicies Lib Units Sample)

/-! ### C27 -/

section firsts
variable [DecidableEq α]

theorem mem_firsts : ∀ (l : List α) (a : α), a ∈ firsts l ↔ a ∈ l
  | [], a => by simp [firsts]
  | b :: l, a => by
    have := mem_firsts l a
    by_cases h : a = b <;> simp [firsts, this, h]

theorem firsts_nodup : ∀ (l : List α), (firsts l).Nodup
  | [] => by simp [firsts]
  | b :: l => by
    refine List.nodup_cons.mpr ⟨by simp, ?_⟩
    exact List.Nodup.sublist List.filter_sublist (firsts_nodup l)

theorem firsts_sublist : ∀ (l : List α), (firsts l).Sublist l
  | [] => by simp [firsts]
  | b :: l => (List.filter_sublist.trans (firsts_sublist l)).cons_cons b

theorem firsts_snoc : ∀ (l : List α) (a : α), firsts (l ++ [a]) = if a ∈ l then firsts l else firsts l ++ [a]
  | [], a => by simp [firsts]
  | b :: l, a => by
    rw [List.cons_append]
    unfold firsts
    rw [firsts_snoc l a]
    by_cases h : a ∈ l
    · simp [h]
    · by_cases hb : a = b
      · subst hb; simp [h]
      · simp [h, hb, List.filter_append]

end firsts

theorem findPipeline_some (K : List Agg.ID) (f : Agg.ID → List StoragePolicy) (a : Agg.ID) (h : a ∈ K) :
    ∃ i, findPipeline (K.map fun k => ({ aggID := k, storagePolicies := f k } : PipelineMetadata)) a = some i ∧ K[i]? = some a := by
  unfold findPipeline
  induction K with
  | nil => simp at h
  | cons k K ih =>
    by_cases hk : a = k
    · exact ⟨0, by simp [List.findIdx?_cons, hk], by simp [hk]⟩
    · obtain ⟨i, h1, h2⟩ := ih (by simpa [hk] using h)
      exact ⟨i + 1, by simp [List.findIdx?_cons, hk, h1], by simpa using h2⟩

theorem findPipeline_none (K : List Agg.ID) (f : Agg.ID → List StoragePolicy) (a : Agg.ID) (h : a ∉ K) :
    findPipeline (K.map fun k => ({ aggID := k, storagePolicies := f k } : PipelineMetadata)) a = none := by
  unfold findPipeline
  induction K with
  | nil => rfl
  | cons k K ih =>
    have : a ≠ k := by intro e; simp [e] at h
    simp [List.findIdx?_cons, this, ih (by intro e; simp [e] at h)]

theorem map_set (K : List Agg.ID) (g g' : Agg.ID → PipelineMetadata) (a : Agg.ID) (i : Nat) (hn : K.Nodup) (hi : K[i]? = some a)
    (hg : ∀ k, k ≠ a → g k = g' k) : (K.map g).set i (g' a) = K.map g' := by
  induction K generalizing i with
  | nil => simp at hi
  | cons k K ih =>
    obtain ⟨hk, hn⟩ := List.nodup_cons.mp hn
    cases i with
    | zero =>
      simp at hi
      subst hi
      simp only [List.map_cons, List.set_cons_zero]
      congr 1
      exact List.map_congr_left fun b hb => hg b (by rintro rfl; exact hk hb)
    | succ i =>
      have hi' : K[i]? = some a := by simpa using hi
      have : k ≠ a := by rintro rfl; exact hk (List.mem_of_getElem? hi')
      simp only [List.map_cons, List.set_cons_succ, ih i hn hi', hg k this]

theorem storagesOf_snoc (ps : List Policy) (p : Policy) (id : Agg.ID) :
    storagesOf (ps ++ [p]) id = if p.aggID = id then storagesOf ps id ++ [p.sp] else storagesOf ps id := by
  unfold storagesOf
  by_cases h : p.aggID = id <;> simp [List.filter_append, h]

theorem storagesOf_nil (ps : List Policy) (id : Agg.ID) (h : id ∉ ps.map (·.aggID)) : storagesOf ps id = [] := by
  unfold storagesOf
  rw [List.map_eq_nil_iff, List.filter_eq_nil_iff]
  intro p hp
  simp only [decide_eq_true_eq]
  rintro rfl
  exact h (List.mem_map_of_mem hp)

theorem addPolicy_grouped (ps : List Policy) (p : Policy) : addPolicy (grouped ps) p = grouped (ps ++ [p]) := by
  have hsn := firsts_snoc (ps.map (·.aggID)) p.aggID
  have e : (ps ++ [p]).map (·.aggID) = ps.map (·.aggID) ++ [p.aggID] := by simp
  by_cases h : p.aggID ∈ ps.map (·.aggID)
  · rw [if_pos h] at hsn
    have hm := (mem_firsts (ps.map (·.aggID)) p.aggID).mpr h
    obtain ⟨i, h1, h2⟩ := findPipeline_some _ (fun id => firsts (storagesOf ps id)) _ hm
    have h3 : (grouped ps)[i]? = some { aggID := p.aggID, storagePolicies := firsts (storagesOf ps p.aggID) } := by
      simp [grouped, h2]
    have hf : findPipeline (grouped ps) p.aggID = some i := h1
    simp only [addPolicy, hf, Option.isNone_some, Bool.false_eq_true, if_false, Option.getD_some, h3]
    unfold grouped
    rw [e, hsn]
    by_cases hq : p.sp ∈ storagesOf ps p.aggID
    · have : (firsts (storagesOf ps p.aggID)).any (fun sp => sp == p.sp) = true :=
        List.any_eq_true.mpr ⟨p.sp, (mem_firsts _ _).mpr hq, by simp⟩
      rw [if_pos this]
      refine List.map_congr_left fun id _ => ?_
      rw [storagesOf_snoc]
      by_cases hi : p.aggID = id
      · subst hi; rw [if_pos rfl, firsts_snoc, if_pos hq]
      · rw [if_neg hi]
    · have : ¬ (firsts (storagesOf ps p.aggID)).any (fun sp => sp == p.sp) = true := by
        simp only [List.any_eq_true, beq_iff_eq]
        rintro ⟨b, hb, rfl⟩
        exact hq ((mem_firsts _ _).mp hb)
      rw [if_neg this]
      have hg := map_set (firsts (ps.map (·.aggID)))
        (fun id => { aggID := id, storagePolicies := firsts (storagesOf ps id) })
        (fun id => { aggID := id, storagePolicies := firsts (storagesOf (ps ++ [p]) id) }) p.aggID i (firsts_nodup _) h2
        (by intro k hk; rw [storagesOf_snoc, if_neg fun e => hk e.symm])
      rw [← hg]
      rw [storagesOf_snoc, if_pos rfl, firsts_snoc, if_neg hq]
  · rw [if_neg h] at hsn
    have hm : p.aggID ∉ firsts (ps.map (·.aggID)) := fun hc => h ((mem_firsts _ _).mp hc)
    have hf : findPipeline (grouped ps) p.aggID = none := findPipeline_none _ (fun id => firsts (storagesOf ps id)) _ hm
    simp only [addPolicy, hf, Option.isNone_none, if_true, Option.getD_none, List.length_append, List.length_cons, List.length_nil,
      Nat.zero_add, Nat.add_sub_cancel]
    rw [List.getElem?_append_right (Nat.le_refl _)]
    simp only [Nat.sub_self, List.getElem?_cons_zero, List.any_nil, Bool.false_eq_true, if_false, List.nil_append]
    rw [List.set_append_right _ _ (Nat.le_refl _)]
    simp only [Nat.sub_self, List.set_cons_zero]
    unfold grouped
    rw [e, hsn, List.map_append]
    congr 1
    · refine List.map_congr_left fun id hid => ?_
      rw [storagesOf_snoc, if_neg]
      rintro rfl
      exact hm hid
    · simp [storagesOf_snoc, storagesOf_nil ps _ h, firsts]

/-- C27: the pipelines are the groups of the policies. -/
theorem C27_groups (ps : List Policy) : toMetadata ps = grouped ps := by
  have : ∀ (qs ps : List Policy), qs.foldl addPolicy (grouped ps) = grouped (ps ++ qs) := by
    intro qs
    induction qs with
    | nil => intro ps; simp
    | cons q qs ih => intro ps; rw [List.foldl_cons, addPolicy_grouped, ih]; simp
  have := this ps []
  simpa [grouped, firsts, toMetadata] using this

/-- C27: all stages, with their cutover times and tombstones. -/
theorem C27_staged (pl : List StagedPolicies) : toStagedMetadatas pl = pl.map staged := by
  unfold toStagedMetadatas
  refine List.map_congr_left fun s _ => ?_
  by_cases h : s.policies = []
  · simp [staged, h, defaultPipelineMetadatas]
  · simp [staged, h, C27_groups]

/-- C27 in other words: the pairs of aggregation identifiers and storage policies are those of the policies; no identifier
comes twice, no storage policy comes twice in a pipeline; identifiers and storage policies are in their order. -/
theorem C27_pairs (ps : List Policy) :
    (∀ id sp, (∃ m ∈ toMetadata ps, m.aggID = id ∧ sp ∈ m.storagePolicies) ↔ (⟨sp, id⟩ : Policy) ∈ ps) ∧
    ((toMetadata ps).map (·.aggID)).Nodup ∧ ((toMetadata ps).map (·.aggID)).Sublist (ps.map (·.aggID)) ∧
    (∀ m ∈ toMetadata ps, m.storagePolicies.Nodup ∧ m.storagePolicies ≠ [] ∧ m.storagePolicies.Sublist (ps.map (·.sp)) ∧
      m.pipeline = [] ∧ m.drop = 0) := by
  rw [C27_groups]
  have hid : (grouped ps).map (·.aggID) = firsts (ps.map (·.aggID)) := by simp [grouped, Function.comp_def]
  refine ⟨fun id sp => ?_, by rw [hid]; exact firsts_nodup _, by rw [hid]; exact firsts_sublist _, ?_⟩
  · constructor
    · rintro ⟨m, hm, rfl, hs⟩
      obtain ⟨k, hk, rfl⟩ := List.mem_map.mp hm
      have := (mem_firsts _ _).mp hs
      obtain ⟨q, hq, rfl⟩ := List.mem_map.mp this
      obtain ⟨h1, h2⟩ := List.mem_filter.mp hq
      have h2 : q.aggID = k := of_decide_eq_true h2
      obtain ⟨⟩ := q
      subst h2
      exact h1
    · intro h
      refine ⟨_, List.mem_map.mpr ⟨id, (mem_firsts _ _).mpr (List.mem_map.mpr ⟨_, h, rfl⟩), rfl⟩, rfl, (mem_firsts _ _).mpr ?_⟩
      exact List.mem_map.mpr ⟨_, List.mem_filter.mpr ⟨h, by simp⟩, rfl⟩
  · intro m hm
    obtain ⟨k, hk, rfl⟩ := List.mem_map.mp hm
    refine ⟨firsts_nodup _, ?_, (firsts_sublist _).trans (List.filter_sublist.map _), rfl, rfl⟩
    obtain ⟨q, hq, hqk⟩ := List.mem_map.mp ((mem_firsts _ _).mp hk)
    have : q.sp ∈ firsts (storagesOf ps k) := (mem_firsts _ _).mpr (List.mem_map.mpr ⟨q, List.mem_filter.mpr ⟨hq, by simpa using hqk⟩, rfl⟩)
    intro h
    rw [show firsts (storagesOf ps k) = [] from h] at this
    simp at this

/-- A case with duplicates. -/
example : toStagedMetadatas [{ cutoverNanos := 5, policies :=
      [⟨⟨⟨10, 1⟩, 3⟩, 0⟩, ⟨⟨⟨60, 1⟩, 3⟩, 6⟩, ⟨⟨⟨20, 1⟩, 3⟩, 0⟩, ⟨⟨⟨10, 1⟩, 3⟩, 0⟩, ⟨⟨⟨60, 1⟩, 4⟩, 6⟩] }, { tombstoned := true }] =
    [{ cutoverNanos := 5, pipelines := [{ aggID := 0, storagePolicies := [⟨⟨10, 1⟩, 3⟩, ⟨⟨20, 1⟩, 3⟩] },
        { aggID := 6, storagePolicies := [⟨⟨60, 1⟩, 3⟩, ⟨⟨60, 1⟩, 4⟩] }] },
     { tombstoned := true, pipelines := [{}] }] := by decide +kernel

/-! ### C26 -/

open Verif.Spec.MP (Laws WList)
open Verif.PIter (frame Enough Sent)
open Verif.Spec.Msg (Message received canon)
open Verif.Msg (Union)
open Verif.Wire (PBMetric)

/-- A message of a stream: msgpack, or protobuf with the union it was made from. -/
inductive Item where
  | bare (m : Sample)
  | policies (m : Sample) (pl : List StagedPolicies)
  | protobuf (u : Union) (m : Message) (pb : PBMetric)

/-- The bytes of a message; those of msgpack may have further fields in all objects. -/
def WItem (l : Lib) (x : XTime) (u : Units) (max : Int) : Item → Bytes → Prop
  | .bare m, b => Spec.MP.WItem l x u (.bare m) b
  | .policies m pl, b => Spec.MP.WItem l x u (.policies m pl) b
  | .protobuf un m pb, b => Sent x max un m pb ∧ b = frame pb

/-- Call `Next` at most `n` times, as long as it returns true: the messages and the iterator in the end. -/
def drain (l : Lib) (x : XTime) (u : Units) (fresh : Nat → Nat → Bytes) : Nat → Iter → Out (List (Option Message) × Iter)
  | 0, it => .ok ([], it)
  | n + 1, it => match next l x u (fresh n) it with
    | .panic => .panic
    | .err => .err
    | .ok (false, it) => .ok ([], it)
    | .ok (true, it) => match drain l x u fresh n it with
      | .panic => .panic
      | .err => .err
      | .ok (r, it') => .ok (Spec.Msg.view it.msg :: r, it')

/-- What is read, if the last policies list was `pl`. -/
def expect : List Item → List StagedPolicies → List (Option Message)
  | [], _ => []
  | .bare m :: is, pl => some (message m pl) :: expect is pl
  | .policies m pl :: is, _ => some (message m pl) :: expect is pl
  | .protobuf _ m _ :: is, pl => some (received (canon m)) :: expect is pl

/-- The iterator is in order and about to read `b`; the last policies list was `pl`. -/
structure At (max : Int) (it : Iter) (b : Bytes) (pl : List StagedPolicies) : Prop where
  reader : it.reader = b
  closed : it.closed = false
  err : it.err = none
  msgpack : ∃ mp : MP.Iter, it.msgpackIt = some mp ∧ mp.base.err = none ∧ mp.closed = false ∧ mp.policiesList = pl
  protobuf : ∃ pb : PIter.Iter, it.protobufIt = some pb ∧ pb.err = none ∧ pb.closed = false ∧ pb.maxMessageSize = max

theorem at_new (b : Bytes) (ig : Bool) (max : Int) (buf : Bytes) : At max (new b ig max buf) b [] :=
  ⟨rfl, rfl, rfl, ⟨_, rfl, rfl, rfl, rfl⟩, ⟨_, rfl, rfl, rfl, rfl⟩⟩

theorem At.error {max : Int} {it : Iter} (h : At max it b pl) : it.error = .ok none := by
  obtain ⟨mp, h1, h2, -⟩ := h.msgpack
  obtain ⟨pb, h3, h4, -⟩ := h.protobuf
  simp [Iter.error, h.err, h1, h2, h3, h4]

theorem At.next {max : Int} {it : Iter} (h : At max it b pl) (hr : it.reader = c :: r) :
    next l x u fresh it = if isProtobuf c then nextProtobuf x fresh it else nextMsgpack l x u it := by
  unfold Mig.next
  rw [h.closed, h.error, hr]
  rfl

theorem toUnion_store (m : Sample) (u : Msg.MetricUnion) (pl : List StagedPolicies) :
    ∃ un, toUnion (MP.store m u) pl = some un ∧ Spec.Msg.view un = some (message m pl) := by
  have e := C27_staged pl
  cases m <;> exact ⟨_, rfl, by rw [e]; rfl⟩

theorem frame_even (pb : PBMetric) : ∃ c r, frame pb = c :: r ∧ isProtobuf c = true := by
  unfold frame PIter.putVarint Wire.encodeVarint PIter.zigzag
  rw [if_neg (by omega)]
  generalize (Wire.metricWithMetadatas.size pb) = n
  have h2 : (2 * (n : Int)).toNat = 2 * n := by omega
  rw [h2]
  unfold Wire.encLoop
  have he : ∀ k : Nat, isProtobuf (UInt8.ofNat (2 * k)) = true := by
    intro k
    unfold isProtobuf
    have : (UInt8.ofNat (2 * k) &&& 1).toNat = 0 := by
      rw [UInt8.toNat_and, show (1 : UInt8).toNat = 1 from rfl, Nat.and_one_is_mod, UInt8.toNat_ofNat']
      omega
    rw [show UInt8.ofNat (2 * k) &&& 1 = 0 from UInt8.toNat.inj this]
    rfl
  split
  · refine ⟨_, _, rfl, ?_⟩
    rw [show 2 * n % 128 + 128 = 2 * (n % 64 + 64) by omega]
    exact he _
  · exact ⟨_, _, rfl, he _⟩

variable {l : Lib} (L : Laws l) {x : XTime} {u : Units}
include L

theorem msgpack_odd (b : Bytes) (h : ∃ r, b = l.putInt 1 ++ r) : ∃ c r', b = c :: r' ∧ isProtobuf c = false := by
  obtain ⟨r, h⟩ := h
  have : l.putInt 1 = [1] := L.intSmall 1 (by decide)
  exact ⟨1, r, by rw [h, this]; rfl, by decide⟩

theorem next_msgpack {max : Int} {it : Iter} {fresh : Nat → Bytes} {c : UInt8} {r' : Bytes} (ha : At max it b pl) (hb : b = c :: r')
    (hc : isProtobuf c = false) {m : Sample} {r : Bytes} {pl' : List StagedPolicies}
    (h : ∀ it : MP.Iter, it.base = ⟨b, none⟩ → it.closed = false → it.policiesList = pl →
      ∃ mp, MP.next l x u it = (true, mp) ∧ mp.base = ⟨r, none⟩ ∧ mp.closed = false ∧ mp.policiesList = pl' ∧
        ∃ un, mp.metric = MP.store m un) :
    ∃ it', next l x u fresh it = .ok (true, it') ∧ At max it' r pl' ∧ Spec.Msg.view it'.msg = some (message m pl') := by
  obtain ⟨mp, h1, h2, h3, h4⟩ := ha.msgpack
  obtain ⟨mp', g1, g2, g3, g4, un, g5⟩ := h { mp with base := ⟨it.reader, mp.base.err⟩ } (by simp [ha.reader, h2]) h3 h4
  obtain ⟨w, e1, e2⟩ := toUnion_store m un pl'
  have hr : it.reader = c :: r' := by rw [ha.reader, hb]
  refine ⟨{ it with reader := r, msgpackIt := some mp', msg := w }, ?_, ⟨rfl, ha.closed, ha.err, ⟨mp', rfl, ?_, g3, g4⟩, ha.protobuf⟩, e2⟩
  · have hq : nextMsgpack l x u it = .ok (true, { it with reader := r, msgpackIt := some mp', msg := w }) := by
      simp only [nextMsgpack, h1, g1, if_true, g5, g4, e1, g2]
    rw [ha.next hr, hc, ← hq]
    rfl
  · rw [g2]

/-- C26: every message of a stream of both protocols is read by the iterator of its protocol and delivered, in order; then
the stream ends.  (A msgpack message without policies is delivered with those of the msgpack message before it: C25.) -/
theorem C26_stream (max : Int) (fresh : Nat → Nat → Bytes) (hf : ∀ k, Enough (fresh k)) :
    ∀ (is : List Item) (b : Bytes), WList (WItem l x u max) is b → ∀ (it : Iter) (pl : List StagedPolicies), At max it b pl →
      ∀ n, is.length < n →
      ∃ it', drain l x u fresh n it = .ok (expect is pl, it') ∧ it'.error = .ok (some .eof) := by
  intro is
  induction is with
  | nil =>
    intro b hb it pl ha n hn
    cases hb
    cases n with
    | zero => omega
    | succ n =>
      refine ⟨{ it with err := some .eof }, ?_, rfl⟩
      have : next l x u (fresh n) it = .ok (false, { it with err := some .eof }) := by
        unfold next
        rw [ha.closed, ha.error, ha.reader]
        rfl
      simp only [drain, this]
      rfl
  | cons i is ih =>
    intro b hb it pl ha n hn
    obtain ⟨ab, rest, hi, hr, rfl⟩ := hb
    cases n with
    | zero => omega
    | succ n =>
      have hn' : is.length < n := by simpa using hn
      cases i with
      | bare m =>
        obtain ⟨c, r', e, hc⟩ := msgpack_odd L (ab ++ rest) (by
          obtain ⟨mb, body, hm, ho, rfl⟩ := hi; exact ⟨_, List.append_assoc ..⟩)
        obtain ⟨it', g1, g2, g3⟩ := next_msgpack (fresh := fresh n) (x := x) (u := u) (m := m) (r := rest) (pl' := pl) L ha e hc
          fun mp k1 k2 k3 => ⟨_, MP.nextLoop_bare L _ hi rest mp k1 k2, rfl, k2, k3, _, rfl⟩
        obtain ⟨it'', f1, f2⟩ := ih rest hr it' pl g2 n hn'
        exact ⟨it'', by simp only [drain, g1, f1, g3, expect], f2⟩
      | policies m pl' =>
        obtain ⟨c, r', e, hc⟩ := msgpack_odd L (ab ++ rest) (by
          obtain ⟨mb, pb, ob, body, hm, hp, ho, hq, rfl⟩ := hi; exact ⟨_, List.append_assoc ..⟩)
        obtain ⟨it', g1, g2, g3⟩ := next_msgpack (fresh := fresh n) (x := x) (u := u) (m := m) (r := rest) (pl' := pl') L ha e hc
          fun mp k1 k2 k3 => ⟨_, MP.nextLoop_policies L _ hi rest mp k1 k2, rfl, k2, rfl, _, rfl⟩
        obtain ⟨it'', f1, f2⟩ := ih rest hr it' pl' g2 n hn'
        exact ⟨it'', by simp only [drain, g1, f1, g3, expect], f2⟩
      | protobuf un m pb =>
        obtain ⟨hs, rfl⟩ := hi
        obtain ⟨c, r', e, hc⟩ := frame_even pb
        obtain ⟨pi, h1, h2, h3, h4⟩ := ha.protobuf
        obtain ⟨pi', g1, g2, g3, g4, g5, g6⟩ := PIter.next_frame (x := x) (hf n) (it := { pi with reader := it.reader }) h2 h3
          (u := un) (m := m) (pb := pb) (h4 ▸ hs) (tail := rest) ha.reader
        have hr' : it.reader = c :: (r' ++ rest) := by rw [ha.reader, e]; rfl
        have hq : nextProtobuf x (fresh n) it = .ok (true, { it with reader := rest, protobufIt := some pi', msg := pi'.msg }) := by
          simp only [nextProtobuf, h1, g1, g2, if_true]
        have e1 : next l x u (fresh n) it = .ok (true, { it with reader := rest, protobufIt := some pi', msg := pi'.msg }) := by
          rw [ha.next hr', hc, ← hq]
          rfl
        obtain ⟨it'', f1, f2⟩ := ih rest hr { it with reader := rest, protobufIt := some pi', msg := pi'.msg } pl
          ⟨rfl, ha.closed, ha.err, ha.msgpack, ⟨pi', rfl, g3, g4, g5.trans h4⟩⟩ n hn'
        exact ⟨it'', by simp only [drain, e1, f1, g6, expect], f2⟩

omit L

/-- The message on its own. -/
def itemMessage : Item → Message
  | .bare m => message m []
  | .policies m pl => message m pl
  | .protobuf _ m _ => received (canon m)

include L

/-- C26, as far as it holds: if the msgpack messages carry policies lists, or none does, what is read is the sequence of the
messages as they are on their own. -/
theorem C26_partial (max : Int) (fresh : Nat → Nat → Bytes) (hf : ∀ k, Enough (fresh k)) (is : List Item) (b : Bytes)
    (hb : WList (WItem l x u max) is b) (ig : Bool) (buf : Bytes)
    (hp : (∀ i ∈ is, ∀ m, i ≠ .bare m) ∨ (∀ i ∈ is, ∀ m pl, i ≠ .policies m pl)) :
    ∃ it', drain l x u fresh (is.length + 1) (new b ig max buf) = .ok (is.map fun i => some (itemMessage i), it') ∧
      it'.error = .ok (some .eof) := by
  obtain ⟨it', h1, h2⟩ := C26_stream L max fresh hf is b hb _ [] (at_new b ig max buf) (is.length + 1) (by omega)
  refine ⟨it', ?_, h2⟩
  rw [h1]
  have e : expect is [] = is.map fun i => some (itemMessage i) := by
    clear h1 h2 hb
    rcases hp with hp | hp
    · generalize ([] : List StagedPolicies) = pl
      induction is generalizing pl with
      | nil => rfl
      | cons i is ih =>
        have hi := hp i (by simp)
        cases i with
        | bare m => exact absurd rfl (hi m)
        | policies m pl' => simp only [expect, List.map_cons, itemMessage, ih fun j hj => hp j (by simp [hj])]
        | protobuf un m pb => simp only [expect, List.map_cons, itemMessage, ih fun j hj => hp j (by simp [hj])]
    · induction is with
      | nil => rfl
      | cons i is ih =>
        have hi := hp i (by simp)
        cases i with
        | bare m => simp only [expect, List.map_cons, itemMessage, ih fun j hj => hp j (by simp [hj])]
        | policies m pl' => exact absurd rfl (hi m pl')
        | protobuf un m pb => simp only [expect, List.map_cons, itemMessage, ih fun j hj => hp j (by simp [hj])]
  rw [e]

omit L

/-! ### Concrete cases -/

open Verif.MP (std std_laws exU exPolicies)
open Verif.PIter (exPB exPool exPool_enough exUnion exUnion_sent)

def exMessage : Message := .counter ⟨{ id := bs "a", value := -3 }, Msg.exStaged⟩

def exMixed : List Item :=
  [.policies (.counter ⟨bs "foo", -1234⟩) exPolicies, .protobuf exUnion exMessage exPB, .protobuf exUnion exMessage exPB,
   .policies (.gauge ⟨bs "g", 5⟩) [{}]]

def exBytes : Bytes := MP.encodeMetricWithPolicies std exU false exPolicies (.counter ⟨bs "foo", -1234⟩) ++ (frame exPB ++ (frame exPB ++
  (MP.encodeMetricWithPolicies std exU false [{}] (.gauge ⟨bs "g", 5⟩) ++ [])))

/-- The messages of a run, if it does not panic. -/
def seen (o : Out (List (Option Message) × Iter)) : List (Option Message) := match o with
  | .ok r => r.1
  | _ => []

/-- C26 on a stream of four messages, by its hypotheses and by its bytes. -/
example : WList (WItem std unitX exU 1000) exMixed exBytes := by
  refine ⟨_, _, MP.encodeMetricWithPolicies_w (m := .counter ⟨bs "foo", -1234⟩) ⟨by unfold Spec.MP.Len; decide, by constructor <;> decide⟩ ⟨by unfold Spec.MP.Len; decide, ?_⟩ false,
    ⟨_, _, ⟨exUnion_sent, rfl⟩, ⟨_, _, ⟨exUnion_sent, rfl⟩, ⟨_, _, MP.encodeMetricWithPolicies_w (by show Spec.MP.Len _; unfold Spec.MP.Len; decide)
      ⟨by unfold Spec.MP.Len; decide, ?_⟩ false, rfl, rfl⟩, rfl⟩, rfl⟩, rfl⟩
  · intro s hs
    simp only [exPolicies, List.mem_cons, List.not_mem_nil, or_false] at hs
    rcases hs with rfl | rfl
    · refine ⟨by constructor <;> decide, by unfold Spec.MP.Len; decide, fun p hp => ?_⟩
      simp only [List.mem_cons, List.not_mem_nil, or_false] at hp
      rcases hp with rfl | rfl <;>
        exact ⟨.inl ⟨by constructor <;> decide, by constructor <;> decide⟩, by constructor <;> decide⟩
    · exact ⟨by constructor <;> decide, by unfold Spec.MP.Len; decide, fun p hp => by simp at hp⟩
  · intro s hs
    simp only [List.mem_cons, List.not_mem_nil, or_false] at hs
    subst hs
    exact ⟨by constructor <;> decide, by unfold Spec.MP.Len; decide, fun p hp => by simp at hp⟩

example : seen (drain std unitX exU (fun _ => exPool) 9 (new exBytes false 1000 [])) = exMixed.map fun i => some (itemMessage i) := by
  decide +kernel

/-- A msgpack message of a version. -/
def exHigher (v : Int) : Bytes := std.putInt v ++ (std.putArrayLen 1 ++ (std.putBool true ++ []))

theorem exHigher_w (v : Int) (h : 1 < v) (hi : Spec.Msg.Int64 v) : Spec.MP.WItem std unitX exU (.higher v) (exHigher v) :=
  ⟨h, hi, 1, _, by unfold Spec.MP.Len; decide, .cons _ _ _ (.bool true) .nil, rfl⟩

/-- C26 does not hold for messages without policies, as C25. -/
theorem C26_violation_bare : ∃ (pl : List StagedPolicies) (m m' : Sample),
    seen (drain std unitX exU (fun _ => exPool) 9 (new (MP.encodeMetricWithPolicies std exU false pl m ++ MP.encodeMetric std false m')
      false 1000 [])) ≠ [some (message m pl), some (message m' [])] ∧
    seen (drain std unitX exU (fun _ => exPool) 9 (new (MP.encodeMetric std false m') false 1000 [])) = [some (message m' [])] :=
  ⟨exPolicies, .counter ⟨bs "foo", -1234⟩, .gauge ⟨bs "g", 5⟩, by decide +kernel, by decide +kernel⟩

/-- C26 does not hold for msgpack messages of later versions: if the version is even, the message is taken for protobuf; the msgpack
iterator by itself passes over it. -/
theorem C26_violation_even : ∃ (m : Sample) (pl : List StagedPolicies),
    seen (drain std unitX exU (fun _ => exPool) 9 (new (exHigher 2 ++ MP.encodeMetricWithPolicies std exU false pl m) true 1000 [])) = [] ∧
    (MP.drain std unitX exU 9 (MP.new (exHigher 2 ++ MP.encodeMetricWithPolicies std exU false pl m) true)).1 = [(some m, pl)] :=
  ⟨.gauge ⟨bs "g", 5⟩, exPolicies, by decide +kernel, by decide +kernel⟩

/-- If it is odd, the message after it is taken for msgpack; a protobuf message is lost. -/
theorem C26_violation_odd :
    seen (drain std unitX exU (fun _ => exPool) 9 (new (exHigher 3 ++ frame exPB) true 1000 [])) = [] ∧
    seen (drain std unitX exU (fun _ => exPool) 9 (new (frame exPB) true 1000 [])) = [some exMessage] :=
  ⟨by decide +kernel, by decide +kernel⟩

/-- Besides: `Err` panics after `Close`. -/
theorem C26_closed_panics (it : Iter) (h : it.closed = false) : (close it).error = .panic ∧
    next l x u fresh (close it) = .ok (false, close it) := by
  simp [close, h, Iter.error, next]

end Verif.Mig
