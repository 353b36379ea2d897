import Verif.Props.Migration
import Verif.Props.Messages
/-
C118: a sender of metrics with policies may change from msgpack to protobuf, message by message: the receiver gets the same.
-/
namespace Verif.Mig
open Verif.Policy Verif.Meta Verif.Spec.Mig
open Verif.MP (StagedPolicies Lib Units Sample)
open Verif.Spec.MP (Laws WList Writable WritablePolicies KnownResolution)
open Verif.PIter (frame Enough Sent)
open Verif.Spec.Msg (Message received canon Fits InRange Form)
open Verif.Msg (Union)
open Verif.Wire (PBMetric)

/-- The bytes of a metric with policies: a msgpack message with the policies, or a protobuf message with the metadata that
they mean. -/
def Sends (l : Lib) (x : XTime) (u : Units) (max : Int) (s : Sample × List StagedPolicies) (b : Bytes) : Prop :=
  Spec.MP.WItem l x u (.policies s.1 s.2) b ∨ ∃ un pb, Sent x max un (message s.1 s.2) pb ∧ b = frame pb

/-- Its value is not a negative zero, if it is a gauge. -/
def Plain : Sample → Prop
  | .gauge g => g.value ≠ 0x8000000000000000
  | _ => True

/-- Each metric is delivered with the metadata that its policies mean, possibly without the sign of a zero gauge. -/
inductive Delivered : List (Sample × List StagedPolicies) → List (Option Message) → Prop
  | nil : Delivered [] []
  | cons {s : Sample × List StagedPolicies} {o : Option Message} {ms : List (Sample × List StagedPolicies)} {rs : List (Option Message)} :
      o = some (message s.1 s.2) ∨ o = some (received (message s.1 s.2)) → Delivered ms rs → Delivered (s :: ms) (o :: rs)

theorem canon_staged (s : StagedPolicies) : Spec.Msg.canonStaged (staged s) = staged s := by
  unfold Spec.Msg.canonStaged staged
  by_cases h : s.policies = []
  · simp [h]
  · simp only [h, if_false]
    simp [grouped]

theorem canon_message (m : Sample) (pl : List StagedPolicies) : canon (message m pl) = message m pl := by
  have h : (pl.map staged).map Spec.Msg.canonStaged = pl.map staged := by
    rw [List.map_map]
    exact List.map_congr_left fun s _ => canon_staged s
  cases m <;> simp only [canon, message, h]

theorem received_plain {m : Sample} (h : Plain m) (pl : List StagedPolicies) : received (message m pl) = message m pl := by
  cases m with
  | counter c => rfl
  | timer t => rfl
  | gauge g =>
    have : Spec.Msg.plainZero g.value = g.value := if_neg h
    simp only [received, message, this]

theorem received_idem (m : Message) : received (received m) = received m := by
  have h : ∀ v, Spec.Msg.plainZero (Spec.Msg.plainZero v) = Spec.Msg.plainZero v := by
    intro v
    unfold Spec.Msg.plainZero
    by_cases e : v = 0x8000000000000000
    · subst e; decide
    · rw [if_neg e, if_neg e]
  cases m <;> simp only [received, h]

theorem sends_items {l : Lib} {x : XTime} {u : Units} {max : Int} : ∀ (ms : List (Sample × List StagedPolicies)) (b : Bytes),
    WList (Sends l x u max) ms b → ∃ is, WList (WItem l x u max) is b ∧ is.length = ms.length ∧
      ∀ pl, Delivered ms (expect is pl) := by
  intro ms
  induction ms with
  | nil =>
    intro b hb
    exact ⟨[], hb, rfl, fun _ => .nil⟩
  | cons s ms ih =>
    intro b hb
    obtain ⟨ab, rest, hi, hr, rfl⟩ := hb
    obtain ⟨is, h1, h2, h3⟩ := ih rest hr
    rcases hi with hi | ⟨un, pb, hs, rfl⟩
    · exact ⟨.policies s.1 s.2 :: is, ⟨ab, rest, hi, h1, rfl⟩, by simp [h2], fun _ => .cons (.inl rfl) (h3 _)⟩
    · refine ⟨.protobuf un _ pb :: is, ⟨_, rest, ⟨hs, rfl⟩, h1, rfl⟩, by simp [h2], fun _ => .cons (.inr (by rw [canon_message])) (h3 _)⟩

/-- C118: whichever protocol each of the metrics with policies is sent in, all are delivered, in order, each with the metadata
that its policies mean; only the sign of a zero gauge may be lost. Then the stream ends. -/
theorem C118_delivered {l : Lib} (L : Laws l) {x : XTime} {u : Units} (max : Int) (fresh : Nat → Nat → Bytes)
    (hf : ∀ k, Enough (fresh k)) (ms : List (Sample × List StagedPolicies)) (b : Bytes) (hb : WList (Sends l x u max) ms b)
    (ig : Bool) (buf : Bytes) (n : Nat) (hn : ms.length < n) :
    ∃ rs it', drain l x u fresh n (new b ig max buf) = .ok (rs, it') ∧ it'.error = .ok (some .eof) ∧
      Delivered ms rs := by
  obtain ⟨is, h1, h2, h3⟩ := sends_items ms b hb
  obtain ⟨it', g1, g2⟩ := C26_stream L max fresh hf is b h1 _ [] (at_new b ig max buf) n (by omega)
  exact ⟨_, it', g1, g2, h3 []⟩

/-- C118: two senders that choose the protocols differently are not told apart, up to the sign of a zero gauge; and not at all
if no gauge is a negative zero. -/
theorem C118_same {l : Lib} (L : Laws l) {x : XTime} {u : Units} (max max' : Int) (fresh fresh' : Nat → Nat → Bytes)
    (hf : ∀ k, Enough (fresh k)) (hf' : ∀ k, Enough (fresh' k)) (ms : List (Sample × List StagedPolicies)) (b b' : Bytes)
    (hb : WList (Sends l x u max) ms b) (hb' : WList (Sends l x u max') ms b') (ig ig' : Bool) (buf buf' : Bytes) (n : Nat)
    (hn : ms.length < n) :
    ∃ rs rs' it it', drain l x u fresh n (new b ig max buf) = .ok (rs, it) ∧ drain l x u fresh' n (new b' ig' max' buf') = .ok (rs', it') ∧
      it.error = it'.error ∧ rs.map (·.map received) = rs'.map (·.map received) ∧
      ((∀ s ∈ ms, Plain s.1) → rs = ms.map (fun s => some (message s.1 s.2)) ∧ rs' = rs) := by
  obtain ⟨rs, it, h1, h2, h3⟩ := C118_delivered L max fresh hf ms b hb ig buf n hn
  obtain ⟨rs', it', g1, g2, g3⟩ := C118_delivered L max' fresh' hf' ms b' hb' ig' buf' n hn
  have hrec : ∀ {ms : List (Sample × List StagedPolicies)} {rs : List (Option Message)},
      Delivered ms rs →
      rs.map (·.map received) = ms.map fun s => some (received (message s.1 s.2)) := by
    intro ms rs h
    induction h with
    | nil => rfl
    | cons h _ ih =>
      rw [List.map_cons, List.map_cons, ih]
      rcases h with h | h <;> simp [h, received_idem]
  have hpl : ∀ {ms : List (Sample × List StagedPolicies)} {rs : List (Option Message)}, (∀ s ∈ ms, Plain s.1) →
      Delivered ms rs →
      rs = ms.map fun s => some (message s.1 s.2) := by
    intro ms rs hp h
    induction h with
    | nil => rfl
    | cons h _ ih =>
      rw [List.map_cons, ← ih fun s hs => hp s (by simp [hs])]
      rcases h with h | h
      · rw [h]
      · rw [h, received_plain (hp _ (by simp))]
  exact ⟨rs, rs', it, it', h1, g1, by rw [h2, g2], by rw [hrec h3, hrec g3], fun hp => ⟨hpl hp h3, by rw [hpl hp h3, hpl hp g3]⟩⟩

/-- The units of time are told apart by their lengths, which are numbers of the language; those of the known resolutions are
among them. So it is in the library. -/
structure UnitsKnown (x : XTime) (u : Units) : Prop where
  back : ∀ p d, x.unitValue p = some d → x.unitFromDuration d = some p ∧ Spec.Msg.Int64 d
  known : ∀ r ∈ KnownResolution u, ∃ d, x.unitValue r.2.precision = some d

/-- What is said of the storage policies of the policies holds for those of the pipelines made from them. -/
theorem staged_policies {P : StoragePolicy → Prop} {s : StagedPolicies} (h : ∀ p ∈ s.policies, P p.sp) :
    ∀ m ∈ (staged s).pipelines, (∀ q ∈ m.storagePolicies, P q) ∧ m.pipeline = [] ∧ m.drop = 0 := by
  intro m hm
  unfold staged at hm
  by_cases e : s.policies = []
  · simp only [e, if_true, List.mem_singleton] at hm
    subst hm
    exact ⟨fun q hq => by simp at hq, rfl, rfl⟩
  · simp only [e, if_false, grouped] at hm
    obtain ⟨k, -, rfl⟩ := List.mem_map.mp hm
    refine ⟨fun q hq => ?_, rfl, rfl⟩
    obtain ⟨p, hp, rfl⟩ := List.mem_map.mp ((mem_firsts _ _).mp hq)
    exact h p (List.mem_filter.mp hp).1

/-- C118: every metric with policies that can be written as msgpack can be sent as protobuf, unless it is too large. -/
theorem C118_can {x : XTime} {u : Units} (hx : UnitsKnown x u) (p : PBuf.Protos) {m : Sample} {pl : List StagedPolicies}
    (hm : Writable m) (hp : WritablePolicies x u pl) :
    ∃ un pb, PBuf.toPB x p un = some pb ∧ Spec.Msg.view un = some (message m pl) ∧
      ∀ max : Int, (Wire.metricWithMetadatas.size pb : Int) ≤ max → max < 9223372036854775808 → Sent x max un (message m pl) pb := by
  have hsp : ∀ s ∈ pl, ∀ q ∈ s.policies, Spec.Msg.PolicyForm x q.sp ∧ Spec.Msg.PolicyRange x q.sp := by
    intro s hs q hq
    obtain ⟨h1, h2⟩ := (hp.2 s hs).2.2 q hq
    refine ⟨?_, ?_, h2, fun d hd => (hx.back _ d hd).2⟩
    · rcases h1 with ⟨-, -, h⟩ | ⟨v, h⟩
      · exact Option.isSome_iff_exists.mp h
      · exact hx.known _ h
    · rcases h1 with ⟨h, -⟩ | ⟨v, h⟩
      · exact h
      · simp only [KnownResolution, List.mem_cons, List.not_mem_nil, or_false, Prod.mk.injEq] at h
        rcases h with ⟨-, h⟩ | ⟨-, h⟩ | ⟨-, h⟩ | ⟨-, h⟩ | ⟨-, h⟩ <;> rw [h] <;> constructor <;> simp
  have hform : ∀ s ∈ pl.map staged, Spec.Msg.StagedForm x s := by
    intro s hs
    obtain ⟨s, h, rfl⟩ := List.mem_map.mp hs
    intro m hm
    obtain ⟨h1, h2, -⟩ := staged_policies (P := fun q => Spec.Msg.PolicyForm x q ∧ Spec.Msg.PolicyRange x q) (hsp s h) m hm
    exact ⟨fun q hq => (h1 q hq).1, fun o ho => by rw [h2] at ho; simp at ho⟩
  have hrange : ∀ s ∈ pl.map staged, Spec.Msg.StagedRange x s := by
    intro s hs
    obtain ⟨s, h, rfl⟩ := List.mem_map.mp hs
    exact ⟨(hp.2 s h).1, fun m hm q hq => ((staged_policies (P := fun q => Spec.Msg.PolicyForm x q ∧ Spec.Msg.PolicyRange x q) (hsp s h) m hm).1 q hq).2⟩
  have hfits : ∀ s ∈ pl.map staged, ∀ m ∈ s.pipelines,
      (∀ q ∈ m.storagePolicies, Fits.UnitOK x q.resolution.precision) ∧ m.drop < 2 ^ 31 := by
    intro s hs m hm
    obtain ⟨s, h, rfl⟩ := List.mem_map.mp hs
    exact ⟨fun q _ d hd => (hx.back _ d hd).1, by rw [(staged_policies (P := fun q => Spec.Msg.PolicyForm x q ∧ Spec.Msg.PolicyRange x q) (hsp s h) m hm).2.2]; decide⟩
  obtain ⟨f1, f2, f3, -⟩ := Msg.C65_toProto x
  cases m with
  | counter c =>
    obtain ⟨pb, e⟩ := Option.isSome_iff_exists.mp ((f1 p.cm ⟨c, pl.map staged⟩).mpr hform)
    exact ⟨{ type := 1, counter := ⟨c, pl.map staged⟩ }, { type := 1, counter := some pb }, by simp [PBuf.toPB, e], rfl,
      fun max h1 h2 => ⟨rfl, hfits, ⟨hm.2, hrange⟩, ⟨p, by simp [PBuf.toPB, e]⟩, h1, by omega⟩⟩
  | timer t =>
    obtain ⟨pb, e⟩ := Option.isSome_iff_exists.mp ((f2 p.bm ⟨t, pl.map staged⟩).mpr hform)
    exact ⟨{ type := 2, batchTimer := ⟨t, pl.map staged⟩ }, { type := 2, batchTimer := some pb }, by simp [PBuf.toPB, e], rfl,
      fun max h1 h2 => ⟨rfl, hfits, hrange, ⟨p, by simp [PBuf.toPB, e]⟩, h1, by omega⟩⟩
  | gauge g =>
    obtain ⟨pb, e⟩ := Option.isSome_iff_exists.mp ((f3 p.gm ⟨g, pl.map staged⟩).mpr hform)
    exact ⟨{ type := 3, gauge := ⟨g, pl.map staged⟩ }, { type := 3, gauge := some pb }, by simp [PBuf.toPB, e], rfl,
      fun max h1 h2 => ⟨rfl, hfits, hrange, ⟨p, by simp [PBuf.toPB, e]⟩, h1, by omega⟩⟩

/-! ### A case -/

/-- Seconds and minutes. -/
def minuteX : XTime where
  unitValue u := if u = 1 then some 1000000000 else if u = 5 then some 60000000000 else none
  unitFromDuration d := if d = 1000000000 then some 1 else if d = 60000000000 then some 5 else none
  maxUnit _ := 1
  extString _ := []
  parseExt _ := none
  unitString _ := []

open Verif.MP (std std_laws exU exPolicies)
open Verif.PIter (exPool exPool_enough)
open Verif.Meta (unitX)

example : UnitsKnown minuteX exU where
  back p d h := by
    unfold minuteX at h ⊢
    simp only at h ⊢
    by_cases h1 : p = 1
    · subst h1
      simp only [if_true, Option.some.injEq] at h
      subst h
      exact ⟨rfl, by decide, by decide⟩
    · rw [if_neg h1] at h
      by_cases h5 : p = 5
      · subst h5
        simp only [if_true, Option.some.injEq] at h
        subst h
        exact ⟨by decide, by decide, by decide⟩
      · rw [if_neg h5] at h
        cases h
  known r h := by
    simp only [KnownResolution, List.mem_cons, List.not_mem_nil, or_false] at h
    rcases h with rfl | rfl | rfl | rfl | rfl
    · exact ⟨1000000000, rfl⟩
    · exact ⟨1000000000, rfl⟩
    · exact ⟨60000000000, rfl⟩
    · exact ⟨60000000000, rfl⟩
    · exact ⟨60000000000, rfl⟩

/-- A gauge with policies, and the union and the protobuf message that say the same. -/
def exGauge (v : Wire.F64) : Sample × List StagedPolicies := (.gauge ⟨bs "g", v⟩, exPolicies)

def exGaugeUnion (v : Wire.F64) : Union := { type := 3, gauge := ⟨⟨bs "g", v⟩, exPolicies.map staged⟩ }

def exGaugePB (v : Wire.F64) : PBMetric :=
  (PBuf.toPB unitX ⟨⟨{}, []⟩, ⟨{}, []⟩, ⟨{}, []⟩, ⟨{}, {}⟩, ⟨{}, {}⟩⟩ (exGaugeUnion v)).getD {}

def exGaugeMsgpack (v : Wire.F64) : Bytes := MP.encodeMetricWithPolicies std exU false exPolicies (.gauge ⟨bs "g", v⟩)

theorem exGauge_msgpack (v : Wire.F64) : Sends std unitX exU 1000 (exGauge v) (exGaugeMsgpack v) := by
  refine .inl (MP.encodeMetricWithPolicies_w (by show Spec.MP.Len _; unfold Spec.MP.Len; simp only; decide)
    ⟨by show exPolicies.length < 4294967296; decide, fun s hs => ?_⟩ false)
  simp only [exGauge, exPolicies, List.mem_cons, List.not_mem_nil, or_false] at hs
  rcases hs with rfl | rfl
  · refine ⟨by constructor <;> decide, by unfold Spec.MP.Len; decide, fun p hp => ?_⟩
    simp only [List.mem_cons, List.not_mem_nil, or_false] at hp
    rcases hp with rfl | rfl <;>
      exact ⟨.inl ⟨by constructor <;> decide, by constructor <;> decide⟩, by constructor <;> decide⟩
  · exact ⟨by constructor <;> decide, by unfold Spec.MP.Len; decide, fun p hp => by simp at hp⟩

theorem exGauge_protobuf {v : Wire.F64} (hv : v = 5 ∨ v = 0x8000000000000000) :
    Sends std unitX exU 1000 (exGauge v) (frame (exGaugePB v)) := by
  refine .inr ⟨exGaugeUnion v, _, ⟨rfl, ?_, ?_, ⟨⟨⟨{}, []⟩, ⟨{}, []⟩, ⟨{}, []⟩, ⟨{}, {}⟩, ⟨{}, {}⟩⟩, ?_⟩, ?_, ?_⟩, rfl⟩
  · simp [exGauge, message, Fits, Fits.UnitOK, exPolicies, unitX, staged, grouped, firsts, storagesOf]
  · simp [exGauge, message, InRange, Spec.Msg.StagedRange, Spec.Msg.PolicyRange, Spec.Msg.Int64, exPolicies, unitX, staged, grouped, firsts,
      storagesOf]
  all_goals rcases hv with rfl | rfl <;> decide +kernel

/-- C118 on a stream of two messages, in either order of the protocols. -/
example : WList (Sends std unitX exU 1000) [exGauge 5, exGauge 5] (exGaugeMsgpack 5 ++ (frame (exGaugePB 5) ++ [])) ∧
    WList (Sends std unitX exU 1000) [exGauge 5, exGauge 5] (frame (exGaugePB 5) ++ (exGaugeMsgpack 5 ++ [])) ∧
    ∀ s ∈ [exGauge 5, exGauge 5], Plain s.1 :=
  ⟨⟨_, _, exGauge_msgpack 5, ⟨_, _, exGauge_protobuf (.inl rfl), rfl, rfl⟩, rfl⟩,
    ⟨_, _, exGauge_protobuf (.inl rfl), ⟨_, _, exGauge_msgpack 5, rfl, rfl⟩, rfl⟩, fun s hs => by
      simp only [List.mem_cons, List.not_mem_nil, or_false, or_self] at hs
      subst hs
      show (5 : Wire.F64) ≠ 0x8000000000000000
      decide⟩

/-- C118: the sign of a zero gauge is lost by the change, so without the restriction it would not hold. -/
theorem C118_zero : ∃ (s : Sample × List StagedPolicies) (b b' : Bytes), Sends std unitX exU 1000 s b ∧ Sends std unitX exU 1000 s b' ∧
    seen (drain std unitX exU (fun _ => exPool) 2 (new b false 1000 [])) = [some (message s.1 s.2)] ∧
    seen (drain std unitX exU (fun _ => exPool) 2 (new b' false 1000 [])) = [some (received (message s.1 s.2))] ∧
    received (message s.1 s.2) ≠ message s.1 s.2 :=
  ⟨exGauge 0x8000000000000000, _, _, exGauge_msgpack _, exGauge_protobuf (.inr rfl), by decide +kernel, by decide +kernel, by
    intro h
    simp only [exGauge, message, received, Message.gauge.injEq] at h
    revert h
    decide +kernel⟩

end Verif.Mig
