import Verif.Props.Deploy
import Verif.Props.Revalidate
import Verif.Props.ValidatorConfig
/-
C87 and C80 together: from the configuration of the validator, through the store and its watches, to the answers of the matcher.
-/
namespace Verif.Deploy
open Verif.Meta Verif.RuleSet Verif.Rules Verif.NS Verif.Store Verif.Wire Verif.Active Verif.Matcher
open Verif.Spec.ValConfig (Permitted MayBe)
open Verif.Spec.TagsFlt (Ascending)
open Verif.Cache (mget St Tick)

/-- Rule sets as clients write them: the rules have UUIDs of their own, and the drop policies are known ones. -/
def Wellformed (rs : RuleSet) : Prop :=
  (rs.mappingRules.map (·.uuid)).Nodup ∧ (rs.rollupRules.map (·.uuid)).Nodup ∧ KnownDrops rs

/-- All changes of the rules took place by `t`. -/
def Settled (rs : RuleSet) (t : Int) : Prop :=
  (∀ r ∈ rs.mappingRules, ∀ s ∈ r.snapshots, s.cutoverNanos ≤ t) ∧ ∀ r ∈ rs.rollupRules, ∀ s ∈ r.snapshots, s.cutoverNanos ≤ t

variable {o : Options} {cfg : Cache.Config} {past : Int} {nsOf : Nat → Bytes}

/-- **C87.** With a store that validates by a configuration, whatever clients write and however everything interleaves, a lookup of a
metric that is answered gives the default, or only stages in which everything - storage policies, aggregation types, levels of rollup,
for the metric and for the rollups made of it - is what the configuration permits for the type of the metric; provided that the changes
of the rules had all taken place when the rules were read, and the ruleset has announced its last change. -/
theorem C87_permitted (hcap : 0 ≤ cfg.capacity) (hk : KeysOK o) (hx : UnitsOK o.x) (c : Val.Config) (vns : Bytes → Option Val.VErr)
    (hkey : c.typeTag ≠ o.filterKey) (hval : ∃ f, o.validator = some f ∧ ∀ rs, f rs = (Val.validate (c.newOptions vns) rs.latest).isNone)
    {d : Dep} (h : DReach o Wellformed cfg m3Env past nsOf d) (tagValue : Bytes → Bytes → Option Bytes) (tag dflt : Bytes)
    (name : Bytes) (tags : List (Bytes × Bytes)) (hc : Spec.Id.Clean name tags) (ha : Ascending tags) (mt : Int) (hmt : mt ∈ c.allowedTypes)
    (hmay : MayBe c tags mt) (t : Tick) (frm to : Int) (second : Bool) (c' : St) (res : MatchResult)
    (hg : d.sys.cache.tryGetWithLock cfg (d.sys.world.answers (Matcher.answers m3Env)) t (namespaceOf tagValue tag dflt (Spec.Id.idText name tags))
      (Spec.Id.idText name tags) frm to second = (c', res, true)) :
    ∃ ns, (tagValue (Spec.Id.idText name tags) tag = some ns ∨ tagValue (Spec.Id.idText name tags) tag = none ∧ ns = dflt) ∧
      (mget d.sys.ns.rules ns = none → res = emptyMatchResult) ∧
      (∀ src, mget d.sys.ns.rules ns = some src → src ∉ d.sys.pending →
        res = emptyMatchResult ∨
        ∃ (n : Nat) (b : Bytes) (v : RuleSet) (now : Int), (d.kv (o.ruleSetKey ns))[n]? = some b ∧ toRuleSet o (n + 1) b = .ok (some v) ∧
          d.sys.ns.version ns = n + 1 ∧ (Settled v (now - past) →
            (∀ m ∈ res.forExistingID, ∀ q ∈ m.pipelines, Permitted c mt q) ∧
            ∀ y ∈ res.forNewRollupIDs, ∀ m ∈ y.metadatas, ∀ q ∈ m.pipelines, Permitted c mt q)) := by
  obtain ⟨ns, h1, h2, h3⟩ := C87_answers hcap hk h tagValue tag dflt _ t frm to second c' res hg
  refine ⟨ns, h1, h2, fun src hs hp => ?_⟩
  rcases h3 src hs hp with ⟨_, hr⟩ | ⟨n, b, v, rs, p, now, f, u, hv, hb, hl, _, hw, hpass, _, hproto, hload, e, _⟩
  · exact Or.inl hr
  refine Or.inr ⟨n, b, v, now, hb, hl, hv, fun hset => ?_⟩
  obtain ⟨w1, w2, w3⟩ := hw
  have hrel : reload o.x o.filterKey (n + 1) rs = some v := by unfold reload; rw [hproto]; exact hload
  obtain ⟨u1, u2, u3⟩ := reloaded_shape hx w3 hrel
  obtain ⟨vf, hvf, hvf'⟩ := hval
  have hacc : Val.validate (c.newOptions vns) rs.latest = none := by
    have := hpass vf hvf
    rwa [hvf', Option.isNone_iff_eq_none] at this
  have hacc' := C88_revalidated hx _ o.filterKey _ rs v w1 w2 w3 hacc hrel
  have n1 : (v.mappingRules.map (·.uuid)).Nodup := by rw [u1]; exact w1
  have n2 : (v.rollupRules.map (·.uuid)).Nodup := by rw [u2]; exact w2
  obtain ⟨f1, f2⟩ := C51_filters hx o.filterKey _ _ v hload
  unfold RuleSet.latest at hacc'
  cases hms : v.mappingViews with
  | none => rw [hms] at hacc'; simp [Val.validate, Val.wrapError] at hacc'
  | some ms =>
    cases hrr : v.rollupViews with
    | none => rw [hms, hrr] at hacc'; simp [Val.validate, Val.wrapError] at hacc'
    | some rr =>
      rw [hms, hrr] at hacc'
      rw [e]
      refine Val.C80_permitted_range c vns v o.filterKey hkey n1 n2 ms rr ⟨_, hms, List.Perm.refl _⟩ ⟨_, hrr, List.Perm.refl _⟩ hacc'
        (fun r hr s hs => (f1 r hr s hs).2) (fun r hr s hs => (f2 r hr s hs).2) (now - past) ?_ hset.1 hset.2 name tags hc ha mt hmt hmay f u
      intro r hr s hs
      obtain ⟨r0, hr0, rfl⟩ := List.mem_map.mp hr
      have hmem : s ∈ r0.snapshots := by
        unfold Rule.activeRule at hs
        split at hs
        · exact hs
        · exact List.mem_of_mem_drop hs
      have := u3 r0 hr0 s hmem
      omega

/-! ### A run

Rules for counters pass the validator and are stored; the matcher reads them when they are in force. -/

def exVOpts : Options := { exStoreOpts with
  validator := some fun rs => (Val.validate (Val.exConfig.newOptions fun _ => none) rs.latest).isNone, filterKey := bs "name" }
def exCounterRules : RuleSet := { Val.exCounters "city:s* type:counter" 0x40#64 with version := 0 }
def exVCall : Call := .writeAll exList exCounterRules
def exVKV : BKV := (callB exVOpts (fun _ => []) exVCall).1
def exVNames : Namespaces := match (exVKV exVOpts.namespacesKey).map (toNamespaces 1) with
  | [.ok (some nss)] => nss
  | _ => ⟨0, []⟩
def exVRules : RuleSet := match (exVKV (exVOpts.ruleSetKey (bs "ns"))).map (toRuleSet exVOpts 1) with
  | [.ok (some rs)] => rs
  | _ => exRead
def exVWatch : Env63 := { exEnv63 20 with watch := fun _ => .watching (some (exVRules, 20)) }
def exV2 : Dep := ⟨exVKV, { exInit with phase := .adding (incoming exVNames.namespaces) [(bs "ns", exElem)] }⟩
def exV3 : Dep := ⟨exVKV, (addOne exVWatch exV2.sys.ns (bs "ns") exElem).2.foldl Sys.notify
  { exV2.sys with ns := (addOne exVWatch exV2.sys.ns (bs "ns") exElem).1, used := target exVWatch exV2.sys.ns (bs "ns") :: exV2.sys.used, phase := .adding (incoming exVNames.namespaces) [] }⟩
def exV4 : Dep := ⟨exVKV, { exV3.sys with cache := exV3.sys.cache.refresh (bs "ns") (exFresh (bs "ns")), pending := exV3.sys.pending.erase (exFresh (bs "ns")) }⟩

theorem exV_inRange : Spec.StoredRules.InRange exUnits exCounterRules := by
  have hm : ∀ r ∈ exCounterRules.mappingRules, ∀ s ∈ r.snapshots, Spec.Msg.Int64 s.cutoverNanos ∧ Spec.Msg.Int64 s.lastUpdatedAtNanos ∧
      ∀ p ∈ s.storagePolicies, Spec.Msg.Int64 p.resolution.window ∧ Spec.Msg.Int64 p.retention := by decide +kernel
  have hr : ∀ r ∈ exCounterRules.rollupRules, ∀ s ∈ r.snapshots, Spec.Msg.Int64 s.cutoverNanos ∧ Spec.Msg.Int64 s.lastUpdatedAtNanos ∧
      ∀ t ∈ s.targets, ∀ p ∈ t.storagePolicies, Spec.Msg.Int64 p.resolution.window ∧ Spec.Msg.Int64 p.retention := by decide +kernel
  exact ⟨by decide +kernel, by decide +kernel, by decide +kernel,
    fun r h s hs => ⟨(hm r h s hs).1, (hm r h s hs).2.1, fun p hp => exUnits_range p ((hm r h s hs).2.2 p hp)⟩,
    fun r h s hs => ⟨(hr r h s hs).1, (hr r h s hs).2.1, fun t ht p hp => exUnits_range p ((hr r h s hs).2.2 t ht p hp)⟩⟩

theorem exVCall_sane : exVCall.Sane exVOpts.x := by
  refine ⟨exCall_sane.1, exV_inRange, fun pb h => ?_⟩
  have e : ((exCounterRules.proto exUnits).map fun pb => decide ((Wire.ruleSet.marshal pb).length < 1000)) = some true := by decide +kernel
  rw [show exCounterRules.proto exUnits = some pb from h] at e
  have e : (Wire.ruleSet.marshal pb).length < 1000 := by simpa using e
  omega

theorem exVCall_wellformed : Writes Wellformed exVCall := by
  refine ⟨by decide, by decide, ?_⟩
  have : ∀ r ∈ exCounterRules.mappingRules, ∀ s ∈ r.snapshots, s.drop ≤ 2 := by decide +kernel
  exact this

theorem exVNames_stored : StoredNames exVOpts exVKV exVNames := by
  have hl : (exVKV exVOpts.namespacesKey).length = 1 := by decide +kernel
  have hm : (match (exVKV exVOpts.namespacesKey).map (toNamespaces 1) with | [.ok (some _)] => true | _ => false) = true := by decide +kernel
  obtain ⟨b, hb⟩ := List.length_eq_one_iff.mp hl
  unfold exVNames
  rw [hb] at hm ⊢
  refine ⟨0, b, by rw [hb]; rfl, ?_⟩
  simp only [List.map_cons, List.map_nil] at hm ⊢
  show toNamespaces 1 b = _
  split at hm
  · next h =>
    simp only [List.cons.injEq, and_true] at h
    simp only [h]
  · cases hm

theorem exVRules_stored : Stored exVOpts exVKV (bs "ns") exVRules := by
  have hl : (exVKV (exVOpts.ruleSetKey (bs "ns"))).length = 1 := by decide +kernel
  have hm : (match (exVKV (exVOpts.ruleSetKey (bs "ns"))).map (toRuleSet exVOpts 1) with | [.ok (some _)] => true | _ => false) = true := by
    decide +kernel
  obtain ⟨b, hb⟩ := List.length_eq_one_iff.mp hl
  unfold exVRules
  rw [hb] at hm ⊢
  refine ⟨0, b, by rw [hb]; rfl, ?_⟩
  simp only [List.map_cons, List.map_nil] at hm ⊢
  show toRuleSet exVOpts 1 b = _
  split at hm
  · next h =>
    simp only [List.cons.injEq, and_true] at h
    simp only [h]
  · cases hm

theorem exV4_reach : DReach exVOpts Wellformed Cache.exCfg m3Env 5 exNsName exV4 := by
  have h0 : DReach exVOpts Wellformed Cache.exCfg m3Env 5 exNsName ⟨fun _ => [], exInit⟩ := .init _ _
  have h1 : DReach exVOpts Wellformed Cache.exCfg m3Env 5 exNsName ⟨exVKV, exInit⟩ := .step h0 (.call _ exInit exVCall exVCall_sane exVCall_wellformed)
  have h2 : DReach exVOpts Wellformed Cache.exCfg m3Env 5 exNsName exV2 :=
    .step h1 (.update exVKV exInit exVNames [(bs "ns", exElem)] rfl (by
      rw [show incoming exVNames.namespaces = [(bs "ns", exElem)] from by decide +kernel]) exVNames_stored)
  have h3 : DReach exVOpts Wellformed Cache.exCfg m3Env 5 exNsName exV3 :=
    .step h2 (.add exVKV exV2.sys exVWatch (incoming exVNames.namespaces) [] (bs "ns") exElem rfl rfl
      (fun _ => ⟨by simp [exV2, exInit], rfl⟩) (fun v now h => by
        simp only [exVWatch, WatchOutcome.watching.injEq, Option.some.injEq, Prod.mk.injEq] at h
        rw [← h.1]; exact exVRules_stored))
  exact .step h3 (.deliver exVKV exV3.sys (exFresh (bs "ns")) (by decide +kernel))

/-- The hypotheses of `C87_permitted` are met, and a counter of the city is given its pipelines and a rollup; the rules are settled. -/
example : (0 ≤ Cache.exCfg.capacity) ∧ mget exV4.sys.ns.rules (bs "ns") = some (exFresh (bs "ns")) ∧ exV4.sys.pending = [] ∧
    Val.exConfig.typeTag ≠ exVOpts.filterKey ∧ Settled exVRules (20 - 5) ∧
    (let tags := [(bs "city", bs "sf"), (bs "type", bs "counter")]
     let r := exV4.sys.cache.tryGetWithLock Cache.exCfg (exV4.sys.world.answers (Matcher.answers m3Env)) Cache.exTick
      (namespaceOf m3TagValue (bs "n") (bs "ns") (Spec.Id.idText (bs "requests") tags)) (Spec.Id.idText (bs "requests") tags) 16 17 true
     (r.2.1.version, r.2.1.forExistingID.map (fun s => s.pipelines.map (·.aggID)), r.2.1.forNewRollupIDs.map (·.id), r.2.2) =
       (1, [[0x40#64, 0x40#64]], [bs "m3+m+city=sf,m3_rollup=true"], true)) := by
  refine ⟨by decide, by decide +kernel, by decide +kernel, by decide +kernel, ?_, by decide +kernel⟩
  have h1 : ∀ r ∈ exVRules.mappingRules, ∀ s ∈ r.snapshots, s.cutoverNanos ≤ 20 - 5 := by decide +kernel
  have h2 : ∀ r ∈ exVRules.rollupRules, ∀ s ∈ r.snapshots, s.cutoverNanos ≤ 20 - 5 := by decide +kernel
  exact ⟨h1, h2⟩

end Verif.Deploy
