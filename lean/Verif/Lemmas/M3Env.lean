import Verif.Lemmas.ForwardMatch
import Verif.Props.TagsParse
/- The matching functions of the m3 identifier format (metric/id/m3/id.go, filters/tags_filter.go). -/
namespace Verif.Active
open Verif.Agg Verif.Policy Verif.Meta Verif.Id Verif.TagsFlt Verif.Rules Verif.Flt

/-- The value of a computation that does not fail. -/
def okOr (d : α) : Out α → α
  | .ok a => a
  | _ => d

/-- The options used with m3 identifiers. -/
def m3Env : Env where
  filterMatches f id := match f with
    | none => false
    | some f => okOr false (f.matchesVal m3NameAndTags m3Stream id)
  nameAndTags := m3NameAndTags
  tagPairs tags := (m3Stream tags).pairs
  newRollupID := Id.newRollupID
  isRollupID _ tags := okOr false (isRollupID tags)

theorem matchStep_total (op : LogicalOp) (p : TagPair) (g : TagFilter) (gs : List TagFilter) (k : List TagFilter → Out Bool)
    (hg : Answers g.valueFilter) (hk : ∃ r, k gs = .ok r) : ∃ r, matchStep op p g gs k = .ok r := by
  unfold matchStep
  obtain ⟨m, hm⟩ := hg p.value
  rw [hm]
  simp only [Out.ok_bind]
  split
  · exact ⟨_, rfl⟩
  · split
    · exact ⟨_, rfl⟩
    · exact hk

theorem skipSmaller_sub (n : Bytes) : ∀ fs, ∀ f ∈ skipSmaller n fs, f ∈ fs
  | [], f, h => by simp [skipSmaller] at h
  | g :: gs, f, h => by
    rw [skipSmaller] at h
    split at h
    · exact List.mem_cons_of_mem _ (skipSmaller_sub n gs f h)
    · exact h

theorem matchLoop_total (op : LogicalOp) (failed : Bool) : ∀ (ps : List TagPair) (fs : List TagFilter),
    (∀ f ∈ fs, Answers f.valueFilter) → ∃ r, matchLoop op failed ps fs = .ok r
  | [], fs, _ => by
    rw [matchLoop]
    split <;> exact ⟨_, rfl⟩
  | p :: rest, [], _ => by
    rw [matchLoop]
    split <;> exact ⟨_, rfl⟩
  | p :: rest, f :: fs, h => by
    have ih := matchLoop_total op failed rest
    simp only [matchLoop]
    split
    · exact ih _ h
    · split
      · split
        · exact ⟨_, rfl⟩
        · split
          · exact ⟨_, rfl⟩
          · rename_i g gs hs
            have hsub : ∀ x ∈ g :: gs, Answers x.valueFilter := by
              intro x hx
              apply h
              exact List.mem_cons_of_mem _ (skipSmaller_sub p.name fs x (hs ▸ hx))
            split
            · exact ih _ hsub
            · exact matchStep_total _ _ _ _ _ (hsub g (by simp)) (ih gs fun x hx => hsub x (by simp [hx]))
      · exact matchStep_total _ _ _ _ _ (h f (by simp)) (ih fs fun x hx => h x (by simp [hx]))

/-- A compiled filter answers on every identifier, whatever it contains. -/
theorem compiled_total (key raw : Bytes) (f : TagsFilter) (h : compileFilter key raw = some f)
    (nt : Bytes → Option (Bytes × Bytes)) (it : Bytes → TagStream) (id : Bytes) :
    ∃ r, f.matchesVal nt it id = .ok r := by
  unfold compileFilter at h
  cases hp : parseTagFilterValueMap raw with
  | none => simp [hp] at h
  | some m =>
    simp only [hp] at h
    cases hn : newTagsFilter key m .conjunction with
    | err => simp [hn] at h
    | panic => simp [hn] at h
    | ok g =>
      simp only [hn, Option.some.injEq] at h
      subst h
      have hnd := ((C31_parse_iff raw m).mp hp).2.2
      obtain ⟨hop, _, hans, _, _, _⟩ := built key m hnd .conjunction g hn
      unfold TagsFilter.matchesVal
      split
      · exact ⟨_, rfl⟩
      · split
        · exact ⟨_, rfl⟩
        · rename_i name tags _
          unfold matchNameTags
          split
          · exact matchLoop_total _ _ _ _ hans
          · rename_i nf hnf
            obtain ⟨b, hb⟩ := name_answers key m hnd .conjunction g hn nf hnf name
            rw [hb]
            simp only [Out.ok_bind]
            split
            · exact ⟨_, rfl⟩
            · split
              · exact ⟨_, rfl⟩
              · exact matchLoop_total _ _ _ _ hans

/-! ### Rules used in concrete cases -/

/-- A mapping rule snapshot with a compiled filter. -/
def exSnap (raw : String) (cut : Int) (agg : Nat) : MappingSnapshot :=
  { name := bs "rule", tombstoned := false, cutoverNanos := cut, filter := compileFilter (bs "name") (bs raw),
    rawFilter := bs raw, aggID := agg, storagePolicies := [], drop := 0, lastUpdatedAtNanos := 0, lastUpdatedBy := [] }

/-- Rule 1 applies from 10 on, rule 2 from 5 until its filter changes at 20. -/
def exRules : List MappingRule :=
  [⟨bs "1", [exSnap "city:s*" 10 4]⟩, ⟨bs "2", [exSnap "city:sf" 5 8, exSnap "city:ny" 20 8]⟩]

def exID : Bytes := bs "m3+requests+city=sf,host=a"

def exRollup (cut : Int) (tomb : Bool) (targets : List RollupTarget) : RollupSnapshot :=
  { name := bs "rollup", tombstoned := tomb, cutoverNanos := cut, filter := compileFilter (bs "name") (bs "city:sf"),
    targets := targets, rawFilter := bs "city:sf", lastUpdatedAtNanos := 0, lastUpdatedBy := [] }

/-- A target that applies to the metric itself: a transformation. -/
def exTarget : RollupTarget := ⟨[{ type := 2, transformation := 2 }], []⟩

/-- A mapping rule from 10 on, a rollup rule from 5 on that is deleted at 20; filters never change. -/
def exDeleted : List RollupRule := [⟨bs "3", [exRollup 5 false [exTarget], exRollup 20 true []]⟩]

end Verif.Active
