import Verif.Props.ForwardTogether
/-
C39 identifier by identifier: one that no two targets generate at the same time has one entry, which says what is generated, whatever
happens to other identifiers and outside the range.
-/
namespace Verif.Active
open Verif.Agg Verif.Policy Verif.Meta Verif.Id Verif.TagsFlt Verif.Rules Verif.Spec.Rules Verif.Spec

theorem foldl_most_le (f : Int → Nat) (b : Nat) : ∀ (ts : List Int) (n : Nat),
    ts.foldl (fun n τ => max n (f τ)) n ≤ b ↔ n ≤ b ∧ ∀ τ ∈ ts, f τ ≤ b
  | [], n => by simp
  | τ :: ts, n => by
    rw [List.foldl_cons, foldl_most_le f b ts]
    simp only [List.mem_cons, forall_eq_or_imp, Nat.max_le, and_assoc]

/-- **C39**, for any sort: an identifier has at most one entry exactly if at most one target generates it at the start and at each rule
change inside the range; other identifiers and other times do not matter. -/
theorem C39_one_iff (env : Env) (as : ActiveRuleSet) (id : Bytes) (frm to : Int) (l : List IDWithMetadatas)
    (hl : RollupsOver env as id frm to l) (x : Bytes) :
    entriesFor l x ≤ 1 ↔ ∀ τ ∈ frm :: stages as frm to, entriesFor (forwardMatchAt env as id τ).forNewRollupIDs x ≤ 1 := by
  rw [C39_entries env as id frm to l hl x, foldl_most_le]
  simp

/-- **C39** (partial: for identifiers that at most one target generates at a time, at the start and at each rule change inside the range),
for any sort: the one entry of the identifier says at each of these times what is generated then and, if nothing is, a tombstone of that
time or nothing yet. -/
theorem C39_one_partial (env : Env) (as : ActiveRuleSet) (id : Bytes) (frm to : Int) (l : List IDWithMetadatas)
    (hl : RollupsOver env as id frm to l) (y : IDWithMetadatas) (hy : y ∈ l)
    (hone : ∀ τ ∈ frm :: stages as frm to, entriesFor (forwardMatchAt env as id τ).forNewRollupIDs y.id ≤ 1)
    (k : Nat) (τ : Int) (hk : (frm :: stages as frm to).reverse[k]? = some τ) :
    (∀ m ∈ madeFor (forwardMatchAt env as id τ).forNewRollupIDs y.id, y.metadatas.reverse[k]? = some m) ∧
    (madeFor (forwardMatchAt env as id τ).forNewRollupIDs y.id = [] →
      y.metadatas.reverse[k]? = none ∨ y.metadatas.reverse[k]? = some (tombstoneAt τ)) := by
  have h1 := (C39_one_iff env as id frm to l hl y.id).2 hone
  have hm : y ∈ l.filter fun z => decide (z.id = y.id) := List.mem_filter.2 ⟨hy, by simp⟩
  have he : (l.filter fun z => decide (z.id = y.id)) = [y] := by
    unfold entriesFor at h1
    cases hf : l.filter fun z => decide (z.id = y.id) with
    | nil => rw [hf] at hm; cases hm
    | cons a r =>
      rw [hf] at h1 hm
      have hr : r = [] := List.eq_nil_of_length_eq_zero (by simpa using h1)
      rw [hr] at hm ⊢
      rw [List.mem_singleton.1 hm]
  have hs : saidAt l y.id k = (y.metadatas.reverse[k]?).toList := by
    unfold saidAt
    rw [he, List.filterMap_cons]
    cases y.metadatas.reverse[k]? <;> rfl
  obtain ⟨g1, g2⟩ := C39_together env as id frm to l hl y.id k τ hk
  rw [hs] at g1 g2
  cases hv : y.metadatas.reverse[k]? with
  | none =>
    rw [hv] at g1
    have : madeFor (forwardMatchAt env as id τ).forNewRollupIDs y.id = [] := List.Perm.nil_eq g1 |>.symm
    rw [this]
    exact ⟨fun m hm => absurd hm (by simp), fun _ => Or.inl rfl⟩
  | some v =>
    rw [hv] at g1 g2
    simp only [Option.toList] at g1 g2
    by_cases ht : v.tombstoned = true
    · rw [List.filter_cons_of_neg (by simp [ht]), List.filter_nil] at g1
      have : madeFor (forwardMatchAt env as id τ).forNewRollupIDs y.id = [] := List.Perm.nil_eq g1 |>.symm
      rw [this]
      exact ⟨fun m hm => absurd hm (by simp), fun _ => Or.inr (by rw [g2 v (by simp) ht])⟩
    · rw [List.filter_cons_of_pos (by simp [ht]), List.filter_nil] at g1
      have : madeFor (forwardMatchAt env as id τ).forNewRollupIDs y.id = [v] := List.perm_singleton.1 g1.symm
      rw [this]
      exact ⟨fun m hm => by rw [List.mem_singleton.1 hm], fun e => by cases e⟩

/-- A rule set in which one identifier is generated twice and another once: for the other the theorem applies. -/
def exOther : ActiveRuleSet :=
  newActiveRuleSet 1 [] [⟨bs "4", [exRollup 5 false [exRollTo "r" ["city"] 0], exRollup 10 true []]⟩,
    ⟨bs "5", [exRollup 5 false [exRollTo "r" ["city"] 4, exRollTo "s" ["city"] 0], exRollup 20 true []]⟩]

example : let r := bs "m3+r+city=sf,m3_rollup=true"; let s := bs "m3+s+city=sf,m3_rollup=true"
    (6 :: stages exOther 6 30) = [6, 10, 20] ∧
    (6 :: stages exOther 6 30).map (fun τ => entriesFor (forwardMatchAt m3Env exOther exID τ).forNewRollupIDs s) = [1, 1, 0] ∧
    (6 :: stages exOther 6 30).map (fun τ => entriesFor (forwardMatchAt m3Env exOther exID τ).forNewRollupIDs r) = [2, 1, 0] ∧
    ((forwardMatch m3Env exOther exID 6 30).forNewRollupIDs.map fun y => (y.id, y.metadatas.map (·.tombstoned))) =
      [(r, [false, false, true]), (r, [false, true, true]), (s, [false, false, true])] := by
  decide +kernel

end Verif.Active
