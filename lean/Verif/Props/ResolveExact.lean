import Verif.Props.Resolve
/-
C94, exactly: when callers that resolve drop policies of the answers from one match result disturb each other.
-/
namespace Verif.Active
open Verif.Agg Verif.Policy Verif.Meta Verif.Id Verif.TagsFlt Verif.Rules Verif.Spec.Rules Verif.Spec

/-- The stages that are not dropped, counted. -/
def keptCount (l : List StagedMetadata) : Nat := l.countP fun s => !dropEffective s.pipelines

theorem removeAt_split {α : Type} (arr : List α) (len i : Nat) (hi : i + 1 < len) (hl : len ≤ arr.length) :
    ∃ x y, arr[i]? = some x ∧ arr[len - 1]? = some y ∧ ∃ pre mid post, arr = pre ++ x :: mid ++ y :: post ∧
      pre.length = i ∧ pre.length + 1 + mid.length = len - 1 ∧ removeAt arr len i = (pre ++ mid ++ y :: y :: post, len - 1) := by
  have h1 : i < arr.length := by omega
  have h2 : len - 1 < arr.length := by omega
  refine ⟨arr[i], arr[len - 1], List.getElem?_eq_getElem h1, List.getElem?_eq_getElem h2, arr.take i, (arr.drop (i + 1)).take (len - 2 - i),
    arr.drop len, ?_, by simp; omega, by simp; omega, ?_⟩
  · have e1 : arr = arr.take i ++ arr[i] :: arr.drop (i + 1) := by simp
    have e2 : arr.drop (i + 1) = (arr.drop (i + 1)).take (len - 2 - i) ++ arr[len - 1] :: arr.drop len := by
      have := (List.take_append_drop (len - 2 - i) (arr.drop (i + 1))).symm
      rw [List.drop_drop] at this
      have e3 : i + 1 + (len - 2 - i) = len - 1 := by omega
      rw [e3, List.drop_eq_getElem_cons h2] at this
      have e4 : len - 1 + 1 = len := by omega
      rw [e4] at this
      exact this
    conv => lhs; rw [e1, e2]
    simp
  · unfold removeAt
    rw [if_neg (by omega)]
    have e1 : (arr.take len).drop (i + 1) = (arr.drop (i + 1)).take (len - 2 - i) ++ [arr[len - 1]] := by
      rw [List.drop_take]
      have e : len - (i + 1) = (len - 2 - i) + 1 := by omega
      rw [e, List.take_succ, List.getElem?_drop]
      have e3 : i + 1 + (len - 2 - i) = len - 1 := by omega
      rw [e3, List.getElem?_eq_getElem h2]
      rfl
    have e2 : arr.drop (len - 1) = arr[len - 1] :: arr.drop len := by
      rw [List.drop_eq_getElem_cons h2]
      have e4 : len - 1 + 1 = len := by omega
      rw [e4]
    rw [e1, e2]
    simp

theorem loop_count (k : Nat) (st : StagedLoop) (hk : k ≤ st.len) (hl : st.len ≤ st.arr.length) (hr : Resolved st.arr)
    (hreg : ∀ j s, k ≤ j → j < st.len → st.arr[j]? = some s → ¬ DropStage s) :
    (∀ s ∈ (stagedLoop k st).arr, s ∈ st.arr) ∧ keptCount st.arr ≤ keptCount (stagedLoop k st).arr ∧
    ((∃ i j a b, i < k ∧ i < j ∧ j < st.len ∧ st.arr[i]? = some a ∧ st.arr[j]? = some b ∧ DropStage a ∧ ¬ DropStage b) →
      keptCount st.arr < keptCount (stagedLoop k st).arr) := by
  induction k generalizing st with
  | zero => exact ⟨fun s h => h, Nat.le_refl _, fun ⟨i, _, _, _, h, _⟩ => absurd h (by omega)⟩
  | succ i ih =>
    have hi : i < st.arr.length := by omega
    have hm := List.getElem_mem hi
    obtain ⟨hv, hres⟩ := hr _ hm
    have hset : st.arr.set i { st.arr[i] with pipelines := (applyPipelines st.arr[i].pipelines).1 } = st.arr := by
      rw [C14_pipelines _ hv]
      simp only [hres]
      exact List.set_getElem_self hi
    unfold stagedLoop
    simp only [List.getElem?_eq_getElem hi, hset]
    by_cases hdr : DropStage st.arr[i]
    · have hap : (applyPipelines st.arr[i].pipelines).2 = .applied := by
        rw [C14_pipelines _ hv]
        unfold DropStage at hdr
        simp [hdr]
      by_cases htail : i + 1 = st.len
      · have hrm : removeAt st.arr st.len i = (st.arr, i) := by
          unfold removeAt
          rw [if_pos (by omega)]
        simp only [hap, hrm]
        obtain ⟨a1, a2, a3⟩ := ih { st with arr := st.arr, len := i, drops := st.drops + 1, earliest := _ } (Nat.le_refl _)
          (Nat.le_of_lt hi) hr (by intro j s h1 h2; simp only at h2; omega)
        refine ⟨a1, a2, ?_⟩
        rintro ⟨x, y, a, b, h1, h2, h3, ha, hb, hda, hdb⟩
        refine a3 ⟨x, y, a, b, by omega, h2, ?_, ha, hb, hda, hdb⟩
        have : y ≠ i := by
          rintro rfl
          rw [List.getElem?_eq_getElem hi] at hb
          cases hb
          exact hdb hdr
        simp only
        omega
      · obtain ⟨x, y, hx, hy, pre, mid, post, he, hp, hq, hrm⟩ := removeAt_split st.arr st.len i (by omega) hl
        rw [List.getElem?_eq_getElem hi] at hx
        cases hx
        simp only [hap, hrm]
        have hky : ¬ DropStage y := hreg _ y (by omega) (by omega) hy
        have hsub : ∀ s ∈ pre ++ mid ++ y :: y :: post, s ∈ st.arr := by
          intro s hs
          rw [he]
          simp only [List.mem_append, List.mem_cons] at hs ⊢
          rcases hs with (h | h) | h | h | h
          · exact .inl (.inl h)
          · exact .inl (.inr (.inr h))
          · exact .inr (.inl h)
          · exact .inr (.inl h)
          · exact .inr (.inr h)
        have hlen : (pre ++ mid ++ y :: y :: post).length = st.arr.length := by
          conv => rhs; rw [he]
          simp
          omega
        have hcount : keptCount (pre ++ mid ++ y :: y :: post) = keptCount st.arr + 1 := by
          conv => rhs; rw [he]
          unfold DropStage at hky hdr
          unfold keptCount
          simp only [List.countP_append, List.countP_cons, hdr, hky]
          simp
          omega
        obtain ⟨a1, a2, _⟩ := ih { st with arr := pre ++ mid ++ y :: y :: post, len := st.len - 1, drops := st.drops + 1, earliest := _ }
          (by simp only; omega) (by simp only [hlen]; omega) (fun s hs => hr s (hsub s hs)) (by
            intro j s h1 h2 hs
            simp only at h2 hs
            refine hreg (j + 1) s (by omega) (by omega) ?_
            rw [he]
            rw [List.append_assoc, List.getElem?_append_right (by omega)] at hs
            rw [List.append_assoc, List.getElem?_append_right (by omega), hp]
            rw [hp] at hs
            have e : j + 1 - i = (j - i) + 1 := by omega
            rw [e, List.cons_append, List.getElem?_cons_succ]
            by_cases hjm : j - i < mid.length
            · rw [List.getElem?_append_left hjm] at hs ⊢; exact hs
            · rw [List.getElem?_append_right (by omega)] at hs ⊢
              have e0 : j - i - mid.length = 0 := by omega
              rw [e0] at hs ⊢
              exact hs)
        have a3 : keptCount st.arr + 1 ≤ _ := hcount ▸ a2
        exact ⟨fun s hs => hsub s (a1 s hs), Nat.le_trans (Nat.le_succ _) a3, fun _ => a3⟩
    · have hap : (applyPipelines st.arr[i].pipelines).2 = .removed := by
        rw [C14_pipelines _ hv]
        unfold DropStage at hdr
        simp [hdr]
      simp only [hap]
      obtain ⟨a1, a2, a3⟩ := ih { st with arr := st.arr, nonDrops := st.nonDrops + 1 } (by simp only; omega) hl hr (by
        intro j s h1 h2 hs
        by_cases e : j = i
        · subst e
          rw [List.getElem?_eq_getElem hi] at hs
          cases hs
          exact hdr
        · exact hreg j s (by omega) h2 hs)
      refine ⟨a1, a2, ?_⟩
      rintro ⟨x, y, a, b, h1, h2, h3, ha, hb, hda, hdb⟩
      refine a3 ⟨x, y, a, b, ?_, h2, h3, ha, hb, hda, hdb⟩
      have : x ≠ i := by
        rintro rfl
        rw [List.getElem?_eq_getElem hi] at ha
        cases ha
        exact hdr hda
      omega

/-- A time before all stages. -/
theorem exists_before (l : List StagedMetadata) : ∃ t : Int, ∀ s ∈ l, t < s.cutoverNanos := by
  induction l with
  | nil => exact ⟨0, fun _ h => absurd h (by simp)⟩
  | cons a l ih =>
    obtain ⟨t, ht⟩ := ih
    refine ⟨min t (a.cutoverNanos - 1), fun s hs => ?_⟩
    rcases List.mem_cons.mp hs with rfl | hs
    · omega
    · have := ht s hs; omega

theorem active_before {l : List StagedMetadata} {t : Int} (h : ∀ s ∈ l, t < s.cutoverNanos) : activeStagedMetadatasAt l t = l := by
  rcases activeStaged_spec l t with ⟨_, e⟩ | ⟨pre, m, post, rfl, hm, _, _⟩
  · exact e
  · have := h m (by simp); omega

theorem kept_answer {l : List StagedMetadata} (hr : Resolved l) (h : 0 < keptCount l) : (applyStaged l).1.length = keptCount l := by
  obtain ⟨s, hs, hd⟩ := List.countP_pos_iff.mp h
  rw [(C15_staged l fun s hs => (hr s hs).1).2 (.inr ⟨s, hs, by simpa using hd⟩)]
  simp only [List.length_map]
  exact List.countP_eq_length_filter.symm

/-- If a stage is kept after one that is dropped, a caller that asks twice, before all stages, gets two answers. -/
theorem disturbed {arr : List StagedMetadata} (hr : Resolved arr) (hd : ¬ DropsLast arr) :
    ∃ t, (resolveAt (resolves arr [t]) t).1 ≠ (resolveAt arr t).1 := by
  obtain ⟨t, ht⟩ := exists_before arr
  refine ⟨t, fun he => ?_⟩
  have hpair : ∃ i j a b, i < arr.length ∧ i < j ∧ j < arr.length ∧ arr[i]? = some a ∧ arr[j]? = some b ∧ DropStage a ∧ ¬ DropStage b := by
    apply Classical.byContradiction
    intro hno
    apply hd
    unfold DropsLast
    rw [List.pairwise_iff_getElem]
    intro i j hi hj hlt ha
    apply Classical.byContradiction
    intro hb
    exact hno ⟨i, j, _, _, hi, hlt, hj, List.getElem?_eq_getElem hi, List.getElem?_eq_getElem hj, ha, hb⟩
  obtain ⟨l1, _, l3⟩ := loop_count arr.length { arr := arr, len := arr.length, drops := 0, nonDrops := 0, earliest := {} } (Nat.le_refl _)
    (Nat.le_refl _) hr (by intro j s h1 h2; simp only at h2; omega)
  have hlt := l3 hpair
  have hpos : 0 < keptCount arr := by
    obtain ⟨i, j, a, b, _, _, _, _, hb, _, hk⟩ := hpair
    exact List.countP_pos_iff.mpr ⟨b, List.mem_of_getElem? hb, by unfold DropStage at hk; simpa using hk⟩
  have hne : ¬ arr.length = 0 := by
    intro h0
    rw [List.length_eq_zero_iff.mp h0] at hpos
    exact absurd hpos (by decide)
  have harr : (resolveAt arr t).2 = stagedArray arr := by
    unfold resolveAt
    simp [active_before ht]
  have hsa : stagedArray arr = (stagedLoop arr.length { arr := arr, len := arr.length, drops := 0, nonDrops := 0, earliest := {} }).arr := by
    unfold stagedArray
    rw [if_neg hne]
  rw [← hsa] at l1 hlt
  have hr' : Resolved (stagedArray arr) := fun s hs => hr s (l1 s hs)
  simp only [resolves, harr] at he
  unfold resolveAt at he
  simp only [active_before ht, active_before fun s hs => ht s (l1 s hs)] at he
  have := congrArg (fun p => p.1.length) he
  simp only [kept_answer hr hpos, kept_answer hr' (by omega)] at this
  simp only at hlt
  omega

/-- **C94**, exactly: callers that resolve the drop policies of what they get from one match result do not disturb each other, however
many there are and whatever times they ask for, if and only if no stage of the result is kept after one that is dropped. -/
theorem C94_iff (env : Env) (as : ActiveRuleSet) (h : Built as) (hv : DropsValid as) (id : Bytes) (frm to : Int) (h0 : 0 ≤ frm) :
    (∀ ts t, (resolveAt (resolves (forwardMatch env as id frm to).forExistingID ts) t).1 =
      (resolveAt (forwardMatch env as id frm to).forExistingID t).1) ↔ DropsLast (forwardMatch env as id frm to).forExistingID := by
  constructor
  · intro hh
    apply Classical.byContradiction
    intro hd
    obtain ⟨t, ht⟩ := disturbed (match_resolved env as h hv id frm to h0) hd
    exact ht (hh [t] t)
  · intro hd ts t
    exact C94_partial env as h hv id frm to h0 hd ts t

/-- Both sides happen: `exOnOff` between 12 and 25 and between 12 and 40. -/
example : ¬ DropsLast (forwardMatch m3Env (newActiveRuleSet 1 exOnOff []) exID 12 40).forExistingID ∧
    keptCount (forwardMatch m3Env (newActiveRuleSet 1 exOnOff []) exID 12 40).forExistingID = 2 := by
  unfold DropsLast DropStage
  constructor <;> decide +kernel

end Verif.Active
