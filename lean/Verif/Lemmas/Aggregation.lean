import Verif.Model.Aggregation
namespace Verif.Agg

theorem isValid_iff (t : AType) : isValid t = true ↔ 1 ≤ t ∧ t ≤ 22 := by
  constructor
  · intro h
    simp [isValid, ValidTypes, Last, Min, Max, Mean, Median, Count, Sum, SumSq, Stdev, P10, P20, P30,
      P40, P50, P60, P70, P80, P90, P95, P99, P999, P9999] at h
    omega
  · intro h
    simp [isValid, ValidTypes, Last, Min, Max, Mean, Median, Count, Sum, SumSq, Stdev, P10, P20, P30,
      P40, P50, P60, P70, P80, P90, P95, P99, P999, P9999]
    omega

theorem mem_validTypes_iff (t : AType) : t ∈ ValidTypes ↔ 1 ≤ t ∧ t ≤ 22 := by
  rw [← isValid_iff]; simp [isValid]

theorem getLsbD_bitSet (w : BitVec 64) (i j : Nat) (hi : i < 64) :
    (bitSet w i).getLsbD j = (w.getLsbD j || decide (i = j)) := by
  simp only [bitSet, BitVec.getLsbD_or, BitVec.getLsbD_shiftLeft]
  by_cases h : i = j
  · subst h; simp [hi]
  · by_cases hj : j < 64
    · by_cases hlt : j < i
      · simp [hlt, h]
      · have : j - i ≠ 0 := by omega
        simp [h, hj, hlt, this]
    · have := BitVec.getLsbD_of_ge w j (by omega)
      simp [hj, h]

theorem compressLoop_eq_none_iff (ts : List AType) : ∀ w,
    compressLoop ts w = none ↔ ∃ t ∈ ts, isValid t = false := by
  induction ts with
  | nil => simp [compressLoop]
  | cons t ts ih =>
    intro w
    simp only [compressLoop]
    cases hv : isValid t <;> simp [hv, ih]

theorem getLsbD_compressLoop (ts : List AType) : ∀ w r, compressLoop ts w = some r →
    ∀ j, r.getLsbD j = true ↔ (w.getLsbD j = true ∨ (j : Int) ∈ ts) := by
  induction ts with
  | nil => intro w r h j; simp [compressLoop] at h; subst h; simp
  | cons t ts ih =>
    intro w r h j
    simp only [compressLoop] at h
    cases hv : isValid t with
    | false => simp [hv] at h
    | true =>
      simp only [hv, Bool.not_true, Bool.false_eq_true, if_false] at h
      rw [ih _ r h j, getLsbD_bitSet _ _ _ (by have := (isValid_iff t).mp hv; omega)]
      have := (isValid_iff t).mp hv
      have e : t.toNat = j ↔ (j : Int) = t := by omega
      simp only [Bool.or_eq_true, decide_eq_true_eq, List.mem_cons, e, or_assoc]

theorem nextSet_eq_none (w : BitVec 64) (i : Nat) :
    nextSet w i = none ↔ ∀ j, i ≤ j → j < 64 → w.getLsbD j = false := by
  simp only [nextSet, List.find?_eq_none, List.mem_range'_1]
  constructor
  · intro h j h1 h2; have := h j (by omega); simpa using this
  · intro h j hj; simp [h j (by omega) (by omega)]

/-- The set bits at or after `i`, ascending. -/
def bitsFrom (w : BitVec 64) (i : Nat) : List Nat := (List.range' i (64 - i)).filter (w.getLsbD ·)

theorem mem_bitsFrom (w : BitVec 64) (i j : Nat) :
    j ∈ bitsFrom w i ↔ i ≤ j ∧ j < 64 ∧ w.getLsbD j = true := by
  simp only [bitsFrom, List.mem_filter, List.mem_range'_1]
  constructor
  · rintro ⟨h1, h2⟩; exact ⟨h1.1, by omega, h2⟩
  · rintro ⟨h1, h2, h3⟩; exact ⟨by omega, h3⟩

theorem bitsFrom_sorted (w : BitVec 64) (i : Nat) : (bitsFrom w i).Pairwise (· < ·) := by
  unfold bitsFrom
  exact List.Pairwise.sublist List.filter_sublist (List.pairwise_lt_range' )

theorem nextSet_eq_some (w : BitVec 64) (i j : Nat) (h : nextSet w i = some j) :
    i ≤ j ∧ j < 64 ∧ w.getLsbD j = true ∧ bitsFrom w i = j :: bitsFrom w (j + 1) := by
  have hm := List.mem_of_find?_eq_some h
  have hb : w.getLsbD j = true := by simpa using List.find?_some h
  rw [List.mem_range'_1] at hm
  have hj : j < 64 := by omega
  refine ⟨hm.1, hj, hb, ?_⟩
  -- sorted lists with the same members are equal
  have s1 := bitsFrom_sorted w i
  have s2 : (j :: bitsFrom w (j+1)).Pairwise (· < ·) := by
    rw [List.pairwise_cons]
    exact ⟨fun k hk => by have := (mem_bitsFrom _ _ _).mp hk; omega, bitsFrom_sorted _ _⟩
  have hmin : ∀ k, i ≤ k → k < j → w.getLsbD k = false := by
    intro k hk1 hk2
    unfold nextSet at h
    rw [List.find?_eq_some_iff_append] at h
    obtain ⟨_, as, bs', he, hall⟩ := h
    have hk : k ∈ List.range' i (64 - i) := by rw [List.mem_range'_1]; omega
    rw [he] at hk
    rcases List.mem_append.mp hk with hk | hk
    · simpa using hall k hk
    · have hp : (as ++ j :: bs').Pairwise (· < ·) := he ▸ List.pairwise_lt_range'
      rw [List.pairwise_append] at hp
      rcases List.mem_cons.mp hk with rfl | hk
      · omega
      · have := (List.pairwise_cons.mp hp.2.1).1 k hk; omega
  have hperm : (bitsFrom w i).Perm (j :: bitsFrom w (j+1)) := by
    rw [List.perm_ext_iff_of_nodup (s1.imp (fun h => by omega)) (s2.imp (fun h => by omega))]
    intro k
    rw [List.mem_cons, mem_bitsFrom, mem_bitsFrom]
    constructor
    · rintro ⟨h1, h2, h3⟩
      by_cases hk : k < j
      · rw [hmin k h1 hk] at h3; cases h3
      · by_cases e : k = j
        · exact Or.inl e
        · exact Or.inr ⟨by omega, h2, h3⟩
    · rintro (rfl | ⟨h1, h2, h3⟩)
      · exact ⟨hm.1, hj, hb⟩
      · exact ⟨by omega, h2, h3⟩
  exact hperm.eq_of_pairwise (fun a b _ _ h1 h2 => by omega) s1 s2

theorem decompressLoop_spec (w : BitVec 64) : ∀ fuel i res, 65 - i ≤ fuel → i ≤ 64 →
    decompressLoop w fuel i res =
      if ∀ j ∈ bitsFrom w i, isValid (j : Int) = true then
        some (res ++ (bitsFrom w i).map (fun j : Nat => (j : Int)))
      else none := by
  intro fuel
  induction fuel with
  | zero => intro i res h1 h2; omega
  | succ fuel ih =>
    intro i res h1 h2
    simp only [decompressLoop]
    cases hn : nextSet w i with
    | none =>
      have : bitsFrom w i = [] := by
        rw [List.eq_nil_iff_forall_not_mem]
        intro j hj
        have hj := (mem_bitsFrom _ _ _).mp hj
        rw [(nextSet_eq_none w i).mp hn j hj.1 hj.2.1] at hj
        simp at hj
      simp [this]
    | some j =>
      obtain ⟨hij, hj, hb, he⟩ := nextSet_eq_some w i j hn
      cases hv : isValid (j : Int) with
      | false =>
        simp [hv, he]
      | true =>
        simp only [hv, Bool.not_true, Bool.false_eq_true, if_false]
        rw [ih (j+1) _ (by omega) (by omega), he]
        simp [hv]

theorem bitsFrom_zero : bitsFrom (0 : BitVec 64) 0 = [] := by
  rw [List.eq_nil_iff_forall_not_mem]
  intro j hj
  have := (mem_bitsFrom _ _ _).mp hj
  simp at this

theorem decompress_spec (id : ID) :
    decompress id =
      if ∀ j ∈ bitsFrom id 0, isValid (j : Int) = true then
        some ((bitsFrom id 0).map (fun j : Nat => (j : Int)))
      else none := by
  unfold decompress
  split
  · rename_i h
    have h0 : id = (0 : BitVec 64) := by simpa [ID.isDefault, DefaultID] using h
    rw [h0, bitsFrom_zero]
    simp
  · rw [decompressLoop_spec id 65 0 [] (by omega) (by omega)]
    simp

end Verif.Agg
