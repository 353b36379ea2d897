import Verif.Model.Transformation
import Verif.Model.Validator
import Verif.Lemmas.Float
import Verif.Spec.Transformation
/- C64: transformations of datapoints. -/
namespace Verif.Tf
open Verif.F Verif.Spec.Tf

theorem wrap_ok {x : Int} (h1 : -2 ^ 63 ≤ x) (h2 : x < 2 ^ 63) : wrap64 x = x := by
  unfold wrap64
  rw [Int.bmod_def]
  split <;> omega

theorem rnd_pos {n : Nat} (h : 0 < n) : 0 < rnd n 1 := by
  have := (rnd_bound n 1 (by decide) (z := 1) ⟨1, 0, by decide, rfl⟩).1 (by omega)
  omega

theorem rnd_zero (d : Nat) (hd : 0 < d) : rnd 0 d = 0 := rnd_exact 0 d 0 hd rep_zero (by simp)

theorem rep_mul_one {m : Nat} (h : m < 2 ^ 53) : Rep (m * one) := ⟨m, 1074, h, by unfold one; rfl⟩

theorem limit_one : 2 ^ 1024 * one = limit := by
  unfold limit one
  rw [← Nat.pow_add]

theorem of_small {s : Bool} {m : Nat} (h : m < limit) : F64.of s m = .fin s m := by
  unfold F64.of
  rw [if_neg (by omega)]

/-- A time difference as a `float64`. -/
theorem ofInt_dt {T : Nat} (hT : 0 < T) (hT2 : T < 2 ^ 63) :
    ∃ M, ofInt (T : Int) = .fin false M ∧ one ≤ M ∧ M = rnd (T * one) 1 := by
  refine ⟨rnd (T * one) 1, ?_, ?_, rfl⟩
  · unfold ofInt
    rw [Int.natAbs_natCast, of_small]
    · simp
    · have h1 : rnd (T * one) 1 ≤ 2 ^ 63 * one := by
        refine (rnd_bound _ 1 (by decide) ⟨1, 1137, by decide, ?_⟩).2 ?_
        · unfold one; rw [← Nat.pow_add, Nat.one_mul]
        · rw [Nat.mul_one]; exact Nat.mul_le_mul_right _ (by omega)
      refine Nat.lt_of_le_of_lt h1 ?_
      rw [← limit_one]
      exact Nat.mul_lt_mul_of_pos_right (Nat.pow_lt_pow_right (by decide) (by decide)) one_pos
  · have := (rnd_bound (T * one) 1 (by decide) (rep_mul_one (m := 1) (by decide))).1 (by
      rw [Nat.mul_one]; exact Nat.mul_le_mul_right _ hT)
    omega

theorem nanos_eq : nanosPerSecond = .fin false (1000000000 * one) := by
  unfold nanosPerSecond ofInt
  rw [rnd_exact ((1000000000 : Int).natAbs * one) 1 (1000000000 * one) (by decide) (rep_mul_one (by decide))
    (by rw [Nat.mul_one, show (1000000000 : Int).natAbs = 1000000000 from rfl])]
  rw [of_small]
  · rfl
  · rw [← limit_one]
    exact Nat.mul_lt_mul_of_pos_right (Nat.lt_of_lt_of_le (by decide : 1000000000 < 2 ^ 30) (Nat.pow_le_pow_right (by decide) (by decide))) one_pos

theorem sub_lt_zero_iff (v v' : F64) (hv : v ≠ .nan) (hv' : v' ≠ .nan) :
    (v'.sub v).lt (.fin false 0) = true ↔ Decreases v v' := by
  cases v with
  | nan => exact absurd rfl hv
  | inf s =>
    cases v' with
    | nan => exact absurd rfl hv'
    | inf t => cases s <;> cases t <;> simp [F64.sub, F64.lt, Decreases]
    | fin t b => cases s <;> simp [F64.sub, F64.lt, Decreases]
  | fin s a =>
    cases v' with
    | nan => exact absurd rfl hv'
    | inf t => cases t <;> simp [F64.sub, F64.lt, Decreases]
    | fin t b =>
      simp only [F64.sub, Decreases]
      split
      · rename_i h
        have : F64.lt (.fin (b == 0 && t && !s) 0) (.fin false 0) = false := by
          simp [F64.lt, signed]
        rw [this]
        constructor
        · intro h; cases h
        · intro h; omega
      · rename_i h
        have hp : 0 < rnd (signed t b - signed s a).natAbs 1 := rnd_pos (by omega)
        unfold F64.of
        split
        · simp [F64.lt]; omega
        · have e : ∀ (n : Bool) (m : Nat), 0 < m → F64.lt (.fin n m) (.fin false 0) = n := by
            intro n m hm
            cases n <;> simp [F64.lt, signed] <;> omega
          rw [e _ _ hp, decide_eq_true_iff]
          omega

/-- What is computed when nothing is skipped. -/
def rateOf (t t' : Int) (v v' : F64) : F64 := ((v'.sub v).mul nanosPerSecond).div (ofInt (wrap64 (t' - t)))

theorem perSecond_eq (prev curr : Datapoint) :
    (Skips prev.timeNanos curr.timeNanos prev.value curr.value → perSecond prev curr = emptyDatapoint) ∧
    (¬ Skips prev.timeNanos curr.timeNanos prev.value curr.value →
      perSecond prev curr = ⟨curr.timeNanos, rateOf prev.timeNanos curr.timeNanos prev.value curr.value⟩) := by
  have hnan : ∀ v : F64, v.isNaN = true ↔ v = .nan := by intro v; cases v <;> simp [F64.isNaN]
  unfold perSecond Skips
  simp only [hnan]
  by_cases h : prev.timeNanos ≥ curr.timeNanos ∨ prev.value = .nan ∨ curr.value = .nan
  · rw [if_pos h]
    refine ⟨fun _ => rfl, fun hn => ?_⟩
    rcases h with h | h | h
    · exact absurd (Or.inl h) hn
    · exact absurd (Or.inr (Or.inl h)) hn
    · exact absurd (Or.inr (Or.inr (Or.inl h))) hn
  · rw [if_neg h]
    have h1 : prev.value ≠ .nan := fun e => h (Or.inr (Or.inl e))
    have h2 : curr.value ≠ .nan := fun e => h (Or.inr (Or.inr e))
    by_cases hd : (curr.value.sub prev.value).lt (.fin false 0) = true
    · simp only [hd, if_true]
      exact ⟨fun _ => trivial, fun hn => absurd (Or.inr (Or.inr (Or.inr ((sub_lt_zero_iff _ _ h1 h2).mp hd)))) hn⟩
    · rw [if_neg hd]
      constructor
      · rintro (hs | hs | hs | hs)
        · exact absurd (Or.inl hs) h
        · exact absurd hs h1
        · exact absurd hs h2
        · exact absurd ((sub_lt_zero_iff _ _ h1 h2).mpr hs) hd
      · intro _; rfl

theorem mul_fin (s t : Bool) (a b : Nat) : (F64.fin s a).mul (.fin t b) = .of (s ^^ t) (rnd (a * b) one) := rfl
theorem mul_inf (s t : Bool) (b : Nat) (h : b ≠ 0) : (F64.inf s).mul (.fin t b) = .inf (s ^^ t) := by
  simp only [F64.mul, if_neg h]
theorem div_inf (s t : Bool) (b : Nat) : (F64.inf s).div (.fin t b) = .inf (s ^^ t) := rfl
theorem div_fin (s t : Bool) (a b : Nat) (h : b ≠ 0) : (F64.fin s a).div (.fin t b) = .of (s ^^ t) (rnd (a * one) b) := by
  simp only [F64.div, if_neg h]
theorem of_large {s : Bool} {m : Nat} (h : limit ≤ m) : F64.of s m = .inf s := by
  unfold F64.of
  rw [if_pos h]

theorem rate_rise_aux {z M K : Nat} (hK : 0 < K) (h1 : one ≤ M) :
    ((F64.of false (rnd z 1)).mul (.fin false (K * one))).div (.fin false M) =
      if limit ≤ rnd (rnd z 1 * K) 1 then .inf false else .fin false (rnd (rnd (rnd z 1 * K) 1 * one) M) := by
  have hM0 : 0 < M := Nat.lt_of_lt_of_le one_pos h1
  have hr : rnd z 1 ≤ rnd (rnd z 1 * K) 1 :=
    (rnd_bound _ 1 (by decide) (rnd_rep z 1 (by decide))).1 (by rw [Nat.mul_one]; exact Nat.le_mul_of_pos_right _ hK)
  have hsc : rnd (rnd z 1 * (K * one)) one = rnd (rnd z 1 * K) 1 := by
    rw [← Nat.mul_assoc]
    have := rnd_scale (rnd z 1 * K) 1 one one_pos
    rwa [Nat.one_mul] at this
  have hK1 : K * one ≠ 0 := Nat.pos_iff_ne_zero.mp (Nat.mul_pos hK one_pos)
  have hb := (rnd_bound (rnd (rnd z 1 * K) 1 * one) M hM0 (rnd_rep (rnd z 1 * K) 1 (by decide))).2
          (Nat.mul_le_mul_left _ h1)
  generalize rnd z 1 = r1 at *
  by_cases hl : limit ≤ r1
  · rw [if_pos (Nat.le_trans hl hr), of_large hl, mul_inf _ _ _ hK1, div_inf]
    rfl
  · rw [of_small (Nat.lt_of_not_le hl), mul_fin, hsc]
    by_cases hl2 : limit ≤ rnd (r1 * K) 1
    · rw [if_pos hl2, of_large hl2, div_inf]
      rfl
    · rw [if_neg hl2, of_small (Nat.lt_of_not_le hl2), div_fin _ _ _ _ (Nat.pos_iff_ne_zero.mp hM0),
        of_small (Nat.lt_of_le_of_lt hb (Nat.lt_of_not_le hl2)), Bool.xor_false, Bool.xor_false]

/-- The rate of a rise of `z` units over `T` nanoseconds. -/
theorem rate_rise {z T : Nat} (hT : 0 < T) (hT2 : T < 2 ^ 63) :
    ((F64.of false (rnd z 1)).mul nanosPerSecond).div (ofInt (T : Int)) =
      if limit ≤ rnd (rnd z 1 * 1000000000) 1 then .inf false
      else .fin false (rnd (rnd (rnd z 1 * 1000000000) 1 * one) (rnd (T * one) 1)) := by
  obtain ⟨M, hM, h1, h2⟩ := ofInt_dt hT hT2
  rw [hM, nanos_eq, ← h2]
  exact rate_rise_aux (by decide) h1

theorem rate_flat {sg : Bool} {T : Nat} (hT : 0 < T) (hT2 : T < 2 ^ 63) :
    ((F64.fin sg 0).mul nanosPerSecond).div (ofInt (T : Int)) = .fin sg 0 := by
  obtain ⟨M, hM, h1, h2⟩ := ofInt_dt hT hT2
  have hM0 : M ≠ 0 := by have := one_pos; omega
  have hl : (0 : Nat) < limit := by unfold limit; exact Nat.pow_pos (by decide)
  rw [hM, nanos_eq]
  simp only [F64.mul, Nat.zero_mul, rnd_zero one one_pos, of_small hl, F64.div, if_neg hM0, rnd_zero M (by omega)]
  simp

theorem near_upper {Y N R X Z W M : Nat} (c1 : 2 ^ 53 * R ≤ (2 ^ 53 + 1) * N) (c3 : 2 ^ 53 * Z ≤ (2 ^ 53 + 1) * R)
    (e1 : 2 ^ 53 * X ≤ (2 ^ 53 + 1) * Z + 2 ^ 52 * M) (f1 : 2 ^ 53 * M ≤ (2 ^ 53 + 1) * W) (c6 : (2 ^ 53 - 1) * Y ≤ 2 ^ 53 * X) :
    2 ^ 50 * Y ≤ (2 ^ 50 + 1) * N + 2 ^ 50 * W := by
  have s1 : 2 ^ 53 * Z ≤ (2 ^ 53 + 3) * N := by clear e1 f1 c6; omega
  have s2 : 2 ^ 53 * X ≤ (2 ^ 53 + 5) * N + 2 ^ 52 * M := by clear c1 c3 f1 c6; omega
  clear c1 c3 e1 s1
  have s3 : 2 ^ 52 * M ≤ (2 ^ 52 + 1) * W := by clear s2 c6; omega
  have s4 : (2 ^ 53 - 1) * Y ≤ (2 ^ 53 + 5) * N + (2 ^ 52 + 1) * W := by clear f1; omega
  clear f1 c6 s2 s3
  omega

theorem near_lower {Y N R X Z W M : Nat} (c2 : (2 ^ 53 - 1) * N ≤ 2 ^ 53 * R) (c4 : (2 ^ 53 - 1) * R ≤ 2 ^ 53 * Z)
    (e2 : 2 ^ 53 * Z ≤ 2 ^ 53 * X + Z + 2 ^ 52 * M) (f1 : 2 ^ 53 * M ≤ (2 ^ 53 + 1) * W) (c5 : 2 ^ 53 * X ≤ (2 ^ 53 + 1) * Y) :
    2 ^ 50 * N ≤ 2 ^ 50 * Y + N + 2 ^ 50 * W := by
  have s1 : (2 ^ 53 - 2) * N ≤ 2 ^ 53 * Z := by clear e2 f1 c5; omega
  clear c2 c4
  have s3 : 2 ^ 52 * M ≤ (2 ^ 52 + 1) * W := by clear e2 c5 s1; omega
  have s2 : (2 ^ 53 - 1) * Z ≤ (2 ^ 53 + 1) * Y + (2 ^ 52 + 1) * W := by clear f1 s1; omega
  clear e2 f1 s3 c5
  omega

/-- The errors of the four roundings together. -/
theorem rate_near_aux {z T K : Nat} (hT : 0 < T) : Near (rnd (rnd (rnd z 1 * K) 1 * one) (rnd (T * one) 1)) (z * K) T := by
  have hone := one_pos
  have hM : 0 < rnd (T * one) 1 := rnd_pos (Nat.mul_pos hT hone)
  have a1 := rnd_int z
  have a2 := rnd_int (rnd z 1 * K)
  have a3 := rnd_int (T * one)
  have a4 := rnd_frac (rnd (rnd z 1 * K) 1 * one) _ hM
  generalize rnd z 1 = r1 at *
  generalize rnd (r1 * K) 1 = r2 at *
  generalize rnd (T * one) 1 = M at *
  generalize rnd (r2 * one) M = r3 at *
  generalize one = S at *
  have c1 := Nat.mul_le_mul_right (K * S) a1.1
  have c2 := Nat.mul_le_mul_right (K * S) a1.2
  have c3 := Nat.mul_le_mul_right S a2.1
  have c4 := Nat.mul_le_mul_right S a2.2
  have c5 := Nat.mul_le_mul_left r3 a3.1
  have c6 := Nat.mul_le_mul_left r3 a3.2
  rw [Nat.mul_assoc, Nat.mul_assoc, ← Nat.mul_assoc r1, ← Nat.mul_assoc z] at c1 c2
  rw [Nat.mul_assoc, Nat.mul_assoc (2 ^ 53 + 1)] at c3
  rw [Nat.mul_assoc, Nat.mul_assoc (2 ^ 53)] at c4
  rw [Nat.mul_left_comm r3, Nat.mul_left_comm r3 (2 ^ 53 + 1), ← Nat.mul_assoc r3] at c5
  rw [Nat.mul_left_comm r3, Nat.mul_left_comm r3 (2 ^ 53), ← Nat.mul_assoc r3] at c6
  obtain ⟨e1, e2⟩ := a4
  obtain ⟨f1, f2⟩ := a3
  have goal : 2 ^ 50 * (r3 * T * S) ≤ (2 ^ 50 + 1) * (z * K * S) + 2 ^ 50 * (T * S) ∧
      2 ^ 50 * (z * K * S) ≤ 2 ^ 50 * (r3 * T * S) + z * K * S + 2 ^ 50 * (T * S) := by
    exact ⟨near_upper c1 c3 e1 f1 c6, near_lower c2 c4 e2 f1 c5⟩
  obtain ⟨g1, g2⟩ := goal
  refine ⟨Nat.le_of_mul_le_mul_right (c := S) ?_ hone, Nat.le_of_mul_le_mul_right (c := S) ?_ hone⟩
  · simp only [Nat.add_mul, Nat.mul_assoc] at g1 ⊢
    exact g1
  · simp only [Nat.add_mul, Nat.mul_assoc] at g2 ⊢
    exact g2

/-! ### The property -/

/-- The times are in order and their difference fits. -/
theorem dt_nat {t t' : Int} (h : ¬ t' ≤ t) (ht : TimesOk t t') : ∃ T : Nat, t' - t = T ∧ 0 < T ∧ T < 2 ^ 63 ∧ wrap64 (t' - t) = T := by
  obtain ⟨h1, h2⟩ := ht
  refine ⟨(t' - t).toNat, by omega, by omega, by omega, ?_⟩
  rw [wrap_ok h1 h2]
  omega

/-- C64: when time does not go on, a value is missing or the value goes down, the result is the empty datapoint, which is that of time 0
without a value. -/
theorem C64_skips (prev curr : Datapoint) (h : Skips prev.timeNanos curr.timeNanos prev.value curr.value) :
    perSecond prev curr = ⟨0, .nan⟩ := (perSecond_eq prev curr).1 h

/-- C64, part: otherwise, for finite values, the result bears the current time and the rise per second: up to a relative error of
2^-50 and an absolute one of 2^-1074.  Missing for the full claim: rises from about 1.8e299 on are reported as infinite
(`C64_violation_overflow`), and two infinite values give a value that is not a number (`C64_violation_infinite`). -/
theorem C64_rate_partial (t t' : Int) (s s' : Bool) (a a' : Nat) (ht : TimesOk t t') (hlt : t < t')
    (z : Nat) (hz : signed s' a' - signed s a = z) (hf : Fits z) :
    ∃ sg v, perSecond ⟨t, .fin s a⟩ ⟨t', .fin s' a'⟩ = ⟨t', .fin sg v⟩ ∧ Near v (z * 1000000000) (t' - t).toNat ∧
      (sg = true → v = 0 ∧ z = 0) := by
  have hn : ¬ Skips t t' (.fin s a) (.fin s' a') := by
    rintro (h | h | h | h)
    · omega
    · cases h
    · cases h
    · simp only [Decreases] at h; omega
  rw [(perSecond_eq ⟨t, .fin s a⟩ ⟨t', .fin s' a'⟩).2 hn]
  obtain ⟨T, hT, hT0, hT1, hw⟩ := dt_nat (by omega) ht
  rw [hT, Int.toNat_natCast]
  unfold rateOf
  rw [hw]
  simp only [F64.sub, hz]
  by_cases h0 : z = 0
  · subst h0
    rw [if_pos (by rfl), rate_flat hT0 hT1]
    refine ⟨_, 0, rfl, ?_, fun _ => ⟨rfl, rfl⟩⟩
    unfold Near
    omega
  · rw [if_neg (by omega), Int.natAbs_natCast, decide_eq_false (by omega), rate_rise hT0 hT1]
    refine ⟨false, _, ?_, rate_near_aux hT0, fun h => by cases h⟩
    rw [if_neg]
    have a1 := rnd_int z
    have a2 := rnd_int (rnd z 1 * 1000000000)
    unfold Fits at hf
    have hl : limit = 2 ^ 53 * 2 ^ 2045 := by unfold limit; rw [← Nat.pow_add]
    have hp : 0 < (2 : Nat) ^ 2045 := Nat.pow_pos (by decide)
    rw [hl]
    generalize (2 : Nat) ^ 2045 = L at *
    generalize rnd (rnd z 1 * 1000000000) 1 = r2 at *
    generalize rnd z 1 = r1 at *
    clear hl hw hT hn hz
    omega

/-- What the rate can be. -/
theorem rate_cases {t t' : Int} {v v' : F64} (ht : TimesOk t t') (h : ¬ Skips t t' v v') :
    (∃ s, v = .inf s ∧ v' = .inf s ∧ rateOf t t' v v' = .nan) ∨
    ((∃ s, v = .inf s) ∧ (∃ s a, v' = .fin s a) ∧ rateOf t t' v v' = .inf false) ∨
    (v' = .inf false ∧ v ≠ .inf false ∧ rateOf t t' v v' = .inf false) ∨
    ((∃ s a, v = .fin s a) ∧ (∃ s a, v' = .fin s a) ∧
      (rateOf t t' v v' = .inf false ∨ ∃ sg w, rateOf t t' v v' = .fin sg w ∧ (sg = true → w = 0))) := by
  obtain ⟨T, hT, hT0, hT1, hw⟩ := dt_nat (t := t) (t' := t') (fun hc => h (Or.inl hc)) ht
  have hnd : ¬ Decreases v v' := fun hc => h (Or.inr (Or.inr (Or.inr hc)))
  obtain ⟨M, hM, hM1, _⟩ := ofInt_dt hT0 hT1
  have hinf : ((F64.inf false).mul nanosPerSecond).div (ofInt (wrap64 (t' - t))) = .inf false := by
    rw [hw, hM, nanos_eq, mul_inf _ _ _ (Nat.mul_ne_zero (by decide) (Nat.pos_iff_ne_zero.mp one_pos)), div_inf]
    rfl
  cases v with
  | nan => exact absurd (Or.inr (Or.inl rfl)) h
  | inf s =>
    cases v' with
    | nan => exact absurd (Or.inr (Or.inr (Or.inl rfl))) h
    | inf s' =>
      by_cases hs : s = s'
      · subst hs
        left
        refine ⟨s, rfl, rfl, ?_⟩
        simp only [rateOf, F64.sub, if_true, F64.mul, F64.div]
      · have h2 : s = true ∧ s' = false := by
          cases s <;> cases s' <;> simp [Decreases] at hs hnd ⊢
        obtain ⟨rfl, rfl⟩ := h2
        right; right; left
        exact ⟨rfl, by simp, hinf⟩
    | fin s' a' =>
      have h2 : s = true := by
        cases s <;> simp [Decreases] at hnd ⊢
      subst h2
      right; left
      exact ⟨⟨true, rfl⟩, ⟨s', a', rfl⟩, hinf⟩
  | fin s a =>
    cases v' with
    | nan => exact absurd (Or.inr (Or.inr (Or.inl rfl))) h
    | inf s' =>
      have h2 : s' = false := by
        cases s' <;> simp [Decreases] at hnd ⊢
      subst h2
      right; right; left
      exact ⟨rfl, by simp, hinf⟩
    | fin s' a' =>
      right; right; right
      refine ⟨⟨s, a, rfl⟩, ⟨s', a', rfl⟩, ?_⟩
      simp only [Decreases] at hnd
      unfold rateOf
      rw [hw]
      simp only [F64.sub]
      by_cases h0 : signed s' a' - signed s a = 0
      · rw [if_pos h0, rate_flat hT0 hT1]
        exact Or.inr ⟨_, 0, rfl, fun _ => rfl⟩
      · rw [if_neg h0, decide_eq_false (by omega), rate_rise hT0 hT1]
        split
        · exact Or.inl rfl
        · exact Or.inr ⟨false, _, rfl, fun h => by cases h⟩

/-- C64, part: the result is empty exactly when nothing can be said, or when both values are the same infinity. -/
theorem C64_empty_iff (prev curr : Datapoint) (ht : TimesOk prev.timeNanos curr.timeNanos) :
    (perSecond prev curr).isEmpty = true ↔ Skips prev.timeNanos curr.timeNanos prev.value curr.value ∨
      ∃ s, prev.value = .inf s ∧ curr.value = .inf s := by
  by_cases h : Skips prev.timeNanos curr.timeNanos prev.value curr.value
  · rw [(perSecond_eq prev curr).1 h]
    exact ⟨fun _ => Or.inl h, fun _ => rfl⟩
  · rw [(perSecond_eq prev curr).2 h]
    simp only [Datapoint.isEmpty]
    rcases rate_cases ht h with ⟨s, h1, h2, h3⟩ | ⟨⟨s, h1⟩, ⟨s', a', h2⟩, h3⟩ | ⟨h1, h2, h3⟩ | ⟨⟨s, a, h1⟩, _, h3⟩
    · rw [h3]; exact ⟨fun _ => Or.inr ⟨s, h1, h2⟩, fun _ => rfl⟩
    · rw [h3]
      refine ⟨fun hc => (by cases hc), ?_⟩
      rintro (hc | ⟨s2, _, hc⟩)
      · exact absurd hc h
      · rw [h2] at hc; cases hc
    · rw [h3]
      refine ⟨fun hc => (by cases hc), ?_⟩
      rintro (hc | ⟨s2, hc1, hc⟩)
      · exact absurd hc h
      · rw [h1] at hc; cases hc; exact absurd hc1 h2
    · have hne : ¬ (Skips prev.timeNanos curr.timeNanos prev.value curr.value ∨ ∃ s, prev.value = .inf s ∧ curr.value = .inf s) := by
        rintro (hc | ⟨s2, hc1, _⟩)
        · exact h hc
        · rw [h1] at hc1; cases hc1
      rcases h3 with h3 | ⟨sg, w, h3, _⟩ <;> rw [h3] <;> exact ⟨fun hc => (by cases hc), fun hc => absurd hc hne⟩

/-- C64: whatever the values, the result is never negative, and it bears the current time unless nothing can be said. -/
theorem C64_never_negative (prev curr : Datapoint) (ht : TimesOk prev.timeNanos curr.timeNanos) :
    (perSecond prev curr).value.lt (.fin false 0) = false ∧
    (¬ Skips prev.timeNanos curr.timeNanos prev.value curr.value → (perSecond prev curr).timeNanos = curr.timeNanos) := by
  by_cases h : Skips prev.timeNanos curr.timeNanos prev.value curr.value
  · rw [(perSecond_eq prev curr).1 h]
    exact ⟨rfl, fun hn => absurd h hn⟩
  · rw [(perSecond_eq prev curr).2 h]
    refine ⟨?_, fun _ => rfl⟩
    rcases rate_cases ht h with ⟨s, h1, h2, h3⟩ | ⟨_, _, h3⟩ | ⟨_, _, h3⟩ | ⟨_, _, h3 | ⟨sg, w, h3, hs⟩⟩
    · rw [h3]; rfl
    · rw [h3]; rfl
    · rw [h3]; rfl
    · rw [h3]; rfl
    · rw [h3]
      cases sg with
      | true => rw [hs rfl]; rfl
      | false => simp only [F64.lt, signed]; simp

/-- C64: when the rise times 10^9, the time difference and the quotient all have at most 53 bits, the result is exact. -/
theorem C64_exact (t t' : Int) (s s' : Bool) (a a' : Nat) (ht : TimesOk t t') (hlt : t < t') (z v : Nat)
    (hz : signed s' a' - signed s a = z) (h0 : 0 < z) (hr : Rep z) (hr2 : Rep (z * 1000000000)) (hb : z * 1000000000 < limit)
    (hT : t' - t < 2 ^ 53) (hv : Rep v) (he : v * (t' - t).toNat = z * 1000000000) :
    perSecond ⟨t, .fin s a⟩ ⟨t', .fin s' a'⟩ = ⟨t', .fin false v⟩ := by
  have hn : ¬ Skips t t' (.fin s a) (.fin s' a') := by
    rintro (h | h | h | h)
    · omega
    · cases h
    · cases h
    · simp only [Decreases] at h; omega
  rw [(perSecond_eq ⟨t, .fin s a⟩ ⟨t', .fin s' a'⟩).2 hn]
  obtain ⟨T, hT', hT0, hT1, hw⟩ := dt_nat (by omega) ht
  rw [hT', Int.toNat_natCast] at he
  unfold rateOf
  rw [hw]
  simp only [F64.sub, hz]
  rw [if_neg (by omega), Int.natAbs_natCast, decide_eq_false (by omega), rate_rise hT0 hT1,
    rnd_exact z 1 z (by decide) hr (Nat.mul_one z).symm, rnd_exact _ 1 _ (by decide) hr2 (Nat.mul_one _).symm,
    rnd_exact (T * one) 1 (T * one) (by decide) (rep_mul_one (by omega)) (Nat.mul_one _).symm,
    rnd_exact (z * 1000000000 * one) (T * one) v (Nat.mul_pos hT0 one_pos) hv (by rw [← he, Nat.mul_assoc])]
  rw [if_neg (Nat.not_le_of_lt hb)]

/-- A counter at 100 and two seconds later at 103: one and a half per second. -/
example : perSecond ⟨7000000000, .fin false (100 * 2 ^ 1074)⟩ ⟨9000000000, .fin false (103 * 2 ^ 1074)⟩ =
    ⟨9000000000, .fin false (3 * 2 ^ 1073)⟩ ∧ Fits (3 * 2 ^ 1074) ∧ Rep (3 * 2 ^ 1073) := by
  refine ⟨?_, ?_, ⟨3, 1073, by decide, rfl⟩⟩
  · decide +kernel
  · unfold Fits; decide +kernel

/-- The bits of 1.5 and of the smallest positive number. -/
example : ofBits 0x3FF8000000000000#64 = .fin false (3 * 2 ^ 1073) ∧ ofBits 1#64 = .fin false 1 ∧
    ofBits 0xFFF0000000000000#64 = .inf true := by decide +kernel

/-- C64 is violated: the rise of 10^300 in 1000 seconds is 10^297 per second, which a `float64` can hold; infinity is reported. -/
theorem C64_violation_overflow : ∃ z : Nat, Rep z ∧ z < limit ∧
    perSecond ⟨0, .fin false 0⟩ ⟨1000000000000, .fin false z⟩ = ⟨1000000000000, .inf false⟩ ∧ z / 1000 < limit :=
  ⟨2 ^ 2074, ⟨1, 2074, by decide, (Nat.one_mul _).symm⟩, by decide +kernel, by decide +kernel, by decide +kernel⟩

/-- C64 is violated: two infinite values give a datapoint of the current time whose value is not a number. -/
theorem C64_violation_infinite (s : Bool) (t t' : Int) (ht : TimesOk t t') (hlt : t < t') :
    ¬ Skips t t' (.inf s) (.inf s) ∧ perSecond ⟨t, .inf s⟩ ⟨t', .inf s⟩ = ⟨t', .nan⟩ := by
  have hn : ¬ Skips t t' (.inf s) (.inf s) := by
    rintro (h | h | h | h)
    · omega
    · cases h
    · cases h
    · cases s <;> simp [Decreases] at h
  refine ⟨hn, ?_⟩
  rw [(perSecond_eq ⟨t, .inf s⟩ ⟨t', .inf s⟩).2 hn]
  rcases rate_cases ht hn with ⟨_, _, _, h3⟩ | ⟨_, ⟨_, _, h2⟩, _⟩ | ⟨h1, h2, _⟩ | ⟨⟨_, _, h1⟩, _⟩
  · rw [h3]
  · cases h2
  · exact absurd h1 h2
  · cases h1

/-- Outside of the claim: when the time difference overflows, a rise is reported as a fall. -/
theorem C64_wrapped : (perSecond ⟨-2 ^ 63, .fin false 0⟩ ⟨2 ^ 63 - 1, .fin false (2 ^ 1074)⟩).value.lt (.fin false 0) = true := by
  decide +kernel

/-- C64: the absolute value keeps the time, is never negative and differs from the value at most in sign. -/
theorem C64_absolute (dp : Datapoint) : (absolute dp).timeNanos = dp.timeNanos ∧ (absolute dp).value.lt (.fin false 0) = false ∧
    ((absolute dp).isEmpty = dp.isEmpty) ∧
    (∀ s a, dp.value = .fin s a → (absolute dp).value = .fin false a) ∧ (∀ s, dp.value = .inf s → (absolute dp).value = .inf false) := by
  obtain ⟨t, v⟩ := dp
  refine ⟨rfl, ?_, ?_, ?_, ?_⟩
  · cases v with
    | nan => rfl
    | inf s => rfl
    | fin s a => simp only [absolute, F64.abs, F64.lt, signed]; simp
  · cases v <;> rfl
  · rintro s a rfl; rfl
  · rintro s rfl; rfl

/-! ### Order -/

/-- Rounding keeps the order of fractions. -/
theorem rnd_mono_same {n n' d : Nat} (hd : 0 < d) (h : n ≤ n') : rnd n d ≤ rnd n' d := by
  refine Nat.le_of_not_lt fun hlt => ?_
  have a1 := (rnd_bound n d hd (rnd_rep n' d hd)).2
  have a2 := (rnd_bound n' d hd (rnd_rep n d hd)).1
  have b1 := rnd_nearest n d hd (rnd_rep n' d hd)
  have b2 := rnd_nearest n' d hd (rnd_rep n d hd)
  by_cases he : n = n'
  · subst he; omega
  have c1 : ¬ n ≤ rnd n' d * d := fun hc => by have := a1 hc; omega
  have c2 : ¬ rnd n d * d ≤ n' := fun hc => by have := a2 hc; omega
  omega

theorem rnd_mono {n n' d d' : Nat} (hd : 0 < d) (hd' : 0 < d') (h : n * d' ≤ n' * d) : rnd n d ≤ rnd n' d' := by
  rw [← rnd_scale n d d' hd', ← rnd_scale n' d' d hd, Nat.mul_comm d' d]
  exact rnd_mono_same (Nat.mul_pos hd hd') h

theorem fin_not_lt {g₁ g₂ : Bool} {v₁ v₂ : Nat} (h : v₁ ≤ v₂) (h₂ : g₂ = true → v₂ = 0) :
    (F64.fin g₂ v₂).lt (.fin g₁ v₁) = false := by
  simp only [F64.lt, signed, decide_eq_false_iff_not]
  cases g₂ with
  | true =>
    have := h₂ rfl
    subst this
    cases g₁ <;> simp <;> omega
  | false => cases g₁ <;> simp <;> omega

/-- What is reported for finite values that do not go down. -/
theorem rate_value {t t' : Int} {s s' : Bool} {a a' : Nat} (ht : TimesOk t t') (hlt : t < t') {z : Nat}
    (hz : signed s' a' - signed s a = z) :
    ∃ sg, (perSecond ⟨t, .fin s a⟩ ⟨t', .fin s' a'⟩).value =
      (if limit ≤ rnd (rnd z 1 * 1000000000) 1 then .inf false
      else .fin sg (rnd (rnd (rnd z 1 * 1000000000) 1 * one) (rnd ((t' - t).toNat * one) 1))) ∧
      (sg = true ↔ a = 0 ∧ a' = 0 ∧ s' = true ∧ s = false) := by
  have hn : ¬ Skips t t' (.fin s a) (.fin s' a') := by
    rintro (h | h | h | h)
    · omega
    · cases h
    · cases h
    · simp only [Decreases] at h; omega
  rw [(perSecond_eq ⟨t, .fin s a⟩ ⟨t', .fin s' a'⟩).2 hn]
  obtain ⟨T, hT, hT0, hT1, hw⟩ := dt_nat (by omega) ht
  rw [hT, Int.toNat_natCast]
  unfold rateOf
  rw [hw]
  simp only [F64.sub, hz]
  by_cases h0 : z = 0
  · subst h0
    have hM : 0 < rnd (T * one) 1 := rnd_pos (Nat.mul_pos hT0 one_pos)
    have hl : ¬ limit ≤ 0 := by unfold limit; exact Nat.not_le_of_lt (Nat.pow_pos (by decide))
    rw [if_pos (by rfl), rate_flat hT0 hT1, rnd_zero 1 (by decide), Nat.zero_mul, rnd_zero 1 (by decide), Nat.zero_mul, rnd_zero _ hM]
    refine ⟨_, (if_neg hl).symm, ?_⟩
    cases s <;> cases s' <;> simp [signed] at hz ⊢ <;> omega
  · rw [if_neg (by omega), Int.natAbs_natCast, decide_eq_false (by omega), rate_rise hT0 hT1]
    refine ⟨false, rfl, ?_⟩
    cases s <;> cases s' <;> simp [signed] at hz ⊢ <;> omega

/-- C64: the rate of a value that stays the same is zero: a positive one, except from a positive to a negative zero. -/
theorem C64_flat (t t' : Int) (s s' : Bool) (a a' : Nat) (ht : TimesOk t t') (hlt : t < t') (hz : signed s' a' = signed s a) :
    perSecond ⟨t, .fin s a⟩ ⟨t', .fin s' a'⟩ = ⟨t', .fin (decide (a = 0 ∧ s = false ∧ s' = true)) 0⟩ := by
  have hn : ¬ Skips t t' (.fin s a) (.fin s' a') := by
    rintro (h | h | h | h)
    · omega
    · cases h
    · cases h
    · simp only [Decreases] at h; omega
  rw [(perSecond_eq ⟨t, .fin s a⟩ ⟨t', .fin s' a'⟩).2 hn]
  obtain ⟨T, hT, hT0, hT1, hw⟩ := dt_nat (by omega) ht
  unfold rateOf
  rw [hw]
  simp only [F64.sub]
  rw [if_pos (by omega), rate_flat hT0 hT1]
  congr 2
  cases s <;> cases s' <;> simp [signed] at hz ⊢
  have e1 : a = 0 := by omega
  have e2 : a' = 0 := by omega
  rw [e1, e2]; rfl

/-- C64: a rise that is not smaller, over a time that is not longer, is not given a smaller rate: rounding and overflow do not
turn the order around. -/
theorem C64_order (t₁ t₁' t₂ t₂' : Int) (s₁ s₁' s₂ s₂' : Bool) (a₁ a₁' a₂ a₂' : Nat) (h₁ : TimesOk t₁ t₁') (h₂ : TimesOk t₂ t₂')
    (hr : 0 ≤ signed s₁' a₁' - signed s₁ a₁) (hle : signed s₁' a₁' - signed s₁ a₁ ≤ signed s₂' a₂' - signed s₂ a₂)
    (hlt : t₂ < t₂') (ht : t₂' - t₂ ≤ t₁' - t₁) :
    (perSecond ⟨t₂, .fin s₂ a₂⟩ ⟨t₂', .fin s₂' a₂'⟩).value.lt (perSecond ⟨t₁, .fin s₁ a₁⟩ ⟨t₁', .fin s₁' a₁'⟩).value = false := by
  obtain ⟨z₁, hz₁⟩ := Int.eq_ofNat_of_zero_le hr
  obtain ⟨z₂, hz₂⟩ := Int.eq_ofNat_of_zero_le (Int.le_trans hr hle)
  obtain ⟨g₁, e₁, hg₁⟩ := rate_value h₁ (by omega) hz₁
  obtain ⟨g₂, e₂, hg₂⟩ := rate_value h₂ hlt hz₂
  rw [e₁, e₂]
  have hz : z₁ ≤ z₂ := by omega
  have hT : (t₂' - t₂).toNat ≤ (t₁' - t₁).toNat := by omega
  have hT₂ : 0 < (t₂' - t₂).toNat := by omega
  have m₁ : rnd z₁ 1 ≤ rnd z₂ 1 := rnd_mono_same (by decide) hz
  have m₂ : rnd (rnd z₁ 1 * 1000000000) 1 ≤ rnd (rnd z₂ 1 * 1000000000) 1 := rnd_mono_same (by decide) (Nat.mul_le_mul_right _ m₁)
  have m₃ : rnd ((t₂' - t₂).toNat * one) 1 ≤ rnd ((t₁' - t₁).toNat * one) 1 := rnd_mono_same (by decide) (Nat.mul_le_mul_right _ hT)
  have p₂ : 0 < rnd ((t₂' - t₂).toNat * one) 1 := rnd_pos (Nat.mul_pos hT₂ one_pos)
  have q₂ : g₂ = true → rnd z₂ 1 = 0 := by
    intro hg
    obtain ⟨ha, ha', hs, hs'⟩ := hg₂.mp hg
    subst ha ha' hs hs'
    have : z₂ = 0 := by simp [signed] at hz₂; omega
    subst this
    exact rnd_zero 1 (by decide)
  generalize rnd ((t₂' - t₂).toNat * one) 1 = M₂ at *
  generalize rnd ((t₁' - t₁).toNat * one) 1 = M₁ at *
  have p₁ : 0 < M₁ := by omega
  have z0 : ∀ M, 0 < M → rnd (rnd (0 * 1000000000) 1 * one) M = 0 := by
    intro M hM
    rw [Nat.zero_mul, rnd_zero 1 (by decide), Nat.zero_mul, rnd_zero _ hM]
  have m₄ : rnd (rnd (rnd z₁ 1 * 1000000000) 1 * one) M₁ ≤ rnd (rnd (rnd z₂ 1 * 1000000000) 1 * one) M₂ :=
    rnd_mono p₁ p₂ (Nat.mul_le_mul (Nat.mul_le_mul_right _ m₂) m₃)
  have q₃ : g₂ = true → rnd (rnd (rnd z₂ 1 * 1000000000) 1 * one) M₂ = 0 := fun hg => by rw [q₂ hg]; exact z0 _ p₂
  by_cases l₂ : limit ≤ rnd (rnd z₂ 1 * 1000000000) 1
  · rw [if_pos l₂]
    split <;> simp [F64.lt]
  · rw [if_neg l₂, if_neg (fun hc => l₂ (Nat.le_trans hc m₂))]
    exact fin_not_lt m₄ q₃

/-- From 100 to 103 in two seconds, and from 5 to 9 in one. -/
example : (0 : Int) ≤ signed false 103 - signed false 100 ∧ signed false 103 - signed false 100 ≤ signed false 9 - signed false 5 ∧
    TimesOk 7000000000 9000000000 ∧ TimesOk 1000000000 2000000000 ∧ (2000000000 : Int) - 1000000000 ≤ 9000000000 - 7000000000 := by
  unfold TimesOk; decide

/-! ### Types -/

/-- C77: the valid types are those with a function, each is unary or binary but not both; exactly those have a protobuf form and
pass the rule validator, and names are read back to exactly those: `Absolute` is the unary one, `PerSecond` the binary one. -/
theorem C77_types (t : Int) :
    (isValid t = true ↔ t = 1 ∨ t = 2) ∧ (isValid t = true ↔ (isUnary t = true ↔ ¬ isBinary t = true)) ∧
    (isValid t = true ↔ (Pipe.transToProto t).isSome = true) ∧ (Val.isValidTransform t = isValid t ∧ Val.isBinaryTransform t = isBinary t) ∧
    (∀ s, parseType s = some t ↔ isValid t = true ∧ typeString t = some s) ∧
    (typeString t = some (bs "Absolute") ↔ isUnary t = true) ∧ (typeString t = some (bs "PerSecond") ↔ isBinary t = true) := by
  have h1 : isUnary t = decide (t = 1) := by unfold isUnary unaryTransform; split <;> simp [*]
  have h2 : isBinary t = decide (t = 2) := by unfold isBinary binaryTransform; split <;> simp [*]
  have hv : isValid t = true ↔ t = 1 ∨ t = 2 := by unfold isValid; rw [h1, h2]; simp
  refine ⟨hv, ?_, ?_, ⟨?_, ?_⟩, ?_, ?_, ?_⟩
  rotate_left 5
  · rw [h1]; unfold typeString; repeat' split <;> simp_all [bs]
  · rw [h2]; unfold typeString; repeat' split <;> simp_all [bs]
  · rw [hv, h1, h2]; simp; omega
  · rw [hv]; unfold Pipe.transToProto; repeat' split <;> simp_all
  · unfold Val.isValidTransform Val.isBinaryTransform isValid; rw [h1, h2]; rfl
  · unfold Val.isBinaryTransform; rw [h2]; rfl
  · intro s
    rw [hv]
    unfold parseType typeString
    constructor
    · intro h
      split at h
      · rename_i hs; cases h; subst hs; decide
      · split at h
        · rename_i hs; cases h; subst hs; decide
        · cases h
    · rintro ⟨rfl | rfl, h⟩
      · rw [if_neg (by decide), if_pos rfl] at h; cases h; decide
      · rw [if_neg (by decide), if_neg (by decide), if_pos rfl] at h; cases h; decide

example : parseType (bs "PerSecond") = some 2 ∧ parseType (bs "UnknownType") = none ∧ parseType (bs "persecond") = none := by
  decide

/-! ### The arithmetic -/

/-- The place of a value on the line of numbers with both infinities; zeros of both signs have the same. -/
def place : F64 → Option (Int × Int)
  | .nan => none
  | .inf neg => some (if neg then -1 else 1, 0)
  | .fin neg mag => some (0, if neg then -(mag : Int) else mag)

/-- What the other theorems rest on, checked against the standard: comparison is by place, and what is not a number compares with nothing;
a fraction halfway between two numbers becomes the even one; a division by zero gives an infinity of the right sign. -/
theorem C64_arithmetic :
    (∀ x y : F64, x.lt y = true ↔ ∃ p q, place x = some p ∧ place y = some q ∧ (p.1 < q.1 ∨ (p.1 = q.1 ∧ p.2 < q.2))) ∧
    (∀ n d q : Nat, 0 < d → 2 * n = (2 * q + 1) * (d * spacing (n / d)) →
      rnd n d = (if q % 2 = 0 then q else q + 1) * spacing (n / d)) ∧
    (∀ (s t : Bool) (a : Nat), 0 < a → (F64.fin s a).div (.fin t 0) = .inf (s != t)) ∧
    (∀ s t : Bool, (F64.fin s 0).div (.fin t 0) = .nan) := by
  refine ⟨?_, ?_, ?_, ?_⟩
  · intro x y
    cases x with
    | nan => simp [F64.lt, place]
    | inf s =>
      cases y with
      | nan => simp [F64.lt, place]
      | inf t => cases s <;> cases t <;> simp [F64.lt, place]
      | fin t b => cases s <;> simp [F64.lt, place]
    | fin s a =>
      cases y with
      | nan => simp [F64.lt, place]
      | inf t => cases t <;> simp [F64.lt, place]
      | fin t b =>
        simp [F64.lt, place, signed]
        exact decide_eq_true_iff
  · intro n d q hd h
    have hu := spacing_pos (n / d)
    have hb : 0 < d * spacing (n / d) := Nat.mul_pos hd hu
    have hq : n / (d * spacing (n / d)) = q ∧ 2 * (n % (d * spacing (n / d))) = d * spacing (n / d) := by
      generalize d * spacing (n / d) = B at *
      have h1 : q * B ≤ n := by
        have : 2 * (q * B) ≤ 2 * n := by rw [h, Nat.add_mul, Nat.mul_assoc]; omega
        omega
      have h2 : n < (q + 1) * B := by
        have : 2 * n < 2 * ((q + 1) * B) := by rw [h, Nat.add_mul, Nat.add_mul, Nat.mul_assoc]; omega
        omega
      have hdiv : n / B = q := Nat.div_eq_of_lt_le h1 h2
      refine ⟨hdiv, ?_⟩
      have := Nat.div_add_mod n B
      rw [hdiv] at this
      have e : (2 * q + 1) * B = 2 * (B * q) + B := by rw [Nat.add_mul, Nat.one_mul, Nat.mul_assoc, Nat.mul_comm q]
      omega
    unfold rnd
    simp only [hq.1, hq.2]
    by_cases he : q % 2 = 0
    · have : ¬ (q % 2 = 1) := by omega
      simp [he]
    · have : q % 2 = 1 := by omega
      simp [this]
  · intro s t a ha
    simp [F64.div]; omega
  · intro s t
    simp [F64.div]

end Verif.Tf
