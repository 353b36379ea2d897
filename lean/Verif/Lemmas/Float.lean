import Verif.Model.Float
/- Rounding: it is to a nearest floating point number, with 53 bits of relative accuracy. -/
namespace Verif.F

/-- A magnitude with at most 53 significant bits. -/
def Rep (z : Nat) : Prop := ∃ m k, m < 2 ^ 53 ∧ z = m * 2 ^ k

theorem spacing_pos (q : Nat) : 0 < spacing q := Nat.pow_pos (by decide)

/-- The spacing is one, or small compared to the number. -/
theorem spacing_small (q : Nat) : spacing q = 1 ∨ spacing q * 2 ^ 52 ≤ q := by
  unfold spacing
  rcases Nat.lt_or_ge q.log2 53 with h | h
  · left
    rw [show q.log2 + 1 - 53 = 0 by omega]
  · right
    rw [← Nat.pow_add, show q.log2 + 1 - 53 + 52 = q.log2 by omega]
    exact Nat.log2_self_le (by intro h0; rw [h0] at h; simp at h)

theorem spacing_large (q : Nat) : q < spacing q * 2 ^ 53 := by
  unfold spacing
  rw [← Nat.pow_add]
  exact Nat.lt_of_lt_of_le Nat.lt_log2_self (Nat.pow_le_pow_right (by decide) (by omega))

/-- The error is at most half of the spacing. -/
theorem rnd_half (n d : Nat) (hd : 0 < d) :
    2 * (rnd n d * d) ≤ 2 * n + d * spacing (n / d) ∧ 2 * n ≤ 2 * (rnd n d * d) + d * spacing (n / d) := by
  have hb : 0 < d * spacing (n / d) := Nat.mul_pos hd (spacing_pos _)
  have hdm := Nat.div_add_mod n (d * spacing (n / d))
  have hlt := Nat.mod_lt n hb
  have e : ∀ q, q * spacing (n / d) * d = d * spacing (n / d) * q := fun q => by
    rw [Nat.mul_assoc, Nat.mul_comm q, Nat.mul_comm (spacing _) d]
  unfold rnd
  simp only
  rw [e]
  generalize d * spacing (n / d) = b at *
  split
  · rw [Nat.mul_add, Nat.mul_one]; omega
  · omega

/-- Integers are rounded with a relative error of at most 2^-53. -/
theorem rnd_int (n : Nat) : 2 ^ 53 * rnd n 1 ≤ (2 ^ 53 + 1) * n ∧ (2 ^ 53 - 1) * n ≤ 2 ^ 53 * rnd n 1 := by
  have h := rnd_half n 1 (by decide)
  rw [Nat.div_one, Nat.mul_one, Nat.one_mul] at h
  rcases spacing_small n with h1 | h1
  · have : rnd n 1 = n := by
      unfold rnd
      simp only [Nat.div_one, h1, Nat.one_mul, Nat.mod_one, Nat.mul_one]
      simp
    rw [this]; omega
  · omega

/-- Fractions are rounded with a relative error of at most 2^-53 or an absolute one of at most one half. -/
theorem rnd_frac (n d : Nat) (hd : 0 < d) :
    2 ^ 53 * (rnd n d * d) ≤ (2 ^ 53 + 1) * n + 2 ^ 52 * d ∧ 2 ^ 53 * n ≤ 2 ^ 53 * (rnd n d * d) + n + 2 ^ 52 * d := by
  have h := rnd_half n d hd
  rcases spacing_small (n / d) with h1 | h1
  · rw [h1, Nat.mul_one] at h; omega
  · have h2 : d * spacing (n / d) * 2 ^ 52 ≤ n := by
      rw [Nat.mul_assoc]
      exact Nat.le_trans (Nat.mul_le_mul_left d h1) (Nat.mul_div_le n d)
    omega

theorem rnd_nearest_multiple (n d : Nat) (hd : 0 < d) (q : Nat) :
    (q * spacing (n / d) * d ≤ n → q * spacing (n / d) ≤ rnd n d) ∧
    (n ≤ q * spacing (n / d) * d → rnd n d ≤ q * spacing (n / d)) := by
  have hb : 0 < d * spacing (n / d) := Nat.mul_pos hd (spacing_pos _)
  have hdm := Nat.div_add_mod n (d * spacing (n / d))
  have hlt := Nat.mod_lt n hb
  have e : ∀ q, q * spacing (n / d) * d = q * (d * spacing (n / d)) := fun q => by
    rw [Nat.mul_assoc, Nat.mul_comm (spacing _) d]
  rw [e]
  unfold rnd
  simp only
  constructor
  · intro h
    have : q ≤ n / (d * spacing (n / d)) := (Nat.le_div_iff_mul_le hb).mpr h
    refine Nat.mul_le_mul_right _ ?_
    split <;> omega
  · intro h
    refine Nat.mul_le_mul_right _ ?_
    have h1 : n / (d * spacing (n / d)) ≤ q := by
      rw [← Nat.mul_div_cancel q hb]
      exact Nat.div_le_div_right h
    split
    · rename_i hc
      rcases Nat.lt_or_ge (n / (d * spacing (n / d))) q with h2 | h2
      · omega
      · have h3 : q = n / (d * spacing (n / d)) := by omega
        rw [h3, Nat.mul_comm] at h
        omega
    · exact h1

theorem pow_dvd_of_le {k j : Nat} (h : j ≤ k) (m : Nat) : ∃ q, m * 2 ^ k = q * 2 ^ j :=
  ⟨m * 2 ^ (k - j), by rw [Nat.mul_assoc, ← Nat.pow_add, Nat.sub_add_cancel h]⟩

/-- Rounding does not pass over a floating point number. -/
theorem rnd_bound (n d : Nat) (hd : 0 < d) {z : Nat} (hz : Rep z) :
    (z * d ≤ n → z ≤ rnd n d) ∧ (n ≤ z * d → rnd n d ≤ z) := by
  obtain ⟨m, k, hm, rfl⟩ := hz
  rcases Nat.lt_or_ge k ((n / d).log2 + 1 - 53) with h | h
  · -- finer than the spacing: the number is below 2^52 spacings, which are below n/d
    have hsm : spacing (n / d) * 2 ^ 52 ≤ n / d := by
      rcases spacing_small (n / d) with h1 | h1
      · exfalso
        unfold spacing at h1
        have := Nat.one_lt_two_pow (n := (n / d).log2 + 1 - 53) (by omega)
        omega
      · exact h1
    have hlt : m * 2 ^ k < spacing (n / d) * 2 ^ 52 := by
      have h1 : m * 2 ^ k < 2 ^ 53 * 2 ^ k := Nat.mul_lt_mul_of_pos_right hm (Nat.pow_pos (by decide))
      refine Nat.lt_of_lt_of_le h1 ?_
      unfold spacing
      rw [← Nat.pow_add, ← Nat.pow_add]
      exact Nat.pow_le_pow_right (by decide) (by omega)
    have hn : 2 ^ 52 * spacing (n / d) * d ≤ n := by
      rw [Nat.mul_comm (2 ^ 52)]
      exact (Nat.le_div_iff_mul_le hd).mp hsm
    constructor
    · intro _
      have := (rnd_nearest_multiple n d hd (2 ^ 52)).1 hn
      omega
    · intro hle
      exfalso
      have h1 : m * 2 ^ k * d < spacing (n / d) * 2 ^ 52 * d := Nat.mul_lt_mul_of_pos_right hlt hd
      rw [Nat.mul_comm (spacing _)] at h1
      omega
  · obtain ⟨q, hq⟩ := pow_dvd_of_le h m
    rw [hq]
    exact rnd_nearest_multiple n d hd q

/-- A floating point number is not changed by rounding. -/
theorem rnd_exact (n d z : Nat) (hd : 0 < d) (hz : Rep z) (h : n = z * d) : rnd n d = z :=
  Nat.le_antisymm ((rnd_bound n d hd hz).2 (Nat.le_of_eq h)) ((rnd_bound n d hd hz).1 (Nat.le_of_eq h.symm))

theorem rep_zero : Rep 0 := ⟨0, 0, by decide, rfl⟩

/-- The result of rounding is a floating point number. -/
theorem rnd_rep (n d : Nat) (hd : 0 < d) : Rep (rnd n d) := by
  have hq : n / (d * spacing (n / d)) < 2 ^ 53 := by
    rw [← Nat.div_div_eq_div_mul]
    rw [Nat.div_lt_iff_lt_mul (spacing_pos _), Nat.mul_comm]
    exact spacing_large _
  have hr : ∀ q', q' ≤ 2 ^ 53 → Rep (q' * spacing (n / d)) := by
    intro q' h
    rcases Nat.lt_or_ge q' (2 ^ 53) with h1 | h1
    · exact ⟨q', _, h1, rfl⟩
    · refine ⟨2 ^ 52, (n / d).log2 + 1 - 53 + 1, by decide, ?_⟩
      rw [show q' = 2 ^ 53 by omega]
      unfold spacing
      rw [Nat.pow_succ 2 (_ - _)]
      omega
  unfold rnd
  simp only
  split
  · exact hr _ (by omega)
  · exact hr _ (by omega)

/-- No floating point number is nearer. -/
theorem rnd_nearest (n d : Nat) (hd : 0 < d) {z : Nat} (hz : Rep z) :
    ((rnd n d * d : Nat) - (n : Int)).natAbs ≤ ((z * d : Nat) - (n : Int)).natAbs := by
  have h := rnd_half n d hd
  have hb := rnd_bound n d hd hz
  obtain ⟨m, k, hm, rfl⟩ := hz
  rcases Nat.lt_or_ge k ((n / d).log2 + 1 - 53) with hk | hk
  · have hsm : spacing (n / d) * 2 ^ 52 ≤ n / d := by
      rcases spacing_small (n / d) with h1 | h1
      · exfalso
        unfold spacing at h1
        have := Nat.one_lt_two_pow (n := (n / d).log2 + 1 - 53) (by omega)
        omega
      · exact h1
    have hn : spacing (n / d) * 2 ^ 52 * d ≤ n := (Nat.le_div_iff_mul_le hd).mp hsm
    -- the number is at least half a spacing below 2^52 spacings
    have hlt : 2 * (m * 2 ^ k) + spacing (n / d) ≤ 2 * (spacing (n / d) * 2 ^ 52) := by
      have h1 : m * 2 ^ k ≤ (2 ^ 53 - 1) * 2 ^ k := Nat.mul_le_mul_right _ (by omega)
      have h2 : 2 * 2 ^ k ≤ spacing (n / d) := by
        unfold spacing
        rw [← Nat.pow_succ']
        exact Nat.pow_le_pow_right (by decide) (by omega)
      omega
    have hlt' : 2 * (m * 2 ^ k * d) + d * spacing (n / d) ≤ 2 * (spacing (n / d) * 2 ^ 52 * d) := by
      have := Nat.mul_le_mul_right d hlt
      rw [Nat.add_mul, Nat.mul_assoc, Nat.mul_assoc 2 (spacing _ * _) d, Nat.mul_comm (spacing _) d] at this
      exact this
    have hge : spacing (n / d) * 2 ^ 52 * d ≤ rnd n d * d := by
      refine Nat.mul_le_mul_right d ?_
      rw [Nat.mul_comm]
      exact (rnd_nearest_multiple n d hd (2 ^ 52)).1 (by rw [Nat.mul_comm (2 ^ 52)]; exact hn)
    omega
  · obtain ⟨q, hq⟩ := pow_dvd_of_le hk m
    have hr : ∃ q', rnd n d = q' * spacing (n / d) := ⟨_, rfl⟩
    obtain ⟨q', hq'⟩ := hr
    rw [show m * 2 ^ k = q * spacing (n / d) from hq]
    rw [hq'] at h ⊢
    have e : ∀ q, q * spacing (n / d) * d = q * (d * spacing (n / d)) := fun q => by
      rw [Nat.mul_assoc, Nat.mul_comm (spacing _) d]
    rw [e] at h ⊢
    rw [e]
    generalize d * spacing (n / d) = b at *
    rcases Nat.lt_trichotomy q q' with h1 | h1 | h1
    · have := Nat.mul_le_mul_right b (show q + 1 ≤ q' from h1)
      rw [Nat.add_mul] at this
      omega
    · rw [h1]; exact Nat.le_refl _
    · have := Nat.mul_le_mul_right b (show q' + 1 ≤ q from h1)
      rw [Nat.add_mul] at this
      omega

/-- Common factors do not matter. -/
theorem rnd_scale (n d c : Nat) (hc : 0 < c) : rnd (n * c) (d * c) = rnd n d := by
  unfold rnd
  simp only
  rw [Nat.mul_div_mul_right _ _ hc]
  rw [show d * c * spacing (n / d) = d * spacing (n / d) * c by rw [Nat.mul_assoc, Nat.mul_comm c, ← Nat.mul_assoc]]
  rw [Nat.mul_div_mul_right _ _ hc, Nat.mul_mod_mul_right]
  congr 1
  have e1 : (d * spacing (n / d) * c < 2 * (n % (d * spacing (n / d)) * c)) ↔ (d * spacing (n / d) < 2 * (n % (d * spacing (n / d)))) := by
    rw [← Nat.mul_assoc]; exact Nat.mul_lt_mul_right hc
  have e2 : (2 * (n % (d * spacing (n / d)) * c) = d * spacing (n / d) * c) ↔ (2 * (n % (d * spacing (n / d))) = d * spacing (n / d)) := by
    rw [← Nat.mul_assoc]; exact Nat.mul_left_inj (Nat.pos_iff_ne_zero.mp hc)
  simp only [e1, e2]

theorem one_pos : 0 < one := Nat.pow_pos (by decide)

theorem rep_limit : Rep limit := ⟨1, 2098, by decide, by unfold limit; rw [Nat.one_mul]⟩

/-- What the bits stand for is a floating point number, below the limit. -/
theorem ofBits_rep (b : BitVec 64) (s : Bool) (a : Nat) (h : ofBits b = .fin s a) : Rep a ∧ a < limit := by
  unfold ofBits at h
  simp only at h
  split at h
  · split at h <;> cases h
  · rename_i h1
    split at h
    · cases h
      have : b.toNat % 2 ^ 52 < 2 ^ 52 := Nat.mod_lt _ (by decide)
      refine ⟨⟨b.toNat % 2 ^ 52, 0, by omega, by omega⟩, Nat.lt_of_lt_of_le this (by unfold limit; exact Nat.pow_le_pow_right (by decide) (by decide))⟩
    · cases h
      have h2 : b.toNat % 2 ^ 52 < 2 ^ 52 := Nat.mod_lt _ (by decide)
      have h3 : b.toNat / 2 ^ 52 % 2 ^ 11 < 2 ^ 11 := Nat.mod_lt _ (by decide)
      refine ⟨⟨2 ^ 52 + b.toNat % 2 ^ 52, _, by omega, rfl⟩, ?_⟩
      generalize b.toNat / 2 ^ 52 % 2 ^ 11 = e at *
      have h4 : (2 ^ 52 + b.toNat % 2 ^ 52) * 2 ^ (e - 1) < 2 ^ 53 * 2 ^ (e - 1) :=
        Nat.mul_lt_mul_of_pos_right (by omega) (Nat.pow_pos (by decide))
      refine Nat.lt_of_lt_of_le h4 ?_
      unfold limit
      rw [← Nat.pow_add]
      exact Nat.pow_le_pow_right (by decide) (by omega)

end Verif.F
