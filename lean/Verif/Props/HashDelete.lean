import Verif.Props.HashMap
/- C78: exactly which keys `Delete` of another key loses. -/
namespace Verif.HashMap
open Verif.Spec.HashMap

variable {V : Type}

/-- The entry of `k'` is further from the place of its hash than an entry of `k` is. -/
def Behind (hash : Bytes → UInt64) (m : HMap V) (k k' : Bytes) : Prop :=
  ∃ i d v v', i < d ∧ d < 18446744073709551616 ∧ m.slot (off (hash k') i) = some (k, v) ∧ m.slot (off (hash k') d) = some (k', v')

theorem run_inv {hash : Bytes → UInt64} : ∀ (ops : List (Op V)) (m : HMap V), Inv hash m → NoDelete ops →
    m.lookup.length + ops.length < 18446744073709551615 →
    Inv hash (m.run hash ops) ∧ (m.run hash ops).lookup.length ≤ m.lookup.length + ops.length
  | [], m, hi, _, _ => ⟨hi, by simp [HMap.run]⟩
  | op :: ops, m, hi, hd, hl => by
    simp only [List.length_cons] at hl ⊢
    have hd' : NoDelete ops := fun k h => hd k (List.mem_cons_of_mem _ h)
    cases op with
    | set k v =>
      have hlen : (m.set hash k v).lookup.length ≤ m.lookup.length + 1 := length_put m (m.locate hash k).1 (k, v)
      obtain ⟨h1, h2⟩ := run_inv ops (m.set hash k v) (inv_set hi (by omega) k v).1 hd' (by omega)
      exact ⟨h1, by
        show ((m.set hash k v).run hash ops).lookup.length ≤ _
        omega⟩
    | delete k => exact absurd List.mem_cons_self (hd k)
    | reset =>
      obtain ⟨h1, h2⟩ := run_inv ops ({} : HMap V) (inv_empty hash) hd' (by simp; omega)
      refine ⟨h1, ?_⟩
      show (HMap.run hash ({} : HMap V) ops).lookup.length ≤ _
      simp only [List.length_nil] at h2
      omega

theorem slot_delete {hash : Bytes → UInt64} {m : HMap V} (hi : Inv hash m) (hl : m.lookup.length < 18446744073709551615) (k : Bytes)
    (s : UInt64) : (m.delete hash k).Ok ∧ (m.delete hash k).lookup.length ≤ m.lookup.length ∧
      ∀ e, (m.delete hash k).slot s = some e ↔ m.slot s = some e ∧ e.1 ≠ k := by
  obtain ⟨d, hd, hp, hx⟩ := locate_spec hi.ok hl hash k
  unfold HMap.delete
  rcases hx with ⟨h1, h2⟩ | ⟨w, h1, h2⟩
  · rw [h2]
    refine ⟨hi.ok, Nat.le_refl _, fun e => ⟨fun h => ⟨h, fun he => ?_⟩, And.left⟩⟩
    have : m.get hash k = some e.2 := (get_iff hi hl k e.2).mpr ⟨s, by rw [h, ← he]⟩
    unfold HMap.get at this
    rw [h2] at this
    cases this
  · rw [h2]
    refine ⟨ok_remove hi.ok _, length_remove _ _, fun e => ?_⟩
    simp only
    rw [slot_remove hi.ok]
    by_cases hs : s = off (hash k) d
    · rw [if_pos hs, hs, h1]
      constructor
      · intro h; cases h
      · rintro ⟨h, hne⟩
        cases h
        exact absurd rfl hne
    · rw [if_neg hs]
      refine ⟨fun h => ⟨h, fun he => hs ?_⟩, And.left⟩
      exact hi.unique s _ k e.2 w (by rw [h, ← he]) h1

/-- C78, exactly for one `Delete`: after any calls without `Delete`, for any hash function, deleting a key removes it, and of the
other keys it loses precisely those whose entries are behind it. -/
theorem C78_delete_exact (hash : Bytes → UInt64) (ops : List (Op V)) (hd : NoDelete ops) (hl : ops.length < 18446744073709551615)
    (k k' : Bytes) :
    let m := HMap.run hash ({} : HMap V) ops
    (k' = k ∨ Behind hash m k k' → (m.delete hash k).get hash k' = none) ∧
    (k' ≠ k → ¬ Behind hash m k k' → (m.delete hash k).get hash k' = value k' none ops) := by
  intro m
  obtain ⟨hi, hlen⟩ := run_inv ops ({} : HMap V) (inv_empty hash) hd (by simpa using hl)
  have hml : m.lookup.length < 18446744073709551615 := by
    have : m.lookup.length ≤ 0 + ops.length := hlen
    omega
  have hi : Inv hash m := hi
  have hdel := slot_delete hi hml k
  obtain ⟨d, hdlt, hp, hx⟩ := locate_spec (hdel 0).1 (Nat.lt_of_le_of_lt (hdel 0).2.1 hml) hash k'
  constructor
  · intro hb
    unfold HMap.get
    rcases hx with ⟨_, h2⟩ | ⟨w, h1, h2⟩
    · rw [h2]
    · exfalso
      obtain ⟨h3, h4⟩ := ((hdel _).2.2 _).mp h1
      rcases hb with rfl | ⟨i, d', v, v', hid, hd', hs, hs'⟩
      · exact h4 rfl
      · have hdd : off (hash k') d = off (hash k') d' := hi.unique _ _ _ _ _ h3 hs'
        have : d = d' := off_inj hdlt hd' hdd
        subst this
        obtain ⟨k₂, v₂, h5, _⟩ := hp i hid
        obtain ⟨h6, h7⟩ := ((hdel _).2.2 _).mp h5
        rw [hs] at h6
        cases h6
        exact h7 rfl
  · intro hne hb
    rw [← (C78_no_delete_partial hash ops hd hl).get]
    show _ = m.get hash k'
    cases hg : m.get hash k' with
    | none =>
      unfold HMap.get
      rcases hx with ⟨_, h2⟩ | ⟨w, h1, h2⟩
      · rw [h2]
      · have := (get_iff hi hml k' w).mpr ⟨_, (((hdel _).2.2 _).mp h1).1⟩
        rw [hg] at this
        cases this
    | some v =>
      obtain ⟨s, hs⟩ := (get_iff hi hml k' v).mp hg
      obtain ⟨d', hd', rfl, hr⟩ := hi.reach s k' v hs
      have hs2 : (m.delete hash k).slot (off (hash k') d') = some (k', v) := ((hdel _).2.2 _).mpr ⟨hs, hne⟩
      have hsome : ∀ i, i < d' → (m.delete hash k).slot (off (hash k') i) ≠ none := by
        intro i hlt hn
        have := hr i hlt
        cases he : m.slot (off (hash k') i) with
        | none => rw [he] at this; cases this
        | some e =>
          obtain ⟨k₂, v₂⟩ := e
          by_cases hk : k₂ = k
          · subst hk
            exact hb ⟨i, d', v₂, v, hlt, hd', he, hs⟩
          · have := ((hdel _).2.2 (k₂, v₂)).mpr ⟨he, hk⟩
            rw [hn] at this
            cases this
      have hge : ¬ d' < d := by
        intro hlt
        obtain ⟨k₂, v₂, h3, h4⟩ := hp d' hlt
        rw [hs2] at h3
        cases h3
        exact h4 rfl
      unfold HMap.get
      rcases hx with ⟨h1, h2⟩ | ⟨w, h1, h2⟩
      · exfalso
        by_cases hlt : d < d'
        · exact hsome d hlt h1
        · have : d = d' := by omega
          subst this
          rw [h1] at hs2
          cases hs2
      · have hu := hi.unique _ _ _ _ _ (((hdel _).2.2 _).mp h1).1 hs
        rw [hu, hs2] at h1
        cases h1
        rw [h2]

/-- Keys of one letter collide: of three, deleting the second loses the third and keeps the first. -/
example : let m := HMap.run exHash ({} : HMap Nat) [.set (bs "a") 1, .set (bs "b") 2, .set (bs "c") 3]
    (m.delete exHash (bs "b")).get exHash (bs "a") = some 1 ∧ (m.delete exHash (bs "b")).get exHash (bs "b") = none ∧
    (m.delete exHash (bs "b")).get exHash (bs "c") = none ∧
    m.slot (off (exHash (bs "c")) 1) = some (bs "b", 2) ∧ m.slot (off (exHash (bs "c")) 2) = some (bs "c", 3) := by decide +kernel

end Verif.HashMap
