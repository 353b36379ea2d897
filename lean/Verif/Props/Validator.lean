import Verif.Lemmas.Validator
/-
C53: what the validator accepts.
-/
namespace Verif.Val
open Verif.Policy Verif.TagsFlt Verif.RuleSet Verif.Spec.Val
open Verif.Rules (RollupTarget)

/-! ### Characters -/

theorem runesLoop_fuel : ∀ (n m : Nat) (s : Bytes), s.length ≤ n → s.length ≤ m → runesLoop n s = runesLoop m s
  | n, m, [], _, _ => by cases n <;> cases m <;> rfl
  | 0, _, _ :: _, h, _ => by simp at h
  | _, 0, _ :: _, _, h => by simp at h
  | n + 1, m + 1, b :: s, h1, h2 => by
    have hle : (rune b s).2.length ≤ s.length := by
      unfold rune
      simp only
      repeat' split
      all_goals simp only [List.length_cons]
      all_goals omega
    simp only [List.length_cons] at h1 h2
    unfold runesLoop
    simp only
    rw [runesLoop_fuel n m _ (by omega) (by omega)]

theorem toNat_ofNat {n : Nat} (h : n < 256) : (UInt8.ofNat n).toNat = n := by
  simp [Nat.mod_eq_of_lt h]

theorem rune_utf8 (c : Nat) (h : Scalar c) (s : Bytes) : ∃ b r, utf8 c ++ s = b :: r ∧ rune b r = (c, s) := by
  unfold Scalar at h
  unfold utf8
  split
  · rename_i h1
    refine ⟨UInt8.ofNat c, s, rfl, ?_⟩
    unfold rune
    simp only [toNat_ofNat (show c < 256 by omega), if_pos h1]
  · rename_i h1
    split
    · rename_i h2
      refine ⟨UInt8.ofNat (0xC0 + c / 64), UInt8.ofNat (0x80 + c % 64) :: s, rfl, ?_⟩
      unfold rune isCont
      simp only [toNat_ofNat (show 0xC0 + c / 64 < 256 by omega), toNat_ofNat (show 0x80 + c % 64 < 256 by omega)]
      rw [if_neg (by omega), if_pos (by omega), if_pos (by
        simp only [Bool.and_eq_true, decide_eq_true_eq]
        omega)]
      rw [Prod.mk.injEq]
      exact ⟨by omega, rfl⟩
    · rename_i h2
      split
      · rename_i h3
        refine ⟨UInt8.ofNat (0xE0 + c / 4096), UInt8.ofNat (0x80 + c / 64 % 64) :: UInt8.ofNat (0x80 + c % 64) :: s, rfl, ?_⟩
        unfold rune isCont second
        simp only [toNat_ofNat (show 0xE0 + c / 4096 < 256 by omega),
          toNat_ofNat (show 0x80 + c / 64 % 64 < 256 by omega), toNat_ofNat (show 0x80 + c % 64 < 256 by omega)]
        rw [if_neg (by omega), if_neg (by omega), if_pos (by omega), if_pos]
        · rw [Prod.mk.injEq]
          exact ⟨by omega, rfl⟩
        · simp only [Bool.and_eq_true, decide_eq_true_eq]
          refine ⟨⟨?_, ?_⟩, by omega⟩ <;> (repeat' split) <;> omega
      · rename_i h3
        refine ⟨UInt8.ofNat (0xF0 + c / 262144), UInt8.ofNat (0x80 + c / 4096 % 64) :: UInt8.ofNat (0x80 + c / 64 % 64) ::
          UInt8.ofNat (0x80 + c % 64) :: s, rfl, ?_⟩
        unfold rune isCont second
        simp only [toNat_ofNat (show 0xF0 + c / 262144 < 256 by omega),
          toNat_ofNat (show 0x80 + c / 4096 % 64 < 256 by omega),
          toNat_ofNat (show 0x80 + c / 64 % 64 < 256 by omega), toNat_ofNat (show 0x80 + c % 64 < 256 by omega)]
        rw [if_neg (by omega), if_neg (by omega), if_neg (by omega), if_pos (by omega), if_pos]
        · rw [Prod.mk.injEq]
          exact ⟨by omega, rfl⟩
        · simp only [Bool.and_eq_true, decide_eq_true_eq]
          refine ⟨⟨⟨?_, ?_⟩, by omega⟩, by omega⟩ <;> (repeat' split) <;> omega

/-- C53: the characters of a text are its code points: a text that is the UTF-8 form of code points is checked code point by
code point. -/
theorem C53_characters (cs : List Nat) (h : ∀ c ∈ cs, Scalar c) (bad : List Nat) :
    runes (cs.flatMap utf8) = cs ∧ (validateChars (cs.flatMap utf8) bad = true ↔ ∀ c ∈ cs, c ∉ bad) := by
  have hr : runes (cs.flatMap utf8) = cs := by
    induction cs with
    | nil => rfl
    | cons c cs ih =>
      rw [List.forall_mem_cons] at h
      obtain ⟨b, r, h1, h2⟩ := rune_utf8 c h.1 (cs.flatMap utf8)
      unfold runes
      rw [List.flatMap_cons, h1, List.length_cons, runesLoop, h2]
      simp only
      congr 1
      have hlen : (cs.flatMap utf8).length ≤ r.length := by
        have hu : 1 ≤ (utf8 c).length := by
          unfold utf8
          repeat' split
          all_goals simp
        have := congrArg List.length h1
        simp only [List.length_append, List.length_cons] at this
        omega
      rw [runesLoop_fuel r.length _ _ hlen (Nat.le_refl _)]
      exact ih h.2
  exact ⟨hr, by rw [validateChars_iff, hr]⟩

example : validateChars [0x63, 0xC3, 0xA9] [0xE9] = false ∧ validateChars (bs "cafe") [0xE9] = true ∧
    validateChars [0xC3] [0xFFFD] = false := by decide +kernel

/-! ### The snapshot -/

/-- A deployment: one storage policy, a required tag, derivatives up to the first order, two levels; filters match counters. -/
def exDeployment : Options :=
  { metricTypesFn := fun _ => some [1], defaultStorage := [⟨⟨10000000000, 1⟩, 3600000000000⟩], defaultFirst := [2, 6, 7],
    defaultNonFirst := [6], requiredTags := [bs "c"], maxLevels := 2 }

/-- A snapshot with a mapping rule and a rollup rule of two levels, the second with the given tags. -/
def exSnapshot (tags : List Bytes) : RuleSetView :=
  ⟨bs "ns", 1, 0, [⟨bs "1", bs "a", false, 0, bs "city:sf", 4#64, [⟨⟨10000000000, 1⟩, 3600000000000⟩], 0, [], 0⟩],
    [⟨bs "2", bs "r", false, 0, bs "city:s*", [⟨[{ type := 1, aggregation := 6 }, { type := 2, transformation := 2 },
      { type := 3, rollup := ⟨bs "n", [bs "c", bs "d"], 0x40#64⟩ }, { type := 3, rollup := ⟨bs "m", tags, 0x40#64⟩ }],
      [⟨⟨10000000000, 1⟩, 3600000000000⟩]⟩], [], 0⟩]⟩

/-- C53: the validator accepts a snapshot exactly when it meets the documented constraints. -/
theorem C53_accepts_iff (o : Options) (s : RuleSetView) : validateSnapshot o s = none ↔ SnapshotOk (limits o) s := by
  have hw : ∀ e : Option VErr, wrapError e = none ↔ e = none := by
    intro e
    rcases e with _ | (_ | _ | _ | _) <;> simp [wrapError]
  unfold validateSnapshot
  rw [hw]
  cases hns : o.nsValidator s.namespace_ with
  | some e =>
    have hraw : validateSnapshotRaw o s = some e := by unfold validateSnapshotRaw; rw [hns]
    rw [hraw]
    simp only [reduceCtorEq, false_iff]
    rintro ⟨h, _⟩
    have := h.namespace_
    rw [show (limits o).namespaceOk s.namespace_ ↔ o.nsValidator s.namespace_ = none from Iff.rfl, hns] at this
    cases this
  | none =>
    have hm := mappingLoop_none o s.mappingRules []
    have hr := rollupLoop_none o s.rollupRules [] []
    simp only [List.not_mem_nil, not_false_eq_true, and_true, List.flatMap_nil, List.nil_append] at hm hr
    have hm' : (∀ r ∈ liveM s, mappingRule o r = none) ↔ ∀ r ∈ liveM s, MappingOk (limits o) r :=
      forall_congr' fun r => imp_congr Iff.rfl (mappingRule_iff o r)
    have hr' : (∀ r ∈ liveR s, rollupRule o r = none) ↔ ∀ r ∈ liveR s, RollupRuleOk (limits o) r :=
      forall_congr' fun r => imp_congr Iff.rfl (rollupRule_iff o r)
    have hclean : ∀ l, Clean l [] ↔ l.Pairwise fun a b => ¬ SameRollup a b := fun l => by simp [Clean]
    have heq : validateSnapshotRaw o s = none ↔
        mappingLoop o s.mappingRules [] = none ∧ rollupLoop o s.rollupRules [] [] = none := by
      unfold validateSnapshotRaw
      rw [hns]
      cases mappingLoop o s.mappingRules [] <;> simp
    rw [heq, hm, hr, hclean]
    constructor
    · rintro ⟨⟨h1, h2⟩, h3, h4, h5⟩
      exact ⟨⟨hns, hm'.mp h1, hr'.mp h3⟩, ⟨h2, h4, h5⟩⟩
    · rintro ⟨⟨_, h1, h3⟩, ⟨h2, h4, h5⟩⟩
      exact ⟨⟨hm'.mpr h1, h2⟩, hr'.mpr h3, h4, h5⟩

/-- Beside C53: accepted, so the constraints hold; with a second level that keeps all tags or drops the required one they do
not. -/
example : SnapshotOk (limits exDeployment) (exSnapshot [bs "c"]) ∧ ¬ SnapshotOk (limits exDeployment) (exSnapshot [bs "c", bs "d"]) ∧
    ¬ SnapshotOk (limits exDeployment) (exSnapshot [bs "d"]) := by
  simp only [← C53_accepts_iff]
  decide +kernel

/-- C53: a rejection is an invalid input error or a validation error, so never a bare error or a panic, provided the
namespace validator does not panic; and rules that are fine one by one are rejected as invalid input. -/
theorem C53_errors (o : Options) (s : RuleSetView) (hp : ∀ ns, o.nsValidator ns ≠ some .panic) :
    (validateSnapshot o s = none ∨ validateSnapshot o s = some .invalidInput ∨ validateSnapshot o s = some .validation) ∧
    (EachOk (limits o) s → ¬ NoClash s → validateSnapshot o s = some .invalidInput) := by
  constructor
  · have h : validateSnapshotRaw o s ≠ some .panic := by
      unfold validateSnapshotRaw
      cases hns : o.nsValidator s.namespace_ with
      | some e =>
        have := hp s.namespace_
        rw [hns] at this
        simpa using this
      | none =>
        have h1 := (mappingLoop_kind o s.mappingRules []).1
        have h2 := (rollupLoop_kind o s.rollupRules [] []).1
        simp only
        cases hm : mappingLoop o s.mappingRules [] with
        | some e => rw [hm] at h1; simpa using h1
        | none => simpa using h2
    unfold validateSnapshot
    rcases hv : validateSnapshotRaw o s with _ | (_ | _ | _ | _)
    · exact Or.inl rfl
    · exact Or.inr (Or.inl rfl)
    · exact Or.inr (Or.inr rfl)
    · exact Or.inr (Or.inr rfl)
    · exact absurd hv h
  · intro he hc
    have hne : validateSnapshot o s ≠ none := fun h => hc ((C53_accepts_iff o s).mp h).2
    have h1 := (mappingLoop_kind o s.mappingRules []).2 (fun r hr => (mappingRule_iff o r).mpr (he.mapping r hr))
    have h2 := (rollupLoop_kind o s.rollupRules [] []).2 (fun r hr => (rollupRule_iff o r).mpr (he.rollup r hr))
    have hns : o.nsValidator s.namespace_ = none := he.namespace_
    unfold validateSnapshot validateSnapshotRaw at hne ⊢
    rw [hns] at hne ⊢
    simp only at hne ⊢
    rcases h1 with h1 | h1
    · rw [h1] at hne ⊢
      simp only at hne ⊢
      rcases h2 with h2 | h2
      · rw [h2] at hne
        exact absurd rfl hne
      · rw [h2]; rfl
    · rw [h1]; rfl

end Verif.Val
