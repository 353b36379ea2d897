import Verif.Spec.PolicyText
import Verif.Model.Must
import Verif.Props.Policy
import Verif.Props.Aggregation
import Verif.Props.Messages
import Verif.Props.Transformation
/-
C119: exactly which texts are policies, and which calls of the functions that panic on errors panic.
-/
namespace Verif.Policy
open Verif.Spec Verif.Spec.PolicyText

theorem splitOn_two (sep : UInt8) (s a b : Bytes) : splitOn sep s = [a, b] ↔ s = a ++ sep :: b ∧ sep ∉ a ∧ sep ∉ b := by
  constructor
  · intro h
    have h1 := not_mem_of_mem_splitOn sep s
    rw [h] at h1
    have h2 := joinWith_splitOn sep s
    rw [h] at h2
    exact ⟨h2.symm, h1 a (by simp), h1 b (by simp)⟩
  · rintro ⟨rfl, ha, hb⟩
    exact splitOn_joinWith sep [a, b] (by simp) fun p hp => by
      simp only [List.mem_cons, List.not_mem_nil, or_false] at hp
      rcases hp with rfl | rfl <;> assumption

theorem splitOn_one (sep : UInt8) (s a : Bytes) : splitOn sep s = [a] ↔ s = a ∧ sep ∉ a := by
  constructor
  · intro h
    have h1 := not_mem_of_mem_splitOn sep s
    rw [h] at h1
    have h2 := joinWith_splitOn sep s
    rw [h] at h2
    exact ⟨h2.symm, h1 a (by simp)⟩
  · rintro ⟨rfl, h⟩
    exact splitOn_of_not_mem sep _ h

theorem cutAt_some (sep : UInt8) : ∀ (s a b : Bytes), cutAt sep s = some (a, b) → s = a ++ sep :: b ∧ sep ∉ a
  | [], a, b, h => by simp [cutAt] at h
  | c :: cs, a, b, h => by
    unfold cutAt at h
    by_cases hc : c = sep
    · rw [if_pos hc] at h
      simp only [Option.some.injEq, Prod.mk.injEq] at h
      obtain ⟨rfl, rfl⟩ := h
      exact ⟨by simp [hc], by simp⟩
    · rw [if_neg hc] at h
      cases e : cutAt sep cs with
      | none => rw [e] at h; cases h
      | some p =>
        rw [e] at h
        simp only [Option.map_some, Option.some.injEq, Prod.mk.injEq] at h
        obtain ⟨rfl, rfl⟩ := h
        obtain ⟨h1, h2⟩ := cutAt_some sep cs _ _ e
        exact ⟨by rw [List.cons_append, ← h1], by simp [h2, Ne.symm hc]⟩

/-- C119: exactly the texts of a resolution are read as it. -/
theorem C119_resolution (x : XTime) (s : Bytes) (r : Resolution) : parseResolution x s = some r ↔ ReadsResolution x s r := by
  obtain ⟨w, p⟩ := r
  unfold parseResolution ReadsResolution
  cases hc : cutAt 64 s with
  | none =>
    have hn := (cutAt_none_iff 64 s).mp hc
    simp only
    constructor
    · intro h
      cases hp : x.parseExt s with
      | none => rw [hp] at h; cases h
      | some w' =>
        rw [hp] at h
        simp only [Option.some.injEq, Resolution.mk.injEq] at h
        exact .inl ⟨hn, by rw [h.1], by rw [← h.1, h.2]⟩
    · rintro (⟨-, h1, h2⟩ | ⟨a, b, d, rfl, -⟩)
      · rw [h1]; simp only at h2 ⊢; rw [h2]
      · exact absurd (by simp [bs]) hn
  | some ab =>
    obtain ⟨a, b⟩ := ab
    obtain ⟨hs, ha⟩ := cutAt_some 64 s a b hc
    simp only
    constructor
    · intro h
      cases h1 : x.parseExt a with
      | none => rw [h1] at h; cases h
      | some w' =>
        rw [h1] at h
        cases h2 : x.parseExt b with
        | none => rw [h2] at h; cases h
        | some d =>
          rw [h2] at h
          simp only at h
          cases h3 : x.unitFromDuration d with
          | none => rw [h3] at h; cases h
          | some p' =>
            rw [h3] at h
            simp only [Option.some.injEq, Resolution.mk.injEq] at h
            exact .inr ⟨a, b, d, by simpa [bs] using hs, ha, by rw [h1, h.1], h2, by rw [h3, h.2]⟩
    · rintro (⟨hn, -⟩ | ⟨a', b', d, e, ha', h1, h2, h3⟩)
      · exact absurd (by rw [hs]; simp) hn
      · have e' : cutAt 64 s = some (a', b') := by
          rw [e, List.append_assoc]
          exact cutAt_append 64 a' b' ha'
        rw [hc] at e'
        simp only [Option.some.injEq, Prod.mk.injEq] at e'
        rw [e'.1, e'.2, h1, h2]
        simp only [h3]

/-- C119: exactly the texts of a storage policy are read as it. -/
theorem C119_storage (x : XTime) (s : Bytes) (p : StoragePolicy) : parseStoragePolicy x s = some p ↔ ReadsStorage x s p := by
  obtain ⟨r, d⟩ := p
  unfold parseStoragePolicy ReadsStorage
  constructor
  · intro h
    split at h
    · next a b hs =>
      obtain ⟨e, ha, hb⟩ := (splitOn_two 58 s a b).mp hs
      cases h1 : parseResolution x a with
      | none => rw [h1] at h; cases h
      | some r' =>
        rw [h1] at h
        simp only at h
        cases h2 : x.parseExt b with
        | none => rw [h2] at h; cases h
        | some d' =>
          rw [h2] at h
          simp only [Option.some.injEq, StoragePolicy.mk.injEq] at h
          exact ⟨a, b, by simpa [bs] using e, ha, hb, (C119_resolution x a r).mp (by rw [h1, h.1]), by rw [h2, h.2]⟩
    · cases h
  · rintro ⟨a, b, e, ha, hb, h1, h2⟩
    have : splitOn 58 s = [a, b] := (splitOn_two 58 s a b).mpr ⟨by simpa [bs] using e, ha, hb⟩
    rw [this]
    simp only
    rw [(C119_resolution x a r).mpr h1]
    simp only [h2]

theorem types_unbarred : ∀ (ts : List Int), (∀ t ∈ ts, ValidAggType t) → (124 : UInt8) ∉ typesText ts := by
  have hw : ∀ t ∈ Agg.ValidTypes, (124 : UInt8) ∉ typeWords.getD (t.toNat - 1) [] := by decide +kernel
  intro ts
  induction ts with
  | nil => simp [typesText]
  | cons t ts ih =>
    intro h
    have h1 := hw t ((Agg.mem_validTypes_iff t).mpr (h t (by simp)))
    have h2 := ih fun a ha => h a (List.mem_cons_of_mem _ ha)
    cases ts with
    | nil => exact h1
    | cons u ts =>
      have hc : (124 : UInt8) ∉ bs "," := by decide
      simp only [typesText, List.mem_append, not_or]
      exact ⟨⟨h1, hc⟩, h2⟩

/-- Compressing gives the identifier that has exactly the types, if they are types. -/
theorem compress_iff (prev : BitVec 64) (ts : List Int) (id : Agg.ID) :
    Agg.compress prev ts = some id ↔ (∀ t ∈ ts, ValidAggType t) ∧ HasTypes id ts := by
  have hbits : ∀ id', Agg.compress prev ts = some id' → HasTypes id' ts := by
    intro id' h i
    have := Agg.getLsbD_compressLoop ts _ id' h i
    simpa using this
  have hvalid : ∀ id', Agg.compress prev ts = some id' → ∀ t ∈ ts, ValidAggType t := by
    intro id' h t ht
    have := (not_congr (Agg.C01_fails_iff prev ts)).mp (by simp [h])
    exact Decidable.byContradiction fun hn => this ⟨t, ht, hn⟩
  constructor
  · intro h
    exact ⟨hvalid id h, hbits id h⟩
  · rintro ⟨hv, hb⟩
    cases h : Agg.compress prev ts with
    | none =>
      obtain ⟨t, ht, hn⟩ := (Agg.C01_fails_iff prev ts).mp h
      exact absurd (hv t ht) hn
    | some id' =>
      congr 1
      apply BitVec.eq_of_getLsbD_eq
      intro i _
      rw [Bool.eq_iff_iff, hbits id' h i, hb i]

/-- C119: exactly the texts of a policy are read as it. -/
theorem C119_policy (x : XTime) (s : Bytes) (p : Policy) : parsePolicy x s = some p ↔ ReadsPolicy x s p := by
  obtain ⟨sp, id⟩ := p
  unfold parsePolicy ReadsPolicy
  constructor
  · intro h
    split at h
    · next a hs =>
      obtain ⟨rfl, hn⟩ := (splitOn_one 124 s a).mp hs
      cases h1 : parseStoragePolicy x s with
      | none => rw [h1] at h; cases h
      | some sp' =>
        rw [h1] at h
        simp only [Option.map_some, Option.some.injEq, Policy.mk.injEq] at h
        exact .inl ⟨hn, (C119_storage x s sp).mp (by rw [h1, h.1]), h.2.symm⟩
    · next a b hs =>
      obtain ⟨e, ha, hb⟩ := (splitOn_two 124 s a b).mp hs
      cases h1 : parseStoragePolicy x a with
      | none => rw [h1] at h; cases h
      | some sp' =>
        rw [h1] at h
        simp only at h
        cases h2 : Agg.parseTypes b with
        | none => rw [h2] at h; cases h
        | some ts =>
          rw [h2] at h
          simp only at h
          cases h3 : Agg.compressTypes ts with
          | none => rw [h3] at h; cases h
          | some id' =>
            rw [h3] at h
            simp only [Option.some.injEq, Policy.mk.injEq] at h
            obtain ⟨rfl, rfl⟩ := h
            obtain ⟨hne, hv, -⟩ := Agg.C03_parse_sound b ts h2
            obtain ⟨-, et⟩ := ((Agg.C03_text ts hv).2 b).mp h2
            exact .inr ⟨a, ts, by rw [e, et]; simp [bs], ha, (C119_storage x a sp').mp h1, hne, hv, ((compress_iff 0 ts id').mp h3).2⟩
    · cases h
  · rintro (⟨hn, h1, h2⟩ | ⟨a, ts, e, ha, h1, hne, hv, hb⟩)
    · rw [(splitOn_one 124 s s).mpr ⟨rfl, hn⟩]
      simp only
      rw [(C119_storage x s sp).mpr h1]
      simp only at h2
      rw [h2]
      rfl
    · have : splitOn 124 s = [a, typesText ts] := (splitOn_two 124 s _ _).mpr ⟨by rw [e]; simp [bs], ha, types_unbarred ts hv⟩
      rw [this]
      simp only
      rw [(C119_storage x a sp).mpr h1, ((Agg.C03_text ts hv).2 _).mpr ⟨hne, rfl⟩]
      simp only
      rw [show Agg.compressTypes ts = some id from (compress_iff 0 ts id).mpr ⟨hv, hb⟩]

theorem must_iff {α : Type} {o : Option α} {m : Out α} (hn : o = none → m = .panic) (hs : ∀ a, o = some a → m = .ok a) {P : α → Prop}
    (h : ∀ a, o = some a ↔ P a) : (∀ a, m = .ok a ↔ P a) ∧ (m = .panic ↔ ∀ a, ¬ P a) := by
  cases e : o with
  | none => rw [hn e]; exact ⟨fun a => by simp [← h a, e], by simp [← h, e]⟩
  | some b => rw [hs b e]; exact ⟨fun a => by simp [← h a, e], by simp [← h, e]⟩

/-- C119: the functions that panic on errors do so exactly for what is no text of a resolution, a retention, a storage policy or
a metric type. -/
theorem C119_must_parse (x : XTime) (s : Bytes) :
    ((∀ r, Must.parseResolution x s = .ok r ↔ ReadsResolution x s r) ∧ (Must.parseResolution x s = .panic ↔ ∀ r, ¬ ReadsResolution x s r)) ∧
    ((∀ d, Must.parseRetention x s = .ok d ↔ x.parseExt s = some d) ∧ (Must.parseRetention x s = .panic ↔ x.parseExt s = none)) ∧
    ((∀ p, Must.parseStoragePolicy x s = .ok p ↔ ReadsStorage x s p) ∧ (Must.parseStoragePolicy x s = .panic ↔ ∀ p, ¬ ReadsStorage x s p)) ∧
    ((∀ t, Must.parseType s = .ok t ↔ (t, s) ∈ Spec.Msg.typeNames) ∧ (Must.parseType s = .panic ↔ ∀ t, (t, s) ∉ Spec.Msg.typeNames)) := by
  refine ⟨must_iff (fun h => by unfold Must.parseResolution; rw [h]) (fun a h => by unfold Must.parseResolution; rw [h]) (C119_resolution x s), ⟨?_, ?_⟩, 
    must_iff (fun h => by unfold Must.parseStoragePolicy; rw [h]) (fun a h => by unfold Must.parseStoragePolicy; rw [h]) (C119_storage x s), 
    must_iff (fun h => by unfold Must.parseType; rw [h]) (fun a h => by unfold Must.parseType; rw [h]) fun t => (Msg.C65_parse s t).1⟩
  · intro d
    unfold Must.parseRetention
    cases x.parseExt s <;> simp
  · unfold Must.parseRetention
    cases x.parseExt s <;> simp

/-- C119: compressing panics exactly if something is no type, whatever the compressor was used for; decompressing exactly if a
bit that is set is none. -/
theorem C119_must_compress (prev : BitVec 64) (ts : List Int) (id : Agg.ID) :
    ((∀ id, Must.compress prev ts = .ok id ↔ (∀ t ∈ ts, ValidAggType t) ∧ HasTypes id ts) ∧
      (Must.compress prev ts = .panic ↔ ∃ t ∈ ts, ¬ ValidAggType t)) ∧ Must.compressTypes ts = Must.compress prev ts ∧
    ((∀ l, Must.decompress id = .ok l → AscendingDistinct l l ∧ HasTypes id l) ∧
      (Must.decompress id = .panic ↔ ∃ i, id.getLsbD i = true ∧ ¬ ValidAggType (i : Int))) := by
  have hc : ∀ prev, (∀ id, Must.compress prev ts = .ok id ↔ (∀ t ∈ ts, ValidAggType t) ∧ HasTypes id ts) ∧
      (Must.compress prev ts = .panic ↔ ∃ t ∈ ts, ¬ ValidAggType t) := by
    intro prev
    refine ⟨(must_iff (fun h => by unfold Must.compress; rw [h]) (fun a h => by unfold Must.compress; rw [h]) (compress_iff prev ts)).1, ?_⟩
    rw [← Agg.C01_fails_iff prev ts]
    unfold Must.compress
    cases Agg.compress prev ts <;> simp
  refine ⟨hc prev, ?_, ?_, ?_⟩
  · have e : Must.compressTypes ts = Must.compress 0 ts := rfl
    rw [e]
    cases h : Must.compress prev ts with
    | ok id => exact ((hc 0).1 id).mpr (((hc prev).1 id).mp h)
    | panic => exact (hc 0).2.mpr ((hc prev).2.mp h)
    | err => unfold Must.compress at h; split at h <;> cases h
  · intro l h
    have h' : id.types = some l := by
      unfold Must.decompress at h
      show Agg.decompress id = _
      cases e : Agg.decompress id with
      | none => rw [e] at h; cases h
      | some l' => rw [e] at h; cases h; rfl
    have hl : Agg.compress 0 l = some id := Agg.C02_reencode 0 id l h'
    obtain ⟨hv, hb⟩ := (compress_iff 0 l id).mp hl
    obtain ⟨id', l', e1, e2, e3⟩ := Agg.C01_roundtrip 0 l hv
    rw [hl, Option.some.injEq] at e1
    subst e1
    rw [h', Option.some.injEq] at e2
    subst e2
    exact ⟨e3, hb⟩
  · have hd := Agg.C02_decodes_iff id
    have e : Must.decompress id = .panic ↔ ¬ ∃ l, id.types = some l := by
      show Must.decompress id = .panic ↔ ¬ ∃ l, Agg.decompress id = some l
      unfold Must.decompress
      cases Agg.decompress id <;> simp
    rw [e, hd]
    constructor
    · intro h
      exact Classical.byContradiction fun hn => h fun i _ hb => Classical.byContradiction fun hv => hn ⟨i, hb, hv⟩
    · rintro ⟨i, hb, hv⟩ h
      by_cases hi : i < 64
      · exact hv (h i hi hb)
      · rw [BitVec.getLsbD_of_ge _ _ (by omega)] at hb
        cases hb

/-- C119: absolute is the only unary, per-second the only binary transformation; asking for another returns an error, or panics. -/
theorem C119_must_transform (t : Int) :
    (∀ f, Must.unaryTransform t = .ok f ↔ t = 1 ∧ f = Tf.absolute) ∧ (Must.unaryTransform t = .err ↔ t ≠ 1) ∧
    (∀ f, Must.mustUnaryTransform t = .ok f ↔ t = 1 ∧ f = Tf.absolute) ∧ (Must.mustUnaryTransform t = .panic ↔ t ≠ 1) ∧
    (∀ f, Must.binaryTransform t = .ok f ↔ t = 2 ∧ f = Tf.perSecond) ∧ (Must.binaryTransform t = .err ↔ t ≠ 2) ∧
    (∀ f, Must.mustBinaryTransform t = .ok f ↔ t = 2 ∧ f = Tf.perSecond) ∧ (Must.mustBinaryTransform t = .panic ↔ t ≠ 2) := by
  unfold Must.mustUnaryTransform Must.mustBinaryTransform Must.unaryTransform Must.binaryTransform Tf.unaryTransform Tf.binaryTransform
  refine ⟨fun f => ?_, ?_, fun f => ?_, ?_, fun f => ?_, ?_, fun f => ?_, ?_⟩
  all_goals first
    | (by_cases h : t = 1 <;> simp [h, eq_comm]; done)
    | (by_cases h : t = 2 <;> simp [h, eq_comm]; done)

/-! ### A case -/

/-- Durations in whole seconds of one digit. -/
def digitX : XTime where
  unitValue u := if u = 1 then some 1000000000 else none
  unitFromDuration d := if d = 1000000000 then some 1 else none
  maxUnit _ := 1
  extString _ := []
  parseExt s := match s with
    | [c, 115] => if 48 ≤ c.toNat ∧ c.toNat ≤ 57 then some ((c.toNat - 48 : Nat) * 1000000000) else none
    | _ => none
  unitString _ := []

example : parsePolicy digitX (bs "5s@1s:9s|Sum,Max") = some ⟨⟨⟨5000000000, 1⟩, 9000000000⟩, 136⟩ ∧
    parsePolicy digitX (bs "5s:9s") = some ⟨⟨⟨5000000000, 1⟩, 9000000000⟩, 0⟩ ∧
    parsePolicy digitX (bs "5s:9s|") = none ∧ parsePolicy digitX (bs "5s:9s:9s") = none ∧
    Must.parseStoragePolicy digitX (bs "5s") = .panic ∧ Must.parseType (bs "gauge") = .ok 3 ∧ Must.parseType (bs "Gauge") = .panic ∧
    Must.compress 7 [7, 3] = .ok 136 ∧ Must.compress 7 [7, 23] = .panic ∧ Must.decompress 136 = .ok [3, 7] ∧
    Must.decompress 1 = .panic := by decide +kernel

end Verif.Policy
