import Verif.Lemmas.WireMessages
import Verif.Spec.WireFormat
/-
`Unmarshal` on arbitrary bytes: without long varints it does not panic; what it does does not depend on whether empty messages
were allocated before.
-/
namespace Verif.Wire
open Verif.Policy Verif.Meta

/-! ### No panics without long varints -/

/-- No varint in the data is a number from 2^62 on that fits an `int`. -/
def Quiet (d : Bytes) : Prop :=
  ∀ n g, Spec.WireFormat.Num n g → g <:+: d → n % 18446744073709551616 < 4611686018427387904 ∨
    9223372036854775808 ≤ n % 18446744073709551616

theorem Quiet.infix {d e : Bytes} (h : Quiet d) (he : e <:+: d) : Quiet e := fun n g hn hi => h n g hn (hi.trans he)

theorem Quiet.suffix {d e : Bytes} (h : Quiet d) (he : e <:+ d) : Quiet e := h.infix he.isInfix

/-- What is read is a varint of at most ten bytes, modulo 2^64. -/
theorem num_of_readLoop : ∀ (d : Bytes) (shift acc n : Nat) (r : Bytes), readLoop shift acc d = some (n, r) →
    ∃ v g, Spec.WireFormat.Varint v g ∧ d = g ++ r ∧ shift + 7 * (g.length - 1) < 64 ∧
      n = (acc + v * 2 ^ shift) % 18446744073709551616
  | [], _, _, _, _, h => by simp [readLoop] at h
  | b :: d, shift, acc, n, r, h => by
    rw [readLoop] at h
    by_cases hs : shift ≥ 64
    · rw [if_pos hs] at h; cases h
    rw [if_neg hs] at h
    by_cases hb : b.toNat < 128
    · simp only [hb, if_true, Option.some.injEq, Prod.mk.injEq] at h
      obtain ⟨h1, h2⟩ := h
      refine ⟨b.toNat, [b], .last b hb, by simp [h2], by simp; omega, ?_⟩
      rw [← h1, Nat.mod_eq_of_lt hb]
    · simp only [hb, if_false] at h
      obtain ⟨v, g, h1, h2, h3, h4⟩ := num_of_readLoop d _ _ n r h
      have hg : g ≠ [] := by rintro rfl; cases h1
      have hg' := List.length_pos_iff.mpr hg
      refine ⟨b.toNat - 128 + 128 * v, b :: g, .more b v g (by omega) h1, by simp [h2], by
        rw [List.length_cons]; omega, ?_⟩
      rw [h4]
      have hm : b.toNat % 128 = b.toNat - 128 := by have := b.toNat_lt; omega
      rw [hm, Nat.pow_add, Nat.add_mul]
      rw [Nat.mod_add_mod]
      congr 1
      have e1 : v * (2 ^ shift * 2 ^ 7) = 128 * v * 2 ^ shift := by
        rw [show (2 : Nat) ^ 7 = 128 from rfl, Nat.mul_comm (2 ^ shift) 128, ← Nat.mul_assoc, Nat.mul_comm v 128]
      omega

theorem num_of_readVarint {d : Bytes} {n : Nat} {r : Bytes} (h : readVarint d = some (n, r)) :
    ∃ v g, Spec.WireFormat.Num v g ∧ d = g ++ r ∧ n = v % 18446744073709551616 := by
  obtain ⟨v, g, h1, h2, h3, h4⟩ := num_of_readLoop d 0 0 n r h
  exact ⟨v, g, ⟨h1, by omega⟩, h2, by simpa using h4⟩

theorem Quiet.varint {d : Bytes} (h : Quiet d) {n : Nat} {r : Bytes} (hr : readVarint d = some (n, r)) :
    n < 4611686018427387904 ∨ 9223372036854775808 ≤ n := by
  obtain ⟨v, g, h1, rfl, rfl⟩ := num_of_readVarint hr
  exact h v g h1 (List.prefix_append g r).isInfix

theorem varint_lt {n : Nat} {g : Bytes} (h : Spec.WireFormat.Varint n g) : n < 2 ^ (7 * g.length) := by
  induction h with
  | last b hb => simpa using hb
  | more b n r hb _ ih =>
    have := b.toNat_lt
    rw [List.length_cons, show 7 * (r.length + 1) = 7 * r.length + 7 by omega, Nat.pow_add]
    omega

theorem varint_high {n : Nat} {g : Bytes} (h : Spec.WireFormat.Varint n g) : ∀ k, k < g.length → ∀ b ∈ g.take k, 128 ≤ b.toNat := by
  induction h with
  | last b hb => intro k hk c hc; simp only [List.length_singleton] at hk; have : k = 0 := by omega
                 subst this; simp at hc
  | more b n r hb _ ih =>
    intro k hk c hc
    cases k with
    | zero => simp at hc
    | succ k =>
      rw [List.take_succ_cons] at hc
      rcases List.mem_cons.mp hc with rfl | hc
      · exact hb
      · exact ih k (by simpa using hk) c hc

/-- A simple condition: no eight bytes in a row have their high bit set. -/
theorem quiet_of_short {d : Bytes} (h : ∀ x : Bytes, x.length = 8 → x <:+: d → ∃ b ∈ x, b.toNat < 128) : Quiet d := by
  intro n g hn hi
  left
  have hl : g.length ≤ 8 := by
    refine Classical.byContradiction fun hc => ?_
    obtain ⟨c, hc1, hc2⟩ := h (g.take 8) (by simp; omega) ((List.take_prefix 8 g).isInfix.trans hi)
    have := varint_high hn.1 8 (by omega) c hc1
    omega
  have h1 := varint_lt hn.1
  have : 2 ^ (7 * g.length) ≤ 2 ^ 56 := Nat.pow_le_pow_right (by omega) (by omega)
  have := Nat.mod_le n 18446744073709551616
  omega

/-- The limit on lengths: far from where index arithmetic overflows. -/
abbrev big : Nat := 4611686018427387904

theorem skip_quiet (f : Nat) :
    (∀ d : Bytes, Quiet d → d.length < big → d ≠ [] → skip f d = .err ∨ ∃ n : Int, skip f d = .ok n ∧ 0 ≤ n ∧ n ≤ d.length + 4611686018427387904) ∧
    (∀ (l : Nat) (r : Bytes), Quiet r → r.length ≤ l → l < big → skipGroup f l r = .err ∨ ∃ n : Int, skipGroup f l r = .ok n ∧ 0 ≤ n ∧ n ≤ l) := by
  induction f with
  | zero => exact ⟨fun _ _ _ _ => .inl (by simp [skip]), fun _ _ _ _ _ => .inl (by simp [skipGroup])⟩
  | succ f ih =>
    refine ⟨fun d hq hl hd => ?_, fun l r hq hr hl => ?_⟩
    · cases d with
      | nil => exact absurd rfl hd
      | cons b d =>
        unfold skip
        cases hv : readVarint (b :: d) with
        | none => exact .inl rfl
        | some x =>
          obtain ⟨wire, r⟩ := x
          obtain ⟨hs, hlt⟩ := readVarint_suffix hv
          have hqr := hq.suffix hs
          simp only
          split
          · cases hv2 : readVarint r with
            | none => exact .inl rfl
            | some y => exact .inr ⟨_, rfl, by omega, by omega⟩
          · split
            · exact .inr ⟨_, rfl, by omega, by omega⟩
            · split
              · cases hv2 : readVarint r with
                | none => exact .inl rfl
                | some y =>
                  obtain ⟨n, r'⟩ := y
                  have hn := hqr.varint hv2
                  simp only
                  split
                  · exact .inl rfl
                  refine .inr ⟨_, rfl, ?_⟩
                  unfold wrap
                  rw [if_neg (by simp only [big] at hl; omega)]
                  omega
              · split
                · have := ih.2 (b :: d).length r hqr (by omega) hl
                  rcases this with h | ⟨n, h, h1, h2⟩
                  · exact .inl h
                  · exact .inr ⟨n, h, h1, by omega⟩
                · split
                  · exact .inr ⟨_, rfl, by omega, by omega⟩
                  · split
                    · exact .inr ⟨_, rfl, by omega, by omega⟩
                    · exact .inl rfl
    · unfold skipGroup
      cases hv : readVarint r with
      | none => exact .inl rfl
      | some x =>
        obtain ⟨wire, r'⟩ := x
        simp only
        split
        · exact .inr ⟨_, rfl, by omega, by omega⟩
        · have hne : r ≠ [] := by
            intro h
            subst h
            simp [readVarint, readLoop] at hv
          rcases ih.1 r hq (by omega) hne with h | ⟨n, h, h1, h2⟩
          · rw [h]; exact .inl rfl
          · rw [h]
            simp only
            rw [if_neg (by simp only [big] at hl; omega)]
            exact ih.2 l _ (hq.suffix (List.drop_suffix _ _)) (by rw [List.length_drop]; omega) hl

/-- A field that does not panic on quiet bytes. -/
def Field.Calm (fd : Field M) : Prop :=
  ∀ l wt r m, Quiet r → r.length ≤ l → l < big → fd.unmarshal l wt r m ≠ .panic

/-- A message that does not panic on quiet bytes. -/
def Codec.Calm (c : Codec M) : Prop := ∀ d m, Quiet d → d.length < big → c.unmarshal d m ≠ .panic

theorem loop_calm {fs : List (Field M)} (hs : ∀ fd ∈ fs, fd.Suffix) (hc : ∀ fd ∈ fs, fd.Calm) (l : Nat) (hl : l < big) :
    ∀ (f : Nat) (d : Bytes) (m : M), Quiet d → d.length ≤ l → unmarshalLoop fs l f d m ≠ .panic
  | 0, _, _, _, _ => by simp [unmarshalLoop]
  | f + 1, d, m, hq, hd => by
    unfold unmarshalLoop
    cases d with
    | nil => simp
    | cons b d =>
      cases hv : readVarint (b :: d) with
      | none => simp
      | some x =>
        obtain ⟨wire, r⟩ := x
        obtain ⟨hsf, hlt⟩ := readVarint_suffix hv
        simp only
        split
        · simp
        · split
          · simp
          · split
            · next fd hf =>
              have hm := List.mem_of_find?_eq_some hf
              have h1 := hc fd hm l (wire % 8) r m (hq.suffix hsf) (by omega) hl
              cases hu : fd.unmarshal l (wire % 8) r m with
              | err => simp
              | panic => exact absurd hu h1
              | ok y =>
                have h2 := hs fd hm l (wire % 8) r m y.1 y.2 hu
                exact loop_calm hs hc l hl f y.2 y.1 ((hq.suffix hsf).suffix h2) (by have := h2.length_le; omega)
            · rcases (skip_quiet ((b :: d).length + 1)).1 (b :: d) hq (by omega) (by simp) with h | ⟨n, h, h1, h2⟩
              · rw [h]; simp
              · rw [h]
                simp only
                rw [if_neg (by omega), if_neg (by simp only [big] at hl; omega)]
                split
                · simp
                · exact loop_calm hs hc l hl f _ m (hq.suffix (List.drop_suffix _ _)) (by rw [List.length_drop]; omega)

theorem Codec.OK.calm {c : Codec M} (h : c.OK) (hc : ∀ fd ∈ c.fields, fd.Calm) : c.Calm := fun d m hq hl =>
  loop_calm (fun fd hfd => (h.fields fd hfd).suffix) hc d.length hl _ d m hq (Nat.le_refl _)

theorem varintField_calm (num : Nat) (put : A → Nat) (take : Nat → A) (get : M → A) (set : M → A → M) :
    (varintField num put take get set).Calm := by
  intro l wt r m _ _ _
  simp only [varintField]
  split
  · simp
  · cases readVarint r <;> simp

theorem doubleField_calm (num : Nat) (get : M → F64) (set : M → F64 → M) : (doubleField num get set).Calm := by
  intro l wt r m _ _ _
  simp only [doubleField]
  split
  · simp
  · cases readF64 r <;> simp

theorem readSlice_calm {l : Nat} {r : Bytes} (hq : Quiet r) (hr : r.length ≤ l) (hl : l < big) : readSlice l r ≠ .panic := by
  unfold readSlice readLen
  cases hv : readVarint r with
  | none => simp
  | some x =>
    obtain ⟨n, r'⟩ := x
    have := hq.varint hv
    simp only
    by_cases hn : n ≥ 9223372036854775808
    · rw [if_pos hn]; simp
    rw [if_neg hn]
    simp only [slice]
    rw [if_neg (by simp only [big] at hl; omega)]
    split <;> simp

theorem bytesField_calm (num : Nat) (get : M → Bytes) (set : M → Bytes → M) : (bytesField num get set).Calm := by
  intro l wt r m hq hr hl
  have := readSlice_calm hq hr hl
  simp only [bytesField]
  split
  · simp
  · cases h : readSlice l r with
    | panic => exact absurd h this
    | err => simp
    | ok => simp

theorem doublesField_calm (num : Nat) (get : M → List F64) (set : M → List F64 → M) : (doublesField num get set).Calm := by
  intro l wt r m hq hr hl
  simp only [doublesField]
  split
  · cases readF64 r <;> simp
  · split
    · cases readLen r with
      | none => simp
      | some x =>
        simp only
        split
        · simp
        · split
          · simp
          · cases packedLoop (x.1 + 1) x.1 x.2 (get m) <;> simp
    · simp

theorem unmarshalMsg_calm {c : Codec A} (hc : c.Calm) {l : Nat} {r : Bytes} (a : A) (hq : Quiet r) (hr : r.length ≤ l) (hl : l < big) :
    unmarshalMsg c l r a ≠ .panic := by
  have := readSlice_calm hq hr hl
  unfold unmarshalMsg
  cases h : readSlice l r with
  | panic => exact absurd h this
  | err => simp
  | ok x =>
    obtain ⟨x, r'⟩ := x
    have hi := (readSlice_suffix h).2
    have hx := hc x a (hq.infix hi) (by have := hi.length_le; omega)
    simp only
    cases h2 : c.unmarshal x a with
    | panic => exact absurd h2 hx
    | err => simp
    | ok => simp

theorem msgField_calm (num : Nat) {c : Codec A} (hc : c.Calm) (get : M → A) (set : M → A → M) : (msgField num c get set).Calm := by
  intro l wt r m hq hr hl
  have := unmarshalMsg_calm hc (get m) hq hr hl
  simp only [msgField]
  split
  · simp
  · cases h : unmarshalMsg c l r (get m) with
    | panic => exact absurd h this
    | err => simp
    | ok => simp

theorem optField_calm (num : Nat) {c : Codec A} (hc : c.Calm) (get : M → Option A) (set : M → Option A → M) :
    (optField num c get set).Calm := by
  intro l wt r m hq hr hl
  have := unmarshalMsg_calm hc ((get m).getD c.zero) hq hr hl
  simp only [optField]
  split
  · simp
  · cases h : unmarshalMsg c l r ((get m).getD c.zero) with
    | panic => exact absurd h this
    | err => simp
    | ok => simp

theorem repField_calm (num : Nat) {c : Codec A} (hc : c.Calm) (get : M → List A) (set : M → List A → M) :
    (repField num c get set).Calm := by
  intro l wt r m hq hr hl
  have := unmarshalMsg_calm hc c.zero hq hr hl
  simp only [repField]
  split
  · simp
  · cases h : unmarshalMsg c l r c.zero with
    | panic => exact absurd h this
    | err => simp
    | ok => simp

theorem aggregationID_calm : aggregationID.Calm := aggregationID_ok.calm (allCons (varintField_calm _ _ _ _ _) allNil)
theorem resolution_calm : resolution.Calm := resolution_ok.calm (allCons (varintField_calm _ _ _ _ _) (allCons (varintField_calm _ _ _ _ _) allNil))
theorem retention_calm : retention.Calm := retention_ok.calm (allCons (varintField_calm _ _ _ _ _) allNil)
theorem storagePolicy_calm : storagePolicy.Calm :=
  storagePolicy_ok.calm (allCons (optField_calm _ resolution_calm _ _) (allCons (optField_calm _ retention_calm _ _) allNil))
theorem transformationOp_calm : transformationOp.Calm := transformationOp_ok.calm (allCons (varintField_calm _ _ _ _ _) allNil)
theorem appliedRollupOp_calm : appliedRollupOp.Calm :=
  appliedRollupOp_ok.calm (allCons (bytesField_calm _ _ _) (allCons (msgField_calm _ aggregationID_calm _ _) allNil))
theorem appliedPipelineOp_calm : appliedPipelineOp.Calm :=
  appliedPipelineOp_ok.calm (allCons (varintField_calm _ _ _ _ _) (allCons (optField_calm _ transformationOp_calm _ _)
    (allCons (optField_calm _ appliedRollupOp_calm _ _) allNil)))
theorem appliedPipeline_calm : appliedPipeline.Calm := appliedPipeline_ok.calm (allCons (repField_calm _ appliedPipelineOp_calm _ _) allNil)
theorem pipelineMetadata_calm : pipelineMetadata.Calm :=
  pipelineMetadata_ok.calm (allCons (msgField_calm _ aggregationID_calm _ _) (allCons (repField_calm _ storagePolicy_calm _ _)
    (allCons (msgField_calm _ appliedPipeline_calm _ _) (allCons (varintField_calm _ _ _ _ _) allNil))))
theorem metadata_calm : metadata.Calm := metadata_ok.calm (allCons (repField_calm _ pipelineMetadata_calm _ _) allNil)
theorem stagedMetadata_calm : stagedMetadata.Calm :=
  stagedMetadata_ok.calm (allCons (varintField_calm _ _ _ _ _) (allCons (varintField_calm _ _ _ _ _) (allCons (msgField_calm _ metadata_calm _ _) allNil)))
theorem stagedMetadatas_calm : stagedMetadatas.Calm := stagedMetadatas_ok.calm (allCons (repField_calm _ stagedMetadata_calm _ _) allNil)
theorem forwardMetadata_calm : forwardMetadata.Calm :=
  forwardMetadata_ok.calm (allCons (msgField_calm _ aggregationID_calm _ _) (allCons (msgField_calm _ storagePolicy_calm _ _)
    (allCons (msgField_calm _ appliedPipeline_calm _ _) (allCons (varintField_calm _ _ _ _ _) (allCons (varintField_calm _ _ _ _ _) allNil)))))
theorem timedMetadata_calm : timedMetadata.Calm :=
  timedMetadata_ok.calm (allCons (msgField_calm _ aggregationID_calm _ _) (allCons (msgField_calm _ storagePolicy_calm _ _) allNil))
theorem counter_calm : counter.Calm := counter_ok.calm (allCons (bytesField_calm _ _ _) (allCons (varintField_calm _ _ _ _ _) allNil))
theorem batchTimer_calm : batchTimer.Calm := batchTimer_ok.calm (allCons (bytesField_calm _ _ _) (allCons (doublesField_calm _ _ _) allNil))
theorem gauge_calm : gauge.Calm := gauge_ok.calm (allCons (bytesField_calm _ _ _) (allCons (doubleField_calm _ _ _) allNil))
theorem timedMetric_calm : timedMetric.Calm :=
  timedMetric_ok.calm (allCons (varintField_calm _ _ _ _ _) (allCons (bytesField_calm _ _ _) (allCons (varintField_calm _ _ _ _ _)
    (allCons (doubleField_calm _ _ _) allNil))))
theorem forwardedMetric_calm : forwardedMetric.Calm :=
  forwardedMetric_ok.calm (allCons (varintField_calm _ _ _ _ _) (allCons (bytesField_calm _ _ _) (allCons (varintField_calm _ _ _ _ _)
    (allCons (doublesField_calm _ _ _) allNil))))
theorem withMetadata_calm {a : Codec A} {b : Codec B} (ha : a.OK) (hb : b.OK) (hac : a.Calm) (hbc : b.Calm) : (withMetadata a b).Calm :=
  (withMetadata_ok ha hb).calm (allCons (msgField_calm _ hac _ _) (allCons (msgField_calm _ hbc _ _) allNil))
theorem metricWithMetadatas_calm : metricWithMetadatas.Calm :=
  metricWithMetadatas_ok.calm (allCons (varintField_calm _ _ _ _ _)
    (allCons (optField_calm _ (withMetadata_calm counter_ok stagedMetadatas_ok counter_calm stagedMetadatas_calm) _ _)
    (allCons (optField_calm _ (withMetadata_calm batchTimer_ok stagedMetadatas_ok batchTimer_calm stagedMetadatas_calm) _ _)
    (allCons (optField_calm _ (withMetadata_calm gauge_ok stagedMetadatas_ok gauge_calm stagedMetadatas_calm) _ _)
    (allCons (optField_calm _ (withMetadata_calm forwardedMetric_ok forwardMetadata_ok forwardedMetric_calm forwardMetadata_calm) _ _)
    (allCons (optField_calm _ (withMetadata_calm timedMetric_ok timedMetadata_ok timedMetric_calm timedMetadata_calm) _ _) allNil))))))

/-! ### Allocated empty messages -/

/-- The same field, read without and with an empty message allocated before. -/
def OptLe (z : A) (a b : Option A) : Prop := a = b ∨ (a = none ∧ b = some z)

theorem OptLe.getD {z : A} {a b : Option A} (h : OptLe z a b) : a.getD z = b.getD z := by
  rcases h with h | ⟨h1, h2⟩
  · rw [h]
  · simp [h1, h2]

/-- The same message, read without and with empty messages allocated before. -/
structure PBLe (a b : PBMetric) : Prop where
  type : a.type = b.type
  counter : OptLe ⟨{}, []⟩ a.counter b.counter
  batchTimer : OptLe ⟨{}, []⟩ a.batchTimer b.batchTimer
  gauge : OptLe ⟨{}, []⟩ a.gauge b.gauge
  forwarded : OptLe ⟨{}, {}⟩ a.forwarded b.forwarded
  timed : OptLe ⟨{}, {}⟩ a.timed b.timed

theorem Clean.le {m : PBMetric} (h : Clean m) : PBLe {} m where
  type := h.type.symm
  counter := h.counter.elim (fun e => .inl e.symm) fun e => .inr ⟨rfl, e⟩
  batchTimer := h.batchTimer.elim (fun e => .inl e.symm) fun e => .inr ⟨rfl, e⟩
  gauge := h.gauge.elim (fun e => .inl e.symm) fun e => .inr ⟨rfl, e⟩
  forwarded := h.forwarded.elim (fun e => .inl e.symm) fun e => .inr ⟨rfl, e⟩
  timed := h.timed.elim (fun e => .inl e.symm) fun e => .inr ⟨rfl, e⟩

/-- Outcomes that correspond. -/
def OutRel (R : α → β → Prop) : Out α → Out β → Prop
  | .ok a, .ok b => R a b
  | .err, .err => True
  | .panic, .panic => True
  | _, _ => False

/-- A field whose case in `Unmarshal` respects a relation of messages. -/
def Field.Respects (R : M → M → Prop) (fd : Field M) : Prop :=
  ∀ l wt r a b, R a b → OutRel (fun p q => R p.1 q.1 ∧ p.2 = q.2) (fd.unmarshal l wt r a) (fd.unmarshal l wt r b)

theorem loop_respects {R : M → M → Prop} {fs : List (Field M)} (h : ∀ fd ∈ fs, fd.Respects R) (l : Nat) :
    ∀ (f : Nat) (d : Bytes) (a b : M), R a b → OutRel R (unmarshalLoop fs l f d a) (unmarshalLoop fs l f d b)
  | 0, _, _, _, _ => by simp [unmarshalLoop, OutRel]
  | f + 1, d, a, b, hab => by
    unfold unmarshalLoop
    cases d with
    | nil => exact hab
    | cons c d =>
      cases hv : readVarint (c :: d) with
      | none => simp [OutRel]
      | some x =>
        obtain ⟨wire, r⟩ := x
        simp only
        split
        · simp [OutRel]
        · split
          · simp [OutRel]
          · split
            · next fd hf =>
              have h1 := h fd (List.mem_of_find?_eq_some hf) l (wire % 8) r a b hab
              cases hu : fd.unmarshal l (wire % 8) r a <;> cases hw : fd.unmarshal l (wire % 8) r b <;>
                rw [hu, hw] at h1 <;> simp only [OutRel] at h1 ⊢
              next p q =>
                obtain ⟨h2, h3⟩ := h1
                obtain ⟨p1, p2⟩ := p
                obtain ⟨q1, q2⟩ := q
                simp only at h2 h3 ⊢
                subst h3
                exact loop_respects h l f p2 p1 q1 h2
            · cases skip ((c :: d).length + 1) (c :: d) with
              | err => simp [OutRel]
              | panic => simp [OutRel]
              | ok n =>
                simp only
                split
                · simp [OutRel]
                · split
                  · simp [OutRel]
                  · split
                    · simp [OutRel]
                    · exact loop_respects h l f _ a b hab

theorem optField_respects {R : M → M → Prop} (num : Nat) (c : Codec A) (get : M → Option A) (set : M → Option A → M)
    (hg : ∀ a b, R a b → OptLe c.zero (get a) (get b)) (hs : ∀ a b v, R a b → R (set a (some v)) (set b (some v))) :
    (optField num c get set).Respects R := by
  intro l wt r a b hab
  have e := (hg a b hab).getD
  simp only [optField]
  split
  · simp [OutRel]
  · rw [e]
    cases unmarshalMsg c l r ((get b).getD c.zero) with
    | err => simp [OutRel]
    | panic => simp [OutRel]
    | ok x => exact ⟨hs a b x.1 hab, rfl⟩

/-- Reading a message does not depend on whether empty messages were allocated before, but for what is left of these. -/
theorem unmarshal_le (d : Bytes) (a b : PBMetric) (h : PBLe a b) :
    OutRel PBLe (metricWithMetadatas.unmarshal d a) (metricWithMetadatas.unmarshal d b) := by
  refine loop_respects ?_ d.length _ d a b h
  refine allCons ?_ (allCons ?_ (allCons ?_ (allCons ?_ (allCons ?_ (allCons ?_ allNil)))))
  · intro l wt r a b hab
    simp only [int32Field, varintField]
    split
    · simp [OutRel]
    · cases readVarint r with
      | none => simp [OutRel]
      | some x => exact ⟨{ hab with type := rfl }, rfl⟩
  · exact optField_respects _ _ _ _ (fun a b h => h.counter) fun a b v h => { h with counter := .inl rfl }
  · exact optField_respects _ _ _ _ (fun a b h => h.batchTimer) fun a b v h => { h with batchTimer := .inl rfl }
  · exact optField_respects _ _ _ _ (fun a b h => h.gauge) fun a b v h => { h with gauge := .inl rfl }
  · exact optField_respects _ _ _ _ (fun a b h => h.forwarded) fun a b v h => { h with forwarded := .inl rfl }
  · exact optField_respects _ _ _ _ (fun a b h => h.timed) fun a b v h => { h with timed := .inl rfl }

end Verif.Wire
