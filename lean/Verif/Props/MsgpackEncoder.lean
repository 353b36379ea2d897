import Verif.Model.MsgpackEncoder
import Verif.Model.MsgpackLib
/- C110: an error of the buffered encoder is returned by the msgpack encoders, and ends what they write. -/
namespace Verif.Spec.MP
open Verif.MP Verif.Wire Verif.Policy

/-- What a call of a buffered encoder writes. -/
def written (l : Lib) : Put → Bytes
  | .int v => l.putInt v
  | .bool b => l.putBool b
  | .float v => l.putF64 v
  | .bytes b => l.putBytes b
  | .arrayLen n => l.putArrayLen n

/-- The encoding of a message. -/
def encoding (l : Lib) (u : Units) : EncMsg → Bytes
  | .metric isNil m => encodeMetric l isNil m
  | .withPolicies isNil m pl => encodeMetricWithPolicies l u isNil pl m
  | .raw data p => encodeWithPolicy l u data p
  | .rawAt data p t => encodeWithPolicyAndTime l u data p t

/-- After the calls `c`, none of the calls `ps` fails. -/
def NoneFails (fails : List Put → Put → Option Nat) (c ps : List Put) : Prop :=
  ∀ a p b, ps = a ++ p :: b → fails (c ++ a) p = none

/-- After the calls `c`, the calls `a` do not fail and then `p` does. -/
def FailsAt (fails : List Put → Put → Option Nat) (c a : List Put) (p : Put) (e : Nat) : Prop :=
  NoneFails fails c a ∧ fails (c ++ a) p = some e

end Verif.Spec.MP

namespace Verif.MP
open Verif.Policy Verif.Meta Verif.Wire Verif.Msg Verif.Spec.MP

/-! ### Parts as lists of calls -/

/-- The calls, until one fails. -/
def emits : List Put → Enc
  | [] => fun s => s
  | p :: ps => fun s => emits ps (s.emit p)

/-- The part makes these calls. -/
def Makes (e : Enc) (ps : List Put) : Prop := ∀ s, e s = emits ps s

theorem emits_append (ps qs : List Put) (s : BaseEnc) : emits (ps ++ qs) s = emits qs (emits ps s) := by
  induction ps generalizing s with
  | nil => rfl
  | cons p ps ih => exact ih _

theorem emits_err (ps : List Put) (s : BaseEnc) (h : s.err.isSome = true) : emits ps s = s := by
  induction ps with
  | nil => rfl
  | cons p ps ih =>
    show emits ps (s.emit p) = s
    rw [BaseEnc.emit, if_pos h, ih]

theorem all_cons (e : Enc) (es : List Enc) (s : BaseEnc) : Enc.all (e :: es) s = Enc.all es (e s) := rfl

theorem Makes.nil : Makes (.all []) [] := fun _ => rfl

theorem Makes.cons {e : Enc} {es : List Enc} {ps qs : List Put} (h : Makes e ps) (h' : Makes (.all es) qs) : Makes (.all (e :: es)) (ps ++ qs) := by
  intro s
  rw [all_cons, h s, h' _, emits_append]

theorem Makes.one (p : Put) : Makes (.emit p) [p] := fun _ => rfl

theorem Makes.each {es : α → Enc} {ps : α → List Put} (h : ∀ a, Makes (es a) (ps a)) : ∀ l : List α, Makes (.all (l.map es)) (l.flatMap ps)
  | [] => .nil
  | a :: l => .cons (h a) (.each h l)

/-- A check for an error in front of a part makes no difference. -/
theorem Makes.check {e : Enc} {ps : List Put} (h : Makes e ps) : Makes (fun s => if s.err.isSome then s else e s) ps := by
  intro s
  by_cases hs : s.err.isSome = true
  · simp only [if_pos hs]; rw [emits_err ps s hs]
  · simp only [if_neg hs]; exact h s

/-- The part makes calls that write these bytes, whatever the library. -/
def Does (e : Enc) (b : Lib → Bytes) : Prop := ∃ ps, Makes e ps ∧ ∀ l, ps.flatMap (written l) = b l

theorem Does.one (p : Put) : Does (.emit p) fun l => written l p := ⟨[p], .one p, fun l => by simp⟩

theorem Does.nil : Does (.all []) fun _ => [] := ⟨[], .nil, fun _ => rfl⟩

theorem Does.cons {e : Enc} {es : List Enc} {b b' : Lib → Bytes} (h : Does e b) (h' : Does (.all es) b') :
    Does (.all (e :: es)) fun l => b l ++ b' l := by
  obtain ⟨ps, h1, h2⟩ := h
  obtain ⟨qs, h3, h4⟩ := h'
  exact ⟨ps ++ qs, h1.cons h3, fun l => by rw [List.flatMap_append, h2, h4]⟩

theorem Does.to {e : Enc} {b b' : Lib → Bytes} (h : Does e b) (hb : ∀ l, b l = b' l) : Does e b' := by
  obtain ⟨ps, h1, h2⟩ := h
  exact ⟨ps, h1, fun l => (h2 l).trans (hb l)⟩

theorem Does.each {es : α → Enc} {b : α → Lib → Bytes} (h : ∀ a, Does (es a) (b a)) : ∀ l : List α,
    Does (.all (l.map es)) fun lib => l.flatMap fun a => b a lib
  | [] => .nil
  | a :: l => .cons (h a) (.each h l)

theorem Does.check {e : Enc} {b : Lib → Bytes} (h : Does e b) : Does (fun s => if s.err.isSome then s else e s) b := by
  obtain ⟨ps, h1, h2⟩ := h
  exact ⟨ps, h1.check, h2⟩

theorem fields_does (t : Int) : Does (.fields t) fun l => l.putArrayLen (numFieldsForType t) := .one _
theorem int_does (v : Int) : Does (.int v) fun l => l.putInt v := .one _
theorem bool_does (v : Bool) : Does (.bool v) fun l => l.putBool v := .one _
theorem float_does (v : F64) : Does (.float v) fun l => l.putF64 v := .one _
theorem bytes_does (v : Option Bytes) : Does (.bytes v) fun l => l.putBytes v := .one _
theorem arrayLen_does (n : Nat) : Does (.arrayLen n) fun l => l.putArrayLen n := .one _
theorem rawID_does (n : Bool) (id : Bytes) : Does (.rawID n id) fun l => encodeRawID l n id := .one _

theorem resolution_does (u : Units) (r : Resolution) : Does (.resolution u r) fun l => encodeResolution l u r := by
  have h : Does (match valueFromResolution u r with
      | some v => Enc.all [.fields knownResolutionType, .int knownResolutionType, .int v]
      | none => Enc.all [.fields unknownResolutionType, .int unknownResolutionType, .int r.window, .int r.precision])
      fun l => encodeResolution l u r := by
    cases h : valueFromResolution u r with
    | some v => exact ((fields_does _).cons ((int_does _).cons ((int_does _).cons .nil))).to fun l => by simp [encodeResolution, h]
    | none => exact ((fields_does _).cons ((int_does _).cons ((int_does _).cons ((int_does _).cons .nil)))).to fun l => by simp [encodeResolution, h]
  obtain ⟨ps, h1, h2⟩ := h
  refine ⟨ps, fun s => ?_, h2⟩
  rw [← h1.check s]
  unfold Enc.resolution
  cases valueFromResolution u r <;> rfl

theorem retention_does (r : Int) : Does (.retention r) fun l => encodeRetention l r := by
  have h : Does (match valueFromRetention r with
      | some v => Enc.all [.fields knownRetentionType, .int knownRetentionType, .int v]
      | none => Enc.all [.fields unknownRetentionType, .int unknownRetentionType, .int r])
      fun l => encodeRetention l r := by
    cases h : valueFromRetention r with
    | some v => exact ((fields_does _).cons ((int_does _).cons ((int_does _).cons .nil))).to fun l => by simp [encodeRetention, h]
    | none => exact ((fields_does _).cons ((int_does _).cons ((int_does _).cons .nil))).to fun l => by simp [encodeRetention, h]
  obtain ⟨ps, h1, h2⟩ := h
  refine ⟨ps, fun s => ?_, h2⟩
  rw [← h1.check s]
  unfold Enc.retention
  cases valueFromRetention r <;> rfl

theorem storagePolicy_does (u : Units) (p : StoragePolicy) : Does (.storagePolicy u p) fun l => encodeStoragePolicy l u p :=
  ((fields_does _).cons ((resolution_does u _).cons ((retention_does _).cons .nil))).to fun l => by simp [encodeStoragePolicy]

theorem aggID_does (id : Agg.ID) : Does (.aggID id) fun l => encodeAggID l id := by
  unfold Enc.aggID encodeAggID
  split
  · exact ((fields_does _).cons ((int_does _).cons .nil)).to fun l => by simp
  · exact ((fields_does _).cons ((int_does _).cons ((int_does _).cons .nil))).to fun l => by simp

theorem policy_does (u : Units) (p : Policy) : Does (.policy u p) fun l => encodePolicy l u p :=
  ((fields_does _).cons ((storagePolicy_does u _).cons ((aggID_does _).cons .nil))).to fun l => by simp [encodePolicy]

theorem stagedPolicies_does (u : Units) (p : StagedPolicies) : Does (.stagedPolicies u p) fun l => encodeStagedPolicies l u p :=
  ((fields_does _).cons ((int_does _).cons ((bool_does _).cons ((arrayLen_does _).cons ((Does.each (policy_does u) _).cons .nil))))).to
    fun l => by simp [encodeStagedPolicies]

theorem policiesList_does (u : Units) (pl : List StagedPolicies) : Does (.policiesList u pl) fun l => encodePoliciesList l u pl := by
  unfold Enc.policiesList encodePoliciesList
  split
  · exact ((fields_does _).cons ((int_does _).cons .nil)).to fun l => by simp
  · exact ((fields_does _).cons ((int_does _).cons ((arrayLen_does _).cons ((Does.each (stagedPolicies_does u) _).cons .nil)))).to
      fun l => by simp

theorem rootObject_does (t : Int) : Does (.rootObject t) fun l => encodeRootObject l t :=
  ((int_does _).cons ((fields_does _).cons ((int_does _).cons .nil))).to fun l => by simp [encodeRootObject]

/-- The bytes of a metric. -/
def sampleBytes (l : Lib) (isNil : Bool) : Sample → Bytes
  | .counter c => encodeCounter l isNil c
  | .timer t => encodeBatchTimer l isNil t
  | .gauge g => encodeGauge l isNil g

theorem sample_does (isNil : Bool) (m : Sample) : Does (.sample isNil m) fun l => sampleBytes l isNil m := by
  cases m with
  | counter c => exact ((fields_does _).cons ((rawID_does _ _).cons ((int_does _).cons .nil))).to fun l => by simp [sampleBytes, encodeCounter]
  | timer t =>
    exact ((fields_does _).cons ((rawID_does _ _).cons ((arrayLen_does _).cons ((Does.each float_does _).cons .nil)))).to fun l => by
      simp [sampleBytes, encodeBatchTimer]
  | gauge g => exact ((fields_does _).cons ((rawID_does _ _).cons ((float_does _).cons .nil))).to fun l => by simp [sampleBytes, encodeGauge]

theorem msg_does (u : Units) (m : EncMsg) : Does (m.enc u) fun l => encoding l u m := by
  cases m with
  | metric isNil m =>
    refine ((rootObject_does _).cons ((sample_does _ _).cons .nil)).to fun l => ?_
    cases m <;> simp [encoding, encodeMetric, sampleBytes, Sample.type]
  | withPolicies isNil m pl =>
    refine ((rootObject_does _).cons ((fields_does _).cons ((sample_does _ _).cons ((policiesList_does u pl).cons .nil)))).to fun l => ?_
    cases m <;> simp [encoding, encodeMetricWithPolicies, sampleBytes, Sample.typeWithPolicies]
  | raw data p =>
    exact ((rootObject_does _).cons ((fields_does _).cons ((bytes_does _).cons ((storagePolicy_does u p).cons .nil)))).to fun l => by
      simp [encoding, encodeWithPolicy]
  | rawAt data p t =>
    exact ((rootObject_does _).cons ((fields_does _).cons ((bytes_does _).cons ((storagePolicy_does u p).cons ((int_does t).cons .nil))))).to
      fun l => by simp [encoding, encodeWithPolicyAndTime]

/-! ### What calls do -/

theorem emits_result (ps : List Put) : ∀ (s : BaseEnc), s.err = none →
    (NoneFails s.fails s.calls ps ∧ emits ps s = { s with calls := s.calls ++ ps }) ∨
    ∃ a p b e, ps = a ++ p :: b ∧ FailsAt s.fails s.calls a p e ∧ emits ps s = { s with calls := s.calls ++ (a ++ [p]), err := some e } := by
  induction ps with
  | nil =>
    intro s hs
    refine .inl ⟨fun a p b h => by simp at h, ?_⟩
    show s = _
    cases s; simp
  | cons p ps ih =>
    intro s hs
    have he : s.emit p = { s with calls := s.calls ++ [p], err := s.fails s.calls p } := by
      unfold BaseEnc.emit; rw [hs]; rfl
    show (_ ∧ emits ps (s.emit p) = _) ∨ ∃ a p' b e, _ ∧ _ ∧ emits ps (s.emit p) = _
    rw [he]
    cases hf : s.fails s.calls p with
    | some e =>
      right
      refine ⟨[], p, ps, e, rfl, ⟨fun a p b h => by simp at h, by simpa using hf⟩, ?_⟩
      rw [emits_err _ _ rfl]
      simp
    | none =>
      rcases ih { s with calls := s.calls ++ [p], err := none } rfl with ⟨h1, h2⟩ | ⟨a, q, b, e, h1, ⟨h2, h3⟩, h4⟩
      · left
        refine ⟨?_, by rw [h2]; simp [hs]⟩
        intro a q b h
        cases a with
        | nil => simp only [List.nil_append, List.cons.injEq] at h; rw [← h.1]; simpa using hf
        | cons x a =>
          simp only [List.cons_append, List.cons.injEq] at h
          have := h1 a q b h.2
          simpa [h.1] using this
      · right
        refine ⟨p :: a, q, b, e, by rw [h1]; rfl, ⟨?_, by simpa using h3⟩, by rw [h4]; simp⟩
        intro a' q' b' h
        cases a' with
        | nil => simp only [List.nil_append, List.cons.injEq] at h; rw [← h.1]; simpa using hf
        | cons x a' =>
          simp only [List.cons_append, List.cons.injEq] at h
          have := h2 a' q' b' h.2
          simpa [h.1] using this

/-- C110: a message is a list of calls of the buffered encoder that write its encoding.  If none of them fails, they are all made and no error
is returned; otherwise they are made up to the first one that fails, whose error is returned. -/
theorem C110_message (u : Units) (m : EncMsg) : ∃ ps, (∀ l, ps.flatMap (written l) = encoding l u m) ∧ ∀ s : BaseEnc, s.err = none →
    (NoneFails s.fails s.calls ps ∧ (s.encode u m).1 = none ∧ (s.encode u m).2 = { s with calls := s.calls ++ ps }) ∨
    ∃ a p b e, ps = a ++ p :: b ∧ FailsAt s.fails s.calls a p e ∧ (s.encode u m).1 = some e ∧
      (s.encode u m).2 = { s with calls := s.calls ++ (a ++ [p]), err := some e } := by
  obtain ⟨ps, h1, h2⟩ := msg_does u m
  refine ⟨ps, h2, fun s hs => ?_⟩
  have he : s.encode u m = ((emits ps s).err, emits ps s) := by
    unfold BaseEnc.encode
    rw [hs, ← h1 s]; rfl
  rw [he]
  rcases emits_result ps s hs with ⟨h3, h4⟩ | ⟨a, p, b, e, h3, h4, h5⟩
  · exact .inl ⟨h3, by rw [h4]; exact hs, h4⟩
  · exact .inr ⟨a, p, b, e, h3, h4, by rw [h5], h5⟩

/-- C110: after an error nothing is written and the same error is returned. -/
theorem C110_stuck (u : Units) (s : BaseEnc) (e : Nat) (h : s.err = some e) (m : EncMsg) : s.encode u m = (some e, s) := by
  unfold BaseEnc.encode; rw [h]; rfl

/-- C110: after `Reset` an encoder is as a new one on the buffered encoder. -/
theorem C110_reset (s : BaseEnc) (fails : List Put → Put → Option Nat) (calls : List Put) : s.reset fails calls = newEnc fails calls := rfl

/-! ### Streams -/

/-- Several messages: the errors returned, and the encoder afterwards. -/
def encodeAll (u : Units) : BaseEnc → List EncMsg → List (Option Nat) × BaseEnc
  | s, [] => ([], s)
  | s, m :: ms => match s.encode u m with
    | (e, s) => match encodeAll u s ms with
      | (es, s) => (e :: es, s)

theorem encodeAll_stuck (u : Units) (e : Nat) : ∀ (ms : List EncMsg) (s : BaseEnc), s.err = some e →
    encodeAll u s ms = (List.replicate ms.length (some e), s)
  | [], s, _ => rfl
  | m :: ms, s, h => by
    rw [encodeAll, C110_stuck u s e h m]
    simp only
    rw [encodeAll_stuck u e ms s h]
    rfl

theorem noneFails_append {fails : List Put → Put → Option Nat} {c ps qs : List Put} (h : NoneFails fails c ps)
    (h' : NoneFails fails (c ++ ps) qs) : NoneFails fails c (ps ++ qs) := by
  intro a p b e
  rcases List.append_eq_append_iff.mp e with ⟨a', h1, h2⟩ | ⟨b', h1, h2⟩
  · have := h' a' p b h2
    rw [h1]; simpa using this
  · cases b' with
    | nil =>
      simp only [List.nil_append, List.append_nil] at h1 h2
      rw [← h1]
      simpa using h' [] p b h2.symm
    | cons x b' =>
      simp only [List.cons_append, List.cons.injEq] at h2
      obtain ⟨rfl, _⟩ := h2
      exact h a p b' h1

/-- C110: of a sequence of messages, those before the first failing call are written completely and return no error; from then on, the
message of that call included, all return its error, and no further call is made. -/
theorem C110_stream (u : Units) (ms : List EncMsg) (s : BaseEnc) (hs : s.err = none) :
    (∃ ps, (∀ l, ps.flatMap (written l) = ms.flatMap (encoding l u)) ∧ NoneFails s.fails s.calls ps ∧
      encodeAll u s ms = (List.replicate ms.length none, { s with calls := s.calls ++ ps })) ∨
    ∃ ms1 m ms2 ps a p b e, ms = ms1 ++ m :: ms2 ∧ (∀ l, ps.flatMap (written l) = ms1.flatMap (encoding l u)) ∧
      (∀ l, (a ++ p :: b).flatMap (written l) = encoding l u m) ∧ FailsAt s.fails s.calls (ps ++ a) p e ∧
      encodeAll u s ms = (List.replicate ms1.length none ++ List.replicate (ms2.length + 1) (some e),
        { s with calls := s.calls ++ (ps ++ (a ++ [p])), err := some e }) := by
  induction ms generalizing s with
  | nil =>
    refine .inl ⟨[], fun l => rfl, fun a p b h => by simp at h, ?_⟩
    show ([], s) = _
    cases s; simp
  | cons m ms ih =>
    obtain ⟨ps, h1, h2⟩ := C110_message u m
    rcases h2 s hs with ⟨h3, h4, h5⟩ | ⟨a, p, b, e, h3, h4, h5, h6⟩
    · have he : s.encode u m = (none, { s with calls := s.calls ++ ps }) := Prod.ext h4 h5
      have hr : encodeAll u s (m :: ms) = (none :: (encodeAll u { s with calls := s.calls ++ ps } ms).1, (encodeAll u { s with calls := s.calls ++ ps } ms).2) := by
        rw [encodeAll, he]
      rw [hr]
      rcases ih { s with calls := s.calls ++ ps } hs with ⟨qs, g1, g2, g3⟩ | ⟨ms1, m', ms2, qs, a, p, b, e, g1, g2, g3, ⟨g4, g5⟩, g6⟩
      · left
        refine ⟨ps ++ qs, fun l => ?_, noneFails_append h3 g2, ?_⟩
        · rw [List.flatMap_append, h1, g1]; rfl
        · rw [g3]; simp [List.replicate_succ]
      · right
        refine ⟨m :: ms1, m', ms2, ps ++ qs, a, p, b, e, by rw [g1]; rfl, fun l => ?_, g3, ⟨?_, ?_⟩, ?_⟩
        · rw [List.flatMap_append, h1, g2]; rfl
        · rw [List.append_assoc]; exact noneFails_append h3 g4
        · simpa using g5
        · rw [g6]; simp [List.replicate_succ]
    · right
      have he : s.encode u m = (some e, { s with calls := s.calls ++ (a ++ [p]), err := some e }) := Prod.ext h5 h6
      refine ⟨[], m, ms, [], a, p, b, e, rfl, fun l => rfl, fun l => by rw [← h3, h1], by simpa using h4, ?_⟩
      rw [encodeAll, he]
      simp only
      rw [encodeAll_stuck u e ms _ rfl]
      simp [List.replicate_succ]

/-- A buffered encoder that fails at its eighth call: the first counter takes six, the second one is cut off. -/
example (u : Units) : let s := newEnc (fun c _ => if c.length = 7 then some 4 else none) []
    let c : EncMsg := .metric false (.counter ⟨bs "a", 7⟩)
    (encodeAll u s [c, c, c]).1 = [none, some 4, some 4] ∧ (encodeAll u s [c, c, c]).2.calls.length = 8 := by
  exact ⟨rfl, rfl⟩

end Verif.MP
