import Verif.Lemmas.MsgpackDelim
import Verif.Props.RawMetric
/- C24: what the accessors of a raw metric answer first, on any bytes. -/
namespace Verif.Spec.MP
open Verif.MP Verif.Wire

/-- The bytes begin with a version of at most 1, the length of an array, at least 3, and the identifier `v`: as many bytes as are
announced, or nothing for a nil identifier; `r` is the rest. -/
def IdAt (l : Lib) (d v r : Bytes) : Prop := ∃ version n k d1 d2 d3, l.getInt d = .ok (version, d1) ∧ version ≤ 1 ∧
  l.getArrayLen d1 = .ok (n, d2) ∧ 3 ≤ n ∧ l.getBytesLen d2 = .ok (k, d3) ∧ (k = -1 ∧ v = [] ∧ r = d3 ∨ k = v.length ∧ d3 = v ++ r)

/-- A metric begins there. -/
def PointAt (l : Lib) (d : Bytes) (m : Point) : Prop := ∃ r1 r2 r3, IdAt l d m.id r1 ∧ l.getInt r1 = .ok (m.timeNanos, r2) ∧
  l.getF64 r2 = .ok (m.value, r3)

end Verif.Spec.MP

namespace Verif.MP
open Verif.Wire Verif.Spec.MP

variable {l : Lib} (C : Delim l)
include C

theorem id_stage (d : Bytes) : (∃ v r, IdAt l d v r ∧ stage1 l d = ⟨d, ⟨r, none⟩, { id := v }, true, false, false⟩) ∨
    (∀ v r, ¬ IdAt l d v r) ∧ (stage1 l d).base.err.isSome = true := by
  have hs : stage1 l d = (newRaw d).decodeID l := rfl
  rw [hs]
  unfold Raw.decodeID newRaw onRaw
  simp only [Option.isSome_none, Bool.or_self, Bool.false_eq_true, if_false]
  cases h1 : l.getInt d with
  | error e =>
    right
    refine ⟨?_, by simp [decodeVarint, call, h1]⟩
    rintro v r ⟨_, _, _, _, _, _, e1, _⟩
    rw [h1] at e1; cases e1
  | ok a =>
    obtain ⟨version, d1⟩ := a
    have f1 : decodeVarint l ⟨d, none⟩ = (version, ⟨d1, none⟩) := by simp [decodeVarint, call, h1]
    simp only [f1, Option.isSome_none, Bool.false_eq_true, if_false]
    by_cases hv : version > 1
    · rw [if_pos hv]
      right
      refine ⟨?_, rfl⟩
      rintro v r ⟨_, _, _, _, _, _, e1, e2, _⟩
      rw [h1] at e1; cases e1; omega
    · rw [if_neg hv]
      cases h2 : l.getArrayLen d1 with
      | error e =>
        have f2 : checkNumFields l metricType ⟨d1, none⟩ = (none, ⟨d1, some e⟩) := by
          simp [checkNumFields, bind, pure, decodeArrayLen, call, h2, checkExpected]
        simp only [f2]
        right
        refine ⟨?_, rfl⟩
        rintro v r ⟨_, _, _, _, _, _, e1, _, e2, _⟩
        rw [h1] at e1; cases e1; rw [h2] at e2; cases e2
      | ok a =>
        obtain ⟨n, d2⟩ := a
        have hm : numFieldsForType metricType = 3 := rfl
        by_cases hn : 3 ≤ n
        · have f2 : checkNumFields l metricType ⟨d1, none⟩ = (some (n - 3), ⟨d2, none⟩) := by
            simp [checkNumFields, bind, pure, decodeArrayLen, call, h2, checkExpected, hm]
            rw [if_neg (by omega)]
            simp
          simp only [f2]
          cases h3 : l.getBytesLen d2 with
          | error e =>
            have f3 : decodeBytesLen l ⟨d2, none⟩ = (0, ⟨d2, some e⟩) := by simp [decodeBytesLen, call, h3]
            simp only [f3, Option.isSome_some, if_true]
            right
            refine ⟨?_, trivial⟩
            rintro v r ⟨_, _, _, _, _, _, e1, _, e2, _, e3, _⟩
            rw [h1] at e1; cases e1; rw [h2] at e2; cases e2; rw [h3] at e3; cases e3
          | ok a =>
            obtain ⟨k, d3⟩ := a
            have f3 : decodeBytesLen l ⟨d2, none⟩ = (k, ⟨d3, none⟩) := by simp [decodeBytesLen, call, h3]
            simp only [f3, Option.isSome_none, Bool.false_eq_true, if_false]
            by_cases hk : k = -1
            · rw [if_pos hk]
              exact .inl ⟨[], d3, ⟨version, n, k, d1, d2, d3, h1, by omega, h2, hn, h3, .inl ⟨hk, rfl, rfl⟩⟩, rfl⟩
            · rw [if_neg hk]
              obtain ⟨p1, _, q1, _⟩ := C.int _ _ _ h1
              obtain ⟨p2, _, q2, _⟩ := C.arrayLen _ _ _ h2
              obtain ⟨p3, _, q3, _⟩ := C.bytesLen _ _ _ h3
              have hd : d = (p1 ++ p2 ++ p3) ++ d3 := by rw [q1, q2, q3]; simp
              generalize p1 ++ p2 ++ p3 = p at hd
              have hl : d.length = p.length + d3.length := by rw [hd, List.length_append]
              unfold readBytes
              simp only
              by_cases hc : k < 0 ∨ d3.length < k
              · have hb : k < 0 ∨ (d.length : Int) - d3.length < 0 ∨ (d.length : Int) - d3.length + k > d.length := by omega
                simp only [if_pos hb]
                right
                refine ⟨?_, rfl⟩
                rintro v r ⟨_, _, _, _, _, _, e1, _, e2, _, e3, e4⟩
                rw [h1] at e1; cases e1; rw [h2] at e2; cases e2; rw [h3] at e3; cases e3
                rcases e4 with ⟨e4, _⟩ | ⟨e4, e5⟩
                · exact hk e4
                · rw [e5, List.length_append] at hc; omega
              · have hb : ¬ (k < 0 ∨ (d.length : Int) - d3.length < 0 ∨ (d.length : Int) - d3.length + k > d.length) := by omega
                simp only [if_neg hb]
                have hst : ((d.length : Int) - d3.length).toNat = p.length := by omega
                rw [hst]
                left
                refine ⟨d3.take k.toNat, d3.drop k.toNat, ⟨version, n, k, d1, d2, d3, h1, by omega, h2, hn, h3, .inr ⟨?_, ?_⟩⟩, ?_⟩
                · rw [List.length_take]; omega
                · rw [List.take_append_drop]
                · have : (d.drop p.length) = d3 := by rw [hd]; simp
                  simp [this]
        · have f2 : checkNumFields l metricType ⟨d1, none⟩ = (none, ⟨d2, some .other⟩) := by
            simp [checkNumFields, bind, pure, decodeArrayLen, call, h2, checkExpected, hm]
            rw [if_pos (by omega)]
            simp
          simp only [f2]
          right
          refine ⟨?_, rfl⟩
          rintro v r ⟨_, _, _, _, _, _, e1, _, e2, e3, _⟩
          rw [h1] at e1; cases e1; rw [h2] at e2; cases e2; exact hn e3

omit C in
theorem idAt_unique {d v r v' r' : Bytes} (h : IdAt l d v r) (h' : IdAt l d v' r') : v = v' ∧ r = r' := by
  obtain ⟨_, _, _, _, _, _, e1, _, e2, _, e3, e4⟩ := h
  obtain ⟨_, _, _, _, _, _, f1, _, f2, _, f3, f4⟩ := h'
  rw [e1] at f1; cases f1; rw [e2] at f2; cases f2; rw [e3] at f3; cases f3
  rcases e4 with ⟨e4, rfl, rfl⟩ | ⟨e4, e5⟩ <;> rcases f4 with ⟨f4, rfl, rfl⟩ | ⟨f4, f5⟩
  · exact ⟨rfl, rfl⟩
  · omega
  · omega
  · rw [e5] at f5
    exact List.append_inj f5 (by omega)

/-- C24: on any bytes, the first call of an accessor answers as the format says.  The identifier is told as soon as it is complete,
with all the bytes that are announced for it; the time and the value as soon as they are there. -/
theorem C24_first (d : Bytes) :
    (∀ v, first l d .id = .id v ↔ ∃ r, IdAt l d v r) ∧
    (∀ t, first l d .time = .time t ↔ ∃ v r r', IdAt l d v r ∧ l.getInt r = .ok (t, r')) ∧
    (∀ f, first l d .value = .value f ↔ ∃ m, PointAt l d m ∧ m.value = f) ∧
    (∀ m, first l d .metric = .metric m ↔ PointAt l d m) ∧ first l d .bytes = .bytes d := by
  have f1 : (newRaw d).decodeID l = stage1 l d := rfl
  have f2 : (stage1 l d).decodeTime l = stage2 l d := rfl
  have f3 : (stage2 l d).decodeValue l = stage3 l d := rfl
  simp only [first, Raw.call, f1, f2, f3]
  rcases id_stage C d with ⟨v, r, hi, e1⟩ | ⟨hi, e1⟩
  · have e2 : stage2 l d = match l.getInt r with
        | .error e => ⟨d, ⟨r, some e⟩, { id := v }, true, false, false⟩
        | .ok (t, r2) => ⟨d, ⟨r2, none⟩, { id := v, timeNanos := t }, true, true, false⟩ := by
      rw [← f2, e1]
      unfold Raw.decodeTime onRaw decodeVarint call
      simp only [Option.isSome_none, Bool.or_self, Bool.false_eq_true, if_false]
      rcases l.getInt r with e | ⟨t, r2⟩ <;> simp
    have e3 : ∀ t r2, Raw.decodeValue l ⟨d, ⟨r2, none⟩, { id := v, timeNanos := t }, true, true, false⟩ = match l.getF64 r2 with
        | .error e => ⟨d, ⟨r2, some e⟩, { id := v, timeNanos := t }, true, true, false⟩
        | .ok (f, r3) => ⟨d, ⟨r3, none⟩, { id := v, timeNanos := t, value := f }, true, true, true⟩ := by
      intro t r2
      unfold Raw.decodeValue onRaw decodeFloat64 call
      simp only [Option.isSome_none, Bool.or_self, Bool.false_eq_true, if_false]
      rcases l.getF64 r2 with e | ⟨f, r3⟩ <;> simp
    refine ⟨fun w => ?_, fun t => ?_, fun f => ?_, fun m => ?_, rfl⟩
    · rw [e1]
      simp only [Option.isSome_none, Bool.false_eq_true, if_false, Ans.id.injEq]
      exact ⟨fun h => ⟨r, h ▸ hi⟩, fun ⟨r', h⟩ => (idAt_unique hi h).1⟩
    · rw [e2]
      cases hg : l.getInt r with
      | error e =>
        simp only [Option.isSome_some, if_true, reduceCtorEq, false_iff]
        rintro ⟨v', r', r'', h, h'⟩
        obtain ⟨_, rfl⟩ := idAt_unique hi h
        rw [hg] at h'; cases h'
      | ok a =>
        obtain ⟨t', r2⟩ := a
        simp only [Option.isSome_none, Bool.false_eq_true, if_false, Ans.time.injEq]
        refine ⟨fun h => ⟨v, r, r2, hi, h ▸ hg⟩, ?_⟩
        rintro ⟨v', r', r'', h, h'⟩
        obtain ⟨_, rfl⟩ := idAt_unique hi h
        rw [hg] at h'; cases h'; rfl
    all_goals
      rw [← f3, e2]
      cases hg : l.getInt r with
      | error e =>
        rw [value_err l _ rfl]
        simp only [Option.isSome_some, if_true, reduceCtorEq, false_iff]
        have no : ∀ m, ¬ PointAt l d m := by
          rintro m ⟨r1, r2, r3, h, h', _⟩
          obtain ⟨_, rfl⟩ := idAt_unique hi h
          rw [hg] at h'; cases h'
        first
          | exact no _
          | exact fun ⟨m, h, _⟩ => no m h
      | ok a =>
        obtain ⟨t', r2⟩ := a
        simp only [e3]
        cases hf : l.getF64 r2 with
        | error e =>
          simp only [Option.isSome_some, if_true, reduceCtorEq, false_iff]
          have no : ∀ m, ¬ PointAt l d m := by
            rintro m ⟨r1, r2, r3, h, h', h''⟩
            obtain ⟨_, rfl⟩ := idAt_unique hi h
            rw [hg] at h'; cases h'
            rw [hf] at h''; cases h''
          first
            | exact no _
            | exact fun ⟨m, h, _⟩ => no m h
        | ok a =>
          obtain ⟨fv, r3⟩ := a
          simp only [Option.isSome_none, Bool.false_eq_true, if_false, Ans.value.injEq, Ans.metric.injEq]
          have is : ∀ m, PointAt l d m ↔ ({ id := v, timeNanos := t', value := fv } : Point) = m := by
            intro m
            constructor
            · rintro ⟨r1, r2', r3', h, h', h''⟩
              obtain ⟨q, rfl⟩ := idAt_unique hi h
              rw [hg] at h'
              simp only [Except.ok.injEq, Prod.mk.injEq] at h'
              obtain ⟨q2, rfl⟩ := h'
              rw [hf] at h''
              simp only [Except.ok.injEq, Prod.mk.injEq] at h''
              cases m
              simp only [Point.mk.injEq]
              exact ⟨q, q2, h''.1⟩
            · rintro rfl
              exact ⟨r, r2, r3, hi, hg, hf⟩
          first
            | exact (is _).symm
            | (constructor
               · rintro rfl; exact ⟨_, (is _).mpr rfl, rfl⟩
               · rintro ⟨m, h, rfl⟩; rw [← (is m).mp h])
  · have e2 : stage2 l d = stage1 l d := time_err l _ e1
    have e3 : stage3 l d = stage1 l d := by rw [← f3, e2]; exact value_err l _ e1
    have no : ∀ m, ¬ PointAt l d m := fun m ⟨r1, _, _, h, _⟩ => hi _ _ h
    simp only [e3, e2, e1, if_true, reduceCtorEq, false_iff]
    refine ⟨fun v ⟨r, h⟩ => hi v r h, fun t ⟨v, r, _, h, _⟩ => hi v r h, fun f ⟨m, h, _⟩ => no m h, no, rfl⟩

omit C in
/-- Three bytes are announced for the identifier: it is complete in one case, and not in the other. -/
example : (∃ r, IdAt std (std.putInt 1 ++ std.putArrayLen 3 ++ std.putBytesLen 3 ++ bs "foo") (bs "foo") r) ∧
    first std (std.putInt 1 ++ std.putArrayLen 3 ++ std.putBytesLen 3 ++ bs "fo") .id = .err :=
  ⟨⟨[], 1, 3, 3, std.putArrayLen 3 ++ std.putBytesLen 3 ++ bs "foo", std.putBytesLen 3 ++ bs "foo", bs "foo", by rfl, by decide, by rfl, by decide,
    by rfl, .inr ⟨rfl, rfl⟩⟩, by decide +kernel⟩

end Verif.MP
