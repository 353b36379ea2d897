import Verif.Lemmas.MsgpackExactAgg
import Verif.Props.MsgpackAgg
/- C115: the aggregated msgpack iterator delivers exactly the messages of the format, and the accessors of a raw metric answer exactly if the bytes start as those of a metric. -/
namespace Verif.MP
open Verif.Policy Verif.Meta Verif.Wire Verif.Msg Verif.Spec.MP

section
variable {l : Lib} (C : Delim l) {x : XTime} {u : Units}
include C

/-- C115: something is delivered exactly if the bytes start with a message, after messages of higher versions if those are ignored. -/
theorem C115_exactly (it : AIter) (d : Bytes) (hb : it.base = ⟨d, none⟩) (hc : it.closed = false) :
    (nextAgg l x u it).1 = true ↔
      ∃ ls p r raw sp t, d = ls ++ (p ++ r) ∧ Later l ls ∧ (it.ignoreHigherVersion = false → ls = []) ∧ AMessage l x u raw sp t p := by
  constructor
  · intro hn
    obtain ⟨ls, p, r, w, h1, h2, h3, h4, _⟩ := aloop_sound C (x := x) (u := u) _ it (nextAgg l x u it).2 (by rw [hb]) hc (Prod.ext hn rfl)
    rw [hb] at h1
    exact ⟨ls, p, r, _, _, _, h1, h2, h3, h4⟩
  · rintro ⟨ls, p, r, raw, sp, t, rfl, h2, h3, h4⟩
    have := aloop_complete C (x := x) (u := u) h2 (it.base.data.length + 2) it p r (raw, sp, t) hb hc (by rw [hb]; simp; omega) h3 h4
    unfold nextAgg
    rw [this]

/-- C115: what is delivered is that message: a raw metric as new of its bytes, the storage policy, the encode time or 0; the rest is left. -/
theorem C115_delivered (it : AIter) (ls p r raw : Bytes) (sp : StoragePolicy) (t : Option Int) (hb : it.base = ⟨ls ++ (p ++ r), none⟩)
    (hc : it.closed = false) (hl : Later l ls) (hi : it.ignoreHigherVersion = false → ls = []) (hm : AMessage l x u raw sp t p) :
    nextAgg l x u it = (true, { it with base := ⟨r, none⟩, metric := newRaw raw, storagePolicy := sp, encodedAtNanos := t.getD 0 }) :=
  aloop_complete C (x := x) (u := u) hl (it.base.data.length + 2) it p r (raw, sp, t) hb hc (by rw [hb]; simp; omega) hi hm

omit C in
theorem as_same {g : Bytes → Except Err (α × Bytes)} {v v' : α} {b b' r r' : Bytes} (h : As g v b) (h' : As g v' b') (e : b ++ r = b' ++ r') :
    v = v' ∧ r = r' := by
  have h1 := h r
  rw [e, h' r'] at h1
  simp only [Except.ok.injEq, Prod.mk.injEq] at h1
  exact ⟨h1.1.symm, h1.2.symm⟩

/-- Where the messages of higher versions end is settled by the version that comes next. -/
theorem later_same {ls : Bytes} (hl : Later l ls) : ∀ {ls' c c' r r' : Bytes} {v v' : Int}, Later l ls' → As l.getInt v c → v ≤ 1 → As l.getInt v' c' → v' ≤ 1 →
    ls ++ (c ++ r) = ls' ++ (c' ++ r') → c ++ r = c' ++ r' := by
  induction hl with
  | none =>
    intro ls' c c' r r' v v' hl' hc hv hc' hv' e
    cases hl' with
    | none => exact e
    | one w n b d hw hs hd =>
      obtain ⟨q, q', h1, _, rfl⟩ := hs
      have := (as_same hc h1 (r := r) (r' := q' ++ (d ++ (c' ++ r'))) (by simpa using e)).1
      omega
  | one w n b d hw hs hd ih =>
    intro ls' c c' r r' v v' hl' hc hv hc' hv' e
    obtain ⟨q, _, h1, ⟨q1, q2, h2, h3, rfl⟩, rfl⟩ := hs
    cases hl' with
    | none =>
      have := (as_same h1 hc' (r := q1 ++ (q2 ++ (d ++ (c ++ r)))) (r' := r') (by simpa using e)).1
      omega
    | one w' n' b' d' hw' hs' hd' =>
      obtain ⟨q', _, h1', ⟨q1', q2', h2', h3', rfl⟩, rfl⟩ := hs'
      obtain ⟨_, e1⟩ := as_same h1 h1' (r := q1 ++ (q2 ++ (d ++ (c ++ r)))) (r' := q1' ++ (q2' ++ (d' ++ (c' ++ r')))) (by simpa using e)
      obtain ⟨hn, e2⟩ := as_same h2 h2' e1
      have g := (skip_exact C (n : Int) (q2 ++ (d ++ (c ++ r))) none () _).mpr ⟨rfl, q2, rfl, by omega, seq_one.mp h3⟩
      have g' := (skip_exact C (n' : Int) (q2' ++ (d' ++ (c' ++ r'))) none () _).mpr ⟨rfl, q2', rfl, by omega, seq_one.mp h3'⟩
      rw [e2, hn, g'] at g
      simp only [Prod.mk.injEq, Base.mk.injEq, and_true, true_and] at g
      exact ih hd' hc hv hc' hv' g.symm

/-- C115: bytes are one message at most: where it ends and what it says are settled. -/
theorem C115_unique (d ls p r raw ls' p' r' raw' : Bytes) (sp sp' : StoragePolicy) (t t' : Option Int)
    (h : d = ls ++ (p ++ r)) (hl : Later l ls) (hm : AMessage l x u raw sp t p) (h' : d = ls' ++ (p' ++ r')) (hl' : Later l ls')
    (hm' : AMessage l x u raw' sp' t' p') : r = r' ∧ raw = raw' ∧ sp = sp' ∧ t = t' := by
  obtain ⟨v, hv, c, b, h1, h2, rfl⟩ := (amessage_iff (w := (raw, sp, t))).mp hm
  obtain ⟨v', hv', c', b', h1', h2', rfl⟩ := (amessage_iff (w := (raw', sp', t'))).mp hm'
  have e := later_same C hl (r := b ++ r) (r' := b' ++ r') hl' h1 hv h1' hv' (by simpa using h.symm.trans h')
  obtain ⟨_, e⟩ := as_same h1 h1' e
  have g := (abody_exact C (x := x) (u := u) (b ++ r) none (raw, sp, t) r).mpr ⟨rfl, b, rfl, h2⟩
  have g' := (abody_exact C (x := x) (u := u) (b' ++ r') none (raw', sp', t') r').mpr ⟨rfl, b', rfl, h2'⟩
  rw [e, g'] at g
  simp only [Prod.mk.injEq, Base.mk.injEq, and_true] at g
  obtain ⟨⟨a1, a2, a3⟩, a4⟩ := g
  exact ⟨a4.symm, a1.symm, a2.symm, a3.symm⟩

/-- C115: the identifier of a raw metric is had exactly if its bytes start with a version, a number of fields and an identifier; the
time and the value exactly if they follow. What comes after, and whether the fields are there at all that the number says, is not looked at. -/
theorem C115_raw (d : Bytes) :
    (∀ id, first l d .id = .id id ↔ ∃ p r, d = p ++ r ∧ PointID l id p) ∧
    (∀ t, first l d .time = .time t ↔ ∃ p r id, d = p ++ r ∧ Seq [PointID l id, As l.getInt t] p) ∧
    (∀ v, first l d .value = .value v ↔ ∃ p r id t, d = p ++ r ∧ Seq [PointID l id, As l.getInt t, As l.getF64 v] p) ∧
    (∀ m, first l d .metric = .metric m ↔ ∃ p r, d = p ++ r ∧ Seq [PointID l m.id, As l.getInt m.timeNanos, As l.getF64 m.value] p) := by
  have f1 : (newRaw d).decodeID l = stage1 l d := rfl
  have f2 : (stage1 l d).decodeTime l = stage2 l d := rfl
  have f3 : (stage2 l d).decodeValue l = stage3 l d := rfl
  have hfine : ∀ {m : Raw}, Fine m → ∃ r, m.base = ⟨r, none⟩ := by
    intro m h
    rcases hb : m.base with ⟨r, e⟩
    unfold Fine at h
    rw [hb] at h
    cases e with
    | none => exact ⟨r, rfl⟩
    | some e => cases h
  have s2 : ∀ r t id, ((stage2 l d).base = ⟨r, none⟩ ∧ (stage2 l d).metric.timeNanos = t ∧ (stage2 l d).metric.id = id) ↔
      ∃ p, d = p ++ r ∧ Seq [PointID l id, As l.getInt t] p := by
    intro r t id
    constructor
    · rintro ⟨h1, h2, h3⟩
      have hf : Fine (stage2 l d) := by unfold Fine; rw [h1]; rfl
      have hf1 := stage2_fine l d hf
      obtain ⟨g1, g2, g3⟩ := stage1_facts l d hf1
      obtain ⟨r1, hr1⟩ := hfine hf1
      obtain ⟨p, hp, hp'⟩ := (stage1_iff C d r1 (stage1 l d).metric.id).mp ⟨hr1, rfl⟩
      rcases hd : decodeVarint l ⟨r1, none⟩ with ⟨t', r2, e2⟩
      have e : stage2 l d = if e2.isSome then { stage1 l d with base := ⟨r2, e2⟩ } else
          { stage1 l d with base := ⟨r2, e2⟩, metric := { (stage1 l d).metric with timeNanos := t' }, timeDecoded := true } := by
        rw [← f2]
        unfold Raw.decodeTime onRaw
        simp only [hr1, g2, Option.isSome_none, Bool.or_self, Bool.false_eq_true, if_false, hd]
      cases e2 with
      | some e2 => rw [e] at h1; cases h1
      | none =>
        rw [e] at h1 h2 h3
        cases h1
        simp only [Option.isSome_none, Bool.false_eq_true, if_false] at h2 h3
        obtain ⟨_, q, rfl, hq⟩ := (varint_exact C _ _ _ _).mp hd
        exact ⟨p ++ q, by rw [hp]; simp, p, q, h3 ▸ hp', seq_one.mpr (h2 ▸ hq), rfl⟩
    · rintro ⟨_, rfl, p, q, h1, h2, rfl⟩
      have h2 := seq_one.mp h2
      obtain ⟨hb, hid⟩ := (stage1_iff C (p ++ q ++ r) (q ++ r) id).mpr ⟨p, by simp, h1⟩
      obtain ⟨g1, g2, g3⟩ := stage1_facts l (p ++ q ++ r) (by unfold Fine; rw [hb]; rfl)
      have hd := (varint_exact C (q ++ r) none t r).mpr ⟨rfl, q, rfl, h2⟩
      have e : stage2 l (p ++ q ++ r) = { stage1 l (p ++ q ++ r) with base := ⟨r, none⟩, metric := { (stage1 l (p ++ q ++ r)).metric with timeNanos := t }, timeDecoded := true } := by
        rw [← f2]
        unfold Raw.decodeTime onRaw
        simp only [hb, g2, Option.isSome_none, Bool.or_self, Bool.false_eq_true, if_false, hd]
      rw [e]
      exact ⟨rfl, rfl, hid⟩
  have s3 : ∀ m : Point, (Fine (stage3 l d) ∧ (stage3 l d).metric = m) ↔
      ∃ p r, d = p ++ r ∧ Seq [PointID l m.id, As l.getInt m.timeNanos, As l.getF64 m.value] p := by
    intro m
    constructor
    · rintro ⟨hf, rfl⟩
      obtain ⟨r, hr⟩ := hfine hf
      have hf2 := stage3_fine l d hf
      obtain ⟨r2, hr2⟩ := hfine hf2
      obtain ⟨g1, g2, g3, g4⟩ := stage2_facts l d hf2
      obtain ⟨p, hp, c, c', h1, h2, rfl⟩ := (s2 r2 (stage2 l d).metric.timeNanos (stage2 l d).metric.id).mp ⟨hr2, rfl, rfl⟩
      have h2 := seq_one.mp h2
      rcases hd : decodeFloat64 l ⟨r2, none⟩ with ⟨v, r3, e3⟩
      have e : stage3 l d = if e3.isSome then { stage2 l d with base := ⟨r3, e3⟩ } else
          { stage2 l d with base := ⟨r3, e3⟩, metric := { (stage2 l d).metric with value := v }, valueDecoded := true } := by
        rw [← f3]
        unfold Raw.decodeValue onRaw
        simp only [hr2, g3, Option.isSome_none, Bool.or_self, Bool.false_eq_true, if_false, hd]
      cases e3 with
      | some e3 => rw [e] at hr; cases hr
      | none =>
        obtain ⟨_, q, rfl, hq⟩ := (float_exact C _ _ _ _).mp hd
        rw [e]
        exact ⟨c ++ (c' ++ q), r3, by rw [hp]; simp, c, _, h1, ⟨c', q, h2, seq_one.mpr hq, rfl⟩, rfl⟩
    · rintro ⟨_, r, hd, c, _, h1, ⟨c', q, h2, h3, rfl⟩, rfl⟩
      have h3 := seq_one.mp h3
      obtain ⟨e1, e2, e3⟩ := (s2 (q ++ r) m.timeNanos m.id).mpr ⟨c ++ c', by rw [hd]; simp, c, c', h1, seq_one.mpr h2, rfl⟩
      obtain ⟨g1, g2, g3, g4⟩ := stage2_facts l d (by unfold Fine; rw [e1]; rfl)
      have hd := (float_exact C (q ++ r) none m.value r).mpr ⟨rfl, q, rfl, h3⟩
      have e : stage3 l d = { stage2 l d with base := ⟨r, none⟩, metric := { (stage2 l d).metric with value := m.value }, valueDecoded := true } := by
        rw [← f3]
        unfold Raw.decodeValue onRaw
        simp only [e1, g3, Option.isSome_none, Bool.or_self, Bool.false_eq_true, if_false, hd]
      rw [e]
      refine ⟨rfl, ?_⟩
      show Point.mk (stage2 l d).metric.id (stage2 l d).metric.timeNanos m.value = m
      rw [e2, e3]
  refine ⟨fun id => ?_, fun t => ?_, fun v => ?_, fun m => ?_⟩
  · simp only [first, Raw.call, f1]
    constructor
    · intro h
      split at h
      · cases h
      · next hn =>
        obtain ⟨r, hr⟩ := hfine (m := stage1 l d) (by unfold Fine; simpa using hn)
        obtain ⟨p, hp⟩ := (stage1_iff C d r id).mp ⟨hr, by simpa using h⟩
        exact ⟨p, r, hp⟩
    · rintro ⟨p, r, hp⟩
      obtain ⟨h1, h2⟩ := (stage1_iff C d r id).mpr ⟨p, hp⟩
      simp [h1, h2]
  · simp only [first, Raw.call, f1, f2]
    constructor
    · intro h
      split at h
      · cases h
      · next hn =>
        obtain ⟨r, hr⟩ := hfine (m := stage2 l d) (by unfold Fine; simpa using hn)
        obtain ⟨p, hp⟩ := (s2 r t _).mp ⟨hr, by simpa using h, rfl⟩
        exact ⟨p, r, _, hp⟩
    · rintro ⟨p, r, id, hp⟩
      obtain ⟨h1, h2, _⟩ := (s2 r t id).mpr ⟨p, hp⟩
      simp [h1, h2]
  · simp only [first, Raw.call, f1, f2, f3]
    constructor
    · intro h
      split at h
      · cases h
      · next hn =>
        obtain ⟨p, r, hp⟩ := (s3 _).mp ⟨by unfold Fine; simpa using hn, rfl⟩
        simp only [Ans.value.injEq] at h
        rw [h] at hp
        exact ⟨p, r, _, _, hp⟩
    · rintro ⟨p, r, id, t, hp⟩
      obtain ⟨h1, h2⟩ := (s3 ⟨id, t, v⟩).mpr ⟨p, r, hp⟩
      unfold Fine at h1
      simp [h1, h2]
  · simp only [first, Raw.call, f1, f2, f3]
    constructor
    · intro h
      split at h
      · cases h
      · next hn =>
        simp only [Ans.metric.injEq] at h
        exact (s3 m).mp ⟨by unfold Fine; simpa using hn, h⟩
    · intro hp
      obtain ⟨h1, h2⟩ := (s3 m).mpr hp
      unfold Fine at h1
      simp [h1, h2]

/-- C115: what the encoder may write is among the messages, and the bytes of a metric start as they should. -/
theorem C115_written (L : Laws l) : (∀ {raw : Bytes} {sp : StoragePolicy} {t : Option Int} {b : Bytes}, WAItem l x u (.metric raw sp t) b →
      AMessage l x u raw sp t b) ∧
    ∀ {m : Point} {b : Bytes}, WPoint l m b → ∃ p r, b = p ++ r ∧ Seq [PointID l m.id, As l.getInt m.timeNanos, As l.getF64 m.value] p := by
  constructor
  · intro raw sp t b h
    have e := nextALoop_metric L (b.length + 1) h [] (newAgg b false) (by simp [newAgg]) rfl
    obtain ⟨ls, p, r, w, h1, h2, h3, h4, h5⟩ := aloop_sound C (x := x) (u := u) _ (newAgg b false) _ rfl rfl e
    cases h3 rfl
    simp only [AIter.mk.injEq, Base.mk.injEq, Raw.reset, newRaw, Raw.mk.injEq] at h5
    obtain ⟨⟨hr, -⟩, -, -, ⟨hw, -⟩, hsp, ht⟩ := h5
    obtain ⟨w1, w2, w3⟩ := w
    simp only at h4 hw hsp ht
    subst hr hw hsp
    have hb : b = p := by simpa [newAgg] using h1
    subst hb
    have key : ∃ k rest, Len (2 + k) ∧ b = l.putInt 1 ++ (l.putArrayLen (2 + k) ++ (l.putInt (ANumber (raw, sp, t)) ++ rest)) := by
      cases t with
      | none => obtain ⟨_, pb, ob, body, _, _, ⟨k, rest, _, hk, rfl⟩, hb⟩ := h; exact ⟨k, _, hk, by rw [hb]; simp [ANumber]; rfl⟩
      | some t => obtain ⟨_, _, pb, ob, body, _, _, ⟨k, rest, _, hk, rfl⟩, hb⟩ := h; exact ⟨k, _, hk, by rw [hb]; simp [ANumber]; rfl⟩
    obtain ⟨k, rest, hk, hb⟩ := key
    have hm := h4
    obtain ⟨v, hv, c, d, g1, ⟨n, hn, c2, d2, g2, ⟨c3, d3, g3, _, rfl⟩, rfl⟩, hb'⟩ := (amessage_iff (w := (raw, sp, w3))).mp h4
    obtain ⟨_, e1⟩ := as_same (g := l.getInt) (v := 1) (b := l.putInt 1) (fun t => L.int 1 t (by constructor <;> decide)) g1 (hb.symm.trans hb')
    obtain ⟨_, e2⟩ := as_same (g := l.getArrayLen) (v := ((2 + k : Nat) : Int)) (b := l.putArrayLen (2 + k)) (fun t => L.arrayLen _ t hk) g2 e1
    obtain ⟨e3, _⟩ := as_same (g := l.getInt) (v := ANumber (raw, sp, t)) (b := l.putInt (ANumber (raw, sp, t)))
      (fun r => L.int _ r (by unfold ANumber; split <;> constructor <;> decide)) g3 e2
    have : w3 = t := by
      cases w3 <;> cases t <;> simp_all [ANumber]
    exact this ▸ hm
  · intro m b h
    exact ((C115_raw C b).2.2.2 m).mp (C23_first L h).2.2.2.1

end

/-! ### Concrete cases -/

/-- A metric and a message with it, by hand: further fields everywhere. -/
def exPoint : Bytes := std.putInt 1 ++ std.putArrayLen 4 ++ std.putBytes (some (bs "foo")) ++ std.putInt 8 ++ std.putF64 5 ++ std.putInt 9
def exSent (version tag time : Bytes) : Bytes :=
  version ++ [0x92] ++ tag ++ std.putBytes (some exPoint) ++ ([0x92] ++ ([0x93, 15] ++ std.putInt 7 ++ std.putInt 1) ++ ([0x92, 17] ++ std.putInt 5)) ++ time

/-- The hypotheses hold of the library as modelled, and these are messages: without an encode time, of version -1, with one, with a field that is not known. -/
example : Delim std ∧ Laws std ∧ ∀ b ∈ [exSent (std.putInt 1) [5, 0x92] [], exSent (std.putInt (-1)) [5, 0x92] [],
      exSent (std.putInt 1) [22, 0x93] (std.putInt 77), exSent (std.putInt 1) [5, 0x93] (std.putInt 77)],
    ∃ p r raw sp t, b = p ++ r ∧ AMessage std unitX exU raw sp t p := by
  refine ⟨std_delim, std_laws, ?_⟩
  have key : ∀ b, (nextAgg std unitX exU (newAgg b false)).1 = true → ∃ p r raw sp t, b = p ++ r ∧ AMessage std unitX exU raw sp t p := by
    intro b h
    obtain ⟨ls, p, r, raw, sp, t, h1, _, h2, h3⟩ := (C115_exactly std_delim (newAgg b false) b rfl rfl).mp h
    cases h2 rfl
    exact ⟨p, r, raw, sp, t, h1, h3⟩
  have all : ∀ b ∈ [exSent (std.putInt 1) [5, 0x92] [], exSent (std.putInt (-1)) [5, 0x92] [],
      exSent (std.putInt 1) [22, 0x93] (std.putInt 77), exSent (std.putInt 1) [5, 0x93] (std.putInt 77)],
      (nextAgg std unitX exU (newAgg b false)).1 = true := by decide +kernel
  exact fun b hb => key b (all b hb)

/-- These are none: a metric of the other stream, too few fields, an encode time that is no integer. -/
example : ∀ b ∈ [exExtra, exSent (std.putInt 1) [22, 0x92] [], exSent (std.putInt 1) [22, 0x93] (std.putBool true)],
    ¬ ∃ p r raw sp t, b = p ++ r ∧ AMessage std unitX exU raw sp t p := by
  have key : ∀ b, (nextAgg std unitX exU (newAgg b false)).1 = false → ¬ ∃ p r raw sp t, b = p ++ r ∧ AMessage std unitX exU raw sp t p := by
    rintro b h ⟨p, r, raw, sp, t, hp, hm⟩
    rw [(C115_exactly std_delim (newAgg b false) b rfl rfl).mpr ⟨[], p, r, raw, sp, t, hp, .none, fun _ => rfl, hm⟩] at h
    cases h
  have all : ∀ b ∈ [exExtra, exSent (std.putInt 1) [22, 0x92] [], exSent (std.putInt 1) [22, 0x93] (std.putBool true)],
      (nextAgg std unitX exU (newAgg b false)).1 = false := by decide +kernel
  exact fun b hb => key b (all b hb)

/-- The bytes of a metric that are cut after the time: the time is had, the value is not. -/
example : first std (exPoint.take 8) .time = .time 8 ∧ first std (exPoint.take 8) .value = .err ∧ first std exPoint .metric = .metric ⟨bs "foo", 8, 5⟩ := by
  decide +kernel

end Verif.MP
