import Verif.Props.MsgpackExact
import Verif.Props.MsgpackExactAgg
import Verif.Lemmas.MsgpackWork
/- C114 and C115 for whole streams: what is delivered until `Next` returns false is exactly the messages of the stream. -/
namespace Verif.MP
open Verif.Policy Verif.Meta Verif.Wire Verif.Msg Verif.Spec.MP

variable {l : Lib} {x : XTime} {u : Units}

/-- A value at the start of bytes takes some of them. -/
theorem as_takes (Q : Consuming l) {v : Int} {b : Bytes} (h : As l.getInt v b) : 0 < b.length := by
  have := Q.int _ _ _ (h [])
  simpa using this

theorem message_takes (Q : Consuming l) {m : Sample} {pl : Option (List StagedPolicies)} {p : Bytes} (h : Message l x u m pl p) : 0 < p.length := by
  obtain ⟨v, _, h⟩ := h
  obtain ⟨b, c, h1, _, rfl⟩ := h
  have := as_takes Q h1
  simp only [List.length_append]
  omega

theorem amessage_takes (Q : Consuming l) {raw : Bytes} {sp : StoragePolicy} {t : Option Int} {p : Bytes} (h : AMessage l x u raw sp t p) :
    0 < p.length := by
  obtain ⟨v, _, h⟩ := h
  obtain ⟨b, c, h1, _, rfl⟩ := h
  have := as_takes Q h1
  simp only [List.length_append]
  omega

/-- C114 of a stream: the bytes are one stream exactly, and calling `Next` until it returns false delivers its messages, one by one,
and nothing else. -/
theorem C114_stream (C : Delim l) (Q : Consuming l) : ∀ (n : Nat) (it : Iter) (d : Bytes), At it d → d.length < n →
    ∃ ms, Stream l it.ignoreHigherVersion (fun (a : Sample × Option (List StagedPolicies)) => Message l x u a.1 a.2) d ms ∧
      (∀ ms', Stream l it.ignoreHigherVersion (fun (a : Sample × Option (List StagedPolicies)) => Message l x u a.1 a.2) d ms' → ms' = ms) ∧
      (drain l x u n it).1 = seen it.policiesList ms
  | 0, _, _, _, hn => absurd hn (Nat.not_lt_zero _)
  | n + 1, it, d, h, hn => by
    by_cases hx : (next l x u it).1 = true
    · obtain ⟨ls, p, r, m, pl, rfl, hl, hi, hm⟩ := (C114_exactly C it d h).mp hx
      obtain ⟨it', e, ha, hv, hp, hg⟩ := C114_delivered C it ls p r m pl h hl hi hm
      have ht := message_takes Q hm
      simp only [List.length_append] at hn
      obtain ⟨ms, s1, s2, s3⟩ := C114_stream C Q n it' r ha (by omega)
      rw [hg] at s1 s2
      refine ⟨(m, pl) :: ms, .more ls p r (m, pl) ms hl hi hm s1, ?_, ?_⟩
      · intro ms' h'
        generalize hd : ls ++ (p ++ r) = d' at h'
        cases h' with
        | ends _ hno => exact absurd ⟨ls, p, r, (m, pl), hd.symm, hl, hi, hm⟩ hno
        | more ls' p' r' a as hl' hi' hm' hs' =>
          obtain ⟨rfl, e1, e2⟩ := C114_unique C _ ls p r ls' p' r' m a.1 pl a.2 rfl hl hm hd hl' hm'
          rw [s2 as hs']
          congr 1
          exact Prod.ext e1.symm e2.symm
      · simp only [drain, e, hv, hp, seen, s3]
    · have hx' : (next l x u it).1 = false := by simpa using hx
      have hno : ¬ ∃ ls p r, ∃ a : Sample × Option (List StagedPolicies), d = ls ++ (p ++ r) ∧ Later l ls ∧
          (it.ignoreHigherVersion = false → ls = []) ∧ Message l x u a.1 a.2 p := by
        rintro ⟨ls, p, r, a, hh⟩
        exact hx ((C114_exactly C it d h).mpr ⟨ls, p, r, a.1, a.2, hh⟩)
      refine ⟨[], .ends d hno, ?_, ?_⟩
      · intro ms' h'
        cases h' with
        | ends => rfl
        | more ls p r a as hl hi hm _ => exact absurd ⟨ls, p, r, a, rfl, hl, hi, hm⟩ hno
      · rcases e : next l x u it with ⟨b, it'⟩
        rw [e] at hx'
        simp only at hx'
        subst hx'
        simp only [drain, e, seen]

/-- Call `Next` of the aggregated iterator at most `n` times, as long as it returns true: the raw metric, the storage policy and the
encode time after each call. -/
def drainRaw (l : Lib) (x : XTime) (u : Units) : Nat → AIter → List (Raw × StoragePolicy × Int)
  | 0, _ => []
  | n + 1, it => match nextAgg l x u it with
    | (false, _) => []
    | (true, it) => (it.metric, it.storagePolicy, it.encodedAtNanos) :: drainRaw l x u n it

/-- C115 of a stream: the bytes are one stream exactly, and calling `Next` until it returns false delivers its messages, one by one,
and nothing else. -/
theorem C115_stream (C : Delim l) (Q : Consuming l) : ∀ (n : Nat) (it : AIter) (d : Bytes), it.base = ⟨d, none⟩ → it.closed = false → d.length < n →
    ∃ ms, Stream l it.ignoreHigherVersion (fun (a : Bytes × StoragePolicy × Option Int) => AMessage l x u a.1 a.2.1 a.2.2) d ms ∧
      (∀ ms', Stream l it.ignoreHigherVersion (fun (a : Bytes × StoragePolicy × Option Int) => AMessage l x u a.1 a.2.1 a.2.2) d ms' → ms' = ms) ∧
      drainRaw l x u n it = ms.map fun a => (newRaw a.1, a.2.1, a.2.2.getD 0)
  | 0, _, _, _, _, hn => absurd hn (Nat.not_lt_zero _)
  | n + 1, it, d, hb, hc, hn => by
    by_cases hx : (nextAgg l x u it).1 = true
    · obtain ⟨ls, p, r, raw, sp, t, rfl, hl, hi, hm⟩ := (C115_exactly C it d hb hc).mp hx
      have e := C115_delivered C it ls p r raw sp t hb hc hl hi hm
      have ht := amessage_takes Q hm
      simp only [List.length_append] at hn
      obtain ⟨ms, s1, s2, s3⟩ := C115_stream C Q n { it with base := ⟨r, none⟩, metric := newRaw raw, storagePolicy := sp, encodedAtNanos := t.getD 0 }
        r rfl hc (by omega)
      refine ⟨(raw, sp, t) :: ms, .more ls p r (raw, sp, t) ms hl hi hm s1, ?_, ?_⟩
      · intro ms' h'
        generalize hd : ls ++ (p ++ r) = d' at h'
        cases h' with
        | ends _ hno => exact absurd ⟨ls, p, r, (raw, sp, t), hd.symm, hl, hi, hm⟩ hno
        | more ls' p' r' a as hl' hi' hm' hs' =>
          obtain ⟨rfl, e1, e2, e3⟩ := C115_unique C _ ls p r raw ls' p' r' a.1 sp a.2.1 t a.2.2 rfl hl hm hd hl' hm'
          rw [s2 as hs']
          congr 1
          exact Prod.ext e1.symm (Prod.ext e2.symm e3.symm)
      · simp only [drainRaw, e, s3, List.map_cons]
    · have hx' : (nextAgg l x u it).1 = false := by simpa using hx
      have hno : ¬ ∃ ls p r, ∃ a : Bytes × StoragePolicy × Option Int, d = ls ++ (p ++ r) ∧ Later l ls ∧
          (it.ignoreHigherVersion = false → ls = []) ∧ AMessage l x u a.1 a.2.1 a.2.2 p := by
        rintro ⟨ls, p, r, a, hh⟩
        exact hx ((C115_exactly C it d hb hc).mpr ⟨ls, p, r, a.1, a.2.1, a.2.2, hh⟩)
      refine ⟨[], .ends d hno, ?_, ?_⟩
      · intro ms' h'
        cases h' with
        | ends => rfl
        | more ls p r a as hl hi hm _ => exact absurd ⟨ls, p, r, a, rfl, hl, hi, hm⟩ hno
      · rcases e : nextAgg l x u it with ⟨b, it'⟩
        rw [e] at hx'
        simp only at hx'
        subst hx'
        simp only [drainRaw, e, List.map_nil]

/-- Two messages with garbage behind them, the second without policies: two are seen, the second with the list of the first. -/
example : Delim std ∧ Consuming std ∧
    (drain std unitX exU 90 (new (exForm (std.putInt 1) (std.putInt 1) [0x91, 18] ++ encodeMetric std false (.counter ⟨bs "d", 6⟩) ++ [0xc1]) false)).1 =
      seen [] [(.counter ⟨bs "c", 5⟩, some [{ policies := [⟨⟨⟨7000000000, 1⟩, 5⟩, 0⟩] }]), (.counter ⟨bs "d", 6⟩, none)] :=
  ⟨std_delim, std_consuming, by decide +kernel⟩

end Verif.MP
