import Verif.Lemmas.MsgpackExactIter
import Verif.Props.Msgpack
/- C114: the unaggregated msgpack iterator delivers exactly the messages of the format. -/
namespace Verif.MP
open Verif.Policy Verif.Meta Verif.Wire Verif.Msg Verif.Spec.MP

section
variable {l : Lib} (C : Delim l) {x : XTime} {u : Units}
include C

/-- C114: something is delivered exactly if the bytes start with a message, after messages of higher versions if those are ignored. -/
theorem C114_exactly (it : Iter) (d : Bytes) (h : At it d) :
    (next l x u it).1 = true ↔ ∃ ls p r m pl, d = ls ++ (p ++ r) ∧ Later l ls ∧ (it.ignoreHigherVersion = false → ls = []) ∧ Message l x u m pl p := by
  obtain ⟨hb, hc⟩ := h
  constructor
  · intro hn
    obtain ⟨ls, p, r, m, pl, h1, h2, h3, h4, _⟩ := loop_sound C (x := x) (u := u) _ it (next l x u it).2 (by rw [hb]) hc (Prod.ext hn rfl)
    rw [hb] at h1
    exact ⟨ls, p, r, m, pl, h1, h2, h3, h4⟩
  · rintro ⟨ls, p, r, m, pl, rfl, h2, h3, h4⟩
    have := loop_complete C (x := x) (u := u) h2 (it.base.data.length + 2) it p r m pl hb hc (by rw [hb]; simp; omega) h3 h4
    unfold next
    rw [this]

/-- C114: what is delivered is that message, and the rest is left. -/
theorem C114_delivered (it : Iter) (ls p r : Bytes) (m : Sample) (pl : Option (List StagedPolicies)) (h : At it (ls ++ (p ++ r)))
    (hl : Later l ls) (hi : it.ignoreHigherVersion = false → ls = []) (hm : Message l x u m pl p) :
    ∃ it', next l x u it = (true, it') ∧ At it' r ∧ view it'.metric = some m ∧ it'.policiesList = pl.getD it.policiesList ∧
      it'.ignoreHigherVersion = it.ignoreHigherVersion := by
  obtain ⟨hb, hc⟩ := h
  have := loop_complete C (x := x) (u := u) hl (it.base.data.length + 2) it p r m pl hb hc (by rw [hb]; simp; omega) hi hm
  exact ⟨_, this, ⟨rfl, hc⟩, view_store m _, rfl, rfl⟩

/-- C114: bytes are one message at most: where it ends and what it says are settled. -/
theorem C114_unique (d : Bytes) (ls p r ls' p' r' : Bytes) (m m' : Sample) (pl pl' : Option (List StagedPolicies))
    (h : d = ls ++ (p ++ r)) (hl : Later l ls) (hm : Message l x u m pl p) (h' : d = ls' ++ (p' ++ r')) (hl' : Later l ls') (hm' : Message l x u m' pl' p') :
    r = r' ∧ m = m' ∧ pl = pl' := by
  have key : ∀ X, r = r' ∧ m = m' ∧ pl.getD X = pl'.getD X := by
    intro X
    have ha : At { new d true with policiesList := X } d := ⟨rfl, rfl⟩
    obtain ⟨it1, e1, a1, v1, p1, _⟩ := C114_delivered C { new d true with policiesList := X } ls p r m pl (h ▸ ha) hl (fun h => (by cases h)) hm
    obtain ⟨it2, e2, a2, v2, p2, _⟩ := C114_delivered C { new d true with policiesList := X } ls' p' r' m' pl' (h' ▸ ha) hl' (fun h => (by cases h)) hm'
    rw [e1] at e2
    cases e2
    refine ⟨?_, ?_, ?_⟩
    · have := a1.1.symm.trans a2.1; simpa using this
    · have := v1.symm.trans v2; simpa using this
    · exact p1.symm.trans p2
  refine ⟨(key []).1, (key []).2.1, ?_⟩
  cases pl with
  | none =>
    cases pl' with
    | none => rfl
    | some b => have := (key ({} :: b)).2.2; simp at this
  | some a =>
    cases pl' with
    | none => have := (key ({} :: a)).2.2; simp at this
    | some b => have := (key []).2.2; simp at this; rw [this]

/-- C114: what the encoder may write is among the messages. -/
theorem C114_written (L : Laws l) {m : Sample} {b : Bytes} :
    (WItem l x u (.bare m) b → Message l x u m none b) ∧ ∀ pl, WItem l x u (.policies m pl) b → Message l x u m (some pl) b := by
  have key : ∀ (o : Option (List StagedPolicies)), (∀ it : Iter, it.base = ⟨b ++ [], none⟩ → it.closed = false →
      nextLoop l x u ((b.length + 1) + 1) it = (true, { it with base := ⟨[], none⟩, metric := store m (drop it.metric), policiesList := o.getD it.policiesList })) →
      Message l x u m o b := by
    intro o h
    have key2 : ∀ X, ∃ pl, Message l x u m pl b ∧ pl.getD X = o.getD X := by
      intro X
      obtain ⟨ls, p, r, m', pl, h1, h2, h3, h4, h5⟩ := loop_sound C (x := x) (u := u) _ { new b false with policiesList := X } _ rfl rfl
        (h { new b false with policiesList := X } (by simp [new]) rfl)
      cases h3 rfl
      have hr : ([] : Bytes) = r := by have := congrArg (fun i : Iter => i.base.data) h5; simpa using this
      subst hr
      have e1 := congrArg (fun i : Iter => view i.metric) h5
      simp only [view_store, Option.some.injEq] at e1
      have e2 := congrArg Iter.policiesList h5
      subst e1
      have hb : b = p := by simpa [new] using h1
      subst hb
      exact ⟨pl, h4, e2.symm⟩
    obtain ⟨pl, h1, h2⟩ := key2 []
    cases pl with
    | none =>
      cases o with
      | none => exact h1
      | some o =>
        obtain ⟨pl', h3, h4⟩ := key2 ({} :: o)
        have := (C114_unique C b [] b [] [] b [] m m none pl' (by simp) .none h1 (by simp) .none h3).2.2
        subst this
        simp at h4
    | some pl =>
      cases o with
      | none =>
        obtain ⟨pl', h3, h4⟩ := key2 ({} :: pl)
        have := (C114_unique C b [] b [] [] b [] m m (some pl) pl' (by simp) .none h1 (by simp) .none h3).2.2
        subst this
        simp at h4
      | some o => simp at h2; exact h2 ▸ h1
  exact ⟨fun h => key none fun it hb hc => nextLoop_bare L _ h [] it hb hc, fun pl h => key (some pl) fun it hb hc => nextLoop_policies L _ h [] it hb hc⟩

end

/-! ### Concrete cases -/

/-- The hypotheses hold of the library as modelled, and a message with further fields is a message. -/
example : Delim std ∧ Laws std ∧ Message std unitX exU (.counter ⟨bs "foo", 300⟩) none exExtra :=
  ⟨std_delim, std_laws, (C114_written std_delim std_laws).1
    ⟨exInner, exBody, ⟨by constructor <;> decide, _, ⟨by unfold Len; decide, .inr (.inl rfl)⟩,
    ⟨2, _, .cons _ _ _ (.f64 5) (.cons _ _ _ (.array 2 _ (by unfold Len; decide) (.cons _ _ _ (.bool true)
      (.cons _ _ _ (.bytes none (by simp)) .nil))) .nil), by unfold Len; decide, rfl⟩⟩,
    ⟨1, _, .cons _ _ _ (.int (-70000) (by constructor <;> decide)) .nil, by unfold Len; decide, rfl⟩, rfl⟩⟩

/-- A counter with one policy, whose precision and aggregation identifier are the given bytes. -/
def exForm (version precision agg : Bytes) : Bytes :=
  version ++ [0x92, 2, 0x92] ++ ([0x92] ++ std.putBytes (some (bs "c")) ++ std.putInt 5) ++
    ([0x92, 11, 0x91] ++ ([0x93] ++ std.putInt 0 ++ std.putBool false ++ ([0x91, 0x92] ++
      ([0x92] ++ ([0x93, 15] ++ std.putInt 7000000000 ++ precision) ++ ([0x92, 17] ++ std.putInt 5)) ++ agg)))

/-- Such a message as it is written; one of version 0; one of a negative version; one with a precision of more than a byte; one whose
aggregation identifier is nil as an array: all are read alike. -/
theorem C114_lenient : ∀ b ∈ [exForm (std.putInt 1) (std.putInt 1) [0x91, 18], exForm (std.putInt 0) (std.putInt 1) [0x91, 18],
      exForm (std.putInt (-7)) (std.putInt 1) [0x91, 18], exForm (std.putInt 1) (std.putInt 257) [0x91, 18], exForm (std.putInt 1) (std.putInt 1) [0x92, 20, 0xc0]],
    (drain std unitX exU 2 (new b false)).1 = [(some (.counter ⟨bs "c", 5⟩), [{ policies := [⟨⟨⟨7000000000, 1⟩, 5⟩, 0⟩] }])] := by decide +kernel

/-- No message: an aggregation identifier of two words; an object of a type that is none; too few fields; a string for an integer; cut short. -/
example : ∀ b ∈ [exForm (std.putInt 1) (std.putInt 1) [0x92, 20, 0x92, 6, 0], exForm (std.putInt 1) (std.putInt 1) [0x92, 23, 6],
      exForm (std.putInt 1) (std.putInt 1) [0x91, 19], exForm (std.putInt 1) (std.putBytes (some (bs "1"))) [0x91, 18],
      exForm (std.putInt 1) (std.putInt 1) []],
    ¬ ∃ p r m pl, b = p ++ r ∧ Message std unitX exU m pl p := by
  have key : ∀ b, (next std unitX exU (new b false)).1 = false → ¬ ∃ p r m pl, b = p ++ r ∧ Message std unitX exU m pl p := by
    rintro b h ⟨p, r, m, pl, hp, hm⟩
    rw [(C114_exactly std_delim (new b false) b (at_new b false)).mpr ⟨[], p, r, m, pl, hp, .none, fun _ => rfl, hm⟩] at h
    cases h
  have all : ∀ b ∈ [exForm (std.putInt 1) (std.putInt 1) [0x92, 20, 0x92, 6, 0], exForm (std.putInt 1) (std.putInt 1) [0x92, 23, 6],
      exForm (std.putInt 1) (std.putInt 1) [0x91, 19], exForm (std.putInt 1) (std.putBytes (some (bs "1"))) [0x91, 18],
      exForm (std.putInt 1) (std.putInt 1) []], (next std unitX exU (new b false)).1 = false := by decide +kernel
  exact fun b hb => key b (all b hb)

end Verif.MP
