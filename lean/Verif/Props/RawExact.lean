import Verif.Props.RawMetric
/- C24: exactly what the accessors of a raw metric answer after any history. -/
namespace Verif.MP
open Verif.Wire

variable (l : Lib)

theorem call_err_broken (m : Raw) (a : Acc) (h : (m.call l a).1 = .err) : (m.call l a).2.base.err.isSome = true := by
  cases a <;> simp only [Raw.call] at h ⊢
  case bytes => cases h
  all_goals
    split at h
    · rename_i he
      rw [if_pos he]
      exact he
    · cases h

theorem at4_fine {d : Bytes} {m : Raw} (h : At4 l d m) : Fine m := by
  cases h with
  | s0 => rfl
  | s1 h => exact h
  | s2 h => exact h
  | s3 h => exact h

/-- After any calls a metric is broken if one of the accessors would have failed first, and else has had no error. -/
theorem calls_exact (d : Bytes) : ∀ (as : List Acc) (m : Raw), At4 l d m →
    ((∃ b ∈ as, first l d b = .err) → Broken d (calls l as m).2) ∧
    ((∀ b ∈ as, first l d b ≠ .err) → At4 l d (calls l as m).2) := by
  have stays : ∀ (as : List Acc) (m : Raw), Broken d m → Broken d (calls l as m).2 := by
    intro as
    induction as with
    | nil => exact fun _ h => h
    | cons a as ih => exact fun m h => ih _ (call_broken l h a).2
  intro as
  induction as with
  | nil => exact fun m h => ⟨fun ⟨_, hb, _⟩ => (nomatch hb), fun _ => h⟩
  | cons a as ih =>
    intro m h
    obtain ⟨ha, hs⟩ := call_stage l h a
    by_cases he : first l d a = .err
    · have hb : Broken d (m.call l a).2 := by
        rcases hs with hs | hs
        · have := call_err_broken l m a (ha.trans he)
          rw [at4_fine l hs] at this
          cases this
        · exact hs.2
      exact ⟨fun _ => stays as _ hb, fun hn => absurd he (hn a List.mem_cons_self)⟩
    · have h4 : At4 l d (m.call l a).2 := by
        rcases hs with hs | hs
        · exact hs
        · exact absurd (ha.symm.trans hs.1) he
      refine ⟨fun ⟨b, hb, e⟩ => (ih _ h4).1 ?_, fun hn => (ih _ h4).2 fun b hb => hn b (List.mem_cons_of_mem _ hb)⟩
      rcases List.mem_cons.1 hb with rfl | hb
      · exact absurd e he
      · exact ⟨b, hb, e⟩

/-- C24, exactly, on any bytes and after any calls: `Bytes` answers with the bytes; any other accessor answers with an error if one that
was called before would have failed if called first, and else with what it would have answered if called first. -/
theorem C24_exact (d : Bytes) (as : List Acc) (a : Acc) :
    (a = .bytes → ((calls l as (newRaw d)).2.call l a).1 = .bytes d) ∧
    (a ≠ .bytes → (∃ b ∈ as, first l d b = .err) → ((calls l as (newRaw d)).2.call l a).1 = .err) ∧
    ((∀ b ∈ as, first l d b ≠ .err) → ((calls l as (newRaw d)).2.call l a).1 = first l d a) := by
  obtain ⟨h1, h2⟩ := calls_exact l d as (newRaw d) .s0
  refine ⟨?_, ?_, fun h => (call_stage l (h2 h) a).1⟩
  · rintro rfl
    rcases C24_or_error l d as .bytes with h | h
    · exact h
    · cases h
  · intro ha hb
    obtain ⟨h, _⟩ := h1 hb
    cases a <;> simp only [Raw.call, id_err l _ h, time_err l _ h, value_err l _ h, h, if_true]
    exact absurd rfl ha

/-- C24: the order of calls does not show in the answers if and only if all fields can be read or none can. -/
theorem C24_order_iff (d : Bytes) :
    (∀ as a, ((calls l as (newRaw d)).2.call l a).1 = first l d a) ↔
      (∀ a, first l d a ≠ .err) ∨ (∀ a, a ≠ .bytes → first l d a = .err) := by
  constructor
  · intro h
    by_cases hx : ∀ a, first l d a ≠ .err
    · exact .inl hx
    · right
      obtain ⟨b, hb⟩ := Classical.not_forall.1 hx
      replace hb := Classical.not_not.1 hb
      intro a ha
      rw [← h [b] a]
      exact (C24_exact l d [b] a).2.1 ha ⟨b, by simp, hb⟩
  · rintro (h | h) as a
    · exact (C24_exact l d as a).2.2 fun b _ => h b
    · by_cases ha : a = .bytes
      · subst ha; exact (C24_exact l d as .bytes).1 rfl
      · rcases C24_or_error l d as a with h' | h'
        · exact h'
        · rw [h', h a ha]

/-- All three cases occur: a whole metric, one that is cut off after the identifier, and no bytes at all. -/
example : first std (std.putInt 1 ++ std.putArrayLen 3 ++ std.putBytes (some (bs "foo"))) .id = .id (bs "foo") ∧
    first std (std.putInt 1 ++ std.putArrayLen 3 ++ std.putBytes (some (bs "foo"))) .time = .err ∧
    first std [] .id = .err ∧ first std [] .metric = .err ∧ first std [] .bytes = .bytes [] := by decide +kernel

end Verif.MP
