import Verif.Spec.TypesConfig
import Verif.Model.TypesConfig
import Verif.Props.Aggregation
/- C82: the options made from a configuration; C83: types valid for a metric type. -/
namespace Verif.Agg
open Verif.Spec
open Verif.F (rnd one)
open scoped Verif.Agg

/-! ### C82 -/

theorem valid_cases {P : Int → Prop} {t : Int} (h : ValidAggType t) (hp : ∀ i : Fin 22, P (i.val + 1)) : P t := by
  unfold ValidAggType at h
  have := hp ⟨t.toNat - 1, by omega⟩
  have e : ((t.toNat - 1 : Nat) : Int) + 1 = t := by omega
  simpa [e] using this

theorem base_name {t : Int} (h : ValidAggType t) : baseTypeString defaultQuantileFn t = typeName t :=
  valid_cases (P := fun t => baseTypeString defaultQuantileFn t = typeName t) h (by decide +kernel)

/-- How floats are written: 99.9, -0.5, 1234.0625 and 10. -/
example : formatFloat (.of false (rnd (999 * one) 10)) = bs "99.9" ∧ formatFloat (.of true (rnd one 2)) = bs "-0.5" ∧
    formatFloat (.of false (rnd (12340625 * one) 10000)) = bs "1234.0625" ∧ formatFloat (F.ofInt 10) = bs "10" := by decide +kernel

theorem name_inj {t u : Int} (ht : ValidAggType t) (hu : ValidAggType u) (h : typeName t = typeName u) : t = u := by
  have : ∀ i j : Fin 22, typeName (i.val + 1) = typeName (j.val + 1) → (i.val : Int) + 1 = j.val + 1 := by decide +kernel
  unfold ValidAggType at ht hu
  have e1 : ((t.toNat - 1 : Nat) : Int) + 1 = t := by omega
  have e2 : ((u.toNat - 1 : Nat) : Int) + 1 = u := by omega
  have := this ⟨t.toNat - 1, by omega⟩ ⟨u.toNat - 1, by omega⟩
  simp only [e1, e2] at this
  exact this h

def TypesConfiguration.kindFor (c : TypesConfiguration) : Kind → Option Bytes
  | .counter => c.counterFn
  | .timer => c.timerFn
  | .gauge => c.gaugeFn

theorem transformFn_iff (t : Bytes) : (∃ f, transformFn t = some f) ↔ KnownKind (some t) := by
  unfold transformFn KnownKind
  simp only [Option.some.injEq, reduceCtorEq, false_or]
  constructor
  · rintro ⟨f, h⟩
    repeat' split at h
    all_goals simp_all
  · rintro (h | h | h) <;> subst h
    · exact ⟨_, rfl⟩
    · exact ⟨_, rfl⟩
    · exact ⟨_, rfl⟩

theorem transformFn_eq {t : Bytes} {f : Bytes → Bytes} (h : transformFn t = some f) (s : Bytes) : f s = configured (some t) s := by
  unfold transformFn at h
  by_cases h1 : t = bs "noop"
  · subst h1; cases h; rfl
  · by_cases h2 : t = bs "empty"
    · subst h2; cases h; rfl
    · by_cases h3 : t = bs "suffix"
      · subst h3; cases h; rfl
      · rw [if_neg h1, if_neg h2, if_neg h3] at h; cases h

/-- The function for a configured kind. -/
def fnOf (v : Option Bytes) : Option (Bytes → Bytes) :=
  match v with
  | none => some id
  | some t => transformFn t

theorem fnOf_eq {v : Option Bytes} {f : Bytes → Bytes} (h : fnOf v = some f) (s : Bytes) : f s = configured v s := by
  cases v with
  | none => cases h; rfl
  | some t => exact transformFn_eq h s

/-- The options have these functions and default types, and the tables derived from them. -/
structure Is (o : Options) (fc ft fg : Bytes → Bytes) (dc dt dg : List AType) : Prop where
  derived : o.Derived
  quantileFn : o.quantileFn = defaultQuantileFn
  counterFn : o.counterFn = fc
  timerFn : o.timerFn = ft
  gaugeFn : o.gaugeFn = fg
  counter : o.defaultCounter = dc
  timer : o.defaultTimer = dt
  gauge : o.defaultGauge = dg

section
variable {o : Options} {fc ft fg : Bytes → Bytes} {dc dt dg : List AType}

theorem is_counter (h : Is o fc ft fg dc dt dg) (v : Option (List AType)) :
    Is (setTypes v .defaultCounter o) fc ft fg (v.getD dc) dt dg := by
  cases v with
  | none => exact h
  | some ts => exact { h with derived := Options.derived_computeAll _, counter := rfl }

theorem is_timer (h : Is o fc ft fg dc dt dg) (v : Option (List AType)) :
    Is (setTypes v .defaultTimer o) fc ft fg dc (v.getD dt) dg := by
  cases v with
  | none => exact h
  | some ts => exact { h with derived := Options.derived_computeAll _, timer := rfl }

theorem is_gauge (h : Is o fc ft fg dc dt dg) (v : Option (List AType)) :
    Is (setTypes v .defaultGauge o) fc ft fg dc dt (v.getD dg) := by
  cases v with
  | none => exact h
  | some ts => exact { h with derived := Options.derived_computeAll _, gauge := rfl }

theorem setFn_cases {v : Option Bytes} {set : (Bytes → Bytes) → Setter} {x : Option Options} {r : Options} (h : setFn v set x = some r) :
    ∃ o, x = some o ∧ ((v = none ∧ r = o) ∨ ∃ t f, v = some t ∧ transformFn t = some f ∧ r = o.apply (set f)) := by
  cases x with
  | none => cases h
  | some o =>
    refine ⟨o, rfl, ?_⟩
    cases v with
    | none => cases h; exact Or.inl ⟨rfl, rfl⟩
    | some t =>
      simp only [setFn] at h
      cases e : transformFn t with
      | none => rw [e] at h; cases h
      | some f => rw [e] at h; cases h; exact Or.inr ⟨t, f, rfl, e, rfl⟩

end

theorem newOptions_some {c : TypesConfiguration} {o : Options} (h : c.newOptions = some o) : ∃ fc ft fg,
    fnOf c.counterFn = some fc ∧ fnOf c.timerFn = some ft ∧ fnOf c.gaugeFn = some fg ∧
    Is o fc ft fg (c.defaultCounter.getD [7]) (c.defaultTimer.getD [7, 8, 4, 2, 3, 6, 9, 5, 14, 19, 20]) (c.defaultGauge.getD [1]) := by
  have h0 : Is (newTypesOptions defaultQuantileFn) id id id [7] [7, 8, 4, 2, 3, 6, 9, 5, 14, 19, 20] [1] :=
    ⟨Options.derived_computeAll _, rfl, rfl, rfl, rfl, rfl, rfl, rfl⟩
  have h1 := is_timer (is_gauge (is_counter h0 c.defaultCounter) c.defaultGauge) c.defaultTimer
  simp only [TypesConfiguration.newOptions] at h
  obtain ⟨o', h', rfl⟩ := Option.map_eq_some_iff.mp h
  obtain ⟨o3, h3, e3⟩ := setFn_cases h'
  obtain ⟨o2, h2, e2⟩ := setFn_cases h3
  obtain ⟨o1, hh, e1⟩ := setFn_cases h2
  cases hh
  have s1 : ∃ fc, fnOf c.counterFn = some fc ∧ Is o2 fc id id (c.defaultCounter.getD [7]) (c.defaultTimer.getD [7, 8, 4, 2, 3, 6, 9, 5, 14, 19, 20]) (c.defaultGauge.getD [1]) := by
    rcases e1 with ⟨e, rfl⟩ | ⟨t, f, e, e', rfl⟩
    · exact ⟨id, by rw [e]; rfl, h1⟩
    · exact ⟨f, by rw [e]; exact e', { h1 with derived := Options.derived_computeAll _, counterFn := rfl }⟩
  obtain ⟨fc, k1, s1⟩ := s1
  have s2 : ∃ ft, fnOf c.timerFn = some ft ∧ Is o3 fc ft id (c.defaultCounter.getD [7]) (c.defaultTimer.getD [7, 8, 4, 2, 3, 6, 9, 5, 14, 19, 20]) (c.defaultGauge.getD [1]) := by
    rcases e2 with ⟨e, rfl⟩ | ⟨t, f, e, e', rfl⟩
    · exact ⟨id, by rw [e]; rfl, s1⟩
    · exact ⟨f, by rw [e]; exact e', { s1 with derived := Options.derived_computeAll _, timerFn := rfl }⟩
  obtain ⟨ft, k2, s2⟩ := s2
  rcases e3 with ⟨e, rfl⟩ | ⟨t, f, e, e', rfl⟩
  · exact ⟨fc, ft, id, k1, k2, by rw [e]; rfl, s2⟩
  · exact ⟨fc, ft, f, k1, k2, by rw [e]; exact e', { s2 with derived := Options.derived_computeAll _, gaugeFn := rfl }⟩

theorem options_fn {c : TypesConfiguration} {o : Options} (h : c.newOptions = some o) (k : Kind) :
    o.Derived ∧ o.quantileFn = defaultQuantileFn ∧ ∀ s, o.transform k s = configured (c.kindFor k) s := by
  obtain ⟨fc, ft, fg, h1, h2, h3, hi⟩ := newOptions_some h
  refine ⟨hi.derived, hi.quantileFn, fun s => ?_⟩
  cases k
  · show o.counterFn s = _; rw [hi.counterFn]; exact fnOf_eq h1 s
  · show o.timerFn s = _; rw [hi.timerFn]; exact fnOf_eq h2 s
  · show o.gaugeFn s = _; rw [hi.gaugeFn]; exact fnOf_eq h3 s

/-- C82: options are made from a configuration exactly when each configured kind of transformation is one of the three; reading from YAML
accepts only these. -/
theorem C82_made_iff (c : TypesConfiguration) :
    ((∃ o, c.newOptions = some o) ↔ KnownKind c.counterFn ∧ KnownKind c.timerFn ∧ KnownKind c.gaugeFn) ∧
    ∀ s t, readTransform s = some t ↔ t = s ∧ KnownKind (some s) := by
  have known : ∀ v, (∃ f, fnOf v = some f) ↔ KnownKind v := by
    intro v
    cases v with
    | none => simp [fnOf, KnownKind]
    | some t => exact transformFn_iff t
  constructor
  · constructor
    · rintro ⟨o, h⟩
      obtain ⟨fc, ft, fg, h1, h2, h3, _⟩ := newOptions_some h
      exact ⟨(known _).mp ⟨_, h1⟩, (known _).mp ⟨_, h2⟩, (known _).mp ⟨_, h3⟩⟩
    · rintro ⟨h1, h2, h3⟩
      have step : ∀ v set (x : Option Options), KnownKind v → (∃ o, x = some o) → ∃ o, setFn v set x = some o := by
        rintro v set x hv ⟨o, rfl⟩
        cases v with
        | none => exact ⟨o, rfl⟩
        | some t =>
          obtain ⟨f, hf⟩ := (transformFn_iff t).mpr hv
          exact ⟨o.apply (set f), by simp only [setFn, hf]⟩
      obtain ⟨o, ho⟩ := step _ .gaugeFn _ h3 (step _ .timerFn _ h2 (step _ .counterFn _ h1 ⟨_, rfl⟩))
      exact ⟨_, by simp only [TypesConfiguration.newOptions]; rw [ho]; rfl⟩
  · intro s t
    simp only [readTransform, KnownKind]
    constructor
    · intro h
      have h1 : t = s := by simpa using List.find?_some h
      have h2 := List.mem_of_find?_eq_some h
      subst h1
      simpa using h2
    · rintro ⟨rfl, h⟩
      rcases h with h | h | h | h
      · cases h
      all_goals cases h; decide

/-- C82: the name that the options give a type for a kind of metric is the documented one, transformed as configured for the kind; and the
default types are those configured, else the documented ones. -/
theorem C82_names (c : TypesConfiguration) (o : Options) (h : c.newOptions = some o) :
    (∀ k t, ValidAggType t → o.typeStringFor k t = some (configured (c.kindFor k) (typeName t))) ∧
    o.defaultCounter = c.defaultCounter.getD [7] ∧ o.defaultGauge = c.defaultGauge.getD [1] ∧
    o.defaultTimer = c.defaultTimer.getD [7, 8, 4, 2, 3, 6, 9, 5, 14, 19, 20] := by
  obtain ⟨_, _, _, _, _, _, hi⟩ := newOptions_some h
  refine ⟨fun k t ht => ?_, hi.counter, hi.gauge, hi.timer⟩
  obtain ⟨hd, hq, hf⟩ := options_fn h k
  have ht' := ht
  unfold ValidAggType at ht'
  rw [Options.typeStringFor, if_neg (by omega), Options.strings_of_derived _ hd, computeTypeStrings_get, hq]
  have e : ((t.toNat : Nat) : Int) = t := by omega
  rw [e, if_pos ht, hf, base_name ht]

theorem configured_inj {v : Option Bytes} (hv : v ≠ some (bs "empty")) {s s' : Bytes} (h : configured v s = configured v s') : s = s' := by
  unfold configured at h
  rw [if_neg hv, if_neg hv] at h
  split at h
  · exact (List.cons.inj h).2
  · exact h

/-- C82: unless the kind is configured as empty, names identify types: the type found for a text is the one with this name, and none if no
type has it. -/
theorem C82_lookup (c : TypesConfiguration) (o : Options) (h : c.newOptions = some o) (k : Kind) (hk : c.kindFor k ≠ some (bs "empty")) (v : Bytes) :
    (∀ t, ValidAggType t → (o.typeFor k v = t ↔ v = configured (c.kindFor k) (typeName t))) ∧
    (o.typeFor k v = 0 ↔ ∀ t, ValidAggType t → v ≠ configured (c.kindFor k) (typeName t)) := by
  have hn := (C82_names c o h).1 k
  rcases C04_lookup_sound o k v with ⟨h1, h2⟩ | ⟨h1, h2, h3⟩
  · constructor
    · intro t ht
      constructor
      · intro e; rw [h1] at e; unfold ValidAggType at ht; omega
      · rintro rfl; exact absurd (hn t ht) (h2 t ht)
    · refine ⟨fun _ t ht e => ?_, fun _ => h1⟩
      subst e; exact h2 t ht (hn t ht)
  · constructor
    · intro t ht
      constructor
      · intro e; subst e; rw [hn _ ht] at h2; exact (Option.some.inj h2).symm
      · intro e
        subst e
        rw [hn _ h1] at h2
        exact name_inj h1 ht (configured_inj hk (Option.some.inj h2))
    · constructor
      · intro e; unfold ValidAggType at h1; omega
      · intro e
        rw [hn _ h1] at h2
        exact absurd (Option.some.inj h2).symm (e _ h1)

/-- C82: where the kind is configured as empty all types have the empty name, the empty text is taken for the last value, and no other text
for any type. -/
theorem C82_empty (c : TypesConfiguration) (o : Options) (h : c.newOptions = some o) (k : Kind) (hk : c.kindFor k = some (bs "empty")) (v : Bytes) :
    o.typeFor k v = if v = [] then 1 else 0 := by
  have hn := (C82_names c o h).1 k
  have he : ∀ t, ValidAggType t → o.typeStringFor k t = some [] := fun t ht => by rw [hn t ht, hk]; rfl
  rcases C04_lookup_sound o k v with ⟨h1, h2⟩ | ⟨h1, h2, h3⟩
  · by_cases e : v = []
    · subst e; exact absurd (he 1 (by decide)) (h2 1 (by decide))
    · rw [if_neg e]; exact h1
  · rw [he _ h1] at h2
    have e : v = [] := (Option.some.inj h2).symm
    subst e
    rw [if_pos rfl]
    have := h3 1 (by decide) (he 1 (by decide))
    unfold ValidAggType at h1
    omega

/-- A configuration: timers as suffixes, counters empty, gauges as they are. -/
def exTypes : TypesConfiguration := { defaultTimer := some [7, 22], counterFn := some (bs "empty"), timerFn := some (bs "suffix") }

example : ∃ o, exTypes.newOptions = some o ∧ o.typeStringFor .timer 22 = some (bs ".p9999") ∧ o.typeFor .timer (bs ".p9999") = 22 ∧
    o.typeFor .gauge (bs "lower") = 2 ∧ o.typeFor .gauge (bs ".lower") = 0 ∧ o.typeFor .counter [] = 1 ∧ o.defaultTimer = [7, 22] := by
  obtain ⟨o, h⟩ := (C82_made_iff exTypes).1.mpr (by decide)
  have n := C82_names exTypes o h
  refine ⟨o, h, n.1 .timer 22 (by decide), ((C82_lookup exTypes o h .timer (by decide) _).1 22 (by decide)).mpr (by decide),
    ((C82_lookup exTypes o h .gauge (by decide) _).1 2 (by decide)).mpr (by decide), ?_, ?_, n.2.2.2⟩
  · refine (C82_lookup exTypes o h .gauge (by decide) _).2.mpr fun t ht => ?_
    exact valid_cases (P := fun t => bs ".lower" ≠ configured (exTypes.kindFor .gauge) (typeName t)) ht (by decide +kernel)
  · exact C82_empty exTypes o h .counter rfl []

example : ({ gaugeFn := some (bs "none") } : TypesConfiguration).newOptions.isNone = true := by decide +kernel

/-! ### C83 -/

theorem gauge_iff (t : Int) : isValidForGauge t = true ↔ ForGauge t := by
  unfold isValidForGauge ForGauge Last Min Max Mean Count Sum SumSq Stdev
  simp; omega

theorem counter_iff (t : Int) : isValidForCounter t = true ↔ ForCounter t := by
  unfold isValidForCounter ForCounter Min Max Mean Count Sum SumSq Stdev
  simp; omega

theorem timer_iff (t : Int) : isValidForTimer t = true ↔ t ≠ 1 := by
  unfold isValidForTimer Last; simp

theorem list_iff {f : AType → Bool} {P : Int → Prop} (loop : List AType → Bool) (h0 : loop [] = true)
    (h1 : ∀ t ts, loop (t :: ts) = if !f t then false else loop ts) (h : ∀ t, f t = true ↔ P t) (ts : List AType) :
    loop ts = true ↔ ∀ t ∈ ts, P t := by
  induction ts with
  | nil => simp [h0]
  | cons t ts ih =>
    rw [h1, List.forall_mem_cons, ← h t, ← ih]
    cases f t <;> simp

/-- C83: a list of types is accepted for counters and gauges exactly when each of its types makes sense for them, and so it has an
aggregation ID; for timers a list of known types is accepted exactly when each makes sense.  Missing for timers: unknown types, see
`C83_violation_timer`. -/
theorem C83_kinds_partial (ts : List AType) :
    (typesValidForCounter ts = true ↔ ∀ t ∈ ts, ForCounter t) ∧ (typesValidForGauge ts = true ↔ ∀ t ∈ ts, ForGauge t) ∧
    ((∀ t ∈ ts, ValidAggType t) → (typesValidForTimer ts = true ↔ ∀ t ∈ ts, ForTimer t)) ∧
    (typesValidForCounter ts = true ∨ typesValidForGauge ts = true → ∃ id, compressTypes ts = some id) := by
  have c := list_iff typesValidForCounter rfl (fun _ _ => rfl) counter_iff ts
  have g := list_iff typesValidForGauge rfl (fun _ _ => rfl) gauge_iff ts
  have t := list_iff typesValidForTimer rfl (fun _ _ => rfl) timer_iff ts
  refine ⟨c, g, fun hv => t.trans ⟨fun h u hu => ?_, fun h u hu => ?_⟩, fun h => ?_⟩
  · have h1 := h u hu; have h2 := hv u hu; unfold ForTimer; unfold ValidAggType at h2; omega
  · have := h u hu; unfold ForTimer at this; omega
  · cases e : compressTypes ts with
    | some id => exact ⟨id, rfl⟩
    | none =>
      obtain ⟨u, hu, hn⟩ := (C01_fails_iff 0 ts).mp e
      unfold ValidAggType at hn
      rcases h with h | h
      · have := c.mp h u hu; unfold ForCounter at this; omega
      · have := g.mp h u hu; unfold ForGauge at this; omega

example : typesValidForCounter [7, 9] = true ∧ typesValidForGauge [1, 5] = false ∧ typesValidForTimer [5, 22] = true ∧
    typesValidForTimer [7, 1] = false := by decide

/-- C83 fails for timers: any type but the last value is accepted for them, among them the unknown type, whose lists have no aggregation ID. -/
theorem C83_violation_timer (t : AType) (h : ¬ ValidAggType t) :
    typesValidForTimer [t] = true ∧ compressTypes [t] = none ∧ isValid t = false := by
  refine ⟨?_, ?_, ?_⟩
  · have : isValidForTimer t = true := (timer_iff t).mpr fun e => h (by subst e; decide)
    simp [typesValidForTimer, this]
  · exact (C01_fails_iff 0 [t]).mpr ⟨t, by simp, h⟩
  · cases e : isValid t with
    | false => rfl
    | true => exact absurd ((isValid_iff t).mp e) h

example : ¬ ValidAggType 0 ∧ ¬ ValidAggType 23 := by decide

/-- C83, what holds for timers whatever the types: a list is accepted exactly when the last value is not in it, and one that is accepted
has an aggregation ID exactly when all its types are known. -/
theorem C83_timer_exact (ts : List AType) :
    (typesValidForTimer ts = true ↔ (1 : AType) ∉ ts) ∧
    (typesValidForTimer ts = true → ((∃ id, compressTypes ts = some id) ↔ ∀ t ∈ ts, ForTimer t)) := by
  have t := list_iff typesValidForTimer rfl (fun _ _ => rfl) timer_iff ts
  refine ⟨t.trans ⟨fun h hm => h 1 hm rfl, fun h u hu e => h (e ▸ hu)⟩, fun ht => ⟨fun ⟨id, hid⟩ u hu => ?_, fun h => ?_⟩⟩
  · have h1 := t.mp ht u hu
    by_cases hv : ValidAggType u
    · unfold ForTimer; unfold ValidAggType at hv; omega
    · have := (C01_fails_iff 0 ts).mpr ⟨u, hu, hv⟩
      unfold compressTypes at hid; rw [this] at hid; cases hid
  · cases e : compressTypes ts with
    | some id => exact ⟨id, rfl⟩
    | none =>
      obtain ⟨u, hu, hn⟩ := (C01_fails_iff 0 ts).mp e
      have := h u hu; unfold ForTimer at this; unfold ValidAggType at hn; omega

example : (1 : AType) ∉ [0, 7] ∧ typesValidForTimer [0, 7] = true ∧ compressTypes [0, 7] = none := by decide

end Verif.Agg
