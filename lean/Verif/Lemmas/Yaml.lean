import Verif.Spec.Yaml
import Verif.Props.JsonForm
import Verif.Props.ValidatorConfig
import Verif.Props.Transformation
/- Reading YAML: documents in order of the fields, lists of words, and what is the same as reading JSON. -/
namespace Verif.Yaml
open Verif.Policy Verif.Spec.Yaml
open Verif.Spec (typeWords)
open Verif.Spec.Json (policyText KnownID KnownOp PlainOp Printable)
open Verif.Json (J)
open scoped Verif.Agg

/-! ### Documents in the order of the fields -/

/-- The members for these fields, in their order, some left out, take `d` to `r`. -/
inductive Steps : List (Field M) → List (Bytes × Y) → M → M → Prop
  | nil (d : M) : Steps [] [] d d
  | skip {f : Field M} {fs : List (Field M)} {l : List (Bytes × Y)} {d r : M} : Steps fs l d r → Steps (f :: fs) l d r
  | take {f : Field M} {fs : List (Field M)} {y : Y} {l : List (Bytes × Y)} {d d' r : M} : f.read y d = some d' → Steps fs l d' r →
      Steps (f :: fs) ((f.name, y) :: l) d r

theorem find_self {fs : List (Field M)} (hn : (fs.map (·.name)).Nodup) {f : Field M} (h : f ∈ fs) :
    (fs.find? fun g => g.name == f.name) = some f := by
  induction fs with
  | nil => cases h
  | cons g gs ih =>
    simp only [List.map_cons, List.nodup_cons] at hn
    rcases List.mem_cons.mp h with rfl | h
    · simp
    · have hne : g.name ≠ f.name := fun e => hn.1 (e ▸ List.mem_map_of_mem h)
      rw [List.find?_cons_of_neg (by simpa using hne)]
      exact ih hn.2 h

theorem steps_members {strict : Bool} {all : List (Field M)} (hn : (all.map (·.name)).Nodup) {fs : List (Field M)} {l : List (Bytes × Y)} {d r : M}
    (h : Steps fs l d r) : ∀ seen : List Bytes, (∀ f ∈ fs, f ∈ all ∧ f.name ∉ seen) → (fs.map (·.name)).Nodup →
      members strict all l seen d = some r := by
  induction h with
  | nil d => intro seen _ _; rfl
  | skip _ ih =>
    intro seen hs hd
    exact ih seen (fun f hf => hs f (List.mem_cons_of_mem _ hf)) (by simpa using (List.nodup_cons.mp (by simpa using hd)).2)
  | @take f fs y l d d' r hr _ ih =>
    intro seen hs hd
    simp only [List.map_cons, List.nodup_cons] at hd
    rw [members, find_self hn (hs f (List.mem_cons_self ..)).1]
    have hc : (strict && seen.contains f.name) = false := by
      have := (hs f (List.mem_cons_self ..)).2
      cases strict <;> simp [this]
    simp only [hc, hr, Bool.false_eq_true, if_false]
    exact ih (f.name :: seen) (fun g hg => ⟨(hs g (List.mem_cons_of_mem _ hg)).1, fun hm => by
      rcases List.mem_cons.mp hm with e | hm
      · exact hd.1 (e ▸ List.mem_map_of_mem hg)
      · exact (hs g (List.mem_cons_of_mem _ hg)).2 hm⟩) hd.2

theorem struct_doc {strict : Bool} {zero : M → M} {fs : List (Field M)} (hn : (fs.map (·.name)).Nodup) {l : List (Bytes × Y)} {d r : M}
    (h : Steps fs l d r) : struct strict zero fs (.map l) d = some r :=
  steps_members hn h [] (fun f hf => ⟨hf, by simp⟩) hn

theorem steps_opt {f : Field M} {fs : List (Field M)} {v : Option Y} {l : List (Bytes × Y)} {d d' r : M} {name : Bytes} (hn : f.name = name)
    (h0 : v = none → d = d') (h1 : ∀ y, v = some y → f.read y d = some d') (h : Steps fs l d' r) : Steps (f :: fs) (opt name v ++ l) d r := by
  subst hn
  cases v with
  | none => have := h0 rfl; subst this; exact .skip h
  | some y => exact .take (h1 y rfl) h

/-! ### Lists -/

theorem seq_doc {r : Rd A} {zero : A} {f : A → Y} : ∀ {l : List A}, (∀ a ∈ l, r (f a) zero = some a) → seqLoop r zero (l.map f) = some l
  | [], _ => rfl
  | a :: l, h => by
    simp only [List.map_cons, seqLoop, h a (List.mem_cons_self ..), seq_doc fun b hb => h b (List.mem_cons_of_mem _ hb)]

theorem seq_mem {r : Rd A} {zero : A} : ∀ {l : List Y} {as : List A}, seqLoop r zero l = some as → ∀ a ∈ as, ∃ y ∈ l, r y zero = some a
  | [], as, h, a, ha => by simp only [seqLoop, Option.some.injEq] at h; subst h; cases ha
  | y :: ys, as, h, a, ha => by
    simp only [seqLoop] at h
    split at h
    · rename_i b bs h1 h2
      simp only [Option.some.injEq] at h; subst h
      rcases List.mem_cons.mp ha with rfl | ha
      · exact ⟨y, List.mem_cons_self .., h1⟩
      · obtain ⟨z, hz, e⟩ := seq_mem h2 a ha
        exact ⟨z, List.mem_cons_of_mem _ hz, e⟩
    · cases h

theorem word_text {zero old : A} {parse : Bytes → Option A} {y : Y} {a : A} (hy : y ≠ .null) :
    word zero parse y old = some a ↔ ∃ s i, y = .scalar s i ∧ parse s = some a := by
  cases y <;> simp_all [word, method, text]

theorem slice_words {zero : A} {parse : Bytes → Option A} {y : Y} {old : List A} {as : List A} (hy : NullFree y) :
    slice (word zero parse) zero y old = some as ↔
      ∃ ss : List (Bytes × Option Int), y = .seq (ss.map fun s => .scalar s.1 s.2) ∧ ss.map (fun s => parse s.1) = as.map some := by
  cases hy with
  | scalar s i => simp [slice]
  | map l h => simp [slice]
  | seq l h =>
    simp only [slice, Y.seq.injEq]
    induction l generalizing as with
    | nil =>
      simp only [seqLoop, Option.some.injEq]
      constructor
      · rintro rfl; exact ⟨[], rfl, rfl⟩
      · rintro ⟨ss, h1, h2⟩
        have : ss = [] := by simpa using h1.symm
        subst this
        simpa using h2
    | cons y l ih =>
      have hn : y ≠ .null := by
        have := h y (List.mem_cons_self ..)
        rintro rfl; cases this
      have hl : ∀ z ∈ l, NullFree z := fun z hz => h z (List.mem_cons_of_mem _ hz)
      constructor
      · intro e
        simp only [seqLoop] at e
        split at e
        · rename_i a bs h1 h2
          simp only [Option.some.injEq] at e; subst e
          obtain ⟨s, i, rfl, hp⟩ := (word_text hn).mp h1
          obtain ⟨ss, rfl, hs⟩ := (ih hl).mp h2
          exact ⟨(s, i) :: ss, rfl, by simp [hp, hs]⟩
        · cases e
      · rintro ⟨ss, h1, h2⟩
        cases ss with
        | nil => simp at h1
        | cons s ss =>
          simp only [List.map_cons, List.cons.injEq] at h1
          cases as with
          | nil => simp at h2
          | cons a as =>
            simp only [List.map_cons, List.cons.injEq] at h2
            have e1 : word zero parse y zero = some a := (word_text hn).mpr ⟨s.1, s.2, h1.1, h2.1⟩
            have e2 : seqLoop (word zero parse) zero l = some as := (ih hl).mpr ⟨ss, h1.2, h2.2⟩
            simp only [seqLoop, e1, e2]

/-! ### Words -/

theorem typeWord_string {t : Int} (h : KnownType t) : Agg.typeString Agg.goOutOfRange t = typeWord t := by
  have hall : ∀ n ∈ List.range 22, Agg.typeString Agg.goOutOfRange ((n : Int) + 1) = typeWord ((n : Int) + 1) := by decide +kernel
  have := hall (t.toNat - 1) (by unfold KnownType at h; simp only [List.mem_range]; omega)
  have e : (((t.toNat - 1 : Nat) : Int) + 1) = t := by unfold KnownType at h; omega
  rwa [e] at this

theorem parse_type {s : Bytes} {t : Int} : Agg.parseType s = some t ↔ KnownType t ∧ s = typeWord t := by
  constructor
  · intro h
    obtain ⟨h1, h2⟩ := Agg.typeString_of_parseType s t h
    have hk : KnownType t := h1
    exact ⟨hk, by rw [← h2, typeWord_string hk]⟩
  · rintro ⟨h, rfl⟩
    rw [← typeWord_string h]
    exact (Agg.parseType_typeString t h).1

theorem parse_metric {s : Bytes} {t : Int} : Val.parseType s = some t ↔ KnownMetric t ∧ s = metricWord t := by
  rw [(Val.C80_type_text t s 0).1]
  constructor
  · rintro ⟨h, rfl⟩
    simp only [List.mem_cons, List.not_mem_nil, or_false] at h
    refine ⟨h, ?_⟩
    rcases h with rfl | rfl | rfl <;> decide
  · rintro ⟨h, rfl⟩
    refine ⟨by simpa [KnownMetric] using h, ?_⟩
    rcases h with rfl | rfl | rfl <;> decide

theorem parse_storage {x : XTime} {p : StoragePolicy} (h : Printable x p) : parseStoragePolicy x (policyText x p) = some p := by
  rw [← Json.policy_text]
  obtain ⟨j, h1, h2⟩ := Json.rt_storage h p
  simp only [Json.storagePolicy, Option.some.injEq] at h1
  subst h1
  exact h2

theorem read_types {ts : List Int} (h : ∀ t ∈ ts, KnownType t) : slice aggType 0 (typesDoc ts) [] = some ts :=
  seq_doc fun t ht => parse_type.mpr ⟨h t ht, rfl⟩

theorem read_metrics {ts : List Int} (h : ∀ t ∈ ts, KnownMetric t) (old : List Int) : slice metricType 0 (metricsDoc ts) old = some ts :=
  seq_doc fun t ht => parse_metric.mpr ⟨h t ht, rfl⟩

theorem read_storage {x : XTime} {ps : List StoragePolicy} (h : ∀ p ∈ ps, Printable x p) :
    slice (storagePolicy x) EmptyStoragePolicy (storageDoc x ps) [] = some ps :=
  seq_doc fun p hp => parse_storage (h p hp)

theorem read_texts (l : List Bytes) (old : List Bytes) : slice string [] (textsDoc l) old = some l :=
  seq_doc fun _ _ => rfl

end Verif.Yaml
