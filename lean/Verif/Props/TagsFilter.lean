import Verif.Spec.TagsFilter
import Verif.Props.Filter
import Verif.Props.Id
/- C30, C31: tag filters. -/
namespace Verif.TagsFlt
open Verif.Flt Verif.Id Verif.Spec.TagsFlt Verif.Spec.Id Verif.Policy

/-! ### C30 -/

/-- A value filter that always answers. -/
def Answers (f : Filter) : Prop := ∀ v, ∃ r, f.matchesVal v = .ok r

theorem answers_new (fv : FilterValue) (f : Filter) (h : newFilterFromFilterValue fv = .ok f) : Answers f :=
  fun v => C29_matching_never_panics fv.pattern fv.negate f h v

/-- A tag filter holds for tags. -/
def TagHolds (ps : List (Bytes × Bytes)) (f : TagFilter) : Prop :=
  ∃ v, lookup f.name ps = some v ∧ f.valueFilter.matchesVal v = .ok true

theorem lookup_none_of_lt (n : Bytes) (ps : List (Bytes × Bytes)) (h : ∀ p ∈ ps, bytesLt n p.1 = true) :
    lookup n ps = none := by
  induction ps with
  | nil => rfl
  | cons p ps ih =>
    have hp := h p (by simp)
    have : p.1 ≠ n := by
      rintro rfl
      rw [bytesLt_strictTotal.irrefl] at hp; cases hp
    simp only [lookup, if_neg this]
    exact ih (fun q hq => h q (by simp [hq]))

theorem lt_of_lt_of_le {a b c : Bytes} (h1 : bytesLt a b = true) (h2 : bytesLt c b = false) : bytesLt a c = true := by
  rcases bytesLt_strictTotal.tri b c with h | h | h
  · exact bytesLt_strictTotal.trans _ _ _ h1 h
  · exact h ▸ h1
  · rw [h2] at h; cases h

theorem ne_of_lt {a b : Bytes} (h : bytesLt a b = true) : a ≠ b := by
  rintro rfl; rw [bytesLt_strictTotal.irrefl] at h; cases h

theorem eq_of_not_lt {a b : Bytes} (h1 : bytesLt a b = false) (h2 : bytesLt b a = false) : a = b := by
  rcases bytesLt_strictTotal.tri a b with h | h | h
  · rw [h1] at h; cases h
  · exact h
  · rw [h2] at h; cases h

/-- Tag filters in strictly ascending order. -/
def FSorted (fs : List TagFilter) : Prop := fs.Pairwise fun a b => bytesLt a.name b.name = true

theorem conj_loop : ∀ (ps : List (Bytes × Bytes)) (fs : List TagFilter), Ascending ps → FSorted fs →
    (∀ f ∈ fs, Answers f.valueFilter) →
    ∃ r, matchLoop .conjunction false (ps.map ofPair) fs = .ok r ∧ (r = true ↔ ∀ f ∈ fs, TagHolds ps f)
  | [], fs, _, _, _ => by
    refine ⟨fs.isEmpty, by simp [matchLoop], ?_⟩
    cases fs with
    | nil => simp
    | cons f fs => simp [TagHolds, lookup]; exact ⟨f, by simp⟩
  | p :: rest, [], _, _, _ => ⟨true, by simp [matchLoop], by simp⟩
  | p :: rest, f :: fs', ha, hf, hans => by
    have ha' := List.pairwise_cons.mp ha
    have hf' := List.pairwise_cons.mp hf
    simp only [List.map_cons, matchLoop, ofPair]
    have hskip : ∀ g, bytesLt p.1 g.name = true → (TagHolds (p :: rest) g ↔ TagHolds rest g) := by
      intro g hg
      simp [TagHolds, lookup, ne_of_lt hg]
    by_cases h1 : bytesLt p.1 f.name = true
    · rw [if_pos h1]
      obtain ⟨r, hr, hiff⟩ := conj_loop rest (f :: fs') ha'.2 hf hans
      refine ⟨r, hr, hiff.trans ?_⟩
      have : ∀ g ∈ f :: fs', bytesLt p.1 g.name = true := by
        intro g hg
        rcases List.mem_cons.mp hg with rfl | hg
        · exact h1
        · exact bytesLt_strictTotal.trans _ _ _ h1 (hf'.1 g hg)
      exact ⟨fun h g hg => (hskip g (this g hg)).mpr (h g hg), fun h g hg => (hskip g (this g hg)).mp (h g hg)⟩
    · rw [if_neg h1]
      by_cases h2 : bytesLt f.name p.1 = true
      · rw [if_pos h2]
        refine ⟨false, by simp, ?_⟩
        simp only [Bool.false_eq_true, false_iff]
        intro hall
        obtain ⟨v, hv, _⟩ := hall f (by simp)
        rw [lookup_none_of_lt] at hv
        · cases hv
        · intro q hq
          rcases List.mem_cons.mp hq with rfl | hq
          · exact h2
          · exact lt_of_lt_of_le h2 (ha'.1 q hq)
      · rw [if_neg h2]
        have he : p.1 = f.name := eq_of_not_lt (by simpa using h1) (by simpa using h2)
        obtain ⟨m, hm⟩ := hans f (by simp) p.2
        have hfh : TagHolds (p :: rest) f ↔ m = true := by
          simp [TagHolds, lookup, he, hm]
        rw [matchStep]
        simp only [hm, Out.ok_bind]
        cases m with
        | false =>
          refine ⟨false, by simp, ?_⟩
          simp only [Bool.false_eq_true, false_iff]
          intro hall
          have := hfh.mp (hall f (by simp))
          cases this
        | true =>
          obtain ⟨r, hr, hiff⟩ := conj_loop rest fs' ha'.2 hf'.2 (fun g hg => hans g (by simp [hg]))
          refine ⟨r, by simpa using hr, hiff.trans ?_⟩
          have hg : ∀ g ∈ fs', bytesLt p.1 g.name = true := fun g hg => by rw [he]; exact hf'.1 g hg
          simp only [List.forall_mem_cons, hfh, true_and]
          exact ⟨fun h g hm => (hskip g (hg g hm)).mpr (h g hm), fun h g hm => (hskip g (hg g hm)).mp (h g hm)⟩

theorem skipSmaller_spec (n : Bytes) : ∀ (fs : List TagFilter), FSorted fs →
    (∃ pre, fs = pre ++ skipSmaller n fs ∧ ∀ g ∈ pre, bytesLt g.name n = true) ∧
    ∀ g ∈ skipSmaller n fs, bytesLt g.name n = false
  | [], _ => ⟨⟨[], rfl, by simp⟩, by simp [skipSmaller]⟩
  | g :: gs, h => by
    have h' := List.pairwise_cons.mp h
    obtain ⟨⟨pre, e, hp⟩, hq⟩ := skipSmaller_spec n gs h'.2
    simp only [skipSmaller]
    by_cases hg : bytesLt g.name n = true
    · rw [if_pos hg]
      refine ⟨⟨g :: pre, by rw [List.cons_append, ← e], ?_⟩, hq⟩
      intro x hx
      rcases List.mem_cons.mp hx with rfl | hx
      · exact hg
      · exact hp x hx
    · rw [if_neg hg]
      refine ⟨⟨[], rfl, by simp⟩, ?_⟩
      intro x hx
      rcases List.mem_cons.mp hx with rfl | hx
      · simpa using hg
      · cases hc : bytesLt x.name n with
        | false => rfl
        | true => exact absurd (bytesLt_strictTotal.trans _ _ _ (h'.1 x hx) hc) hg

theorem disj_loop (failed : Bool) : ∀ (ps : List (Bytes × Bytes)) (fs : List TagFilter), Ascending ps → FSorted fs →
    (∀ f ∈ fs, Answers f.valueFilter) →
    ∃ r, matchLoop .disjunction failed (ps.map ofPair) fs = .ok r ∧ (r = true ↔ ∃ f ∈ fs, TagHolds ps f)
  | [], fs, _, _, _ => ⟨false, by simp [matchLoop], by simp [TagHolds, lookup]⟩
  | p :: rest, [], _, _, _ => ⟨false, by simp [matchLoop], by simp⟩
  | p :: rest, f :: fs', ha, hf, hans => by
    have ha' := List.pairwise_cons.mp ha
    have hf' := List.pairwise_cons.mp hf
    simp only [List.map_cons, matchLoop, ofPair]
    have hskip : ∀ g, bytesLt p.1 g.name = true → (TagHolds (p :: rest) g ↔ TagHolds rest g) := by
      intro g hg
      simp [TagHolds, lookup, ne_of_lt hg]
    have hdead : ∀ g : TagFilter, bytesLt g.name p.1 = true → ¬ TagHolds (p :: rest) g := by
      rintro g hg ⟨v, hv, _⟩
      rw [lookup_none_of_lt] at hv
      · cases hv
      · intro q hq
        rcases List.mem_cons.mp hq with rfl | hq
        · exact hg
        · exact lt_of_lt_of_le hg (ha'.1 q hq)
    -- the common step on the first filter whose name equals the tag's
    have hstep : ∀ (g : TagFilter) (gs : List TagFilter), p.1 = g.name → FSorted (g :: gs) →
        (∀ x ∈ g :: gs, Answers x.valueFilter) →
        ∃ r, matchStep .disjunction ⟨p.1, p.2⟩ g gs (matchLoop .disjunction failed (rest.map ofPair)) = .ok r ∧
          (r = true ↔ ∃ x ∈ g :: gs, TagHolds (p :: rest) x) := by
      intro g gs he hs han
      have hs' := List.pairwise_cons.mp hs
      obtain ⟨m, hm⟩ := han g (by simp) p.2
      have hfh : TagHolds (p :: rest) g ↔ m = true := by simp [TagHolds, lookup, he, hm]
      rw [matchStep]
      simp only [hm, Out.ok_bind]
      cases m with
      | true => exact ⟨true, by simp, by simp; exact .inl (hfh.mpr rfl)⟩
      | false =>
        obtain ⟨r, hr, hiff⟩ := disj_loop failed rest gs ha'.2 hs'.2 (fun x hx => han x (by simp [hx]))
        refine ⟨r, by simpa using hr, hiff.trans ?_⟩
        have hg : ∀ x ∈ gs, bytesLt p.1 x.name = true := fun x hx => by rw [he]; exact hs'.1 x hx
        constructor
        · rintro ⟨x, hx, h⟩; exact ⟨x, by simp [hx], (hskip x (hg x hx)).mpr h⟩
        · rintro ⟨x, hx, h⟩
          rcases List.mem_cons.mp hx with rfl | hx
          · exact absurd (hfh.mp h) (by simp)
          · exact ⟨x, hx, (hskip x (hg x hx)).mp h⟩
    by_cases h1 : bytesLt p.1 f.name = true
    · rw [if_pos h1]
      obtain ⟨r, hr, hiff⟩ := disj_loop failed rest (f :: fs') ha'.2 hf hans
      refine ⟨r, hr, hiff.trans ?_⟩
      have : ∀ g ∈ f :: fs', bytesLt p.1 g.name = true := by
        intro g hg
        rcases List.mem_cons.mp hg with rfl | hg
        · exact h1
        · exact bytesLt_strictTotal.trans _ _ _ h1 (hf'.1 g hg)
      constructor
      · rintro ⟨g, hg, h⟩; exact ⟨g, hg, (hskip g (this g hg)).mpr h⟩
      · rintro ⟨g, hg, h⟩; exact ⟨g, hg, (hskip g (this g hg)).mp h⟩
    · rw [if_neg h1]
      by_cases h2 : bytesLt f.name p.1 = true
      · rw [if_pos h2]
        obtain ⟨⟨pre, e, hpre⟩, hq⟩ := skipSmaller_spec p.1 fs' hf'.2
        have hdrop : (∃ g ∈ f :: fs', TagHolds (p :: rest) g) ↔
            ∃ g ∈ skipSmaller p.1 fs', TagHolds (p :: rest) g := by
          constructor
          · rintro ⟨g, hg, h⟩
            rcases List.mem_cons.mp hg with rfl | hg
            · exact absurd h (hdead _ h2)
            · rw [e] at hg
              rcases List.mem_append.mp hg with hg | hg
              · exact absurd h (hdead _ (hpre g hg))
              · exact ⟨g, hg, h⟩
          · rintro ⟨g, hg, h⟩
            refine ⟨g, ?_, h⟩
            rw [e]; simp [hg]
        have hsub : (skipSmaller p.1 fs').Sublist fs' := by
          conv => rhs; rw [e]
          exact List.sublist_append_right _ _
        have hsorted : FSorted (skipSmaller p.1 fs') := hf'.2.sublist hsub
        have hans2 : ∀ x ∈ skipSmaller p.1 fs', Answers x.valueFilter :=
          fun x hx => hans x (List.mem_cons_of_mem _ (hsub.subset hx))
        simp only [hdrop]
        cases hsk : skipSmaller p.1 fs' with
        | nil => exact ⟨false, by simp, by simp⟩
        | cons g gs =>
          rw [hsk] at hq hsorted hans2
          have hsorted' := List.pairwise_cons.mp hsorted
          simp only [show (LogicalOp.disjunction == LogicalOp.conjunction) = false from rfl,
            Bool.false_eq_true, if_false]
          by_cases h3 : bytesLt p.1 g.name = true
          · rw [if_pos h3]
            obtain ⟨r, hr, hiff⟩ := disj_loop failed rest (g :: gs) ha'.2 hsorted hans2
            refine ⟨r, hr, hiff.trans ?_⟩
            have : ∀ x ∈ g :: gs, bytesLt p.1 x.name = true := by
              intro x hx
              rcases List.mem_cons.mp hx with rfl | hx
              · exact h3
              · exact bytesLt_strictTotal.trans _ _ _ h3 (hsorted'.1 x hx)
            constructor
            · rintro ⟨x, hx, h⟩; exact ⟨x, hx, (hskip x (this x hx)).mpr h⟩
            · rintro ⟨x, hx, h⟩; exact ⟨x, hx, (hskip x (this x hx)).mp h⟩
          · rw [if_neg h3]
            exact hstep g gs (eq_of_not_lt (by simpa using h3) (hq g (by simp))) hsorted hans2
      · rw [if_neg h2]
        exact hstep f fs' (eq_of_not_lt (by simpa using h1) (by simpa using h2)) hf hans

/-- What `NewTagsFilter` builds. -/
theorem newLoop_spec (key : Bytes) : ∀ (es : TagFilterValueMap) (nf : Option Filter) (tfs : List TagFilter)
    (nf' : Option Filter) (tfs' : List TagFilter), newLoop key es nf tfs = .ok (nf', tfs') →
    (es.map (·.1)).Nodup →
    tfs'.map (·.name) = tfs.map (·.name) ++ (es.map (·.1)).filter (fun n => decide (n ≠ key)) ∧
    (∀ t, t ∈ tfs' ↔ t ∈ tfs ∨ ∃ e ∈ es, e.1 ≠ key ∧ t.name = e.1 ∧ newFilterFromFilterValue e.2 = .ok t.valueFilter) ∧
    ((∃ e ∈ es, e.1 = key ∧ ∃ f, newFilterFromFilterValue e.2 = .ok f ∧ nf' = some f) ∨
      ((∀ e ∈ es, e.1 ≠ key) ∧ nf' = nf)) ∧
    ∀ e ∈ es, ∃ f, newFilterFromFilterValue e.2 = .ok f
  | [], nf, tfs, nf', tfs', h, _ => by
    simp only [newLoop, Out.ok.injEq, Prod.mk.injEq] at h
    obtain ⟨rfl, rfl⟩ := h
    simp
  | e :: es, nf, tfs, nf', tfs', h, hn => by
    simp only [List.map_cons, List.nodup_cons] at hn
    simp only [newLoop] at h
    cases hf : newFilterFromFilterValue e.2 with
    | err => simp [hf] at h
    | panic => simp [hf] at h
    | ok f =>
      simp only [hf, Out.ok_bind] at h
      by_cases hk : key = e.1
      · rw [if_pos hk] at h
        obtain ⟨h1, h2, h3, h4⟩ := newLoop_spec key es _ _ _ _ h hn.2
        refine ⟨?_, ?_, ?_, ?_⟩
        · rw [h1]; simp [hk]
        · intro t
          rw [h2]
          simp [hk]
        · left
          rcases h3 with ⟨e', he', hk', _⟩ | ⟨_, h3⟩
          · exact absurd (List.mem_map.mpr ⟨e', he', hk'.trans hk⟩) hn.1
          · exact ⟨e, by simp, hk.symm, f, hf, h3⟩
        · intro x hx
          rcases List.mem_cons.mp hx with rfl | hx
          · exact ⟨f, hf⟩
          · exact h4 x hx
      · rw [if_neg hk] at h
        obtain ⟨h1, h2, h3, h4⟩ := newLoop_spec key es _ _ _ _ h hn.2
        refine ⟨?_, ?_, ?_, ?_⟩
        · rw [h1]; simp [Ne.symm hk]
        · intro t
          rw [h2]
          simp only [List.mem_append, List.mem_cons, List.not_mem_nil, or_false, exists_eq_or_imp, hf, Out.ok.injEq]
          constructor
          · rintro ((ht | rfl) | ht)
            · exact .inl ht
            · exact .inr (.inl ⟨Ne.symm hk, rfl, rfl⟩)
            · exact .inr (.inr ht)
          · rintro (ht | ⟨_, ht1, ht2⟩ | ht)
            · exact .inl (.inl ht)
            · refine .inl (.inr ?_)
              obtain ⟨a, b⟩ := t
              simp only at ht1 ht2
              rw [ht1, ht2]
            · exact .inr ht
        · rcases h3 with ⟨e', he', hk', h3⟩ | ⟨h3, h3'⟩
          · exact .inl ⟨e', by simp [he'], hk', h3⟩
          · refine .inr ⟨?_, h3'⟩
            intro x hx
            rcases List.mem_cons.mp hx with rfl | hx
            · exact Ne.symm hk
            · exact h3 x hx
        · intro x hx
          rcases List.mem_cons.mp hx with rfl | hx
          · exact ⟨f, hf⟩
          · exact h4 x hx

/-- The built filter, in the terms used by the loops. -/
theorem built (key : Bytes) (filters : TagFilterValueMap) (hn : (filters.map (·.1)).Nodup) (op : LogicalOp)
    (f : TagsFilter) (h : newTagsFilter key filters op = .ok f) :
    f.op = op ∧ FSorted f.tagFilters ∧ (∀ t ∈ f.tagFilters, Answers t.valueFilter) ∧
    (∀ t, t ∈ f.tagFilters ↔ ∃ e ∈ filters, e.1 ≠ key ∧ t.name = e.1 ∧
      newFilterFromFilterValue e.2 = .ok t.valueFilter) ∧
    ((∃ e ∈ filters, e.1 = key ∧ ∃ g, newFilterFromFilterValue e.2 = .ok g ∧ f.nameFilter = some g) ∨
      ((∀ e ∈ filters, e.1 ≠ key) ∧ f.nameFilter = none)) ∧
    ∀ e ∈ filters, ∃ f, newFilterFromFilterValue e.2 = .ok f := by
  unfold newTagsFilter at h
  cases hl : newLoop key filters none [] with
  | err => simp [hl] at h
  | panic => simp [hl] at h
  | ok r =>
    obtain ⟨nf, tfs⟩ := r
    simp only [hl, Out.ok_bind, Out.ok.injEq] at h
    subst h
    obtain ⟨h1, h2, h3, h4⟩ := newLoop_spec key filters none [] nf tfs hl hn
    simp only [List.map_nil, List.nil_append] at h1
    have hmem : ∀ t, t ∈ sortBy (fun a b => bytesLt a.name b.name) tfs ↔ ∃ e ∈ filters, e.1 ≠ key ∧
        t.name = e.1 ∧ newFilterFromFilterValue e.2 = .ok t.valueFilter := by
      intro t; rw [mem_sortBy, h2]; simp
    refine ⟨rfl, ?_, ?_, hmem, h3, h4⟩
    · exact sortByKey_strict bytesLt_strictTotal (fun t : TagFilter => t.name) tfs (by
        have : tfs.map (fun t => t.name) = _ := h1
        rw [this]; exact hn.filter _)
    · intro t ht
      obtain ⟨e, _, _, _, he⟩ := (hmem t).mp ht
      exact answers_new _ _ he

theorem accepts_iff (fv : FilterValue) (g : Filter) (h : newFilterFromFilterValue fv = .ok g) (v : Bytes) :
    Accepts fv v ↔ g.matchesVal v = .ok true := by
  unfold Accepts
  rw [h]
  simp

/-- Every entry of the map is either the name entry or one of the tag filters, and it holds accordingly. -/
theorem forall_holds (key name : Bytes) (filters : TagFilterValueMap) (tags : List (Bytes × Bytes))
    (hn : (filters.map (·.1)).Nodup) (op : LogicalOp)
    (f : TagsFilter) (h : newTagsFilter key filters op = .ok f) :
    ((∀ e ∈ filters, Holds key name tags e) ↔
      (∀ g, f.nameFilter = some g → g.matchesVal name = .ok true) ∧ ∀ t ∈ f.tagFilters, TagHolds tags t) ∧
    ((∃ e ∈ filters, Holds key name tags e) ↔
      (∃ g, f.nameFilter = some g ∧ g.matchesVal name = .ok true) ∨ ∃ t ∈ f.tagFilters, TagHolds tags t) := by
  obtain ⟨_, _, _, hmem, hname, hall⟩ := built key filters hn op f h
  have uniq : ∀ e ∈ filters, ∀ e' ∈ filters, e.1 = e'.1 → e = e' := by
    intro e he e' he' heq
    exact inj_of_nodup_map (·.1) _ hn e e' he he' heq
  -- tag entries
  have htag : ∀ e ∈ filters, e.1 ≠ key → ∀ t, t.name = e.1 → newFilterFromFilterValue e.2 = .ok t.valueFilter →
      (Holds key name tags e ↔ TagHolds tags t) := by
    intro e _ hne t ht1 ht2
    simp only [Holds, hne, false_and, ne_eq, not_false_eq_true, true_and, false_or, TagHolds, ht1,
      accepts_iff e.2 _ ht2]
  -- the name entry
  have hnm : ∀ e ∈ filters, e.1 = key → ∃ g, f.nameFilter = some g ∧
      (Holds key name tags e ↔ g.matchesVal name = .ok true) := by
    intro e he hk
    rcases hname with ⟨e', he', hk', g, hg, hng⟩ | ⟨hno, _⟩
    · have := uniq e he e' he' (hk.trans hk'.symm)
      subst this
      refine ⟨g, hng, ?_⟩
      simp [Holds, hk, accepts_iff e.2 _ hg]
    · exact absurd hk (hno e he)
  have mk : ∀ e ∈ filters, e.1 ≠ key → ∃ t ∈ f.tagFilters, (Holds key name tags e ↔ TagHolds tags t) := by
    intro e he hne
    obtain ⟨g, hg⟩ := hall e he
    have ht := (hmem ⟨e.1, g⟩).mpr ⟨e, he, hne, rfl, hg⟩
    exact ⟨⟨e.1, g⟩, ht, htag e he hne _ rfl hg⟩
  have mk2 : ∀ t ∈ f.tagFilters, ∃ e ∈ filters, (Holds key name tags e ↔ TagHolds tags t) := by
    intro t ht
    obtain ⟨e, he, hne, h1, h2⟩ := (hmem t).mp ht
    exact ⟨e, he, htag e he hne t h1 h2⟩
  have mk3 : ∀ g, f.nameFilter = some g → ∃ e ∈ filters, (Holds key name tags e ↔ g.matchesVal name = .ok true) := by
    intro g hg
    rcases hname with ⟨e, he, hk, g', hg', hng⟩ | ⟨_, hnone⟩
    · rw [hg] at hng
      simp only [Option.some.injEq] at hng
      subst hng
      exact ⟨e, he, by simp [Holds, hk, accepts_iff e.2 _ hg']⟩
    · rw [hg] at hnone; cases hnone
  constructor
  · constructor
    · intro hh
      refine ⟨fun g hg => ?_, fun t ht => ?_⟩
      · obtain ⟨e, he, hi⟩ := mk3 g hg
        exact hi.mp (hh e he)
      · obtain ⟨e, he, hi⟩ := mk2 t ht
        exact hi.mp (hh e he)
    · rintro ⟨h1, h2⟩ e he
      by_cases hk : e.1 = key
      · obtain ⟨g, hg, hi⟩ := hnm e he hk
        exact hi.mpr (h1 g hg)
      · obtain ⟨t, ht, hi⟩ := mk e he hk
        exact hi.mpr (h2 t ht)
  · constructor
    · rintro ⟨e, he, hh⟩
      by_cases hk : e.1 = key
      · obtain ⟨g, hg, hi⟩ := hnm e he hk
        exact .inl ⟨g, hg, hi.mp hh⟩
      · obtain ⟨t, ht, hi⟩ := mk e he hk
        exact .inr ⟨t, ht, hi.mp hh⟩
    · rintro (⟨g, hg, hh⟩ | ⟨t, ht, hh⟩)
      · obtain ⟨e, he, hi⟩ := mk3 g hg
        exact ⟨e, he, hi.mpr hh⟩
      · obtain ⟨e, he, hi⟩ := mk2 t ht
        exact ⟨e, he, hi.mpr hh⟩

theorem name_answers (key : Bytes) (filters : TagFilterValueMap) (hn : (filters.map (·.1)).Nodup) (op : LogicalOp)
    (f : TagsFilter) (h : newTagsFilter key filters op = .ok f) (g : Filter) (hg : f.nameFilter = some g) :
    Answers g := by
  obtain ⟨_, _, _, _, hname, _⟩ := built key filters hn op f h
  rcases hname with ⟨e, _, _, g', hg', hng⟩ | ⟨_, hnone⟩
  · rw [hg] at hng
    simp only [Option.some.injEq] at hng
    subst hng
    exact answers_new _ _ hg'
  · rw [hg] at hnone; cases hnone

/-- C30: a conjunctive tags filter matches exactly when every entry holds. -/
theorem C30_conjunction (key : Bytes) (filters : TagFilterValueMap) (hn : (filters.map (·.1)).Nodup)
    (f : TagsFilter) (h : newTagsFilter key filters .conjunction = .ok f)
    (nameAndTagsFn : Bytes → Option (Bytes × Bytes)) (iterFn : Bytes → TagStream) (id name rawTags : Bytes)
    (tags : List (Bytes × Bytes)) (hid : nameAndTagsFn id = some (name, rawTags))
    (hit : iterFn rawTags = ⟨tags.map ofPair, false⟩) (hasc : Ascending tags) :
    ∃ r, f.matchesVal nameAndTagsFn iterFn id = .ok r ∧ (r = true ↔ ∀ e ∈ filters, Holds key name tags e) := by
  obtain ⟨hop, hsorted, hans, _, _, _⟩ := built key filters hn .conjunction f h
  rw [(forall_holds key name filters tags hn _ f h).1]
  obtain ⟨r, hr, hiff⟩ := conj_loop tags f.tagFilters hasc hsorted hans
  unfold TagsFilter.matchesVal
  by_cases hempty : (f.nameFilter.isNone && f.tagFilters.isEmpty) = true
  · rw [if_pos hempty]
    simp only [Bool.and_eq_true, Option.isNone_iff_eq_none, List.isEmpty_iff] at hempty
    exact ⟨true, rfl, by simp [hempty]⟩
  · rw [if_neg hempty, hid]
    simp only [hit, matchNameTags, hop]
    cases hnf : f.nameFilter with
    | none => exact ⟨r, hr, by simpa using hiff⟩
    | some g =>
      obtain ⟨m, hm⟩ := name_answers key filters hn _ f h g hnf name
      simp only [hm, Out.ok_bind, Option.some.injEq, forall_eq']
      cases m with
      | false => exact ⟨false, by simp, by simp⟩
      | true => exact ⟨r, by simpa using hr, by simpa using hiff⟩

/-- C30: a disjunctive tags filter with at least one entry matches exactly when some entry holds, also when
the tags end in something unreadable; a tags filter without entries matches every metric. -/
theorem C30_disjunction (key : Bytes) (filters : TagFilterValueMap) (hn : (filters.map (·.1)).Nodup)
    (f : TagsFilter) (h : newTagsFilter key filters .disjunction = .ok f)
    (nameAndTagsFn : Bytes → Option (Bytes × Bytes)) (iterFn : Bytes → TagStream) (id name rawTags : Bytes)
    (tags : List (Bytes × Bytes)) (failed : Bool) (hid : nameAndTagsFn id = some (name, rawTags))
    (hit : iterFn rawTags = ⟨tags.map ofPair, failed⟩) (hasc : Ascending tags) :
    ∃ r, f.matchesVal nameAndTagsFn iterFn id = .ok r ∧
      (r = true ↔ filters = [] ∨ ∃ e ∈ filters, Holds key name tags e) := by
  obtain ⟨hop, hsorted, hans, hmem, hname, hall⟩ := built key filters hn .disjunction f h
  rw [(forall_holds key name filters tags hn _ f h).2]
  obtain ⟨r, hr, hiff⟩ := disj_loop failed tags f.tagFilters hasc hsorted hans
  unfold TagsFilter.matchesVal
  by_cases hempty : (f.nameFilter.isNone && f.tagFilters.isEmpty) = true
  · rw [if_pos hempty]
    simp only [Bool.and_eq_true, Option.isNone_iff_eq_none, List.isEmpty_iff] at hempty
    refine ⟨true, rfl, by
      simp only [true_iff]
      left
      cases filters with
      | nil => rfl
      | cons e es =>
        exfalso
        obtain ⟨g, hg⟩ := hall e (by simp)
        by_cases hk : e.1 = key
        · rcases hname with ⟨_, _, _, g', _, hng⟩ | ⟨hno, _⟩
          · rw [hempty.1] at hng; cases hng
          · exact hno e (by simp) hk
        · have := (hmem ⟨e.1, g⟩).mpr ⟨e, by simp, hk, rfl, hg⟩
          rw [hempty.2] at this
          simp at this⟩
  · have hne : filters ≠ [] := by
      rintro rfl
      apply hempty
      have h1 : f.tagFilters = [] := by
        rw [List.eq_nil_iff_forall_not_mem]; intro t ht; simpa using (hmem t).mp ht
      rcases hname with ⟨e, he, _⟩ | ⟨_, h2⟩
      · simp at he
      · simp [h1, h2]
    rw [if_neg hempty, hid]
    simp only [hit, matchNameTags, hop, hne, false_or]
    cases hnf : f.nameFilter with
    | none => exact ⟨r, hr, by simpa using hiff⟩
    | some g =>
      obtain ⟨m, hm⟩ := name_answers key filters hn _ f h g hnf name
      simp only [hm, Out.ok_bind, Option.some.injEq, exists_eq_left']
      cases m with
      | true => exact ⟨true, by simp, by simp⟩
      | false => exact ⟨r, by simpa using hr, by simpa using hiff⟩

/-- `NameAndTagsFn` and `SortedTagIteratorFn` for m3 identifiers. -/
def m3NameAndTags (id : Bytes) : Option (Bytes × Bytes) :=
  match nameAndTags id with
  | .ok r => some r
  | _ => none

def m3Stream (tags : Bytes) : TagStream :=
  match iterate tags with
  | .ok (l, e) => ⟨l, e⟩
  | _ => ⟨[], true⟩

/-- C30 for identifiers of the m3 format. -/
theorem C30_m3 (key : Bytes) (filters : TagFilterValueMap) (hn : (filters.map (·.1)).Nodup)
    (f g : TagsFilter) (hf : newTagsFilter key filters .conjunction = .ok f)
    (hg : newTagsFilter key filters .disjunction = .ok g)
    (name : Bytes) (tags : List (Bytes × Bytes)) (hc : Clean name tags) (hasc : Ascending tags) :
    (∃ r, f.matchesVal m3NameAndTags m3Stream (idText name tags) = .ok r ∧
      (r = true ↔ ∀ e ∈ filters, Holds key name tags e)) ∧
    (∃ r, g.matchesVal m3NameAndTags m3Stream (idText name tags) = .ok r ∧
      (r = true ↔ filters = [] ∨ ∃ e ∈ filters, Holds key name tags e)) := by
  obtain ⟨ts, h1, h2⟩ := C33_parse_back name tags hc
  have e1 : m3NameAndTags (idText name tags) = some (name, ts) := by simp [m3NameAndTags, h1]
  have e2 : m3Stream ts = ⟨tags.map ofPair, false⟩ := by simp [m3Stream, h2]
  exact ⟨C30_conjunction key filters hn f hf _ _ _ name ts tags e1 e2 hasc,
    C30_disjunction key filters hn g hg _ _ _ name ts tags false e1 e2 hasc⟩

/-- C30: an identifier that cannot be split matches only the filter without entries. -/
theorem C30_unsplit (key : Bytes) (filters : TagFilterValueMap) (hn : (filters.map (·.1)).Nodup) (op : LogicalOp)
    (f : TagsFilter) (h : newTagsFilter key filters op = .ok f)
    (nameAndTagsFn : Bytes → Option (Bytes × Bytes)) (iterFn : Bytes → TagStream) (id : Bytes) (hid : nameAndTagsFn id = none) :
    ∃ r, f.matchesVal nameAndTagsFn iterFn id = .ok r ∧ (r = true ↔ filters = []) := by
  obtain ⟨_, _, _, hmem, hname, hall⟩ := built key filters hn op f h
  have hiff : (f.nameFilter.isNone && f.tagFilters.isEmpty) = true ↔ filters = [] := by
    constructor
    · intro hb
      simp only [Bool.and_eq_true, Option.isNone_iff_eq_none, List.isEmpty_iff] at hb
      cases hf : filters with
      | nil => rfl
      | cons e es =>
        exfalso
        have he : e ∈ filters := by rw [hf]; simp
        rcases hname with ⟨_, _, _, g, _, hg⟩ | ⟨hno, _⟩
        · rw [hg] at hb; cases hb.1
        · obtain ⟨g, hg⟩ := hall e he
          have : (⟨e.1, g⟩ : TagFilter) ∈ f.tagFilters := (hmem _).mpr ⟨e, he, hno e he, rfl, hg⟩
          rw [hb.2] at this
          cases this
    · rintro rfl
      rcases hname with ⟨e, he, _⟩ | ⟨_, hnone⟩
      · cases he
      · have : f.tagFilters = [] := by
          cases ht : f.tagFilters with
          | nil => rfl
          | cons t ts =>
            obtain ⟨e, he, _⟩ := (hmem t).mp (by rw [ht]; simp)
            cases he
        simp [hnone, this]
  unfold TagsFilter.matchesVal
  by_cases hb : (f.nameFilter.isNone && f.tagFilters.isEmpty) = true
  · rw [if_pos hb]
    exact ⟨true, rfl, by simp [hiff.mp hb]⟩
  · rw [if_neg hb, hid]
    exact ⟨false, rfl, ⟨fun hc => (nomatch hc), fun hc => absurd (hiff.mpr hc) hb⟩⟩

/-- C30: the order in which Go iterates over the map does not matter: the built filters answer alike. -/
theorem C30_map_order_irrelevant (key : Bytes) (filters filters' : TagFilterValueMap)
    (hn : (filters.map (·.1)).Nodup) (hp : filters.Perm filters') (op : LogicalOp) (f f' : TagsFilter)
    (hf : newTagsFilter key filters op = .ok f) (hf' : newTagsFilter key filters' op = .ok f')
    (name : Bytes) (tags : List (Bytes × Bytes)) (hc : Clean name tags) (hasc : Ascending tags) :
    f.matchesVal m3NameAndTags m3Stream (idText name tags) =
      f'.matchesVal m3NameAndTags m3Stream (idText name tags) := by
  have hn' : (filters'.map (·.1)).Nodup := ((hp.map (·.1)).nodup_iff).mp hn
  obtain ⟨ts, h1, h2⟩ := C33_parse_back name tags hc
  have e1 : m3NameAndTags (idText name tags) = some (name, ts) := by simp [m3NameAndTags, h1]
  have e2 : m3Stream ts = ⟨tags.map ofPair, false⟩ := by simp [m3Stream, h2]
  have bool_eq : ∀ {a b : Bool} {P Q : Prop}, (a = true ↔ P) → (b = true ↔ Q) → (P ↔ Q) → a = b := by
    intro a b P Q ha hb hpq
    have := ha.trans (hpq.trans hb.symm)
    cases a <;> cases b <;> simp_all
  cases op with
  | conjunction =>
    obtain ⟨r, hr, hi⟩ := C30_conjunction key filters hn f hf _ _ _ name ts tags e1 e2 hasc
    obtain ⟨r', hr', hi'⟩ := C30_conjunction key filters' hn' f' hf' _ _ _ name ts tags e1 e2 hasc
    rw [hr, hr', bool_eq hi hi']
    exact ⟨fun h e he => h e (hp.mem_iff.mpr he), fun h e he => h e (hp.mem_iff.mp he)⟩
  | disjunction =>
    obtain ⟨r, hr, hi⟩ := C30_disjunction key filters hn f hf _ _ _ name ts tags false e1 e2 hasc
    obtain ⟨r', hr', hi'⟩ := C30_disjunction key filters' hn' f' hf' _ _ _ name ts tags false e1 e2 hasc
    rw [hr, hr', bool_eq hi hi']
    have : filters = [] ↔ filters' = [] := by
      constructor
      · rintro rfl; exact hp.nil_eq.symm
      · rintro rfl; exact hp.eq_nil
    rw [this]
    simp only [hp.mem_iff]

end Verif.TagsFlt
