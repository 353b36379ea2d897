import Verif.Lemmas.FilterMatch
/- C28, C29: filter patterns. -/
namespace Verif.Flt
open Verif.Spec.Flt Verif.Policy

/-- The filter of a pattern body. -/
def compileBody : Body → Filter
  | .exact ps => .chain (compileWith false [] ps) .middle false
  | .all => .allow
  | .startsWith ps => .chain (compileWith false [] ps) .start false
  | .endsWith ps => .chain (compileWith true [] ps) .stop true
  | .around ps qs => .multi [.chain (compileWith false [] ps) .start false,
      .chain (compileWith true [] qs) .stop true] .conjunction
  | .contains l => .contains l

theorem cutAt_none_iff (sep : UInt8) : ∀ s, cutAt sep s = none ↔ sep ∉ s
  | [] => by simp [cutAt]
  | c :: cs => by
    simp only [cutAt]
    split
    · next h => simp [h]
    · next h => simp [cutAt_none_iff sep cs, Ne.symm h]

/-- The index arithmetic of the wildcard splitting, structurally. -/
theorem newWildcard_eq (p : Bytes) : newWildcardFilter p =
    match cutAt 42 p with
    | none => newRangeFilter p false .middle
    | some (a, b) =>
      if a = [] ∧ b = [] then .ok .allow
      else if b = [] then newRangeFilter a false .start
      else match cutAt 42 b with
        | none => if a = [] then newRangeFilter b true .stop
          else (newRangeFilter a false .start).bind fun f =>
            (newRangeFilter b true .stop).bind fun g => .ok (.multi [f, g] .conjunction)
        | some (c, d) => if a = [] ∧ d = [] ∧ c ≠ [] then newContainsFilter c else .err := by
  unfold newWildcardFilter
  rw [indexByte_eq]
  cases h : cutAt 42 p with
  | none => rfl
  | some q =>
    obtain ⟨a, b⟩ := q
    obtain ⟨rfl, ha⟩ := cutAt_length _ _ _ _ h
    have hlen : (a ++ 42 :: b).length = a.length + 1 + b.length := by simp; omega
    simp only [Option.map_some]
    by_cases h1 : a = [] ∧ b = []
    · rw [if_pos h1, if_pos (by rw [hlen]; simp [h1])]
    · rw [if_neg h1, if_neg (by
        rw [hlen]; intro he
        exact h1 ⟨List.length_eq_zero_iff.mp (by omega), List.length_eq_zero_iff.mp (by omega)⟩)]
      by_cases h2 : b = []
      · subst h2
        rw [if_pos rfl, if_pos (by simp)]
        rw [goSlice_of_le _ _ _ (by omega) (by omega)]
        simp
      · have hb : b.length ≠ 0 := by simpa using h2
        rw [if_neg h2, if_neg (by rw [hlen]; omega)]
        have hs : goSlice (a ++ 42 :: b) (a.length + 1) (a ++ 42 :: b).length = .ok b := by
          rw [goSlice_of_le _ _ _ (by omega) (by omega), List.take_length,
            show a ++ 42 :: b = (a ++ [42]) ++ b by simp]
          rw [List.drop_left' (by simp)]
        rw [hs]
        simp only [Out.ok_bind]
        rw [indexByte_eq]
        cases h3 : cutAt 42 b with
        | none =>
          simp only [Option.map_none]
          by_cases h4 : a = []
          · subst h4
            rw [if_pos (by rfl), if_pos rfl]
            rw [goSlice_of_le _ _ _ (by rw [hlen]; omega) (by omega)]
            simp
          · have ha0 : a.length ≠ 0 := by simpa using h4
            rw [if_neg ha0, if_neg h4]
            rw [goSlice_of_le _ 0 a.length (by omega) (by omega)]
            simp only [List.take_left', List.drop_zero, Out.ok_bind]
            rfl
        | some q =>
          obtain ⟨c, d⟩ := q
          obtain ⟨rfl, hc⟩ := cutAt_length _ _ _ _ h3
          simp only [Option.map_some]
          have hl2 : (a ++ 42 :: (c ++ 42 :: d)).length = a.length + 2 + c.length + d.length := by
            simp; omega
          by_cases h4 : a = [] ∧ d = [] ∧ c ≠ []
          · obtain ⟨rfl, rfl, hc0⟩ := h4
            have : c.length ≠ 0 := by simpa using hc0
            rw [if_pos (by rw [hl2]; simp; omega), if_pos ⟨rfl, rfl, hc0⟩]
            rw [goSlice_of_le _ _ _ (by rw [hl2]; simp) (by omega)]
            simp
          · rw [if_neg h4, if_neg]
            rintro ⟨e1, e2, e3⟩
            rw [hl2] at e2 e3
            apply h4
            refine ⟨List.length_eq_zero_iff.mp e1, List.length_eq_zero_iff.mp (by omega), ?_⟩
            intro hc0; subst hc0
            simp at e2 e3
            omega

theorem renderAll_no_star (ps : List Piece) (h : ∀ p ∈ ps, p.WF) : 42 ∉ renderAll ps := by
  intro hm
  simp only [renderAll, List.mem_flatten, List.mem_map] at hm
  obtain ⟨l, ⟨p, hp, rfl⟩, hm⟩ := hm
  have hw := h p hp
  cases p with
  | lit c => simp [Piece.render] at hm; exact hw.1 hm.symm
  | any => simp [Piece.render] at hm
  | chars neg cs =>
    have := hw.1
    cases neg <;> simp [Piece.render, this] at hm
  | ranges neg rs =>
    have h1 : (42 : UInt8) ∉ (rs.map renderRange).flatten := by
      intro hc
      simp only [List.mem_flatten, List.mem_map] at hc
      obtain ⟨l, ⟨r, hr, rfl⟩, hc⟩ := hc
      have := hw.2.1 r hr
      simp only [renderRange, List.mem_cons, List.not_mem_nil, or_false] at hc
      rcases hc with hc | hc | hc
      · exact this.2.1 hc.symm
      · exact absurd hc (by decide)
      · exact this.2.2.1 hc.symm
    cases neg <;> simp only [Piece.render, Bool.false_eq_true, if_true, if_false, List.mem_append,
      List.mem_cons, List.not_mem_nil, or_false, h1] at hm <;> revert hm <;> decide
  | alts l =>
    have := joinWith_not_mem 44 42 (by decide) l (fun a ha => (hw.2.2 a ha).1)
    simp [Piece.render, this] at hm

theorem render_ne_nil (p : Piece) : p.render ≠ [] := by cases p <;> simp [Piece.render]

theorem renderAll_eq_nil (ps : List Piece) : renderAll ps = [] ↔ ps = [] := by
  cases ps with
  | nil => simp [renderAll]
  | cons p ps => simp [renderAll, render_ne_nil]

theorem newRange_render (ps : List Piece) (h : ∀ p ∈ ps, p.WF) (bw : Bool) (seg : Seg) :
    newRangeFilter (renderAll ps) bw seg = .ok (.chain (compileWith bw [] ps) seg bw) := by
  rw [newRangeFilter_eq, segParse_render ps h]

theorem newWildcard_render (b : Body) (h : b.WF) : newWildcardFilter b.render = .ok (compileBody b) := by
  rw [newWildcard_eq]
  cases b with
  | exact ps =>
    have := (cutAt_none_iff 42 _).mpr (renderAll_no_star ps h)
    simp only [Body.render, this, newRange_render ps h, compileBody]
  | all => rfl
  | startsWith ps =>
    have h1 := cutAt_append' 42 (renderAll ps) [] (renderAll_no_star ps h.2)
    have h2 : renderAll ps ≠ [] := by rw [Ne, renderAll_eq_nil]; exact h.1
    simp only [Body.render, h1, h2, false_and, if_false, if_true, newRange_render ps h.2, compileBody]
  | endsWith ps =>
    have h1 : cutAt 42 (42 :: renderAll ps) = some ([], renderAll ps) := by simp [cutAt]
    have h2 : renderAll ps ≠ [] := by rw [Ne, renderAll_eq_nil]; exact h.1
    have h3 := (cutAt_none_iff 42 _).mpr (renderAll_no_star ps h.2)
    simp only [Body.render, h1, h2, h3, and_false, if_false, if_true, newRange_render ps h.2, compileBody]
  | around ps qs =>
    obtain ⟨hp, hq, hpw, hqw⟩ := h
    have h1 := cutAt_append' 42 (renderAll ps) (renderAll qs) (renderAll_no_star ps hpw)
    have h2 : renderAll ps ≠ [] := by rw [Ne, renderAll_eq_nil]; exact hp
    have h4 : renderAll qs ≠ [] := by rw [Ne, renderAll_eq_nil]; exact hq
    have h3 := (cutAt_none_iff 42 _).mpr (renderAll_no_star qs hqw)
    simp only [Body.render, h1, h2, h3, h4, and_false, if_false, newRange_render ps hpw,
      newRange_render qs hqw, compileBody]
    rfl
  | contains l =>
    obtain ⟨h0, h1, h2, h3, h4⟩ := h
    have e1 : cutAt 42 (42 :: l ++ [42]) = some ([], l ++ [42]) := by simp [cutAt]
    have e2 := cutAt_append' 42 l [] h1
    have e3 : (l.any fun c => c == 63 || c == 91 || c == 123) = false := by
      rw [List.any_eq_false]
      intro c hc
      have a1 : c ≠ 63 := fun e => h2 (e ▸ hc)
      have a2 : c ≠ 91 := fun e => h3 (e ▸ hc)
      have a3 : c ≠ 123 := fun e => h4 (e ▸ hc)
      simp [a1, a2, a3]
    simp only [Body.render, e1, e2]
    simp [h0, newContainsFilter, e3, compileBody]

theorem newRange_inv (s : Bytes) (hs : 42 ∉ s) (bw : Bool) (seg : Seg) (f : Filter)
    (h : newRangeFilter s bw seg = .ok f) : ∃ ps, s = renderAll ps ∧ ∀ p ∈ ps, p.WF := by
  rw [newRangeFilter_eq] at h
  cases hp : segParse s with
  | none => simp [hp] at h
  | some ps => exact ⟨ps, segParse_inv _ s ps rfl hs hp⟩

theorem newRange_not_panic (s : Bytes) (bw : Bool) (seg : Seg) : newRangeFilter s bw seg ≠ .panic := by
  rw [newRangeFilter_eq]
  cases segParse s <;> simp

theorem newWildcard_not_panic (p : Bytes) : newWildcardFilter p ≠ .panic := by
  rw [newWildcard_eq]
  split
  · exact newRange_not_panic _ _ _
  · split
    · simp
    · split
      · exact newRange_not_panic _ _ _
      · split
        · split
          · exact newRange_not_panic _ _ _
          · next a b _ _ _ _ _ _ =>
            have h1 := newRange_not_panic a false .start
            have h2 := newRange_not_panic b true .stop
            cases hf : newRangeFilter a false .start with
            | ok f =>
              cases hg : newRangeFilter b true .stop with
              | ok g => simp [Out.bind]
              | err => simp [Out.bind]
              | panic => exact absurd hg h2
            | err => simp [Out.bind]
            | panic => exact absurd hf h1
        · split
          · unfold newContainsFilter; split <;> simp
          · simp

theorem newWildcard_inv (p : Bytes) (f : Filter) (h : newWildcardFilter p = .ok f) :
    ∃ b : Body, b.WF ∧ p = b.render := by
  rw [newWildcard_eq] at h
  split at h
  · next hc =>
    obtain ⟨ps, h1, h2⟩ := newRange_inv _ ((cutAt_none_iff _ _).mp hc) _ _ _ h
    exact ⟨.exact ps, h2, h1⟩
  · next a b hc =>
    obtain ⟨rfl, ha⟩ := cutAt_length _ _ _ _ hc
    split at h
    · next h1 => obtain ⟨rfl, rfl⟩ := h1; exact ⟨.all, trivial, rfl⟩
    · next h1 =>
      split at h
      · next h2 =>
        subst h2
        obtain ⟨ps, e1, e2⟩ := newRange_inv _ ha _ _ _ h
        refine ⟨.startsWith ps, ⟨?_, e2⟩, by simp [Body.render, e1]⟩
        rintro rfl
        exact h1 ⟨by simpa [renderAll] using e1, rfl⟩
      · next h2 =>
        split at h
        · next hc2 =>
          have hb := (cutAt_none_iff _ _).mp hc2
          split at h
          · next h3 =>
            subst h3
            obtain ⟨ps, e1, e2⟩ := newRange_inv _ hb _ _ _ h
            refine ⟨.endsWith ps, ⟨?_, e2⟩, by simp [Body.render, e1]⟩
            rintro rfl
            exact h2 (by simpa [renderAll] using e1)
          · next h3 =>
            cases hf : newRangeFilter a false .start with
            | err => simp [hf, Out.bind] at h
            | panic => simp [hf, Out.bind] at h
            | ok f1 =>
              cases hg : newRangeFilter b true .stop with
              | err => simp [hf, hg, Out.bind] at h
              | panic => simp [hf, hg, Out.bind] at h
              | ok g1 =>
                obtain ⟨ps, e1, e2⟩ := newRange_inv _ ha _ _ _ hf
                obtain ⟨qs, e3, e4⟩ := newRange_inv _ hb _ _ _ hg
                refine ⟨.around ps qs, ⟨?_, ?_, e2, e4⟩, by simp [Body.render, e1, e3]⟩
                · rintro rfl; exact h3 (by simpa [renderAll] using e1)
                · rintro rfl; exact h2 (by simpa [renderAll] using e3)
        · next c d hc2 =>
          obtain ⟨rfl, hcs⟩ := cutAt_length _ _ _ _ hc2
          split at h
          · next h3 =>
            obtain ⟨rfl, rfl, hne⟩ := h3
            unfold newContainsFilter at h
            split at h
            · simp at h
            · next hany =>
              simp only [List.any_eq_true, not_exists, not_and] at hany
              refine ⟨.contains c, ⟨hne, hcs, ?_, ?_, ?_⟩, by simp [Body.render]⟩ <;>
                intro hm <;> exact absurd (hany _ hm) (by decide)
          · simp at h

/-- C29: building a filter from any pattern, with or without an extra negation flag, yields a filter or an
error and never an out-of-range access. -/
theorem C29_construction_never_panics (p : Bytes) (neg : Bool) :
    newFilter p ≠ .panic ∧ newFilterFromFilterValue ⟨p, neg⟩ ≠ .panic := by
  have h : newFilter p ≠ .panic := by
    unfold newFilter
    cases p with
    | nil => simp
    | cons c t =>
      simp only [List.length_cons, Nat.add_eq_zero_iff, Nat.succ_ne_self, and_false, if_false]
      rw [goIndex_of_lt _ _ (by simp)]
      simp only [List.getElem_cons_zero, Out.ok_bind]
      split
      · exact newWildcard_not_panic _
      · split
        · simp
        · rw [goSlice_of_le _ _ _ (by simp) (by simp)]
          simp only [Out.ok_bind]
          generalize (List.drop 1 (List.take (t.length + 1) (c :: t))) = q
          have := newWildcard_not_panic q
          cases hq : newWildcardFilter q with
          | ok f => simp
          | err => simp
          | panic => exact absurd hq this
  refine ⟨h, ?_⟩
  unfold newFilterFromFilterValue
  cases hf : newFilter p with
  | ok f => simp
  | err => simp
  | panic => exact absurd hf h

/-! ### Matching of compiled bodies -/

theorem forward_start (ps : List Piece) (hne : ps ≠ []) (v : Bytes) :
    (Filter.chain (compileWith false [] ps) .start false).matchesVal v = .ok (stepF ps v).isSome := by
  simp only [Filter.matchesVal, chain_forward ps hne]
  cases stepF ps v <;> simp

theorem forward_middle (ps : List Piece) (hne : ps ≠ []) (v : Bytes) :
    (Filter.chain (compileWith false [] ps) .middle false).matchesVal v =
      .ok (decide (stepF ps v = some [])) := by
  simp only [Filter.matchesVal, chain_forward ps hne]
  cases stepF ps v with
  | none => simp
  | some r => cases r <;> simp

theorem backward_stop (ps : List Piece) (hne : ps ≠ []) (v : Bytes) :
    (Filter.chain (compileWith true [] ps) .stop true).matchesVal v = .ok (stepB ps v).isSome := by
  simp only [Filter.matchesVal, chain_backward ps hne]

theorem around_matches (ps qs : List Piece) (hp : ps ≠ []) (hq : qs ≠ []) (v : Bytes) :
    (compileBody (.around ps qs)).matchesVal v = .ok ((stepF ps v).isSome && (stepB qs v).isSome) := by
  simp only [compileBody, Filter.matchesVal, multiLoop]
  rw [chain_forward ps hp, chain_backward qs hq]
  cases stepF ps v <;> cases stepB qs v <;> simp

/-- The match result of a compiled body, as a predicate. -/
def Hit : Body → Bytes → Prop
  | .exact ps, v => stepF ps v = some []
  | .all, _ => True
  | .startsWith ps, v => (stepF ps v).isSome
  | .endsWith ps, v => (stepB ps v).isSome
  | .around ps qs, v => (stepF ps v).isSome ∧ (stepB qs v).isSome
  | .contains l, v => ∃ x y, v = x ++ l ++ y

theorem compileBody_matches (b : Body) (h : b.WF) (hb : b.render ≠ []) (v : Bytes) :
    ∃ r, (compileBody b).matchesVal v = .ok r ∧ (r = true ↔ Hit b v) := by
  cases b with
  | exact ps =>
    have : ps ≠ [] := by rintro rfl; exact hb rfl
    exact ⟨_, forward_middle ps this v, by simp [Hit]⟩
  | all => exact ⟨true, rfl, by simp [Hit]⟩
  | startsWith ps => exact ⟨_, forward_start ps h.1 v, by simp [Hit]⟩
  | endsWith ps => exact ⟨_, backward_stop ps h.1 v, by simp [Hit]⟩
  | around ps qs => exact ⟨_, around_matches ps qs h.1 h.2.1 v, by simp [Hit]⟩
  | contains l => exact ⟨_, by simp only [compileBody, Filter.matchesVal], containsBytes_iff v l⟩

/-- How `NewFilter` and the match of its result come about, for every well-formed pattern. -/
theorem newFilter_render (p : Pattern) (h : p.WF) (v : Bytes) :
    ∃ f, newFilter p.render = .ok f ∧ ∃ r, f.matchesVal v = .ok r ∧
      (r = true ↔ if p.neg then ¬ Hit p.body v else Hit p.body v) := by
  obtain ⟨neg, b⟩ := p
  obtain ⟨hw, hn1, hn2⟩ := h
  cases neg with
  | true =>
    have hb := hn1 rfl
    obtain ⟨r, h1, h2⟩ := compileBody_matches b hw hb v
    simp only at hb
    have hlen : b.render.length ≠ 0 := by simpa using hb
    refine ⟨.negation (compileBody b), ?_, !r, ?_, ?_⟩
    · simp only [Pattern.render, if_true, newFilter]
      rw [goIndex_of_lt _ _ (by simp), goSlice_of_le _ _ _ (by simp) (by simp)]
      simp [hb, newWildcard_render b hw]
    · simp [Filter.matchesVal, h1]
    · cases r <;> simp_all
  | false =>
    have hb := hn2 rfl
    simp only at hb
    cases hr : b.render with
    | nil =>
      refine ⟨.equality [], by simp [Pattern.render, hr, newFilter], decide (v = []),
        by cases v <;> simp [Filter.matchesVal], ?_⟩
      cases b with
      | exact ps =>
        have : ps = [] := (renderAll_eq_nil ps).mp hr
        subst this
        simp [Hit, stepF]
      | all => simp [Body.render] at hr
      | startsWith ps => simp [Body.render] at hr
      | endsWith ps => simp [Body.render] at hr
      | around ps qs => simp [Body.render] at hr
      | contains l => simp [Body.render] at hr
    | cons c t =>
      obtain ⟨r, h1, h2⟩ := compileBody_matches b hw (by simp [hr]) v
      refine ⟨compileBody b, ?_, r, h1, by simpa using h2⟩
      have hc : c ≠ 33 := by simpa [hr] using hb
      have e := newWildcard_render b hw
      rw [hr] at e
      simp only [Pattern.render, Bool.false_eq_true, if_false, newFilter, hr]
      rw [goIndex_of_lt _ _ (by simp)]
      simp [hc, e]

/-- C28, part 1: the accepted patterns are exactly those of the pattern language. -/
theorem C28_accepts_iff (t : Bytes) : (∃ f, newFilter t = .ok f) ↔ ∃ p : Pattern, p.WF ∧ t = p.render := by
  constructor
  · rintro ⟨f, h⟩
    unfold newFilter at h
    cases t with
    | nil => exact ⟨⟨false, .exact []⟩, ⟨by simp [Body.WF], by simp, by simp [Body.render, renderAll]⟩, rfl⟩
    | cons c t =>
      simp only [List.length_cons, Nat.add_eq_zero_iff, Nat.succ_ne_self, and_false, if_false] at h
      rw [goIndex_of_lt _ _ (by simp)] at h
      simp only [List.getElem_cons_zero, Out.ok_bind] at h
      split at h
      · next hc =>
        obtain ⟨b, hb, he⟩ := newWildcard_inv _ _ h
        refine ⟨⟨false, b⟩, ⟨hb, by simp, ?_⟩, by simpa [Pattern.render] using he⟩
        intro _
        rw [← he]
        simpa using hc
      · next hc =>
        split at h
        · simp at h
        · next hl =>
          rw [goSlice_of_le _ _ _ (by simp) (by simp)] at h
          simp only [Out.ok_bind] at h
          have : List.drop 1 (List.take (t.length + 1) (c :: t)) = t := by simp
          rw [this] at h
          cases hq : newWildcardFilter t with
          | err => simp [hq] at h
          | panic => simp [hq] at h
          | ok g =>
            obtain ⟨b, hb, he⟩ := newWildcard_inv _ _ hq
            have hc' : c = 33 := by simpa using hc
            refine ⟨⟨true, b⟩, ⟨hb, ?_, by simp⟩, by simp [Pattern.render, ← he, hc']⟩
            intro _
            rw [← he]
            rintro rfl
            simp at hl
  · rintro ⟨p, hp, rfl⟩
    obtain ⟨f, hf, _⟩ := newFilter_render p hp []
    exact ⟨f, hf⟩

/-- C29: matching a filter built from any accepted pattern against any byte string gives an answer. -/
theorem C29_matching_never_panics (p : Bytes) (neg : Bool) (f : Filter)
    (h : newFilterFromFilterValue ⟨p, neg⟩ = .ok f) (v : Bytes) : ∃ r, f.matchesVal v = .ok r := by
  unfold newFilterFromFilterValue at h
  cases hq : newFilter p with
  | err => simp [hq] at h
  | panic => simp [hq] at h
  | ok g =>
    obtain ⟨pt, hw, rfl⟩ := (C28_accepts_iff p).mp ⟨g, hq⟩
    obtain ⟨g', h1, r, h2, _⟩ := newFilter_render pt hw v
    rw [hq] at h1
    simp only [Out.ok.injEq] at h1
    subst h1
    simp only [hq, Out.ok_bind, Out.ok.injEq] at h
    subst h
    cases neg with
    | true => exact ⟨!r, by simp [Filter.matchesVal, h2]⟩
    | false => exact ⟨r, by simp [h2]⟩

/-- C29 for composite filters: conjunctions and disjunctions of filters that always answer always answer,
and the answer is the conjunction resp. disjunction. -/
theorem C29_multi_filters (fs : List Filter) (v : Bytes) (h : ∀ f ∈ fs, ∃ r, f.matchesVal v = .ok r) :
    (∃ r, (Filter.multi fs .conjunction).matchesVal v = .ok r ∧
      (r = true ↔ ∀ f ∈ fs, f.matchesVal v = .ok true)) ∧
    (∃ r, (Filter.multi fs .disjunction).matchesVal v = .ok r ∧
      (r = true ↔ fs = [] ∨ ∃ f ∈ fs, f.matchesVal v = .ok true)) := by
  have conj : ∀ fs : List Filter, (∀ f ∈ fs, ∃ r, f.matchesVal v = .ok r) →
      ∃ r, multiLoop fs .conjunction v = .ok r ∧ (r = true ↔ ∀ f ∈ fs, f.matchesVal v = .ok true) := by
    intro fs
    induction fs with
    | nil => intro _; exact ⟨true, by simp [multiLoop], by simp⟩
    | cons f fs ih =>
      intro h
      obtain ⟨r, hr⟩ := h f (by simp)
      obtain ⟨s, hs, hiff⟩ := ih (fun g hg => h g (by simp [hg]))
      cases r with
      | false => exact ⟨false, by simp [multiLoop, hr], by simp [hr]⟩
      | true => exact ⟨s, by simp [multiLoop, hr, hs], by simp [hr, hiff]⟩
  have disj : ∀ fs : List Filter, (∀ f ∈ fs, ∃ r, f.matchesVal v = .ok r) →
      ∃ r, multiLoop fs .disjunction v = .ok r ∧ (r = true ↔ ∃ f ∈ fs, f.matchesVal v = .ok true) := by
    intro fs
    induction fs with
    | nil => intro _; exact ⟨false, by simp [multiLoop], by simp⟩
    | cons f fs ih =>
      intro h
      obtain ⟨r, hr⟩ := h f (by simp)
      obtain ⟨s, hs, hiff⟩ := ih (fun g hg => h g (by simp [hg]))
      cases r with
      | true => exact ⟨true, by simp [multiLoop, hr], by simp [hr]⟩
      | false => exact ⟨s, by simp [multiLoop, hr, hs], by simp [hr, hiff]⟩
  cases fs with
  | nil => exact ⟨⟨true, by simp [Filter.matchesVal], by simp⟩, ⟨true, by simp [Filter.matchesVal], by simp⟩⟩
  | cons f fs =>
    refine ⟨?_, ?_⟩
    · simpa [Filter.matchesVal] using conj (f :: fs) h
    · have := disj (f :: fs) h
      simpa [Filter.matchesVal] using this

theorem denAll_ne (ps : List Piece) (x : Bytes) (h : stepF ps x = some []) : DenAll ps x := by
  obtain ⟨y, rfl, hy⟩ := stepF_sound ps x [] h
  simpa using hy

theorem hit_sound (b : Body) (v : Bytes) (hit : Hit b v)
    (hlen : ∀ ps qs, b = .around ps qs → maxLenAll ps + maxLenAll qs ≤ v.length) : b.Den v := by
  cases b with
  | exact ps => exact denAll_ne ps v hit
  | all => trivial
  | startsWith ps =>
    obtain ⟨r, hr⟩ := Option.isSome_iff_exists.mp hit
    obtain ⟨x, rfl, hx⟩ := stepF_sound ps v r hr
    exact ⟨x, r, rfl, hx⟩
  | endsWith ps =>
    obtain ⟨r, hr⟩ := Option.isSome_iff_exists.mp hit
    obtain ⟨x, rfl, hx⟩ := stepB_sound ps v r hr
    exact ⟨r, x, rfl, hx⟩
  | around ps qs =>
    obtain ⟨h1, h2⟩ := hit
    obtain ⟨r, hr⟩ := Option.isSome_iff_exists.mp h1
    obtain ⟨x, e1, hx⟩ := stepF_sound ps v r hr
    obtain ⟨q, hq⟩ := Option.isSome_iff_exists.mp h2
    obtain ⟨z, e2, hz⟩ := stepB_sound qs v q hq
    have l1 := denAll_length ps x hx
    have l2 := denAll_length qs z hz
    have l3 := hlen ps qs rfl
    have hzr : z.length ≤ r.length := by
      have := congrArg List.length e1; simp at this; omega
    have hsuf : z <:+ r := by
      have hz' : z <:+ v := ⟨q, e2.symm⟩
      have hr' : r <:+ v := ⟨x, e1.symm⟩
      exact List.suffix_of_suffix_length_le hz' hr' hzr
    obtain ⟨y, rfl⟩ := hsuf
    exact ⟨x, y, z, by rw [e1]; simp, hx, hz⟩
  | contains l => exact hit

theorem hit_complete (b : Body) (v : Bytes) (hu : b.Unambiguous) (h : b.Den v) : Hit b v := by
  cases b with
  | exact ps =>
    have := stepF_complete ps v [] hu h
    simpa [Hit] using this
  | all => trivial
  | startsWith ps =>
    obtain ⟨x, y, rfl, hx⟩ := h
    simp [Hit, stepF_complete ps x y hu hx]
  | endsWith ps =>
    obtain ⟨x, y, rfl, hy⟩ := h
    simp [Hit, stepB_complete ps y x hu hy]
  | around ps qs =>
    obtain ⟨x, y, z, rfl, hx, hz⟩ := h
    have h1 := stepF_complete ps x (y ++ z) hu.1 hx
    have h2 := stepB_complete qs z (x ++ y) hu.2 hz
    simp only [List.append_assoc] at h2
    simp [Hit, h1, h2]
  | contains l => exact h

/-- C28, main part: the filter of a well-formed pattern matches exactly the strings the pattern denotes,
provided no alternative is empty or the beginning (for a part after `*`: the end) of another one, and, for
`p*q`, provided the string is long enough that the two parts cannot overlap.  Without these provisos the
claim is false, see `C28_overlap_violation`, `C28_alternatives_violation` and `C28_empty_alternative_violation`. -/
theorem C28_exact_partial (p : Pattern) (hw : p.WF) (hu : p.body.Unambiguous) (v : Bytes)
    (hlen : ∀ ps qs, p.body = .around ps qs → maxLenAll ps + maxLenAll qs ≤ v.length) :
    ∃ f, newFilter p.render = .ok f ∧ ∃ r, f.matchesVal v = .ok r ∧ (r = true ↔ p.Den v) := by
  obtain ⟨f, h1, r, h2, h3⟩ := newFilter_render p hw v
  refine ⟨f, h1, r, h2, h3.trans ?_⟩
  have : Hit p.body v ↔ p.body.Den v :=
    ⟨fun h => hit_sound _ _ h hlen, fun h => hit_complete _ _ hu h⟩
  unfold Pattern.Den
  split <;> simp [this]

theorem atSide_iff (bw : Bool) (x v : Bytes) : AtSide bw x v ↔ ∃ r, v = join bw x r := by
  cases bw
  · simp only [AtSide, join, Bool.false_eq_true, if_false]
    exact ⟨fun ⟨r, h⟩ => ⟨r, h.symm⟩, fun ⟨r, h⟩ => ⟨r, h.symm⟩⟩
  · simp only [AtSide, join, if_true]
    exact ⟨fun ⟨r, h⟩ => ⟨r, h.symm⟩, fun ⟨r, h⟩ => ⟨r, h.symm⟩⟩

theorem strip_none_iff (bw : Bool) (x v : Bytes) : strip bw x v = none ↔ ¬ AtSide bw x v := by
  rw [atSide_iff]
  cases h : strip bw x v with
  | none =>
    simp only [true_iff]
    rintro ⟨r, hr⟩
    rw [(strip_iff bw x v r).mpr hr] at h
    cases h
  | some r => simpa using ⟨r, (strip_iff ..).mp h⟩

theorem findSome_strip (bw : Bool) (v r : Bytes) : ∀ l : List Bytes,
    (l.findSome? fun p => strip bw p v) = some r ↔
      ∃ x, v = join bw x r ∧ ∃ pre post, l = pre ++ x :: post ∧ ∀ a ∈ pre, ¬ AtSide bw a v
  | [] => by simp
  | a :: l => by
    simp only [List.findSome?_cons]
    cases hs : strip bw a v with
    | some w =>
      simp only [Option.some.injEq]
      constructor
      · rintro rfl
        exact ⟨a, (strip_iff ..).mp hs, [], l, rfl, by simp⟩
      · rintro ⟨x, hx, pre, post, e, hn⟩
        cases pre with
        | nil =>
          simp only [List.nil_append, List.cons.injEq] at e
          rw [← e.1] at hx
          have := (strip_iff ..).mpr hx
          rw [hs] at this
          exact Option.some.inj this
        | cons b pre =>
          simp only [List.cons_append, List.cons.injEq] at e
          exact absurd ((atSide_iff ..).mpr ⟨w, (strip_iff ..).mp hs⟩) (e.1 ▸ hn b (by simp))
    | none =>
      simp only
      rw [findSome_strip bw v r l]
      have hna := (strip_none_iff ..).mp hs
      constructor
      · rintro ⟨x, hx, pre, post, rfl, hn⟩
        refine ⟨x, hx, a :: pre, post, rfl, ?_⟩
        intro b hb
        rcases List.mem_cons.mp hb with rfl | hb
        · exact hna
        · exact hn b hb
      · rintro ⟨x, hx, pre, post, e, hn⟩
        cases pre with
        | nil =>
          simp only [List.nil_append, List.cons.injEq] at e
          exact absurd ((atSide_iff ..).mpr ⟨r, e.1 ▸ hx⟩) hna
        | cons b pre =>
          simp only [List.cons_append, List.cons.injEq] at e
          exact ⟨x, hx, pre, post, e.2, fun a ha => hn a (by simp [ha])⟩

/-- One chain filter takes what the committed reader takes. -/
theorem cstep_takes (bw : Bool) (p : Piece) (v r : Bytes) :
    cstep (chainOf bw p) v = some r ↔ ∃ x, v = join bw x r ∧ p.Takes bw x v := by
  have single : (∀ l, p ≠ .alts l) →
      (cstep (chainOf bw p) v = some r ↔ ∃ x, v = join bw x r ∧ p.Takes bw x v) := by
    intro hp
    have ht : ∀ x, p.Takes bw x v ↔ p.Den x ∧ AtSide bw x v := by
      intro x
      cases p <;> first | rfl | exact absurd rfl (hp _)
    have hf : Free bw p := by
      cases p <;> first | (cases bw <;> trivial) | exact absurd rfl (hp _)
    constructor
    · intro h
      obtain ⟨x, hx, hd⟩ := cstep_sound bw p v r h
      exact ⟨x, hx, (ht x).mpr ⟨hd, (atSide_iff ..).mpr ⟨r, hx⟩⟩⟩
    · rintro ⟨x, hx, h⟩
      rw [hx]
      exact cstep_complete bw p hf x r ((ht x).mp h).1
  cases p with
  | alts l =>
    simp only [chainOf, cstep, Piece.Takes]
    split
    · next hv => simp [hv]
    · next hv =>
      rw [findSome_strip]
      constructor
      · rintro ⟨x, hx, rest⟩
        exact ⟨x, hx, hv, (atSide_iff ..).mpr ⟨r, hx⟩, rest⟩
      · rintro ⟨x, hx, _, _, rest⟩
        exact ⟨x, hx, rest⟩
  | _ => exact single (by simp)

theorem stepF_takes : ∀ (ps : List Piece) (v r : Bytes), stepF ps v = some r ↔ LeavesRight ps v r
  | [], v, r => by simp [stepF, LeavesRight, eq_comm]
  | p :: ps, v, r => by
    simp only [stepF, Option.bind_eq_some_iff, LeavesRight, cstep_takes, stepF_takes ps]
    constructor
    · rintro ⟨w, ⟨x, hx, ht⟩, hl⟩
      exact ⟨x, w, by simpa [join] using hx, ht, hl⟩
    · rintro ⟨x, w, hx, ht, hl⟩
      exact ⟨w, ⟨x, by simpa [join] using hx, ht⟩, hl⟩

theorem stepB_takes : ∀ (ps : List Piece) (v r : Bytes), stepB ps v = some r ↔ LeavesLeft ps v r
  | [], v, r => by simp [stepB, LeavesLeft, eq_comm]
  | p :: ps, v, r => by
    simp only [stepB, Option.bind_eq_some_iff, LeavesLeft, cstep_takes, stepB_takes ps]
    constructor
    · rintro ⟨w, hl, x, hx, ht⟩
      exact ⟨w, x, hl, by simpa [join] using hx, ht⟩
    · rintro ⟨w, x, hl, hx, ht⟩
      exact ⟨w, hl, x, by simpa [join] using hx, ht⟩

theorem hit_committed (b : Body) (v : Bytes) : Hit b v ↔ b.Committed v := by
  cases b <;> simp only [Hit, Body.Committed, stepF_takes, Option.isSome_iff_exists, stepB_takes]

/-- C28, what the filter of an accepted pattern does, whatever the pattern and the value: it answers whether
a reader who never goes back gets through. -/
theorem C28_committed (t : Bytes) (f : Filter) (hf : newFilter t = .ok f) :
    ∃ p : Pattern, p.WF ∧ t = p.render ∧ ∀ v, ∃ r, f.matchesVal v = .ok r ∧ (r = true ↔ p.Committed v) := by
  obtain ⟨p, hw, rfl⟩ := (C28_accepts_iff t).mp ⟨f, hf⟩
  refine ⟨p, hw, rfl, fun v => ?_⟩
  obtain ⟨g, h1, r, h2, h3⟩ := newFilter_render p hw v
  rw [hf] at h1
  simp only [Out.ok.injEq] at h1
  subst h1
  refine ⟨r, h2, h3.trans ?_⟩
  unfold Pattern.Committed
  split <;> simp [hit_committed]

/-- The same for a given way to read the pattern: patterns with the same text are satisfied by the same
values. -/
theorem C28_committed_of (p : Pattern) (hw : p.WF) :
    ∃ f, newFilter p.render = .ok f ∧ ∀ v, ∃ r, f.matchesVal v = .ok r ∧ (r = true ↔ p.Committed v) := by
  obtain ⟨f, h1, _⟩ := newFilter_render p hw []
  refine ⟨f, h1, fun v => ?_⟩
  obtain ⟨g, h2, r, h3, h4⟩ := newFilter_render p hw v
  rw [h1] at h2
  simp only [Out.ok.injEq] at h2
  subst h2
  refine ⟨r, h3, h4.trans ?_⟩
  unfold Pattern.Committed
  split <;> simp [hit_committed]

/-- A case where the two readings of a pattern part: `{a,ab}c` denotes `abc`, but the reader settles for
`a`. -/
example : let p : Pattern := ⟨false, .exact [.alts [bs "a", bs "ab"], .lit 99]⟩
    p.WF ∧ p.Den (bs "abc") ∧ ¬ p.Committed (bs "abc") ∧ p.Committed (bs "ac") := by
  refine ⟨⟨by simp [Body.WF, Piece.WF, bs], by simp, by decide +kernel⟩, ?_, ?_, ?_⟩
  · exact ⟨bs "ab", bs "c", rfl, by simp [Piece.Den], bs "c", [], rfl, rfl, rfl⟩
  · simp only [Pattern.Committed, Bool.false_eq_true, if_false, ← hit_committed, Hit]
    decide +kernel
  · simp only [Pattern.Committed, Bool.false_eq_true, if_false, ← hit_committed, Hit]
    decide +kernel

/-- C28 without any restriction on alternatives: a positive pattern with at most one wildcard at an end
matches only strings it denotes. -/
theorem C28_sound (b : Body) (hw : b.WF) (hb : b.render.head? ≠ some 33) (hna : ∀ ps qs, b ≠ .around ps qs)
    (f : Filter) (v : Bytes) (hf : newFilter b.render = .ok f) (hm : f.matchesVal v = .ok true) : b.Den v := by
  obtain ⟨f', h1, r, h2, h3⟩ := newFilter_render ⟨false, b⟩ ⟨hw, by simp, by simpa using hb⟩ v
  simp only [Pattern.render, Bool.false_eq_true, if_false] at h1
  rw [hf] at h1
  simp only [Out.ok.injEq] at h1
  subst h1
  rw [hm] at h2
  simp only [Out.ok.injEq] at h2
  exact hit_sound b v (by simpa using h3.mp h2.symm) (fun ps qs e => absurd e (hna ps qs))

/-- C28 for `p*q` without a length proviso: the filter answers whether the string begins with `p` and
ends with `q` (the two may overlap). -/
theorem C28_around_prefix_and_suffix (ps qs : List Piece) (hw : (Body.around ps qs).WF)
    (hb : (Body.around ps qs).render.head? ≠ some 33) (hu : (Body.around ps qs).Unambiguous) (v : Bytes) :
    ∃ f, newFilter (Body.around ps qs).render = .ok f ∧ ∃ r, f.matchesVal v = .ok r ∧
      (r = true ↔ (Body.startsWith ps).Den v ∧ (Body.endsWith qs).Den v) := by
  obtain ⟨f, h1, r, h2, h3⟩ := newFilter_render ⟨false, .around ps qs⟩ ⟨hw, by simp, by simpa using hb⟩ v
  refine ⟨f, by simpa [Pattern.render] using h1, r, h2, h3.trans ?_⟩
  simp only [Bool.false_eq_true, if_false]
  constructor
  · rintro ⟨a, b⟩
    exact ⟨hit_sound (.startsWith ps) v a (by simp), hit_sound (.endsWith qs) v b (by simp)⟩
  · rintro ⟨a, b⟩
    exact ⟨hit_complete (.startsWith ps) v hu.1 a, hit_complete (.endsWith qs) v hu.2 b⟩

/-- The code violates C28: `a*a` matches the one-character string `a`. -/
theorem C28_overlap_violation : ∃ (p : Pattern) (v : Bytes) (f : Filter), p.WF ∧ p.body.Unambiguous ∧
    newFilter p.render = .ok f ∧ f.matchesVal v = .ok true ∧ ¬ p.Den v := by
  let p : Pattern := ⟨false, .around [.lit 97] [.lit 97]⟩
  have hw : p.WF := ⟨by simp [p, Body.WF, Piece.WF], by simp [p], by simp [p, Body.render, renderAll, Piece.render]⟩
  obtain ⟨f, h1, r, h2, h3⟩ := newFilter_render p hw [97]
  refine ⟨p, [97], f, hw, by simp [p, Body.Unambiguous, Piece.PrefixFree, Piece.SuffixFree], h1, ?_, ?_⟩
  · rw [h2, h3.mpr]
    simp only [p, Bool.false_eq_true, if_false, Hit]
    constructor <;> rfl
  · simp only [Pattern.Den, Bool.false_eq_true, if_false, p, Body.Den, not_exists]
    rintro x y z ⟨h, hx, hz⟩
    simp only [DenAll, Piece.Den] at hx hz
    obtain ⟨a, b, rfl, rfl, rfl⟩ := hx
    obtain ⟨a, b, rfl, rfl, rfl⟩ := hz
    have := congrArg List.length h
    simp at this

/-- The code violates C28: `{a,ab}c` does not match `abc`. -/
theorem C28_alternatives_violation : ∃ (p : Pattern) (v : Bytes) (f : Filter), p.WF ∧
    newFilter p.render = .ok f ∧ f.matchesVal v = .ok false ∧ p.Den v := by
  let p : Pattern := ⟨false, .exact [.alts [[97], [97, 98]], .lit 99]⟩
  have hw : p.WF := ⟨by simp [p, Body.WF, Piece.WF], by simp [p], by simp [p, Body.render, renderAll, Piece.render]⟩
  obtain ⟨f, h1, r, h2, h3⟩ := newFilter_render p hw [97, 98, 99]
  refine ⟨p, [97, 98, 99], f, hw, h1, ?_, ?_⟩
  · cases r with
    | false => exact h2
    | true =>
      have := h3.mp rfl
      simp only [p, Bool.false_eq_true, if_false, Hit] at this
      exact absurd this (by decide)
  · simp only [Pattern.Den, Bool.false_eq_true, if_false, p, Body.Den, DenAll, Piece.Den]
    exact ⟨[97, 98], [99], rfl, by simp, [99], [], rfl, rfl, rfl⟩

/-- The code violates C28: `{a,}` does not match the empty string. -/
theorem C28_empty_alternative_violation : ∃ (p : Pattern) (f : Filter), p.WF ∧
    newFilter p.render = .ok f ∧ f.matchesVal [] = .ok false ∧ p.Den [] := by
  let p : Pattern := ⟨false, .exact [.alts [[97], []]]⟩
  have hw : p.WF := ⟨by simp [p, Body.WF, Piece.WF], by simp [p],
    by simp [p, Body.render, renderAll, Piece.render]⟩
  obtain ⟨f, h1, r, h2, h3⟩ := newFilter_render p hw []
  refine ⟨p, f, hw, h1, ?_, ?_⟩
  · cases r with
    | false => exact h2
    | true =>
      have := h3.mp rfl
      simp only [p, Bool.false_eq_true, if_false, Hit] at this
      exact absurd this (by decide)
  · simp only [Pattern.Den, Bool.false_eq_true, if_false, p, Body.Den, DenAll, Piece.Den]
    exact ⟨[], [], rfl, by simp, rfl⟩

-- non-vacuity: `!a[0-9]?{x,yz}*[!bc]` is well formed and unambiguous
example : ∃ p : Pattern, p.WF ∧ p.body.Unambiguous ∧ p.render = bs "!a[0-9]?{x,yz}*[!bc]" ∧
    ∃ v, (∀ ps qs, p.body = .around ps qs → maxLenAll ps + maxLenAll qs ≤ v.length) ∧ v = bs "a7-yzqqd" := by
  refine ⟨⟨true, .around [.lit 97, .ranges false [(48, 57)], .any, .alts [[120], [121, 122]]]
    [.chars true [98, 99]]⟩, ⟨?_, ?_, ?_⟩, ?_, ?_, bs "a7-yzqqd", ?_, rfl⟩
  · simp [Body.WF, Piece.WF]
  · simp [Body.render, renderAll, Piece.render]
  · simp
  · simp only [Body.Unambiguous]
    constructor
    · intro p hp
      simp at hp
      rcases hp with rfl | rfl | rfl | rfl <;> simp [Piece.PrefixFree]
    · simp [Piece.SuffixFree]
  · decide
  · rintro ps qs h
    simp only [Body.around.injEq] at h
    obtain ⟨rfl, rfl⟩ := h
    decide

-- the filters above are really computed by the model
example : (newFilter (bs "!a[0-9]?{x,yz}*[!bc]")).bind (·.matchesVal (bs "a7-yzqqb")) = .ok true := by
  obtain ⟨f, h1, r, h2, h3⟩ := newFilter_render ⟨true, .around
    [.lit 97, .ranges false [(48, 57)], .any, .alts [[120], [121, 122]]] [.chars true [98, 99]]⟩
    ⟨by simp [Body.WF, Piece.WF], by simp [Body.render, renderAll, Piece.render], by simp⟩ (bs "a7-yzqqb")
  have e : newFilter (bs "!a[0-9]?{x,yz}*[!bc]") = .ok f := h1
  rw [e]
  show f.matchesVal _ = _
  rw [h2, h3.mpr]
  simp only [if_true, Hit]
  decide

end Verif.Flt
