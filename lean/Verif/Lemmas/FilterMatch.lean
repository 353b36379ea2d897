import Verif.Lemmas.Filter
/- Lemmas for C28/C29: what the constructed filters match. -/
namespace Verif.Flt
open Verif.Spec.Flt Verif.Policy

/-- `x` next to the rest `r` in reading direction. -/
def join (bw : Bool) (x r : Bytes) : Bytes := if bw then r ++ x else x ++ r

/-- Remove `a` in reading direction. -/
def strip (bw : Bool) (a v : Bytes) : Option Bytes :=
  if bw then if hasSuffix v a then some (v.take (v.length - a.length)) else none
  else if hasPrefix v a then some (v.drop a.length) else none

/-- Remove one byte in reading direction. -/
def one (bw : Bool) (v : Bytes) : Option (UInt8 × Bytes) :=
  match v with
  | [] => none
  | c :: t => if bw then some ((c :: t).getLast (by simp), (c :: t).dropLast) else some (c, t)

theorem hasPrefix_iff : ∀ (v p : Bytes), hasPrefix v p = true ↔ ∃ r, v = p ++ r
  | v, [] => by simp [hasPrefix]
  | [], p :: ps => by simp [hasPrefix]
  | c :: v, p :: ps => by
    simp [hasPrefix, hasPrefix_iff v ps]

theorem hasSuffix_iff (v p : Bytes) : hasSuffix v p = true ↔ ∃ r, v = r ++ p := by
  unfold hasSuffix
  rw [hasPrefix_iff]
  constructor
  · rintro ⟨r, h⟩
    refine ⟨r.reverse, ?_⟩
    have := congrArg List.reverse h
    simpa using this
  · rintro ⟨r, rfl⟩; exact ⟨r.reverse, by simp⟩

theorem containsBytes_iff : ∀ (v p : Bytes), containsBytes v p = true ↔ ∃ x y, v = x ++ p ++ y
  | [], p => by
    simp only [containsBytes, hasPrefix_iff]
    constructor
    · rintro ⟨r, h⟩; exact ⟨[], r, by simpa using h⟩
    · rintro ⟨x, y, h⟩
      have : x = [] ∧ p = [] ∧ y = [] := by simpa [and_assoc] using h.symm
      exact ⟨[], by simp [this]⟩
  | c :: v, p => by
    simp only [containsBytes, Bool.or_eq_true, hasPrefix_iff, containsBytes_iff v p]
    constructor
    · rintro (⟨r, h⟩ | ⟨x, y, rfl⟩)
      · exact ⟨[], r, by simpa using h⟩
      · exact ⟨c :: x, y, by simp⟩
    · rintro ⟨x, y, h⟩
      cases x with
      | nil => exact .inl ⟨y, by simpa using h⟩
      | cons d x =>
        simp only [List.cons_append, List.cons.injEq] at h
        exact .inr ⟨x, y, h.2⟩

theorem strip_iff (bw : Bool) (a v r : Bytes) : strip bw a v = some r ↔ v = join bw a r := by
  unfold strip join
  cases bw with
  | true =>
    simp only [if_true]
    constructor
    · intro h
      split at h
      · next hs =>
        obtain ⟨q, rfl⟩ := (hasSuffix_iff _ _).mp hs
        simp at h; rw [h]
      · simp at h
    · rintro rfl
      rw [if_pos ((hasSuffix_iff _ _).mpr ⟨r, rfl⟩)]
      simp
  | false =>
    simp only [Bool.false_eq_true, if_false]
    constructor
    · intro h
      split at h
      · next hs =>
        obtain ⟨q, rfl⟩ := (hasPrefix_iff _ _).mp hs
        simp at h; rw [h]
      · simp at h
    · rintro rfl
      rw [if_pos ((hasPrefix_iff _ _).mpr ⟨r, rfl⟩)]
      simp

theorem one_iff (bw : Bool) (v : Bytes) (c : UInt8) (r : Bytes) :
    one bw v = some (c, r) ↔ v = join bw [c] r := by
  cases v with
  | nil => cases bw <;> simp [one, join]
  | cons d t =>
    cases bw with
    | false => simp [one, join]
    | true =>
      simp only [one, join, if_true, Option.some.injEq, Prod.mk.injEq]
      constructor
      · rintro ⟨rfl, rfl⟩; exact (List.dropLast_concat_getLast (by simp)).symm
      · intro h
        constructor
        · have : (d :: t).getLast? = (r ++ [c]).getLast? := by rw [h]
          simpa [List.getLast?_eq_some_getLast] using this
        · rw [h]; simp

theorem join_length (bw : Bool) (x r : Bytes) : (join bw x r).length = x.length + r.length := by
  cases bw <;> simp [join]; omega

/-- What one chain filter does to a value, without indices. -/
def cstep (f : ChainFilter) (v : Bytes) : Option Bytes :=
  match f.kind with
  | .equality p => strip f.backwards p v
  | .anyChar => (one f.backwards v).map (·.2)
  | .singleRange ps neg => (one f.backwards v).bind fun q =>
      if (ps.any fun p => match p with | [lo, _, hi] => decide (lo ≤ q.1 ∧ q.1 ≤ hi) | _ => false) != neg
      then some q.2 else none
  | .singleCharSet p neg => (one f.backwards v).bind fun q =>
      if (p.contains q.1) != neg then some q.2 else none
  | .multiCharSequence ps => if v = [] then none else ps.findSome? fun p => strip f.backwards p v

/-- Range patterns have three bytes. -/
def Good (f : ChainFilter) : Prop :=
  match f.kind with
  | .singleRange ps _ => ∀ p ∈ ps, ∃ a b c, p = [a, b, c]
  | _ => True

theorem goSlice_back (v : Bytes) (n : Nat) (h : n ≤ v.length) :
    goSlice v 0 (v.length - n) = .ok (v.take (v.length - n)) := by
  rw [goSlice_of_le _ _ _ (by omega) (by omega)]; simp

theorem goSlice_front (v : Bytes) (n : Nat) (h : n ≤ v.length) :
    goSlice v n v.length = .ok (v.drop n) := by
  rw [goSlice_of_le _ _ _ h (by omega)]; simp

theorem hasSuffix_length (v p : Bytes) (h : hasSuffix v p = true) : p.length ≤ v.length := by
  obtain ⟨r, rfl⟩ := (hasSuffix_iff _ _).mp h; simp

theorem hasPrefix_length (v p : Bytes) (h : hasPrefix v p = true) : p.length ≤ v.length := by
  obtain ⟨r, rfl⟩ := (hasPrefix_iff _ _).mp h; simp

theorem rangeHit_eq (c : UInt8) : ∀ (ps : List Bytes), (∀ p ∈ ps, ∃ a b d, p = [a, b, d]) →
    rangeHit c ps = .ok (ps.any fun p => match p with | [lo, _, hi] => decide (lo ≤ c ∧ c ≤ hi) | _ => false)
  | [], _ => rfl
  | p :: ps, h => by
    obtain ⟨a, b, d, rfl⟩ := h p (by simp)
    have ih := rangeHit_eq c ps (fun q hq => h q (by simp [hq]))
    simp only [rangeHit, goIndex, List.getElem?_cons_zero, Out.ok_bind, List.any_cons]
    by_cases h1 : a ≤ c
    · simp only [ge_iff_le, h1, if_true, List.getElem?_cons_succ, List.getElem?_cons_zero, Out.ok_bind]
      by_cases h2 : c ≤ d
      · simp [h2]
      · simp [h2, ih]
    · simp [h1, ih]

theorem setHit_eq (bw : Bool) (v : Bytes) (c : UInt8) (r : Bytes) (hv : one bw v = some (c, r)) :
    ∀ (p : Bytes), setHit bw v p = .ok (p.contains c)
  | [] => rfl
  | d :: p => by
    have ih := setHit_eq bw v c r hv p
    have hidx : goIndex v (if bw = true then v.length - 1 else 0) = .ok c := by
      rw [one_iff] at hv
      subst hv
      cases bw with
      | true => simp [goIndex, join]
      | false => simp [goIndex, join]
    simp only [setHit]
    rw [hidx]
    simp only [Out.ok_bind, ih]
    by_cases h : c = d
    · simp [h]
    · simp [h]

theorem seqHit_eq (bw : Bool) (v : Bytes) : ∀ (ps : List Bytes),
    ∃ r m, seqHit bw v ps = .ok (r, m) ∧
      (ps.findSome? fun p => strip bw p v) = if m then some r else none
  | [] => ⟨[], false, rfl, rfl⟩
  | p :: ps => by
    obtain ⟨r, m, h1, h2⟩ := seqHit_eq bw v ps
    simp only [seqHit, List.findSome?_cons]
    cases bw with
    | true =>
      by_cases hs : hasSuffix v p = true
      · refine ⟨v.take (v.length - p.length), true, ?_, ?_⟩
        · simp [hs, goSlice_back v _ (hasSuffix_length _ _ hs)]
        · simp [strip, hs]
      · refine ⟨r, m, ?_, ?_⟩
        · simp [hs, h1]
        · have : strip true p v = none := by simp [strip, hs]
          rw [this]; simpa using h2
    | false =>
      by_cases hs : hasPrefix v p = true
      · refine ⟨v.drop p.length, true, ?_, ?_⟩
        · simp [hs, goSlice_front v _ (hasPrefix_length _ _ hs)]
        · simp [strip, hs]
      · refine ⟨r, m, ?_, ?_⟩
        · simp [hs, h1]
        · have : strip false p v = none := by simp [strip, hs]
          rw [this]; simpa using h2

theorem one_none (bw : Bool) (v : Bytes) (h : one bw v = none) : v = [] := by
  cases v with
  | nil => rfl
  | cons c t => cases bw <;> simp [one] at h

theorem matchesVal_eq (f : ChainFilter) (hg : Good f) (v : Bytes) :
    ∃ r m, f.matchesVal v = .ok (r, m) ∧ cstep f v = if m then some r else none := by
  obtain ⟨k, bw⟩ := f
  have hback : ∀ c r, one true v = some (c, r) → goSlice v 0 (v.length - 1) = .ok r := by
    intro c r h
    rw [one_iff] at h; subst h
    rw [goSlice_back _ _ (by simp [join])]; simp [join]
  have hfront : ∀ c r, one false v = some (c, r) → goSlice v 1 v.length = .ok r := by
    intro c r h
    rw [one_iff] at h; subst h
    rw [goSlice_front _ _ (by simp [join])]; simp [join]
  cases k with
  | equality p =>
    simp only [ChainFilter.matchesVal, cstep]
    cases bw with
    | true =>
      by_cases hs : hasSuffix v p = true
      · exact ⟨v.take (v.length - p.length), true, by simp [hs, goSlice_back v _ (hasSuffix_length _ _ hs)],
          by simp [strip, hs]⟩
      · exact ⟨[], false, by simp [hs], by simp [strip, hs]⟩
    | false =>
      by_cases hs : hasPrefix v p = true
      · exact ⟨v.drop p.length, true, by simp [hs, goSlice_front v _ (hasPrefix_length _ _ hs)],
          by simp [strip, hs]⟩
      · exact ⟨[], false, by simp [hs], by simp [strip, hs]⟩
  | anyChar =>
    simp only [ChainFilter.matchesVal, cstep]
    cases h1 : one bw v with
    | none => have := one_none _ _ h1; subst this; exact ⟨[], false, rfl, rfl⟩
    | some q =>
      have hne : v.length ≠ 0 := by
        have := (one_iff bw v q.1 q.2).mp h1
        rw [this, join_length]; simp
      refine ⟨q.2, true, ?_, by simp⟩
      cases bw with
      | true => simp [hne, hback q.1 q.2 h1]
      | false => simp [hne, hfront q.1 q.2 h1]
  | singleRange ps neg =>
    simp only [ChainFilter.matchesVal, cstep]
    cases h1 : one bw v with
    | none => have := one_none _ _ h1; subst this; exact ⟨[], false, rfl, rfl⟩
    | some q =>
      have hj := (one_iff bw v q.1 q.2).mp h1
      have hne : v.length ≠ 0 := by rw [hj, join_length]; simp
      have h1v : goSlice v 1 v.length = .ok (v.drop 1) := goSlice_front v 1 (by omega)
      have hidx : goIndex v (if bw = true then v.length - 1 else 0) = .ok q.1 := by
        rw [hj]
        cases bw <;> simp [goIndex, join]
      have hrem : rangeRemainder bw v (if bw = true then v.length - 1 else 0) (v.drop 1) = .ok q.2 := by
        unfold rangeRemainder
        cases bw with
        | true => simp [hback q.1 q.2 h1]
        | false => rw [hj]; simp [join]
      rw [if_neg hne, h1v]
      simp only [Out.ok_bind]
      rw [hrem, hidx]
      simp only [Out.ok_bind]
      rw [rangeHit_eq q.1 ps hg]
      simp only [Out.ok_bind, Option.bind_some]
      generalize (ps.any fun p => match p with
        | [lo, _, hi] => decide (lo ≤ q.1 ∧ q.1 ≤ hi) | _ => false) = hit
      refine ⟨q.2, if neg then !hit else hit, rfl, ?_⟩
      cases neg <;> cases hit <;> rfl
  | singleCharSet p neg =>
    simp only [ChainFilter.matchesVal, cstep]
    cases h1 : one bw v with
    | none => have := one_none _ _ h1; subst this; exact ⟨[], false, rfl, rfl⟩
    | some q =>
      have hj := (one_iff bw v q.1 q.2).mp h1
      have hne : v.length ≠ 0 := by rw [hj, join_length]; simp
      rw [if_neg hne, setHit_eq bw v q.1 q.2 h1]
      simp only [Out.ok_bind, Option.bind_some]
      refine ⟨q.2, if neg then !(p.contains q.1) else p.contains q.1, ?_, ?_⟩
      · cases bw with
        | true => simp [hback q.1 q.2 h1]
        | false => simp [hfront q.1 q.2 h1]
      · cases neg <;> cases p.contains q.1 <;> rfl
  | multiCharSequence ps =>
    simp only [ChainFilter.matchesVal, cstep]
    by_cases hv : v = []
    · subst hv; exact ⟨[], false, rfl, rfl⟩
    · have : v.length ≠ 0 := by simpa using hv
      rw [if_neg this, if_neg hv]
      exact seqHit_eq bw v ps

/-- Run of a list of chain filters in visiting order. -/
def runC : List ChainFilter → Bytes → Option Bytes
  | [], v => some v
  | f :: fs, v => (cstep f v).bind (runC fs)

theorem runChain_eq : ∀ (fs : List ChainFilter), (∀ f ∈ fs, Good f) → ∀ v, runChain fs v = .ok (runC fs v)
  | [], _, v => rfl
  | f :: fs, h, v => by
    obtain ⟨r, m, h1, h2⟩ := matchesVal_eq f (h f (by simp)) v
    have ih := runChain_eq fs (fun g hg => h g (by simp [hg]))
    simp only [runChain, h1, Out.ok_bind, runC, h2]
    cases m <;> simp [ih]

theorem good_chainOf (bw : Bool) (p : Piece) : Good (chainOf bw p) := by
  cases p <;> simp only [chainOf, Good]
  intro q hq
  obtain ⟨r, _, rfl⟩ := List.mem_map.mp hq
  exact ⟨_, _, _, rfl⟩

theorem good_flush (bw : Bool) (run : Bytes) : ∀ f ∈ flushRun bw run, Good f := by
  unfold flushRun
  split <;> simp [Good]

theorem good_compile (bw : Bool) : ∀ (ps : List Piece) (run : Bytes), ∀ f ∈ compileWith bw run ps, Good f
  | [], run => good_flush bw run
  | p :: ps, run => by
    have ih := good_compile bw ps
    intro f hf
    cases p with
    | lit c => exact ih _ f hf
    | _ =>
      simp only [compileWith, List.mem_append, List.mem_cons] at hf
      rcases hf with hf | rfl | hf
      · exact good_flush bw run f hf
      · exact good_chainOf bw _
      · exact ih _ f hf

/-- Pieces one after the other from the left. -/
def stepF : List Piece → Bytes → Option Bytes
  | [], v => some v
  | p :: ps, v => (cstep (chainOf false p) v).bind (stepF ps)

/-- Pieces from the right. -/
def stepB : List Piece → Bytes → Option Bytes
  | [], v => some v
  | p :: ps, v => (stepB ps v).bind (cstep (chainOf true p))

theorem runC_append : ∀ (fs gs : List ChainFilter) v, runC (fs ++ gs) v = (runC fs v).bind (runC gs)
  | [], gs, v => rfl
  | f :: fs, gs, v => by
    simp only [List.cons_append, runC]
    cases cstep f v with
    | none => rfl
    | some w => simp [runC_append fs gs w]

theorem strip_nil (bw : Bool) (v : Bytes) : strip bw [] v = some v := by
  rw [strip_iff]; cases bw <;> simp [join]

theorem runC_flush (bw : Bool) (run : Bytes) (v : Bytes) : runC (flushRun bw run) v = strip bw run v := by
  unfold flushRun
  split
  · next h => rw [h, strip_nil]; rfl
  · simp only [runC, cstep]; cases strip bw run v <;> rfl

theorem strip_append_false (a b v : Bytes) : strip false (a ++ b) v = (strip false a v).bind (strip false b) := by
  apply Option.ext
  intro r
  rw [strip_iff]
  simp only [Option.bind_eq_some_iff, strip_iff]
  constructor
  · rintro rfl; exact ⟨b ++ r, by simp [join], by simp [join]⟩
  · rintro ⟨w, rfl, rfl⟩; simp [join]

theorem strip_append_true (a b v : Bytes) : strip true (a ++ b) v = (strip true b v).bind (strip true a) := by
  apply Option.ext
  intro r
  rw [strip_iff]
  simp only [Option.bind_eq_some_iff, strip_iff]
  constructor
  · rintro rfl; exact ⟨r ++ a, by simp [join], by simp [join]⟩
  · rintro ⟨w, rfl, rfl⟩; simp [join]

theorem compile_forward : ∀ (ps : List Piece) (run v : Bytes),
    runC (compileWith false run ps) v = (strip false run v).bind (stepF ps)
  | [], run, v => by
    simp only [compileWith, runC_flush]
    cases strip false run v <;> rfl
  | p :: ps, run, v => by
    have ih := compile_forward ps
    have other : compileWith false run (p :: ps) = flushRun false run ++ chainOf false p :: compileWith false [] ps →
        runC (compileWith false run (p :: ps)) v = (strip false run v).bind (stepF (p :: ps)) := by
      intro h
      rw [h, runC_append, runC_flush]
      congr 1
      funext w
      simp only [runC, stepF]
      congr 1
      funext u
      rw [ih, strip_nil]; rfl
    cases p with
    | lit c =>
      simp only [compileWith, ih, strip_append_false, Option.bind_assoc]
      rfl
    | _ => exact other rfl

theorem compile_backward : ∀ (ps : List Piece) (run v : Bytes),
    runC (compileWith true run ps).reverse v = (stepB ps v).bind (strip true run)
  | [], run, v => by
    have : (flushRun true run).reverse = flushRun true run := by unfold flushRun; split <;> rfl
    simp only [compileWith, this, runC_flush, stepB, Option.bind_some]
  | p :: ps, run, v => by
    have ih := compile_backward ps
    have hrev : (flushRun true run).reverse = flushRun true run := by unfold flushRun; split <;> rfl
    have other : compileWith true run (p :: ps) = flushRun true run ++ chainOf true p :: compileWith true [] ps →
        runC (compileWith true run (p :: ps)).reverse v = (stepB (p :: ps) v).bind (strip true run) := by
      intro h
      rw [h]
      simp only [List.reverse_append, List.reverse_cons, hrev, runC_append, ih, stepB]
      simp only [Option.bind_assoc, runC]
      congr 1
      funext w
      rw [strip_nil]
      simp only [Option.bind_some]
      cases cstep (chainOf true p) w <;> simp [runC_flush]
    cases p with
    | lit c =>
      simp only [compileWith, ih, stepB, Option.bind_assoc]
      congr 1
      funext w
      rw [strip_append_true]
      rfl
    | _ => exact other rfl

/-! ### Denotation -/

theorem cstep_sound (bw : Bool) (p : Piece) (v r : Bytes) (h : cstep (chainOf bw p) v = some r) :
    ∃ x, v = join bw x r ∧ p.Den x := by
  cases p with
  | lit c =>
    simp only [chainOf, cstep] at h
    exact ⟨[c], (strip_iff ..).mp h, rfl⟩
  | any =>
    simp only [chainOf, cstep, Option.map_eq_some_iff] at h
    obtain ⟨q, h1, rfl⟩ := h
    exact ⟨[q.1], (one_iff ..).mp h1, q.1, rfl⟩
  | chars neg cs =>
    simp only [chainOf, cstep, Option.bind_eq_some_iff] at h
    obtain ⟨q, h1, h2⟩ := h
    split at h2
    · next hm =>
      simp only [Option.some.injEq] at h2
      subst h2
      refine ⟨[q.1], (one_iff ..).mp h1, q.1, rfl, ?_⟩
      cases neg <;> simp_all
    · simp at h2
  | ranges neg rs =>
    simp only [chainOf, cstep, Option.bind_eq_some_iff] at h
    obtain ⟨q, h1, h2⟩ := h
    split at h2
    · next hm =>
      simp only [Option.some.injEq] at h2
      subst h2
      refine ⟨[q.1], (one_iff ..).mp h1, q.1, rfl, ?_⟩
      cases neg <;> simpa [renderRange] using hm
    · simp at h2
  | alts l =>
    simp only [chainOf, cstep] at h
    split at h
    · simp at h
    · obtain ⟨x, hx, h2⟩ := List.exists_of_findSome?_eq_some h
      exact ⟨x, (strip_iff ..).mp h2, hx⟩

/-- Alternatives unambiguous in reading direction. -/
def Free (bw : Bool) (p : Piece) : Prop := if bw then p.SuffixFree else p.PrefixFree

theorem cstep_complete (bw : Bool) (p : Piece) (hf : Free bw p) (x r : Bytes) (h : p.Den x) :
    cstep (chainOf bw p) (join bw x r) = some r := by
  have hone : ∀ c, one bw (join bw [c] r) = some (c, r) := fun c => (one_iff ..).mpr rfl
  cases p with
  | lit c =>
    simp only [Piece.Den] at h
    subst h
    simp only [chainOf, cstep]
    exact (strip_iff ..).mpr rfl
  | any =>
    obtain ⟨c, rfl⟩ := h
    simp [chainOf, cstep, hone]
  | chars neg cs =>
    obtain ⟨c, rfl, hc⟩ := h
    simp only [chainOf, cstep, hone, Option.bind_some]
    cases neg <;> simp_all
  | ranges neg rs =>
    obtain ⟨c, rfl, hc⟩ := h
    simp only [chainOf, cstep, hone, Option.bind_some]
    rw [if_pos]
    cases neg <;> simpa [renderRange] using hc
  | alts l =>
    simp only [Piece.Den] at h
    have hfree : (∀ a ∈ l, a ≠ []) ∧ ∀ a ∈ l, ∀ r', join bw x r = join bw a r' → a = x := by
      cases bw with
      | true =>
        obtain ⟨h1, h2⟩ := hf
        refine ⟨h1, fun a ha r' he => ?_⟩
        simp only [join, if_true] at he
        have hax : a <:+ r ++ x := ⟨r', he.symm⟩
        have hxx : x <:+ r ++ x := List.suffix_append r x
        rcases List.suffix_or_suffix_of_suffix hax hxx with h | h'
        · exact h2 a ha x ‹_› h
        · exact (h2 x ‹_› a ha h').symm
      | false =>
        obtain ⟨h1, h2⟩ := hf
        refine ⟨h1, fun a ha r' he => ?_⟩
        simp only [join, Bool.false_eq_true, if_false] at he
        have hax : a <+: x ++ r := ⟨r', he.symm⟩
        have hxx : x <+: x ++ r := List.prefix_append x r
        rcases List.prefix_or_prefix_of_prefix hax hxx with h | h'
        · exact h2 a ha x ‹_› h
        · exact (h2 x ‹_› a ha h').symm
    have hx : x ≠ [] := hfree.1 x h
    have hv : join bw x r ≠ [] := by
      intro he
      have := congrArg List.length he
      rw [join_length] at this
      simp at this
      exact hx this.1
    simp only [chainOf, cstep]
    rw [if_neg hv]
    have hsome : (l.findSome? fun p => strip bw p (join bw x r)).isSome := by
      rw [List.findSome?_isSome_iff]
      exact ⟨x, h, by rw [(strip_iff ..).mpr rfl]; rfl⟩
    obtain ⟨r', hr'⟩ := Option.isSome_iff_exists.mp hsome
    rw [hr']
    obtain ⟨a, ha, h2⟩ := List.exists_of_findSome?_eq_some hr'
    have he := (strip_iff ..).mp h2
    have hax := hfree.2 a ha r' he
    subst hax
    have := (strip_iff bw a (join bw a r) r).mpr rfl
    rw [h2] at this
    exact this

theorem stepF_sound : ∀ (ps : List Piece) (v r : Bytes), stepF ps v = some r →
    ∃ x, v = x ++ r ∧ DenAll ps x
  | [], v, r, h => by simp only [stepF, Option.some.injEq] at h; exact ⟨[], by simp [h], rfl⟩
  | p :: ps, v, r, h => by
    simp only [stepF, Option.bind_eq_some_iff] at h
    obtain ⟨w, h1, h2⟩ := h
    obtain ⟨x, rfl, hx⟩ := cstep_sound false p v w h1
    obtain ⟨y, rfl, hy⟩ := stepF_sound ps w r h2
    exact ⟨x ++ y, by simp [join], x, y, rfl, hx, hy⟩

theorem stepF_complete : ∀ (ps : List Piece) (x r : Bytes), (∀ p ∈ ps, p.PrefixFree) → DenAll ps x →
    stepF ps (x ++ r) = some r
  | [], x, r, _, h => by simp only [DenAll] at h; subst h; rfl
  | p :: ps, s, r, hf, h => by
    obtain ⟨x, y, rfl, hx, hy⟩ := h
    have h1 := cstep_complete false p (hf p (by simp)) x (y ++ r) hx
    have h2 := stepF_complete ps y r (fun q hq => hf q (by simp [hq])) hy
    simp only [join, Bool.false_eq_true, if_false] at h1
    simp only [stepF, List.append_assoc, h1, Option.bind_some, h2]

theorem stepB_sound : ∀ (ps : List Piece) (v r : Bytes), stepB ps v = some r →
    ∃ x, v = r ++ x ∧ DenAll ps x
  | [], v, r, h => by simp only [stepB, Option.some.injEq] at h; exact ⟨[], by simp [h], rfl⟩
  | p :: ps, v, r, h => by
    simp only [stepB, Option.bind_eq_some_iff] at h
    obtain ⟨w, h1, h2⟩ := h
    obtain ⟨y, rfl, hy⟩ := stepB_sound ps v w h1
    obtain ⟨x, rfl, hx⟩ := cstep_sound true p w r h2
    exact ⟨x ++ y, by simp [join], x, y, rfl, hx, hy⟩

theorem stepB_complete : ∀ (ps : List Piece) (x r : Bytes), (∀ p ∈ ps, p.SuffixFree) → DenAll ps x →
    stepB ps (r ++ x) = some r
  | [], x, r, _, h => by simp only [DenAll] at h; subst h; simp [stepB]
  | p :: ps, s, r, hf, h => by
    obtain ⟨x, y, rfl, hx, hy⟩ := h
    have h2 := stepB_complete ps y (r ++ x) (fun q hq => hf q (by simp [hq])) hy
    have h1 := cstep_complete true p (hf p (by simp)) x r hx
    simp only [join, if_true] at h1
    simp only [stepB, ← List.append_assoc, h2, Option.bind_some, h1]

theorem maxLen_foldr (l : List Nat) (n : Nat) (h : n ∈ l) : n ≤ l.foldr max 0 := by
  induction l with
  | nil => simp at h
  | cons a l ih =>
    simp only [List.foldr_cons]
    rcases List.mem_cons.mp h with rfl | h
    · omega
    · have := ih h; omega

theorem den_length (p : Piece) (x : Bytes) (h : p.Den x) : x.length ≤ p.maxLen := by
  cases p with
  | lit c => simp only [Piece.Den] at h; subst h; simp [Piece.maxLen]
  | any => obtain ⟨c, rfl⟩ := h; simp [Piece.maxLen]
  | chars neg cs => obtain ⟨c, rfl, _⟩ := h; simp [Piece.maxLen]
  | ranges neg cs => obtain ⟨c, rfl, _⟩ := h; simp [Piece.maxLen]
  | alts l =>
    simp only [Piece.Den] at h
    exact maxLen_foldr _ _ (List.mem_map.mpr ⟨x, h, rfl⟩)

theorem denAll_length : ∀ (ps : List Piece) (x : Bytes), DenAll ps x → x.length ≤ maxLenAll ps
  | [], x, h => by simp only [DenAll] at h; subst h; simp
  | p :: ps, s, h => by
    obtain ⟨x, y, rfl, hx, hy⟩ := h
    have := den_length p x hx
    have := denAll_length ps y hy
    simp only [maxLenAll, List.map_cons, List.sum_cons, List.length_append] at *
    omega

theorem flushRun_ne (bw : Bool) (run : Bytes) (h : run ≠ []) : flushRun bw run ≠ [] := by simp [flushRun, h]

theorem compile_ne_nil (bw : Bool) : ∀ (ps : List Piece) (run : Bytes), (ps ≠ [] ∨ run ≠ []) →
    compileWith bw run ps ≠ []
  | [], run, h => by
    rcases h with h | h
    · exact absurd rfl h
    · exact flushRun_ne bw run h
  | p :: ps, run, _ => by
    cases p with
    | lit c => exact compile_ne_nil bw ps _ (.inr (by simp))
    | _ => simp [compileWith]

/-- Matching a compiled forward chain. -/
theorem chain_forward (ps : List Piece) (hne : ps ≠ []) (seg : Seg) (v : Bytes) :
    chainMatches (compileWith false [] ps) seg false v =
      .ok (match stepF ps v with
        | none => false
        | some r => if seg = .middle ∧ r.length ≠ 0 then false else true) := by
  have h1 := compile_ne_nil false ps [] (.inl hne)
  have h2 : (compileWith false [] ps).length ≠ 0 := by simpa using h1
  unfold chainMatches
  rw [if_neg h2]
  simp only [Bool.false_eq_true, if_false]
  rw [runChain_eq _ (good_compile false ps []), compile_forward, strip_nil]
  simp only [Out.ok_bind, Option.bind_some]
  cases stepF ps v with
  | none => rfl
  | some r => simp only; split <;> rfl

theorem chain_backward (ps : List Piece) (hne : ps ≠ []) (v : Bytes) :
    chainMatches (compileWith true [] ps) .stop true v = .ok ((stepB ps v).isSome) := by
  have h1 := compile_ne_nil true ps [] (.inl hne)
  have h2 : (compileWith true [] ps).length ≠ 0 := by simpa using h1
  unfold chainMatches
  rw [if_neg h2]
  simp only [if_true]
  rw [runChain_eq _ (fun f hf => good_compile true ps [] f (List.mem_reverse.mp hf)), compile_backward]
  simp only [Out.ok_bind]
  cases stepB ps v with
  | none => rfl
  | some r => simp [strip_nil]

end Verif.Flt
