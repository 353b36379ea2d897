import Verif.Lemmas.MetaMemory
/-
Lemmas on resolving drop policies in the memory of metadata objects.
-/
namespace Verif.MetaMem
open Verif.Policy Verif.Meta Verif.MPMem

/-! ### Removing in place -/

theorem removeAt_length {arr : List α} {len i : Nat} (hi : i < len) (hl : len ≤ arr.length) : (removeAt arr len i).1.length = arr.length := by
  unfold removeAt
  split
  · rfl
  · simp; omega

theorem removeAt_len {arr : List α} {len i : Nat} (hi : i < len) : (removeAt arr len i).2 = len - 1 := by
  unfold removeAt
  split
  · assumption
  · rfl

theorem take_three (a b c : List α) {n : Nat} (h : a.length + b.length ≤ n) :
    (a ++ (b ++ c)).take n = a ++ (b ++ c.take (n - a.length - b.length)) := by
  rw [List.take_append, List.take_of_length_le (by omega), List.take_append, List.take_of_length_le (by omega)]

theorem removeAt_map (f : α → β) {arr : List α} {len i L : Nat} (hi : i < len) (hl : len ≤ L) (hL : L ≤ arr.length) :
    removeAt ((arr.take L).map f) len i = (((removeAt arr len i).1.take L).map f, (removeAt arr len i).2) := by
  unfold removeAt
  split
  · rfl
  · simp only [Prod.mk.injEq, and_true]
    have h1 : ((arr.take L).map f).take i = (arr.take i).map f := by
      rw [← List.map_take, List.take_take, Nat.min_eq_left (by omega)]
    have h2 : (((arr.take L).map f).take len).drop (i + 1) = ((arr.take len).drop (i + 1)).map f := by
      rw [← List.map_take, List.take_take, Nat.min_eq_left hl, ← List.map_drop]
    have h3 : ((arr.take L).map f).drop (len - 1) = ((arr.drop (len - 1)).take (L - (len - 1))).map f := by
      rw [← List.map_drop, List.drop_take]
    rw [h1, h2, h3, ← List.map_append, ← List.map_append]
    congr 1
    rw [List.append_assoc, List.append_assoc]
    have hlen : (arr.take i).length = i := by simp; omega
    have hlen2 : ((arr.take len).drop (i + 1)).length = len - (i + 1) := by simp; omega
    rw [take_three _ _ _ (by omega), hlen, hlen2]
    congr 3
    omega

/-- Each element after a removal was one before, and those in front have not moved. -/
theorem removeAt_get {arr : List α} {len i j : Nat} {d : α} (hi : i < len) (hl : len ≤ arr.length) (h : (removeAt arr len i).1[j]? = some d) :
    ∃ j', arr[j']? = some d ∧ (j < i → j' = j) ∧ (i ≤ j → i ≤ j') := by
  unfold removeAt at h
  split at h
  · exact ⟨j, h, fun _ => rfl, fun h => h⟩
  · simp only at h
    have hlen : (arr.take i).length = i := by simp; omega
    have hlen2 : ((arr.take len).drop (i + 1)).length = len - (i + 1) := by simp; omega
    rw [List.append_assoc] at h
    by_cases hj : j < i
    · rw [List.getElem?_append_left (by omega), List.getElem?_take] at h
      simp only [hj, if_true] at h
      exact ⟨j, h, fun _ => rfl, fun h => by omega⟩
    · rw [List.getElem?_append_right (by omega), hlen] at h
      by_cases hj2 : j - i < len - (i + 1)
      · rw [List.getElem?_append_left (by omega), List.getElem?_drop, List.getElem?_take] at h
        split at h
        · exact ⟨_, h, fun h => absurd h hj, fun _ => by omega⟩
        · cases h
      · rw [List.getElem?_append_right (by omega), hlen2, List.getElem?_drop] at h
        exact ⟨_, h, fun h => absurd h hj, fun _ => by omega⟩

theorem removeAt_front {arr : List α} {len i j : Nat} (hi : i < len) (hl : len ≤ arr.length) (hj : j < i) :
    (removeAt arr len i).1[j]? = arr[j]? := by
  have hl2 := removeAt_length hi hl
  have hj2 : j < (removeAt arr len i).1.length := by omega
  obtain ⟨j', h1, h2, _⟩ := removeAt_get hi hl (List.getElem?_eq_getElem hj2)
  rw [h2 hj] at h1
  rw [h1, List.getElem?_eq_getElem hj2]

/-! ### Pipelines -/

theorem scan_map (o : Obj) : ∀ (l : List PMRef) (a b : Nat), dropScan (l.map o.pm) a b = scan l a b
  | [], _, _ => rfl
  | c :: l, a, b => by
    simp only [List.map_cons, dropScan, scan]
    rw [scan_map o l, scan_map o l]
    rfl

theorem removeLoop_map (o : Obj) (L : Nat) : ∀ (k : Nat) (arr : List PMRef) (len : Nat), k ≤ len → len ≤ L → L ≤ arr.length →
    dropRemoveLoop k ((arr.take L).map o.pm) len = (((removeLoop k arr len).1.take L).map o.pm, (removeLoop k arr len).2) ∧
    (removeLoop k arr len).1.length = arr.length ∧ (removeLoop k arr len).2 ≤ len
  | 0, _, _, _, _, _ => ⟨rfl, rfl, Nat.le_refl _⟩
  | i + 1, arr, len, hk, hl, hL => by
    have hi : i < arr.length := by omega
    have hg : ((arr.take L).map o.pm)[i]? = some (o.pm arr[i]) := by
      rw [List.getElem?_map, List.getElem?_take, if_pos (by omega), List.getElem?_eq_getElem hi]
      rfl
    unfold dropRemoveLoop removeLoop
    rw [hg, List.getElem?_eq_getElem hi]
    simp only
    by_cases hd : arr[i].drop ≠ DropNone
    · rw [if_pos (show (o.pm arr[i]).drop ≠ DropNone from hd), if_pos hd, removeAt_map o.pm (by omega) hl hL]
      simp only
      have hlen := removeAt_len (arr := arr) (show i < len by omega)
      have hlen2 := removeAt_length (arr := arr) (show i < len by omega) (by omega)
      obtain ⟨h1, h2, h3⟩ := removeLoop_map o L i (removeAt arr len i).1 (removeAt arr len i).2 (by omega) (by omega) (by omega)
      exact ⟨h1, by rw [h2, hlen2], by omega⟩
    · rw [if_neg (show ¬(o.pm arr[i]).drop ≠ DropNone from hd), if_neg hd]
      exact removeLoop_map o L i arr len (by omega) hl hL

theorem resolveCells_map (o : Obj) (arr : List PMRef) (len : Nat) (hl : len ≤ arr.length) :
    applyPipelines ((arr.take len).map o.pm) = (match resolveCells arr len with
      | none => (dropPipelineMetadatas, .applied)
      | some (arr', len') => ((arr'.take len').map o.pm, .removed)) ∧
    ∀ arr' len', resolveCells arr len = some (arr', len') → arr'.length = arr.length ∧ len' ≤ len := by
  unfold applyPipelines resolveCells
  rw [scan_map]
  cases scan (arr.take len) 0 0 with
  | none => exact ⟨rfl, fun _ _ h => by cases h⟩
  | some p =>
    obtain ⟨a, b⟩ := p
    simp only
    by_cases ha : a = 0
    · rw [if_pos ha, if_pos ha]
      exact ⟨rfl, fun _ _ h => by cases h; exact ⟨rfl, Nat.le_refl _⟩⟩
    · rw [if_neg ha, if_neg ha]
      by_cases hb : b = 0
      · rw [if_pos hb, if_pos hb]
        exact ⟨rfl, fun _ _ h => by cases h⟩
      · rw [if_neg hb, if_neg hb]
        have hll : ((arr.take len).map o.pm).length = len := by simp [hl]
        obtain ⟨h1, h2, h3⟩ := removeLoop_map o len len arr len (Nat.le_refl _) (Nat.le_refl _) hl
        rw [hll, h1]
        refine ⟨?_, fun _ _ h => ?_⟩
        · simp only
          rw [← List.map_take, List.take_take, Nat.min_eq_left h3]
        · simp only [Option.some.injEq] at h
          rw [h] at h2 h3
          exact ⟨h2, h3⟩

/-- Resolving pipelines in memory: what is there then, and what changed. -/
theorem resolvePipes_spec (w : W) (p : Pipes) (hg : w.global = { drop := 1 }) (hp : ∀ n, p ≠ .shared n)
    (hs : ∀ s, p = .own s → s.arr < w.pms.length ∧ s.len ≤ (w.pms.array s.arr).length) :
    ∃ p' pms r, resolvePipes w p = (p', { w with pms := pms }, r) ∧ applyPipelines (w.pipes p) = (W.pipes { w with pms := pms } p', r) ∧
      pms.length = w.pms.length ∧ (∀ b, (pms.array b).length = (w.pms.array b).length) ∧
      (∀ b, (∀ s, p = .own s → s.arr ≠ b) → pms.array b = w.pms.array b) ∧
      (∀ t, p' = .own t → ∃ s, p = .own s ∧ t.arr = s.arr ∧ t.len ≤ s.len) ∧ (r = .applied → p' = .shared 1) ∧
      (r = .removed → ∀ n, p' ≠ .shared n) := by
  cases p with
  | shared n => exact absurd rfl (hp n)
  | nil => exact ⟨.nil, w.pms, .removed, rfl, rfl, rfl, fun _ => rfl, fun _ _ => rfl, (fun _ h => by cases h), (fun h => by cases h),
      fun _ _ h => by cases h⟩
  | own s =>
    obtain ⟨ha, hl⟩ := hs s rfl
    obtain ⟨h1, h2⟩ := resolveCells_map w.toObj (w.pms.array s.arr) s.len hl
    have hr : w.pipes (.own s) = ((w.pms.array s.arr).take s.len).map w.pm := rfl
    rw [hr, h1]
    unfold resolvePipes
    cases hc : resolveCells (w.pms.array s.arr) s.len with
    | none =>
      refine ⟨.shared 1, w.pms, .applied, by simp only [hc], ?_, rfl, fun _ => rfl, fun _ _ => rfl, (fun _ h => by cases h), fun _ => rfl,
        fun h => by cases h⟩
      show (_, _) = ([w.global].take 1, _)
      rw [hg]
      rfl
    | some q =>
      obtain ⟨arr, len⟩ := q
      obtain ⟨h3, h4⟩ := h2 arr len hc
      refine ⟨.own { s with len := len }, w.pms.set s.arr arr, .removed, by simp only [hc], ?_, by simp, ?_, ?_, ?_, (fun h => by cases h),
        fun _ _ h => by cases h⟩
      · show _ = (((Heap.array (w.pms.set s.arr arr) s.arr).take len).map w.pm, _)
        rw [array_set_same ha]
      · intro b
        by_cases hb : s.arr = b
        · subst hb
          rw [array_set_same ha, h3]
        · rw [array_set_other hb]
      · intro b hb
        rw [array_set_other (hb s rfl)]
      · intro t ht
        cases ht
        exact ⟨s, rfl, rfl, h4⟩

/-! ### Stages -/

/-- What the loop over the stages keeps: the stages in front of `k` have arrays of their own. -/
structure LoopOk (w0 : W) (L k : Nat) (st : Loop) : Prop where
  w : ∃ pms, st.w = { w0 with pms := pms }
  le : k ≤ st.len
  len : st.len ≤ L
  arr : L ≤ st.arr.length
  own : ∀ i c, i < k → st.arr[i]? = some c → ∀ n, c.pipelines ≠ .shared n
  bound : ∀ i c s, i < k → st.arr[i]? = some c → c.pipelines = .own s → s.arr < st.w.pms.length ∧ s.len ≤ (st.w.pms.array s.arr).length
  apart : ∀ i c s j d t, i < k → st.arr[i]? = some c → c.pipelines = .own s → j ≠ i → st.arr[j]? = some d → d.pipelines = .own t →
    t.arr ≠ s.arr
  earliest : ∀ s, st.earliest.pipelines ≠ .own s

/-- The state on values. -/
def Loop.view (st : Loop) (L : Nat) : StagedLoop :=
  { arr := (st.arr.take L).map st.w.stage, len := st.len, drops := st.drops, nonDrops := st.nonDrops, earliest := st.w.stage st.earliest }

theorem stage_other {w w' : W} {c : SRef} (h : w'.pipes c.pipelines = w.pipes c.pipelines) : w'.stage c = w.stage c := by
  unfold W.stage; rw [h]

theorem stagesLoop_view (w0 : W) (hg : w0.global = { drop := 1 }) (L : Nat) : ∀ (k : Nat) (st : Loop), LoopOk w0 L k st →
    (stagesLoop k st).view L = stagedLoop k (st.view L) ∧ (stagesLoop k st).len ≤ L ∧ (stagesLoop k st).arr.length = st.arr.length ∧
      ∃ pms, (stagesLoop k st).w = { w0 with pms := pms }
  | 0, st, h => ⟨rfl, h.len, rfl, h.w⟩
  | i + 1, st, h => by
    have h_le := h.le
    have h_len := h.len
    have h_arr := h.arr
    have hi : i < st.arr.length := by omega
    obtain ⟨pms0, hw0⟩ := h.w
    have hci : st.arr[i]? = some st.arr[i] := List.getElem?_eq_getElem hi
    have hglob : st.w.global = { drop := 1 } := by rw [hw0]; exact hg
    obtain ⟨p', pms, r, h1, h2, h3, h4, h5, h6, h7, h8⟩ := resolvePipes_spec st.w st.arr[i].pipelines hglob (h.own i _ (by omega) hci)
      (fun s hs => h.bound i _ s (by omega) hci hs)
    -- the other stages
    have hother : ∀ j d, j ≠ i → st.arr[j]? = some d → W.pipes { st.w with pms := pms } d.pipelines = st.w.pipes d.pipelines := by
      intro j d hj hd
      refine pipes_other rfl fun t ht => ⟨?_, fun _ _ _ => rfl⟩
      refine h5 t.arr fun s hs => ?_
      exact fun he => h.apart i _ s j d t (by omega) hci hs hj hd ht he.symm
    have hear : W.pipes { st.w with pms := pms } st.earliest.pipelines = st.w.pipes st.earliest.pipelines := by
      refine pipes_other rfl fun t ht => absurd ht (h.earliest t)
    have hview : ((st.arr.set i { st.arr[i] with pipelines := p' }).take L).map (W.stage { st.w with pms := pms }) =
        ((st.arr.take L).map st.w.stage).set i
          { st.w.stage st.arr[i] with pipelines := (applyPipelines (st.w.stage st.arr[i]).pipelines).1 } := by
      apply List.ext_getElem?
      intro j
      have hp1 : (applyPipelines (st.w.stage st.arr[i]).pipelines).1 = W.pipes { st.w with pms := pms } p' := by
        show (applyPipelines (st.w.pipes st.arr[i].pipelines)).1 = _
        rw [h2]
      rw [hp1]
      by_cases hj : j = i
      · subst hj
        rw [List.getElem?_map, List.getElem?_take, if_pos (by omega), List.getElem?_set_self hi, List.getElem?_set_self (by simp; omega)]
        rfl
      · rw [List.getElem?_map, List.getElem?_take, List.getElem?_set_ne (fun h => hj h.symm), List.getElem?_set_ne (fun h => hj h.symm),
          List.getElem?_map, List.getElem?_take]
        by_cases hjL : j < L
        · rw [if_pos hjL]
          cases hd : st.arr[j]? with
          | none => rfl
          | some d =>
            simp only [Option.map_some, Option.some.injEq]
            exact stage_other (hother j d hj hd)
        · rw [if_neg hjL]
          rfl
    have hvi : (st.view L).arr[i]? = some (st.w.stage st.arr[i]) := by
      show ((st.arr.take L).map st.w.stage)[i]? = _
      rw [List.getElem?_map, List.getElem?_take, if_pos (by omega), hci]
      rfl
    have hr2 : (applyPipelines (st.w.stage st.arr[i]).pipelines).2 = r := by
      show (applyPipelines (st.w.pipes st.arr[i].pipelines)).2 = _
      rw [h2]
    have hr1 : (applyPipelines (st.w.stage st.arr[i]).pipelines).1 = W.pipes { st.w with pms := pms } p' := by
      show (applyPipelines (st.w.pipes st.arr[i].pipelines)).1 = _
      rw [h2]
    -- what holds of the stages after the assignment
    have hset : ∀ j d, (st.arr.set i { st.arr[i] with pipelines := p' })[j]? = some d →
        (j ≠ i ∧ st.arr[j]? = some d) ∨ (j = i ∧ d = { st.arr[i] with pipelines := p' }) := by
      intro j d hd
      by_cases hj : j = i
      · subst hj
        rw [List.getElem?_set_self hi] at hd
        exact .inr ⟨rfl, by simpa using hd.symm⟩
      · rw [List.getElem?_set_ne (fun h => hj h.symm)] at hd
        exact .inl ⟨hj, hd⟩
    have hset_apart : ∀ i' c s j d t, i' < i → st.arr[i']? = some c → c.pipelines = .own s → j ≠ i' →
        (st.arr.set i { st.arr[i] with pipelines := p' })[j]? = some d → d.pipelines = .own t → t.arr ≠ s.arr := by
      intro i' c s j d t hi' hc hs hj hd ht
      rcases hset j d hd with ⟨_, hd⟩ | ⟨rfl, rfl⟩
      · exact h.apart i' c s j d t (by omega) hc hs hj hd ht
      · obtain ⟨s', hs', he, _⟩ := h6 t ht
        rw [he]
        exact h.apart i' c s j _ s' (by omega) hc hs hj hci hs'
    have hw' : ∃ pms', ({ st.w with pms := pms } : W) = { w0 with pms := pms' } := ⟨pms, by rw [hw0]⟩
    unfold stagesLoop stagedLoop
    rw [hvi, hci]
    simp only [h1, hr2]
    cases r with
    | applied =>
      simp only
      have hlen := removeAt_len (arr := st.arr.set i { st.arr[i] with pipelines := p' }) (show i < st.len by omega)
      have hlen2 := removeAt_length (arr := st.arr.set i { st.arr[i] with pipelines := p' }) (show i < st.len by omega) (by simp; omega)
      have hfront : ∀ i', i' < i → (removeAt (st.arr.set i { st.arr[i] with pipelines := p' }) st.len i).1[i']? = st.arr[i']? := by
        intro i' hi'
        rw [removeAt_front (by omega) (by simp; omega) hi', List.getElem?_set_ne (by omega)]
      have hok : LoopOk w0 L i
          { arr := (removeAt (st.arr.set i { st.arr[i] with pipelines := p' }) st.len i).1
            len := (removeAt (st.arr.set i { st.arr[i] with pipelines := p' }) st.len i).2
            drops := st.drops + 1
            nonDrops := st.nonDrops
            earliest := if st.drops + 1 = 1 ∨ st.arr[i].cutoverNanos < st.earliest.cutoverNanos then { st.arr[i] with pipelines := p' }
              else st.earliest
            w := { st.w with pms := pms } } := by
        refine ⟨hw', ?_, ?_, ?_, ?_, ?_, ?_, ?_⟩
        · simp only [hlen]; omega
        · simp only [hlen]; omega
        · simp only [hlen2, List.length_set]; omega
        · intro i' c hi' hc
          simp only [hfront i' hi'] at hc
          exact h.own i' c (by omega) hc
        · intro i' c s hi' hc hs
          simp only [hfront i' hi'] at hc
          obtain ⟨hb1, hb2⟩ := h.bound i' c s (by omega) hc hs
          exact ⟨by simp only [h3]; exact hb1, by simp only [h4]; exact hb2⟩
        · intro i' c s j d t hi' hc hs hj hd ht
          simp only [hfront i' hi'] at hc
          obtain ⟨j', hj', hj1, hj2⟩ := removeAt_get (by omega) (by simp; omega) hd
          refine hset_apart i' c s j' d t hi' hc hs ?_ hj' ht
          by_cases hji : j < i
          · rw [hj1 hji]; exact hj
          · have := hj2 (by omega); omega
        · intro s
          simp only
          rw [h7 rfl]
          split
          · intro hx; cases hx
          · exact h.earliest s
      obtain ⟨g1, g2, g3, g4⟩ := stagesLoop_view w0 hg L i _ hok
      refine ⟨?_, g2, by rw [g3]; simp only [hlen2, List.length_set], g4⟩
      rw [g1]
      congr 1
      unfold Loop.view
      simp only
      rw [← hview, removeAt_map (W.stage { st.w with pms := pms }) (by omega) h.len (by simp; omega)]
      simp only [StagedLoop.mk.injEq, true_and, and_true]
      have hcut : (st.w.stage st.arr[i]).cutoverNanos = st.arr[i].cutoverNanos := rfl
      have hcut2 : (st.w.stage st.earliest).cutoverNanos = st.earliest.cutoverNanos := rfl
      simp only [hcut, hcut2]
      by_cases hcond : st.drops + 1 = 1 ∨ st.arr[i].cutoverNanos < st.earliest.cutoverNanos
      · rw [if_pos hcond, if_pos hcond, hr1]
        rfl
      · rw [if_neg hcond, if_neg hcond]
        exact stage_other hear
    | removed =>
      simp only
      have hok : LoopOk w0 L i { st with
          arr := st.arr.set i { st.arr[i] with pipelines := p' }, nonDrops := st.nonDrops + 1, w := { st.w with pms := pms } } := by
        refine ⟨hw', ?_, h.len, ?_, ?_, ?_, ?_, h.earliest⟩
        · simp only; omega
        · simpa using h.arr
        · intro i' c hi' hc
          simp only [List.getElem?_set_ne (show i ≠ i' by omega)] at hc
          exact h.own i' c (by omega) hc
        · intro i' c s hi' hc hs
          simp only [List.getElem?_set_ne (show i ≠ i' by omega)] at hc
          obtain ⟨hb1, hb2⟩ := h.bound i' c s (by omega) hc hs
          exact ⟨by simp only [h3]; exact hb1, by simp only [h4]; exact hb2⟩
        · intro i' c s j d t hi' hc hs hj hd ht
          simp only [List.getElem?_set_ne (show i ≠ i' by omega)] at hc
          exact hset_apart i' c s j d t hi' hc hs hj hd ht
      obtain ⟨g1, g2, g3, g4⟩ := stagesLoop_view w0 hg L i _ hok
      refine ⟨?_, g2, by rw [g3]; simp only [List.length_set], g4⟩
      rw [g1]
      congr 1
      unfold Loop.view
      simp only
      rw [← hview]
      simp only [StagedLoop.mk.injEq, true_and]
      exact stage_other hear

/-- Resolving an object whose arrays are apart gives what resolving its value gives. -/
theorem resolve_spec (w : W) (hg : w.global = { drop := 1 }) (hw : Sep w) (hcur : CurOk w) :
    applyStaged w.value = ((resolve w).1.value, (resolve w).2) ∧ (resolve w).1.global = w.global := by
  unfold resolve
  cases hc : w.cur with
  | none =>
    simp only
    refine ⟨?_, trivial⟩
    unfold W.value
    rw [hc]
    rfl
  | some s =>
    obtain ⟨ha, hl⟩ := hcur s hc
    have hval : w.value = ((w.stg.array s.arr).take s.len).map w.stage := by unfold W.value; rw [hc]; rfl
    have hlen : w.value.length = s.len := by rw [hval]; simp [hl]
    simp only
    by_cases hn : s.len = 0
    · rw [if_pos hn]
      refine ⟨?_, rfl⟩
      unfold applyStaged
      rw [if_pos (by rw [hlen]; exact hn)]
    · rw [if_neg hn]
      have hok : LoopOk w s.len s.len { arr := w.stg.array s.arr, len := s.len, w := w } := by
        refine ⟨⟨w.pms, rfl⟩, Nat.le_refl _, Nat.le_refl _, hl, fun i c _ hci n => hw.own s.arr i c hci n, ?_, ?_, fun _ h => by cases h⟩
        · intro i c t _ hci ht
          have := hw.pms s.arr i c t hci (by unfold SRef.slice; rw [ht]; rfl)
          exact ⟨this.1, this.2.1⟩
        · intro i c t j d t' _ hci ht hj hd ht' he
          have := (hw.pms s.arr i c t hci (by unfold SRef.slice; rw [ht]; rfl)).2.2 s.arr j d t' hd (by unfold SRef.slice; rw [ht']; rfl) he
          exact hj this.2
      obtain ⟨h1, h2, h3, pms, h4⟩ := stagesLoop_view w hg s.len s.len _ hok
      have hstart : ({ arr := w.value, len := w.value.length, drops := 0, nonDrops := 0, earliest := {} } : StagedLoop) =
          Loop.view { arr := w.stg.array s.arr, len := s.len, w := w } s.len := by
        unfold Loop.view
        rw [hlen, hval]
        rfl
      unfold applyStaged
      rw [if_neg (by rw [hlen]; exact hn)]
      simp only
      rw [hstart, hlen, ← h1]
      have hnd : (Loop.view (stagesLoop s.len { arr := w.stg.array s.arr, len := s.len, w := w }) s.len).nonDrops =
          (stagesLoop s.len { arr := w.stg.array s.arr, len := s.len, w := w }).nonDrops := rfl
      rw [hnd]
      generalize hst : stagesLoop s.len { arr := w.stg.array s.arr, len := s.len, w := w } = st at *
      have hstg : st.w.stg = w.stg := by rw [h4]
      by_cases h0 : st.nonDrops = 0
      · rw [if_pos h0, if_pos h0]
        refine ⟨?_, by simp only [h4]⟩
        simp only [Prod.mk.injEq, and_true]
        show [st.w.stage st.earliest] = (Heap.read _ _).map _
        unfold Heap.read Heap.make
        simp only
        rw [array_new]
        rfl
      · rw [if_neg h0, if_neg h0]
        refine ⟨?_, by simp only [h4]⟩
        simp only [Prod.mk.injEq, and_true]
        show ((st.arr.take s.len).map st.w.stage).take st.len = (Heap.read _ _).map _
        unfold Heap.read
        simp only
        rw [array_set_same (by rw [hstg]; exact ha), ← List.map_take, List.take_take, Nat.min_eq_left h2]
        rfl

end Verif.MetaMem
