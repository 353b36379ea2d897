import Verif.Model.Filter
import Verif.Spec.Filter
/- Lemmas for C28/C29: the index-based construction equals a structural parse. -/
namespace Verif.Flt
open Verif.Spec.Flt Verif.Policy

theorem goIndex_of_lt (p : List α) (i : Nat) (h : i < p.length) : goIndex p i = .ok p[i] := by
  simp [goIndex, h]

theorem goSlice_of_le (p : List α) (lo hi : Nat) (h1 : lo ≤ hi) (h2 : hi ≤ p.length) :
    goSlice p lo hi = .ok ((p.take hi).drop lo) := by simp [goSlice, h1, h2]

/-- Structural parse of a list of ranges. -/
def parseRanges : Bytes → Option (List (UInt8 × UInt8))
  | [] => some []
  | a :: d :: b :: rest =>
    if d = 45 ∧ a ≤ b then (parseRanges rest).map ((a, b) :: ·) else none
  | _ => none

/-- Structural parse of the inside of a bracket. -/
def parseSet (inner : Bytes) : Option Piece :=
  match inner with
  | [] => none
  | c :: t =>
    let neg := c == 33
    let cs := if c = 33 then t else c :: t
    if cs[1]? = some 45 then (parseRanges cs).map (.ranges neg) else some (.chars neg cs)

/-- Cut at the first occurrence of a byte. -/
def cut (sep : UInt8) (s : Bytes) : Option (Bytes × Bytes) := cutAt sep s

theorem cutAt_length (sep : UInt8) : ∀ (s a b : Bytes), cutAt sep s = some (a, b) → s = a ++ sep :: b ∧ sep ∉ a
  | [], a, b, h => by simp [cutAt] at h
  | c :: cs, a, b, h => by
    unfold cutAt at h
    split at h
    · next hc => simp only [Option.some.injEq, Prod.mk.injEq] at h; obtain ⟨rfl, rfl⟩ := h; simp [hc]
    · next hc =>
      cases hcut : cutAt sep cs with
      | none => simp [hcut] at h
      | some q =>
        simp only [hcut, Option.map_some, Option.some.injEq, Prod.mk.injEq] at h
        obtain ⟨rfl, rfl⟩ := h
        obtain ⟨h1, h2⟩ := cutAt_length sep cs q.1 q.2 hcut
        refine ⟨by rw [h1]; simp, ?_⟩
        simp [h2, Ne.symm hc]

theorem indexByte_eq (sep : UInt8) : ∀ (s : Bytes),
    indexByte sep s = (cutAt sep s).map (fun p => p.1.length)
  | [] => rfl
  | c :: cs => by
    simp only [indexByte, cutAt]
    split
    · simp
    · rw [indexByte_eq sep cs]
      cases cutAt sep cs <;> simp

/-- Structural parse of a segment without wildcards. -/
def segParse (s : Bytes) : Option (List Piece) :=
  match s with
  | [] => some []
  | c :: cs =>
    if c = 91 then
      match _h : cutAt 93 cs with
      | none => none
      | some (a, b) => match parseSet a with
        | none => none
        | some pc => (segParse b).map (pc :: ·)
    else if c = 123 then
      match _h : cutAt 125 cs with
      | none => none
      | some (a, b) => if a = [] then none else (segParse b).map (.alts (splitOn 44 a) :: ·)
    else if c = 63 then (segParse cs).map (.any :: ·)
    else (segParse cs).map (.lit c :: ·)
termination_by s.length
decreasing_by
  all_goals first
    | (have := (cutAt_length _ _ _ _ _h).1; subst this; simp; omega)
    | simp

/-- The chain filter of a piece. -/
def chainOf (bw : Bool) : Piece → ChainFilter
  | .lit c => ⟨.equality [c], bw⟩
  | .any => ⟨.anyChar, bw⟩
  | .chars neg cs => ⟨.singleCharSet cs neg, bw⟩
  | .ranges neg rs => ⟨.singleRange (rs.map renderRange) neg, bw⟩
  | .alts l => ⟨.multiCharSequence l, bw⟩

def flushRun (bw : Bool) (run : Bytes) : List ChainFilter :=
  if run = [] then [] else [⟨.equality run, bw⟩]

/-- Chain filters of a piece list: consecutive literals are merged. -/
def compileWith (bw : Bool) (run : Bytes) : List Piece → List ChainFilter
  | [] => flushRun bw run
  | .lit c :: ps => compileWith bw (run ++ [c]) ps
  | p :: ps => flushRun bw run ++ chainOf bw p :: compileWith bw [] ps

theorem parseRanges_length : ∀ (s : Bytes) rs, parseRanges s = some rs → s.length = 3 * rs.length
  | [], rs, h => by simp [parseRanges] at h; subst h; rfl
  | [_], rs, h => by simp [parseRanges] at h
  | [_, _], rs, h => by simp [parseRanges] at h
  | a :: d :: b :: rest, rs, h => by
    simp only [parseRanges] at h
    split at h
    · cases hr : parseRanges rest with
      | none => simp [hr] at h
      | some r =>
        simp only [hr, Option.map_some, Option.some.injEq] at h
        subst h
        have := parseRanges_length rest r hr
        simp; omega
    · simp at h

theorem splitRanges_eq (p : Bytes) (hm : p.length % 3 = 0) : ∀ (n i : Nat), p.length - i = n → i % 3 = 0 →
    splitRanges p i = match parseRanges (p.drop i) with
      | none => .err
      | some rs => .ok (rs.map renderRange) := by
  intro n
  induction n using Nat.strongRecOn with
  | _ n ih =>
    intro i hn hi
    rw [splitRanges]
    by_cases hlt : i < p.length
    · have h2 : i + 2 < p.length := by omega
      have hd : p.drop i = p[i] :: p[i+1] :: p[i+2] :: p.drop (i + 3) := by
        rw [List.drop_eq_getElem_cons (by omega), List.drop_eq_getElem_cons (by omega : i + 1 < p.length),
          List.drop_eq_getElem_cons (by omega : i + 1 + 1 < p.length)]
      rw [if_pos hlt, hd, parseRanges]
      rw [goIndex_of_lt p (i+1) (by omega), goIndex_of_lt p i hlt, goIndex_of_lt p (i+2) h2]
      simp only [Out.ok_bind]
      by_cases hdash : p[i+1] = 45
      · rw [if_neg (by simpa using hdash)]
        by_cases hle : p[i] ≤ p[i+2]
        · have : ¬ p[i] > p[i+2] := by simpa using UInt8.not_lt.mpr hle
          rw [if_neg this, if_pos ⟨hdash, hle⟩]
          rw [goSlice_of_le p i (i+3) (by omega) (by omega)]
          simp only [Out.ok_bind]
          rw [ih (p.length - (i+3)) (by omega) (i+3) rfl (by omega)]
          have hs : (p.take (i+3)).drop i = [p[i], p[i+1], p[i+2]] := by
            rw [List.drop_eq_getElem_cons (by simp; omega), List.drop_eq_getElem_cons (by simp; omega),
              List.drop_eq_getElem_cons (by simp; omega), List.drop_eq_nil_of_le (by simp; omega)]
            simp
          cases parseRanges (p.drop (i+3)) with
          | none => simp
          | some rs => simp [hs, renderRange, hdash]
        · have : p[i] > p[i+2] := by simpa using hle
          rw [if_pos this, if_neg (by simp [hle])]
      · rw [if_pos (by simpa using hdash), if_neg (by simp [hdash])]
    · rw [if_neg hlt, List.drop_eq_nil_of_le (by omega)]
      simp [parseRanges]

theorem newSingleRangeFilter_eq (inner : Bytes) (bw : Bool) :
    newSingleRangeFilter inner bw = match parseSet inner with
      | none => .err
      | some pc => .ok (chainOf bw pc) := by
  cases inner with
  | nil => rfl
  | cons c t =>
    unfold newSingleRangeFilter parseSet
    rw [if_neg (by simp), goIndex_of_lt _ 0 (by simp)]
    simp only [Out.ok_bind, List.getElem_cons_zero]
    have hsl : stripNeg (c :: t) c = .ok (if c = 33 then t else c :: t) := by
      unfold stripNeg
      split
      · rw [goSlice_of_le _ _ _ (by simp) (by simp)]; simp
      · rfl
    rw [hsl]
    simp only [Out.ok_bind]
    generalize hcs : (if c = 33 then t else c :: t) = cs
    have hdash : dashAt1 cs = .ok (decide (cs[1]? = some 45)) := by
      unfold dashAt1
      by_cases hl : cs.length > 1
      · rw [if_pos hl, goIndex_of_lt cs 1 hl]
        simp only [Out.bind, hl, List.getElem?_eq_getElem, Option.some.injEq]
        congr 1
      · rw [if_neg hl, List.getElem?_eq_none (by omega)]
        simp
    rw [hdash]
    simp only [Out.ok_bind, decide_eq_true_eq]
    by_cases hd : cs[1]? = some 45
    · rw [if_pos hd, if_pos hd]
      by_cases hm : cs.length % 3 = 0
      · rw [if_neg (by omega), splitRanges_eq cs hm _ 0 rfl rfl, List.drop_zero]
        cases parseRanges cs with
        | none => simp
        | some rs => simp [chainOf]
      · rw [if_pos (by omega)]
        cases hr : parseRanges cs with
        | none => simp
        | some rs => have := parseRanges_length cs rs hr; omega
    · rw [if_neg hd, if_neg hd]
      simp [chainOf]

theorem newMulti_eq (inner : Bytes) (bw : Bool) :
    newMultiCharSequenceFilter inner bw =
      if inner = [] then .err else .ok (chainOf bw (.alts (splitOn 44 inner))) := by
  unfold newMultiCharSequenceFilter
  by_cases h : inner = []
  · simp [h]
  · have : inner.length ≠ 0 := by simpa using h
    simp [this, h, chainOf]

theorem parseSet_ne_lit (a : Bytes) (pc : Piece) (h : parseSet a = some pc) (x : UInt8) : pc ≠ .lit x := by
  intro hx
  subst hx
  cases a with
  | nil => simp [parseSet] at h
  | cons c t =>
    simp only [parseSet] at h
    generalize (if c = 33 then t else c :: t) = cs at h
    by_cases hd : cs[1]? = some 45
    · rw [if_pos hd] at h
      cases parseRanges cs <;> simp at h
    · rw [if_neg hd] at h; simp at h

/-- The pending run denoted by `eqIdx`. -/
def pending (p : Bytes) (eqIdx : Option Nat) (i : Nat) : Bytes :=
  match eqIdx with
  | none => []
  | some e => (p.take i).drop e

theorem flushEq_eq (p : Bytes) (eqIdx : Option Nat) (i : Nat) (bw : Bool) (fs : List ChainFilter)
    (hi : i ≤ p.length) (he : ∀ e, eqIdx = some e → e < i) :
    flushEq p eqIdx i bw fs = .ok (fs ++ flushRun bw (pending p eqIdx i)) := by
  unfold flushEq pending flushRun
  cases eqIdx with
  | none => simp
  | some e =>
    have := he e rfl
    simp only
    rw [goSlice_of_le _ _ _ (by omega) hi]
    have hne : (p.take i).drop e ≠ [] := by
      intro h
      have := congrArg List.length h
      simp at this; omega
    simp [hne]

theorem rangeLoop_eq (p : Bytes) (bw : Bool) : ∀ (n i : Nat) (eqIdx : Option Nat) (fs : List ChainFilter),
    p.length - i = n → i ≤ p.length → (∀ e, eqIdx = some e → e < i) →
    rangeLoop p bw i eqIdx fs = match segParse (p.drop i) with
      | none => .err
      | some ps => .ok (fs ++ compileWith bw (pending p eqIdx i) ps) := by
  intro n
  induction n using Nat.strongRecOn with
  | _ n ih =>
    intro i eqIdx fs hn hi he
    rw [rangeLoop.eq_def]
    by_cases hlt : i < p.length
    · have hd : p.drop i = p[i] :: p.drop (i + 1) := List.drop_eq_getElem_cons hlt
      have hflush := flushEq_eq p eqIdx i bw fs hi he
      have htail : goSlice p (i + 1) p.length = .ok (p.drop (i + 1)) := by
        rw [goSlice_of_le _ _ _ (by omega) (by omega)]; simp
      rw [if_pos hlt, goIndex_of_lt p i hlt, hd, segParse]
      simp only [Out.ok_bind, hflush, htail]
      by_cases h1 : p[i] = 91
      · rw [if_pos h1, if_pos h1, indexByte_eq]
        cases hc : cutAt 93 (p.drop (i + 1)) with
        | none => simp
        | some q =>
          obtain ⟨a, b⟩ := q
          obtain ⟨hab, _⟩ := cutAt_length _ _ _ _ hc
          have hlen : p.length - (i + 1) = a.length + (b.length + 1) := by
            have := congrArg List.length hab
            simpa using this
          simp only [Option.map_some]
          have hin : goSlice p (i + 1) (i + 1 + a.length) = .ok a := by
            rw [goSlice_of_le _ _ _ (by omega) (by omega), List.drop_take, hab]
            simp
          have hb : p.drop (i + a.length + 1 + 1) = b := by
            have : p.drop (i + a.length + 1 + 1) = (p.drop (i + 1)).drop (a.length + 1) := by
              rw [List.drop_drop]; congr 1; omega
            rw [this, hab, List.drop_append]
            simp
          rw [hin]
          simp only [Out.ok_bind, newSingleRangeFilter_eq]
          cases hp : parseSet a with
          | none => simp
          | some pc =>
            simp only [Out.ok_bind]
            rw [ih (p.length - (i + a.length + 1 + 1)) (by omega) _ _ _ rfl (by omega) (by simp), hb]
            have hnl := parseSet_ne_lit a pc hp
            cases segParse b with
            | none => simp
            | some ps =>
              have : compileWith bw (pending p eqIdx i) (pc :: ps) =
                  flushRun bw (pending p eqIdx i) ++ chainOf bw pc :: compileWith bw [] ps := by
                cases pc with
                | lit x => exact absurd rfl (hnl x)
                | _ => rfl
              simp only [Option.map_some]
              rw [this]
              simp [pending]
      · rw [if_neg h1, if_neg h1]
        by_cases h2 : p[i] = 123
        · rw [if_pos h2, if_pos h2, indexByte_eq]
          cases hc : cutAt 125 (p.drop (i + 1)) with
          | none => simp
          | some q =>
            obtain ⟨a, b⟩ := q
            obtain ⟨hab, _⟩ := cutAt_length _ _ _ _ hc
            have hlen : p.length - (i + 1) = a.length + (b.length + 1) := by
              have := congrArg List.length hab
              simpa using this
            simp only [Option.map_some]
            have hin : goSlice p (i + 1) (i + 1 + a.length) = .ok a := by
              rw [goSlice_of_le _ _ _ (by omega) (by omega), List.drop_take, hab]
              simp
            have hb : p.drop (i + a.length + 1 + 1) = b := by
              have : p.drop (i + a.length + 1 + 1) = (p.drop (i + 1)).drop (a.length + 1) := by
                rw [List.drop_drop]; congr 1; omega
              rw [this, hab, List.drop_append]
              simp
            rw [hin]
            simp only [Out.ok_bind, newMulti_eq]
            by_cases ha : a = []
            · simp [ha]
            · rw [if_neg ha, if_neg ha]
              simp only [Out.ok_bind]
              rw [ih (p.length - (i + a.length + 1 + 1)) (by omega) _ _ _ rfl (by omega) (by simp), hb]
              cases segParse b with
              | none => simp
              | some ps => simp [compileWith, pending]
        · rw [if_neg h2, if_neg h2]
          by_cases h3 : p[i] = 63
          · rw [if_pos h3, if_pos h3]
            rw [ih (p.length - (i + 1)) (by omega) _ _ _ rfl (by omega) (by simp)]
            cases segParse (p.drop (i + 1)) with
            | none => simp
            | some ps => simp [compileWith, pending, chainOf]
          · rw [if_neg h3, if_neg h3]
            rw [ih (p.length - (i + 1)) (by omega) _ _ _ rfl (by omega) (by
              intro e h
              cases eqIdx with
              | none => simp [markEq] at h; omega
              | some e' => simp [markEq] at h; have := he e' rfl; omega)]
            have hpend : pending p (markEq eqIdx i) (i + 1) =
                pending p eqIdx i ++ [p[i]] := by
              cases eqIdx with
              | none =>
                simp only [pending, markEq]
                rw [List.take_succ_eq_append_getElem hlt, List.drop_left' (by simp; omega)]
                rfl
              | some e =>
                have := he e rfl
                simp only [pending, markEq]
                rw [List.take_succ_eq_append_getElem hlt, List.drop_append_of_le_length (by simp; omega)]
            rw [hpend]
            cases segParse (p.drop (i + 1)) with
            | none => simp
            | some ps => simp [compileWith]
    · have hil : i = p.length := by omega
      rw [if_neg hlt, flushEq_eq p eqIdx p.length bw fs (by omega) (by rw [← hil]; exact he), hil]
      simp [segParse, compileWith]

/-- `newRangeFilter` is the structural parse followed by compilation. -/
theorem newRangeFilter_eq (p : Bytes) (bw : Bool) (seg : Seg) :
    newRangeFilter p bw seg = match segParse p with
      | none => .err
      | some ps => .ok (.chain (compileWith bw [] ps) seg bw) := by
  unfold newRangeFilter
  rw [rangeLoop_eq p bw _ 0 none [] rfl (by omega) (by simp), List.drop_zero]
  cases segParse p with
  | none => simp
  | some ps => simp [pending]

/-! ### The structural parse inverts rendering -/

theorem parseRanges_render : ∀ (rs : List (UInt8 × UInt8)), (∀ r ∈ rs, r.1 ≤ r.2) →
    parseRanges (rs.map renderRange).flatten = some rs
  | [], _ => rfl
  | r :: rs, h => by
    have ih := parseRanges_render rs (fun q hq => h q (by simp [hq]))
    simp [renderRange, parseRanges, h r (by simp), ih]

theorem parseRanges_inv : ∀ (s : Bytes) rs, parseRanges s = some rs →
    s = (rs.map renderRange).flatten ∧ ∀ r ∈ rs, r.1 ≤ r.2
  | [], rs, h => by simp [parseRanges] at h; subst h; simp
  | [_], rs, h => by simp [parseRanges] at h
  | [_, _], rs, h => by simp [parseRanges] at h
  | a :: d :: b :: rest, rs, h => by
    simp only [parseRanges] at h
    split at h
    · next hc =>
      cases hr : parseRanges rest with
      | none => simp [hr] at h
      | some r =>
        simp only [hr, Option.map_some, Option.some.injEq] at h
        subst h
        obtain ⟨h1, h2⟩ := parseRanges_inv rest r hr
        refine ⟨?_, ?_⟩
        · simp [renderRange, hc.1, ← h1]
        · intro q hq
          rcases List.mem_cons.mp hq with rfl | hq
          · exact hc.2
          · exact h2 q hq
    · simp at h

theorem mem_flatten_ranges (c : UInt8) (rs : List (UInt8 × UInt8)) (h : c ≠ 45) :
    c ∈ (rs.map renderRange).flatten ↔ ∃ r ∈ rs, c = r.1 ∨ c = r.2 := by
  simp only [List.mem_flatten, List.mem_map]
  constructor
  · rintro ⟨_, ⟨r, hr, rfl⟩, hc⟩
    simp [renderRange, h] at hc
    exact ⟨r, hr, hc⟩
  · rintro ⟨r, hr, hc⟩
    exact ⟨_, ⟨r, hr, rfl⟩, by rcases hc with rfl | rfl <;> simp [renderRange]⟩

/-- The text between the brackets of a set piece. -/
def inner : Piece → Bytes
  | .chars neg cs => if neg then 33 :: cs else cs
  | .ranges neg rs => if neg then 33 :: (rs.map renderRange).flatten else (rs.map renderRange).flatten
  | _ => []

theorem parseSet_chars (neg : Bool) (cs : Bytes) (h : (Piece.chars neg cs).WF) :
    parseSet (inner (.chars neg cs)) = some (.chars neg cs) := by
  obtain ⟨_, _, h3, h4⟩ := h
  cases neg with
  | true =>
    simp only [inner, if_true]
    unfold parseSet
    simp only [if_true, BEq.rfl]
    rw [if_neg h3]
  | false =>
    obtain ⟨hne, hh⟩ := h4 rfl
    cases cs with
    | nil => exact absurd rfl hne
    | cons c t =>
      have hc : c ≠ 33 := by simpa using hh
      simp only [inner, Bool.false_eq_true, if_false]
      unfold parseSet
      simp only [hc, if_false]
      rw [if_neg h3]
      simp [hc]

theorem ranges_second (rs : List (UInt8 × UInt8)) (h : rs ≠ []) :
    ((rs.map renderRange).flatten)[1]? = some 45 := by
  cases rs with
  | nil => exact absurd rfl h
  | cons r rs => simp [renderRange]

theorem parseSet_ranges (neg : Bool) (rs : List (UInt8 × UInt8)) (h : (Piece.ranges neg rs).WF) :
    parseSet (inner (.ranges neg rs)) = some (.ranges neg rs) := by
  obtain ⟨h1, h2, h3⟩ := h
  have hs := ranges_second rs h1
  have hp := parseRanges_render rs (fun r hr => (h2 r hr).1)
  cases neg with
  | true =>
    simp only [inner, if_true]
    unfold parseSet
    simp only [if_true, BEq.rfl]
    rw [if_pos hs, hp]; rfl
  | false =>
    cases rs with
    | nil => exact absurd rfl h1
    | cons r rs =>
      have hc : r.1 ≠ 33 := h3 rfl r rfl
      have hfl : (List.map renderRange (r :: rs)).flatten = r.1 :: (45 :: r.2 :: (rs.map renderRange).flatten) := by
        simp [renderRange]
      simp only [inner, Bool.false_eq_true, if_false]
      rw [hfl] at hs hp ⊢
      unfold parseSet
      simp only [hc, if_false]
      rw [if_pos hs, hp]
      simp [hc]

theorem parseSet_inv (a : Bytes) (pc : Piece) (h : parseSet a = some pc) (ha : 93 ∉ a) (hs : 42 ∉ a) :
    pc.WF ∧ pc.render = 91 :: a ++ [93] := by
  cases a with
  | nil => simp [parseSet] at h
  | cons c t =>
    unfold parseSet at h
    simp only at h
    by_cases hc : c = 33
    · subst hc
      simp only [if_true, BEq.rfl] at h
      split at h
      · next h1 =>
        cases hr : parseRanges t with
        | none => simp [hr] at h
        | some rs =>
          simp only [hr, Option.map_some, Option.some.injEq] at h
          subst h
          obtain ⟨h2, h3⟩ := parseRanges_inv t rs hr
          refine ⟨⟨?_, ?_, by simp⟩, by simp [Piece.render, h2]⟩
          · intro hn; subst hn; simp at h2; simp [h2] at h1
          · intro r hr'
            have hmem : ∀ x, x = r.1 ∨ x = r.2 → x ∈ t := by
              intro x hx
              rw [h2, List.mem_flatten]
              exact ⟨renderRange r, List.mem_map.mpr ⟨r, hr', rfl⟩, by rcases hx with rfl | rfl <;> simp [renderRange]⟩
            have hs' : 42 ∉ t := fun hm => hs (by simp [hm])
            have ha' : 93 ∉ t := fun hm => ha (by simp [hm])
            exact ⟨h3 r hr', fun e => hs' (hmem _ (.inl e.symm)), fun e => hs' (hmem _ (.inr e.symm)),
              fun e => ha' (hmem _ (.inl e.symm)), fun e => ha' (hmem _ (.inr e.symm))⟩
      · next h1 =>
        simp only [Option.some.injEq] at h
        subst h
        refine ⟨⟨fun hm => hs (by simp [hm]), fun hm => ha (by simp [hm]), h1, by simp⟩, by simp [Piece.render]⟩
    · have hbeq : (c == 33) = false := by simpa using hc
      simp only [hc, if_false, hbeq] at h
      split at h
      · next h1 =>
        cases hr : parseRanges (c :: t) with
        | none => simp [hr] at h
        | some rs =>
          simp only [hr, Option.map_some, Option.some.injEq] at h
          subst h
          obtain ⟨h2, h3⟩ := parseRanges_inv (c :: t) rs hr
          refine ⟨⟨?_, ?_, ?_⟩, by simp [Piece.render, ← h2]⟩
          · intro hn; subst hn; simp at h2
          · intro r hr'
            have hmem : ∀ x, x = r.1 ∨ x = r.2 → x ∈ c :: t := by
              intro x hx
              rw [h2, List.mem_flatten]
              exact ⟨renderRange r, List.mem_map.mpr ⟨r, hr', rfl⟩, by rcases hx with rfl | rfl <;> simp [renderRange]⟩
            exact ⟨h3 r hr', fun e => hs (hmem _ (.inl e.symm)), fun e => hs (hmem _ (.inr e.symm)),
              fun e => ha (hmem _ (.inl e.symm)), fun e => ha (hmem _ (.inr e.symm))⟩
          · intro _ r hr'
            cases rs with
            | nil => simp at hr'
            | cons q rs =>
              simp only [List.head?_cons, Option.some.injEq] at hr'
              subst hr'
              simp [renderRange] at h2
              rw [← h2.1]; exact hc
      · next h1 =>
        simp only [Option.some.injEq] at h
        subst h
        refine ⟨⟨hs, ha, h1, fun _ => ⟨by simp, by simpa using hc⟩⟩, by simp [Piece.render]⟩

theorem inner_no_rbrack (pc : Piece) (h : pc.WF) : 93 ∉ inner pc := by
  cases pc with
  | chars neg cs =>
    obtain ⟨_, h2, _⟩ := h
    cases neg <;> simp [inner, h2]
  | ranges neg rs =>
    obtain ⟨_, h2, _⟩ := h
    have : (93 : UInt8) ∉ (rs.map renderRange).flatten := by
      rw [mem_flatten_ranges _ _ (by decide)]
      rintro ⟨r, hr, hc⟩
      have := h2 r hr
      rcases hc with hc | hc
      · exact this.2.2.2.1 hc.symm
      · exact this.2.2.2.2 hc.symm
    cases neg with
    | true => simp only [inner, if_true, List.mem_cons, this, or_false]; decide
    | false => exact this
  | _ => simp [inner]

theorem cutAt_append' (sep : UInt8) : ∀ a b, sep ∉ a → cutAt sep (a ++ sep :: b) = some (a, b)
  | [], b, _ => by simp [cutAt]
  | c :: a, b, h => by
    have hc : c ≠ sep := fun e => h (by simp [e])
    have := cutAt_append' sep a b (fun hm => h (by simp [hm]))
    simp [cutAt, hc, this]

theorem segParse_set (pc : Piece) (hin : parseSet (inner pc) = some pc) (hr : pc.render = 91 :: inner pc ++ [93])
    (h : pc.WF) (s : Bytes) : segParse (pc.render ++ s) = (segParse s).map (pc :: ·) := by
  have hc := cutAt_append' 93 (inner pc) s (inner_no_rbrack pc h)
  rw [hr]
  have : 91 :: inner pc ++ [93] ++ s = 91 :: (inner pc ++ 93 :: s) := by simp
  rw [this, segParse]
  rw [if_pos rfl]
  split
  · next h' => rw [hc] at h'; simp at h'
  · next h' =>
    rw [hc] at h'
    simp only [Option.some.injEq, Prod.mk.injEq] at h'
    obtain ⟨rfl, rfl⟩ := h'
    rw [hin]

theorem joinWith_not_mem (sep c : UInt8) (hc : c ≠ sep) : ∀ (l : List Bytes), (∀ a ∈ l, c ∉ a) → c ∉ joinWith sep l
  | [], _ => by simp [joinWith]
  | [a], h => by simpa [joinWith] using h a (by simp)
  | a :: b :: l, h => by
    have ih := joinWith_not_mem sep c hc (b :: l) (fun x hx => h x (by simp [hx]))
    have := h a (by simp)
    simp only [joinWith, List.mem_append, List.mem_cons, not_or]
    simp [this, hc]
    simpa [joinWith] using ih

theorem segParse_piece (pc : Piece) (h : pc.WF) (s : Bytes) :
    segParse (pc.render ++ s) = (segParse s).map (pc :: ·) := by
  cases pc with
  | lit c =>
    obtain ⟨h1, h2, h3, h4⟩ := h
    simp only [Piece.render, List.cons_append, List.nil_append]
    rw [segParse, if_neg h3, if_neg h4, if_neg h2]
  | any => simp [Piece.render]; rw [segParse]; simp
  | chars neg cs => exact segParse_set _ (parseSet_chars neg cs h) (by simp [Piece.render, inner]) h s
  | ranges neg rs => exact segParse_set _ (parseSet_ranges neg rs h) (by simp [Piece.render, inner]) h s
  | alts l =>
    obtain ⟨h1, h2, h3⟩ := h
    have hno : (125 : UInt8) ∉ joinWith 44 l := joinWith_not_mem 44 125 (by decide) l (fun a ha => (h3 a ha).2.2)
    have hc := cutAt_append' 125 (joinWith 44 l) s hno
    have hsplit : splitOn 44 (joinWith 44 l) = l := splitOn_joinWith 44 l h1 (fun a ha => (h3 a ha).2.1)
    have hne : joinWith 44 l ≠ [] := by
      intro he
      rw [he] at hsplit
      simp [splitOn] at hsplit
      exact h2 hsplit.symm
    have : (Piece.alts l).render ++ s = 123 :: (joinWith 44 l ++ 125 :: s) := by simp [Piece.render]
    rw [this, segParse, if_neg (by decide), if_pos rfl]
    split
    · next h' => rw [hc] at h'; simp at h'
    · next h' =>
      rw [hc] at h'
      simp only [Option.some.injEq, Prod.mk.injEq] at h'
      obtain ⟨rfl, rfl⟩ := h'
      rw [if_neg hne, hsplit]

theorem segParse_render (ps : List Piece) (h : ∀ p ∈ ps, p.WF) : segParse (renderAll ps) = some ps := by
  induction ps with
  | nil => simp [renderAll, segParse]
  | cons p ps ih =>
    have : renderAll (p :: ps) = p.render ++ renderAll ps := by simp [renderAll]
    rw [this, segParse_piece p (h p (by simp)), ih (fun q hq => h q (by simp [hq]))]
    rfl

theorem segParse_inv : ∀ (n : Nat) (s : Bytes) (ps : List Piece), s.length = n → 42 ∉ s →
    segParse s = some ps → s = renderAll ps ∧ ∀ p ∈ ps, p.WF := by
  intro n
  induction n using Nat.strongRecOn with
  | _ n ih =>
    intro s ps hn hs h
    cases s with
    | nil => rw [segParse] at h; simp at h; subst h; simp [renderAll]
    | cons c cs =>
      have hcs : 42 ∉ cs := fun hm => hs (by simp [hm])
      have hc42 : c ≠ 42 := fun e => hs (by simp [e])
      have simple : ∀ (rest : Bytes) (pc : Piece) (ps' : List Piece), rest.length < n → 42 ∉ rest → pc.WF →
          c :: cs = pc.render ++ rest → segParse rest = some ps' →
          c :: cs = renderAll (pc :: ps') ∧ ∀ p ∈ pc :: ps', p.WF := by
        intro rest pc ps' hl hr hw he hp
        obtain ⟨h1, h2⟩ := ih rest.length hl rest ps' rfl hr hp
        refine ⟨by rw [he]; simp [renderAll]; rw [h1]; rfl, ?_⟩
        intro p hp
        rcases List.mem_cons.mp hp with rfl | hp
        · exact hw
        · exact h2 p hp
      rw [segParse] at h
      split at h
      · next h1 =>
        split at h
        · simp at h
        · next a b hc =>
          obtain ⟨hab, hna⟩ := cutAt_length _ _ _ _ hc
          have ha42 : 42 ∉ a := fun hm => hcs (by rw [hab]; simp [hm])
          have hb42 : 42 ∉ b := fun hm => hcs (by rw [hab]; simp [hm])
          split at h
          · simp at h
          · next pc hp =>
            cases hb : segParse b with
            | none => simp [hb] at h
            | some ps' =>
              simp only [hb, Option.map_some, Option.some.injEq] at h
              subst h
              obtain ⟨hw, hr⟩ := parseSet_inv a pc hp hna ha42
              refine simple b pc ps' ?_ hb42 hw ?_ hb
              · subst hab; simp at hn; omega
              · rw [hr, h1, hab]; simp
      · next h1 =>
        split at h
        · next h2 =>
          split at h
          · simp at h
          · next a b hc =>
            obtain ⟨hab, hna⟩ := cutAt_length _ _ _ _ hc
            have ha42 : 42 ∉ a := fun hm => hcs (by rw [hab]; simp [hm])
            have hb42 : 42 ∉ b := fun hm => hcs (by rw [hab]; simp [hm])
            split at h
            · simp at h
            · next hane =>
              cases hb : segParse b with
              | none => simp [hb] at h
              | some ps' =>
                simp only [hb, Option.map_some, Option.some.injEq] at h
                subst h
                have hj : joinWith 44 (splitOn 44 a) = a := joinWith_splitOn 44 a
                refine simple b _ ps' ?_ hb42 ?_ ?_ hb
                · subst hab; simp at hn; omega
                · refine ⟨splitOn_ne_nil _ _, ?_, ?_⟩
                  · intro he; rw [he] at hj; exact hane (by simpa [joinWith] using hj.symm)
                  · intro x hx
                    have h44 := not_mem_of_mem_splitOn 44 a x hx
                    have sub : ∀ y ∈ x, y ∈ a := by
                      intro y hy
                      exact mem_of_mem_splitOn 44 a x hx y hy
                    exact ⟨fun hm => ha42 (sub _ hm), h44, fun hm => hna (sub _ hm)⟩
                · simp [Piece.render, hj, h2, hab]
        · next h2 =>
          split at h
          · next h3 =>
            cases hb : segParse cs with
            | none => simp [hb] at h
            | some ps' =>
              simp only [hb, Option.map_some, Option.some.injEq] at h
              subst h
              exact simple cs .any ps' (by simp at hn; omega) hcs trivial (by simp [Piece.render, h3]) hb
          · next h3 =>
            cases hb : segParse cs with
            | none => simp [hb] at h
            | some ps' =>
              simp only [hb, Option.map_some, Option.some.injEq] at h
              subst h
              exact simple cs (.lit c) ps' (by simp at hn; omega) hcs ⟨hc42, h3, h1, h2⟩ (by simp [Piece.render]) hb

end Verif.Flt
