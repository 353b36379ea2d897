import Verif.Model.Id
import Verif.Spec.Id
import Verif.Lemmas.FilterMatch
/- C32, C33: metric identifiers. -/
namespace Verif.Id
open Verif.Policy Verif.Flt Verif.Spec.Id

/-- Structural parse of a tag list; the flag says that parsing ended in an error. -/
def parsePairs (s : Bytes) : List TagPair × Bool :=
  match s with
  | [] => ([], false)
  | c :: t =>
    match _h : cutAt 61 (c :: t) with
    | none => ([], true)
    | some (n, r) =>
      match _h2 : cutAt 44 r with
      | none => ([⟨n, r⟩], false)
      | some (v, r') => (⟨n, v⟩ :: (parsePairs r').1, (parsePairs r').2)
termination_by s.length
decreasing_by
  all_goals
    have e1 := congrArg List.length (cutAt_length _ _ _ _ _h).1
    have e2 := congrArg List.length (cutAt_length _ _ _ _ _h2).1
    simp at e1 e2 ⊢
    omega

theorem parsePairs_cons (s : Bytes) (hs : s ≠ []) : parsePairs s =
    match cutAt 61 s with
    | none => ([], true)
    | some (n, r) =>
      match cutAt 44 r with
      | none => ([⟨n, r⟩], false)
      | some (v, r') => (⟨n, v⟩ :: (parsePairs r').1, (parsePairs r').2) := by
  cases s with
  | nil => exact absurd rfl hs
  | cons c t =>
    rw [parsePairs.eq_def]
    cases h : cutAt 61 (c :: t) with
    | none => simp only; split <;> simp_all
    | some q =>
      obtain ⟨n, r⟩ := q
      simp only
      split
      · simp_all
      · next n' r' h' =>
        have e : n' = n ∧ r' = r := by simpa [eq_comm] using h'.symm.trans h
        obtain ⟨rfl, rfl⟩ := e
        cases h2 : cutAt 44 r' with
        | none => simp only [h2]
        | some q => simp only [h2]

/-- One step of the iterator, structurally. -/
theorem next_eq (it : TagIter) (he : it.err = false) :
    it.next = .ok (match it.data.drop it.idx with
      | [] => (it, false)
      | c :: t => match cutAt 61 (c :: t) with
        | none => ({ it with err := true }, false)
        | some (n, r) => match cutAt 44 r with
          | none => ({ it with cur := ⟨n, r⟩, idx := it.data.length + 1 }, true)
          | some (v, _) => ({ it with cur := ⟨n, v⟩, idx := it.idx + n.length + 1 + v.length + 1 }, true)) := by
  obtain ⟨data, idx, cur, err⟩ := it
  simp only at he
  subst he
  unfold TagIter.next
  by_cases hlt : idx < data.length
  · have hne : data.drop idx ≠ [] := by simpa using hlt
    simp only [Bool.false_or, ge_iff_le, decide_eq_true_eq]
    rw [if_neg (by omega), goSlice_front data idx (by omega)]
    simp only [Out.ok_bind]
    rw [indexByte_eq]
    cases hd : data.drop idx with
    | nil => exact absurd hd hne
    | cons c t =>
      simp only
      cases h : cutAt 61 (c :: t) with
      | none => simp
      | some q =>
        obtain ⟨n, r⟩ := q
        obtain ⟨e1, _⟩ := cutAt_length _ _ _ _ h
        have hdata : data = data.take idx ++ (n ++ 61 :: r) := by
          rw [← e1, ← hd]; exact (List.take_append_drop idx data).symm
        have hidx : (data.take idx).length = idx := by simp; omega
        have hlen : data.length = idx + n.length + 1 + r.length := by
          conv => lhs; rw [hdata]
          simp only [List.length_append, List.length_cons, hidx]; omega
        have hr : data.drop (idx + n.length + 1) = r := by
          rw [show idx + n.length + 1 = idx + (n.length + 1) by omega, ← List.drop_drop, hd, e1,
            show n ++ 61 :: r = (n ++ [61]) ++ r by simp]
          rw [List.drop_left' (by simp)]
        have hn : (data.take (idx + n.length)).drop idx = n := by
          rw [List.drop_take, hd, e1]; simp
        simp only [Option.map_some]
        rw [goSlice_front data (idx + n.length + 1) (by omega), hr]
        simp only [Out.ok_bind, pairEnd]
        rw [indexByte_eq]
        cases h2 : cutAt 44 r with
        | none =>
          simp only [Option.map_none]
          rw [goSlice_of_le data idx _ (by omega) (by omega), hn]
          simp only [Out.ok_bind]
          rw [goSlice_front data (idx + n.length + 1) (by omega), hr]
          simp
        | some q =>
          obtain ⟨v, r'⟩ := q
          obtain ⟨e2, _⟩ := cutAt_length _ _ _ _ h2
          have hrl := congrArg List.length e2
          simp at hrl
          simp only [Option.map_some]
          rw [goSlice_of_le data idx _ (by omega) (by omega), hn]
          simp only [Out.ok_bind]
          rw [goSlice_of_le data _ _ (by omega) (by omega)]
          have hv : (data.take (idx + n.length + 1 + v.length)).drop (idx + n.length + 1) = v := by
            rw [List.drop_take, hr, e2]; simp
          rw [hv]
          simp
  · have : data.drop idx = [] := by simpa using hlt
    rw [this]
    simp [Nat.not_lt.mp hlt]

theorem drop_after (data : Bytes) (idx : Nat) (n r v r' : Bytes) (h1 : data.drop idx = n ++ 61 :: r)
    (h2 : r = v ++ 44 :: r') : data.drop (idx + n.length + 1 + v.length + 1) = r' := by
  rw [show idx + n.length + 1 + v.length + 1 = idx + (n.length + 1 + v.length + 1) by omega, ← List.drop_drop,
    h1, h2, show n ++ 61 :: (v ++ 44 :: r') = (n ++ [61] ++ v ++ [44]) ++ r' by simp]
  rw [List.drop_left' (by simp; omega)]

theorem drain_eq : ∀ (fuel : Nat) (it : TagIter), it.err = false → (it.data.drop it.idx).length < fuel →
    TagIter.drain fuel it = .ok (parsePairs (it.data.drop it.idx))
  | 0, _, _, h => by omega
  | fuel + 1, it, he, h => by
    rw [TagIter.drain, next_eq it he]
    cases hd : it.data.drop it.idx with
    | nil => simp [parsePairs, he]
    | cons c t =>
      rw [hd] at h
      rw [parsePairs_cons _ (by simp)]
      simp only [Out.ok_bind]
      cases h1 : cutAt 61 (c :: t) with
      | none => simp
      | some q =>
        obtain ⟨n, r⟩ := q
        have e1 := (cutAt_length _ _ _ _ h1).1
        have l1 := congrArg List.length e1
        simp at l1 h
        simp only
        cases h2 : cutAt 44 r with
        | none =>
          have hnil : it.data.drop (it.data.length + 1) = [] := by simp
          have ih := drain_eq fuel { it with cur := ⟨n, r⟩, idx := it.data.length + 1 } he
            (by simp only [hnil, List.length_nil]; omega)
          simp only [if_true, ih, hnil, parsePairs, Out.ok_bind]
        | some q =>
          obtain ⟨v, r'⟩ := q
          have e2 := (cutAt_length _ _ _ _ h2).1
          have l2 := congrArg List.length e2
          simp at l2
          have hda := drop_after it.data it.idx n r v r' (hd.trans e1) e2
          have ih := drain_eq fuel
            { it with cur := ⟨n, v⟩, idx := it.idx + n.length + 1 + v.length + 1 } he
            (by simp only [hda]; omega)
          simp only [if_true, ih, hda, Out.ok_bind]

theorem search_eq (p : TagPair → Bool) : ∀ (fuel : Nat) (it : TagIter), it.err = false →
    (it.data.drop it.idx).length < fuel →
    TagIter.search p fuel it = .ok ((parsePairs (it.data.drop it.idx)).1.find? p)
  | 0, _, _, h => by omega
  | fuel + 1, it, he, h => by
    rw [TagIter.search, next_eq it he]
    cases hd : it.data.drop it.idx with
    | nil => simp [parsePairs]
    | cons c t =>
      rw [hd] at h
      rw [parsePairs_cons _ (by simp)]
      simp only [Out.ok_bind]
      cases h1 : cutAt 61 (c :: t) with
      | none => simp
      | some q =>
        obtain ⟨n, r⟩ := q
        have e1 := (cutAt_length _ _ _ _ h1).1
        have l1 := congrArg List.length e1
        simp at l1 h
        simp only
        cases h2 : cutAt 44 r with
        | none =>
          have hnil : it.data.drop (it.data.length + 1) = [] := by simp
          have ih := search_eq p fuel { it with cur := ⟨n, r⟩, idx := it.data.length + 1 } he
            (by simp only [hnil, List.length_nil]; omega)
          simp only [if_true, ih, hnil, parsePairs, List.find?_cons, List.find?_nil]
          cases p ⟨n, r⟩ <;> simp
        | some q =>
          obtain ⟨v, r'⟩ := q
          have e2 := (cutAt_length _ _ _ _ h2).1
          have l2 := congrArg List.length e2
          simp at l2
          have hda := drop_after it.data it.idx n r v r' (hd.trans e1) e2
          have ih := search_eq p fuel
            { it with cur := ⟨n, v⟩, idx := it.idx + n.length + 1 + v.length + 1 } he
            (by simp only [hda]; omega)
          simp only [if_true, ih, hda, List.find?_cons]
          cases p ⟨n, v⟩ <;> simp

/-! ### Well-formed identifiers -/

def toPair (p : TagPair) : Bytes × Bytes := (p.name, p.value)
def ofPair (p : Bytes × Bytes) : TagPair := ⟨p.1, p.2⟩

theorem writePairs_eq (l : List (Bytes × Bytes)) :
    writePairs (l.map ofPair) = joinWith 44 (l.map fun p => p.1 ++ 61 :: p.2) := by
  induction l with
  | nil => rfl
  | cons p l ih =>
    cases l with
    | nil => rfl
    | cons q l =>
      simp only [List.map_cons] at ih ⊢
      simp only [writePairs, joinWith, ih]
      rfl

theorem cutAt_none_iff' (sep : UInt8) : ∀ s, cutAt sep s = none ↔ sep ∉ s
  | [] => by simp [cutAt]
  | c :: cs => by
    simp only [cutAt]
    split
    · next h => simp [h]
    · next h => simp [cutAt_none_iff' sep cs, Ne.symm h]

theorem parsePairs_render : ∀ (l : List (Bytes × Bytes)), (∀ p ∈ l, 61 ∉ p.1 ∧ 44 ∉ p.2) →
    parsePairs (joinWith 44 (l.map fun p => p.1 ++ 61 :: p.2)) = (l.map ofPair, false)
  | [], _ => by simp [joinWith, parsePairs]
  | [p], h => by
    obtain ⟨h1, h2⟩ := h p (by simp)
    simp only [List.map_cons, List.map_nil, joinWith]
    rw [parsePairs_cons _ (by simp), cutAt_append' 61 p.1 p.2 h1]
    simp only [(cutAt_none_iff' 44 p.2).mpr h2]
    rfl
  | p :: q :: l, h => by
    obtain ⟨h1, h2⟩ := h p (by simp)
    have ih := parsePairs_render (q :: l) (fun r hr => h r (List.mem_cons_of_mem _ hr))
    simp only [List.map_cons, joinWith] at ih ⊢
    generalize hrest : joinWith 44 ((q.1 ++ 61 :: q.2) :: l.map fun p => p.1 ++ 61 :: p.2) = rest at ih ⊢
    rw [parsePairs_cons _ (by simp)]
    rw [show p.1 ++ 61 :: p.2 ++ 44 :: rest = p.1 ++ 61 :: (p.2 ++ 44 :: rest) by simp]
    rw [cutAt_append' 61 p.1 _ h1]
    simp only [cutAt_append' 44 p.2 rest h2, ih]
    rfl

theorem nameAndTags_of (name tags : Bytes) (h : 43 ∉ name) :
    nameAndTags (m3Prefix ++ name ++ 43 :: tags) = .ok (name, tags) := by
  unfold nameAndTags
  rw [indexByte_eq]
  have h1 : cutAt 43 (m3Prefix ++ name ++ 43 :: tags) = some ([109, 51], name ++ 43 :: tags) := by
    have := cutAt_append' 43 [109, 51] (name ++ 43 :: tags) (by decide)
    rw [← this]; congr 1
  have hlen : (m3Prefix ++ name ++ 43 :: tags).length = 3 + name.length + 1 + tags.length := by
    simp [m3Prefix]; omega
  rw [h1]
  simp only [Option.map_some, List.length_cons, List.length_nil]
  rw [goSlice_of_le _ 0 _ (by omega) (by omega)]
  have h2 : hasSuffix ((List.take (0 + 1 + 1 + 1) (m3Prefix ++ name ++ 43 :: tags)).drop 0) m3Prefix = true := by
    rw [hasSuffix_iff]
    exact ⟨[], by simp [m3Prefix]⟩
  simp only [Out.ok_bind, h2, Bool.not_true, Bool.false_eq_true, if_false]
  rw [goSlice_front _ _ (by omega)]
  have h3 : (m3Prefix ++ name ++ 43 :: tags).drop (0 + 1 + 1 + 1) = name ++ 43 :: tags := by
    simp [m3Prefix]
  rw [h3]
  simp only [Out.ok_bind]
  rw [indexByte_eq, cutAt_append' 43 name tags h]
  simp only [Option.map_some]
  rw [goSlice_of_le _ _ _ (by omega) (by omega)]
  have h4 : (List.take (0 + 1 + 1 + 1 + name.length) (m3Prefix ++ name ++ 43 :: tags)).drop (0 + 1 + 1 + 1) = name := by
    rw [List.drop_take, h3]; simp
  rw [h4]
  simp only [Out.ok_bind]
  rw [goSlice_front _ _ (by omega)]
  have h5 : (m3Prefix ++ name ++ 43 :: tags).drop (0 + 1 + 1 + 1 + name.length + 1) = tags := by
    rw [show m3Prefix ++ name ++ 43 :: tags = (m3Prefix ++ name ++ [43]) ++ tags by simp,
      List.drop_left' (by simp [m3Prefix]; omega)]
  rw [h5]
  rfl

/-- All pairs an iterator over `tags` yields, and whether it stops with an error. -/
def iterate (tags : Bytes) : Out (List TagPair × Bool) := TagIter.drain (tags.length + 1) (.reset tags)

theorem iterate_eq (tags : Bytes) : iterate tags = .ok (parsePairs tags) := by
  unfold iterate
  rw [drain_eq _ _ rfl (by simp [TagIter.reset])]
  simp [TagIter.reset]

/-- C33, part 1: iteration over any tag bytes ends, without an out-of-range access, and does not depend on
how many more steps are allowed. -/
theorem C33_iteration_total (tags : Bytes) (fuel : Nat) (h : tags.length < fuel) :
    ∃ r, iterate tags = .ok r ∧ TagIter.drain fuel (.reset tags) = .ok r := by
  refine ⟨_, iterate_eq tags, ?_⟩
  rw [drain_eq _ _ rfl (by simpa [TagIter.reset] using h)]
  simp [TagIter.reset]

/-- C33, part 2: parsing an identifier built from a name and tags gives back that name and, by iteration,
exactly these tags, without error. -/
theorem C33_parse_back (name : Bytes) (tags : List (Bytes × Bytes)) (h : Clean name tags) :
    ∃ ts, nameAndTags (idText name tags) = .ok (name, ts) ∧ iterate ts = .ok (tags.map ofPair, false) := by
  refine ⟨joinWith 44 (tags.map fun p => p.1 ++ 61 :: p.2), ?_, ?_⟩
  · have := nameAndTags_of name (joinWith 44 (tags.map fun p => p.1 ++ 61 :: p.2)) h.1
    rw [← this]
    congr 1
    simp only [idText, m3Prefix, show bs "m3+" = [109, 51, 43] from rfl, show bs "+" = [43] from rfl]
    simp
  · rw [iterate_eq, parsePairs_render tags h.2]

theorem find_lookup (n : Bytes) (tags : List (Bytes × Bytes)) :
    valueOf ((tags.map ofPair).find? fun q => n == q.name) = lookup n tags := by
  induction tags with
  | nil => rfl
  | cons p ps ih =>
    simp only [List.map_cons, List.find?_cons, lookup, ofPair]
    by_cases h : p.1 = n
    · simp [h, valueOf]
    · have : (n == p.1) = false := by simpa using Ne.symm h
      rw [this, if_neg h]
      exact ih

/-- C33, part 3: looking up a tag returns the value of the first tag of that name, or absence. -/
theorem C33_tag_lookup (name : Bytes) (tags : List (Bytes × Bytes)) (h : Clean name tags) (n : Bytes) :
    tagValue (idText name tags) n = .ok (lookup n tags) := by
  obtain ⟨ts, h1, h2⟩ := C33_parse_back name tags h
  rw [iterate_eq] at h2
  unfold tagValue
  rw [h1]
  simp only
  rw [search_eq _ _ _ rfl (by simp [TagIter.reset])]
  simp only [TagIter.reset, List.drop_zero, Out.ok_bind]
  simp only [Out.ok.injEq] at h2
  rw [h2]
  simp only [find_lookup]

theorem nameAndTags_not_panic (id : Bytes) : nameAndTags id ≠ .panic := by
  unfold nameAndTags
  rw [indexByte_eq]
  cases h : cutAt 43 id with
  | none =>
    simp only [Option.map_none]
    rw [goSlice_of_le _ _ _ (by omega) (by omega)]
    simp only [Out.ok_bind]
    have : hasSuffix ((List.take 0 id).drop 0) m3Prefix = false := by
      cases hc : hasSuffix ((List.take 0 id).drop 0) m3Prefix with
      | false => rfl
      | true =>
        obtain ⟨r, hr⟩ := (hasSuffix_iff _ _).mp hc
        have := congrArg List.length hr
        simp [m3Prefix] at this
    rw [this]
    simp
  | some q =>
    obtain ⟨a, b⟩ := q
    obtain ⟨rfl, _⟩ := cutAt_length _ _ _ _ h
    have hl : (a ++ 43 :: b).length = a.length + 1 + b.length := by simp; omega
    simp only [Option.map_some]
    rw [goSlice_of_le _ _ _ (by omega) (by omega)]
    simp only [Out.ok_bind]
    split
    · simp
    · rw [goSlice_front _ _ (by omega)]
      have hd : (a ++ 43 :: b).drop (a.length + 1) = b := by
        rw [show a ++ 43 :: b = (a ++ [43]) ++ b by simp, List.drop_left' (by simp)]
      rw [hd]
      simp only [Out.ok_bind]
      rw [indexByte_eq]
      cases h2 : cutAt 43 b with
      | none => simp
      | some q =>
        obtain ⟨c, d⟩ := q
        obtain ⟨rfl, _⟩ := cutAt_length _ _ _ _ h2
        have hl2 : (c ++ 43 :: d).length = c.length + 1 + d.length := by simp; omega
        simp only [Option.map_some]
        rw [goSlice_of_le _ _ _ (by omega) (by omega)]
        simp only [Out.ok_bind]
        rw [goSlice_front _ _ (by omega)]
        simp

/-- Splitting in closed form. -/
theorem nameAndTags_eq (id : Bytes) : nameAndTags id = match cutAt 43 id with
    | none => .err
    | some (a, b) => if hasSuffix (a ++ [43]) m3Prefix = true then
        match cutAt 43 b with
        | none => .err
        | some (n, t) => .ok (n, t)
      else .err := by
  unfold nameAndTags
  rw [indexByte_eq]
  cases h : cutAt 43 id with
  | none =>
    simp only [Option.map_none]
    rw [goSlice_of_le _ _ _ (by omega) (by omega)]
    simp only [Out.ok_bind]
    have : hasSuffix ((List.take 0 id).drop 0) m3Prefix = false := by
      cases hc : hasSuffix ((List.take 0 id).drop 0) m3Prefix with
      | false => rfl
      | true =>
        obtain ⟨r, hr⟩ := (hasSuffix_iff _ _).mp hc
        have := congrArg List.length hr
        simp [m3Prefix] at this
    rw [this]
    simp
  | some q =>
    obtain ⟨a, b⟩ := q
    obtain ⟨rfl, _⟩ := cutAt_length _ _ _ _ h
    have hl : (a ++ 43 :: b).length = a.length + 1 + b.length := by simp; omega
    simp only [Option.map_some]
    rw [goSlice_of_le _ _ _ (by omega) (by omega)]
    simp only [Out.ok_bind]
    have hp : (List.take (a.length + 1) (a ++ 43 :: b)).drop 0 = a ++ [43] := by
      rw [show a ++ 43 :: b = (a ++ [43]) ++ b by simp, List.drop_zero, List.take_left' (by simp)]
    rw [hp]
    by_cases hs : hasSuffix (a ++ [43]) m3Prefix = true
    · simp only [hs, Bool.not_true, Bool.false_eq_true, if_false, if_true]
      rw [goSlice_front _ _ (by omega)]
      have hd : (a ++ 43 :: b).drop (a.length + 1) = b := by
        rw [show a ++ 43 :: b = (a ++ [43]) ++ b by simp, List.drop_left' (by simp)]
      rw [hd]
      simp only [Out.ok_bind]
      rw [indexByte_eq]
      cases h2 : cutAt 43 b with
      | none => simp
      | some q =>
        obtain ⟨c, d⟩ := q
        obtain ⟨rfl, _⟩ := cutAt_length _ _ _ _ h2
        have hl2 : (c ++ 43 :: d).length = c.length + 1 + d.length := by simp; omega
        simp only [Option.map_some]
        rw [goSlice_of_le _ _ _ (by omega) (by omega)]
        simp only [Out.ok_bind]
        rw [goSlice_front _ _ (by omega)]
        have h4 : (List.take (a.length + 1 + c.length) (a ++ 43 :: (c ++ 43 :: d))).drop (a.length + 1) = c := by
          rw [List.drop_take, hd]; simp
        have h5 : (a ++ 43 :: (c ++ 43 :: d)).drop (a.length + 1 + c.length + 1) = d := by
          rw [show a ++ 43 :: (c ++ 43 :: d) = (a ++ [43] ++ c ++ [43]) ++ d by simp, List.drop_left' (by simp; omega)]
        rw [h4, h5]
        rfl
    · simp [hs]

theorem cutAt_some_iff (sep : UInt8) (s a b : Bytes) : cutAt sep s = some (a, b) ↔ s = a ++ sep :: b ∧ sep ∉ a := by
  constructor
  · exact cutAt_length sep s a b
  · rintro ⟨rfl, h⟩
    exact cutAt_append' sep a b h

/-- C33: exactly the identifiers `…m3+name+tags` are split, at their first two separators; anything may stand before the `m3`. -/
theorem C33_split_iff (id name tags : Bytes) : nameAndTags id = .ok (name, tags) ↔
    ∃ pre, id = pre ++ bs "m3+" ++ name ++ bs "+" ++ tags ∧ 43 ∉ pre ∧ 43 ∉ name := by
  have hm : bs "m3+" = [109, 51, 43] := by decide
  have hp : bs "+" = [43] := by decide
  have hx : m3Prefix = [109, 51, 43] := by decide
  rw [nameAndTags_eq, hm, hp]
  constructor
  · intro h
    cases h1 : cutAt 43 id with
    | none => simp [h1] at h
    | some q =>
      obtain ⟨a, b⟩ := q
      simp only [h1] at h
      split at h
      · rename_i hs
        cases h2 : cutAt 43 b with
        | none => simp [h2] at h
        | some q =>
          obtain ⟨n, t⟩ := q
          simp only [h2, Out.ok.injEq, Prod.mk.injEq] at h
          obtain ⟨rfl, rfl⟩ := h
          obtain ⟨rfl, ha⟩ := (cutAt_some_iff _ _ _ _).mp h1
          obtain ⟨rfl, hn⟩ := (cutAt_some_iff _ _ _ _).mp h2
          obtain ⟨r, hr⟩ := (hasSuffix_iff _ _).mp hs
          rw [hx, show r ++ [109, 51, 43] = (r ++ [109, 51]) ++ [43] by simp] at hr
          have hra := List.append_cancel_right hr
          subst hra
          exact ⟨r, by simp, fun hc => ha (by simp [hc]), hn⟩
      · cases h
  · rintro ⟨pre, rfl, hpre, hn⟩
    have h1 : cutAt 43 (pre ++ [109, 51, 43] ++ name ++ [43] ++ tags) = some (pre ++ [109, 51], name ++ 43 :: tags) :=
      (cutAt_some_iff _ _ _ _).mpr ⟨by simp, by simp [hpre]⟩
    have h2 : cutAt 43 (name ++ 43 :: tags) = some (name, tags) := (cutAt_some_iff _ _ _ _).mpr ⟨rfl, hn⟩
    have h3 : hasSuffix (pre ++ [109, 51] ++ [43]) m3Prefix = true := (hasSuffix_iff _ _).mpr ⟨pre, by simp [hx]⟩
    simp only [h1, h2, h3, if_true]

example : nameAndTags (bs "statsdm3+requests+city=sf") = .ok (bs "requests", bs "city=sf") := by decide +kernel
example : nameAndTags (bs "m3x+requests+city=sf") = .err := by decide +kernel

/-- C33, part 4: on arbitrary bytes (malformed identifiers included) name extraction, tag lookup and
rollup detection return and never go out of range. -/
theorem C33_total (id tags n : Bytes) :
    nameAndTags id ≠ .panic ∧ (∃ r, tagValue id n = .ok r) ∧ ∃ b, isRollupID tags = .ok b := by
  refine ⟨nameAndTags_not_panic id, ?_, ?_⟩
  · unfold tagValue
    cases h : nameAndTags id with
    | panic => exact absurd h (nameAndTags_not_panic id)
    | err => exact ⟨none, rfl⟩
    | ok q =>
      simp only
      rw [search_eq _ _ _ rfl (by simp [TagIter.reset])]
      exact ⟨_, rfl⟩
  · unfold isRollupID
    rw [search_eq _ _ _ rfl (by simp [TagIter.reset])]
    exact ⟨_, rfl⟩

/-! ### Rollup identifiers -/

/-- The rollup marker. -/
def marker : Bytes × Bytes := (bs "m3_rollup", bs "true")

/-- Sorted by name, strictly. -/
def NameSorted (l : List (Bytes × Bytes)) : Prop := l.Pairwise fun a b => bytesLt a.1 b.1 = true

/-- The specification of a rollup identifier: the tags and the marker, sorted by name. -/
theorem newRollupID_text (name : Bytes) (tags : List (Bytes × Bytes)) :
    newRollupID name (tags.map ofPair) =
      idText name (sortBy (fun a b => bytesLt a.1 b.1) (tags ++ [marker])) := by
  have h : tags.map ofPair ++ [rollupTagPair] = (tags ++ [marker]).map ofPair := by
    simp [ofPair, marker, rollupTagPair]; decide
  unfold newRollupID idText
  rw [h]
  have h2 : sortBy pairLt ((tags ++ [marker]).map ofPair) =
      (sortBy (fun a b => bytesLt a.1 b.1) (tags ++ [marker])).map ofPair :=
    sortBy_map pairLt ofPair _
  rw [h2, writePairs_eq]
  simp [m3Prefix, show bs "m3+" = [109, 51, 43] from rfl, show bs "+" = [43] from rfl]

theorem clean_sorted (name : Bytes) (tags : List (Bytes × Bytes)) (h : Clean name tags) :
    Clean name (sortBy (fun a b => bytesLt a.1 b.1) (tags ++ [marker])) := by
  refine ⟨h.1, fun p hp => ?_⟩
  rw [mem_sortBy, List.mem_append, List.mem_singleton] at hp
  rcases hp with hp | rfl
  · exact h.2 p hp
  · decide

/-- Tag names of a rollup: distinct, and none is the marker's. -/
def Distinct (tags : List (Bytes × Bytes)) : Prop := ((tags ++ [marker]).map (·.1)).Nodup

/-- C32: a rollup identifier parses back to the name and to the tags plus the marker, in strictly ascending
order of tag names, and is recognised as a rollup identifier. -/
theorem C32_parse_back (name : Bytes) (tags : List (Bytes × Bytes)) (h : Clean name tags)
    (hd : Distinct tags) :
    ∃ ts l, nameAndTags (newRollupID name (tags.map ofPair)) = .ok (name, ts) ∧
      iterate ts = .ok (l.map ofPair, false) ∧ l.Perm (tags ++ [marker]) ∧ NameSorted l ∧
      isRollupID ts = .ok true := by
  rw [newRollupID_text]
  obtain ⟨ts, h1, h2⟩ := C33_parse_back name _ (clean_sorted name tags h)
  refine ⟨ts, _, h1, h2, sortBy_perm _ _, ?_, ?_⟩
  · exact sortByKey_strict bytesLt_strictTotal (fun p : Bytes × Bytes => p.1) _ hd
  · rw [iterate_eq] at h2
    simp only [Out.ok.injEq] at h2
    unfold isRollupID
    rw [search_eq _ _ _ rfl (by simp [TagIter.reset])]
    simp only [TagIter.reset, List.drop_zero, Out.ok_bind, h2, Out.ok.injEq]
    rw [List.find?_isSome]
    refine ⟨rollupTagPair, ?_, by simp⟩
    rw [List.mem_map]
    exact ⟨marker, by rw [mem_sortBy]; simp, by decide⟩

/-- C32: the identifier does not depend on the order of the tags. -/
theorem C32_order_independent (name : Bytes) (tags tags' : List (Bytes × Bytes)) (hd : Distinct tags)
    (hp : tags.Perm tags') :
    newRollupID name (tags.map ofPair) = newRollupID name (tags'.map ofPair) := by
  rw [newRollupID_text, newRollupID_text]
  congr 1
  exact sortByKey_perm bytesLt_strictTotal (fun p : Bytes × Bytes => p.1) _ _ hd (hp.append_right _)

/-- C32: distinct (name, tag set) have distinct identifiers. -/
theorem C32_injective (name name' : Bytes) (tags tags' : List (Bytes × Bytes))
    (h : Clean name tags) (h' : Clean name' tags') 
    (he : newRollupID name (tags.map ofPair) = newRollupID name' (tags'.map ofPair)) :
    name = name' ∧ tags.Perm tags' := by
  rw [newRollupID_text, newRollupID_text] at he
  obtain ⟨ts, h1, h2⟩ := C33_parse_back name _ (clean_sorted name tags h)
  obtain ⟨ts', h1', h2'⟩ := C33_parse_back name' _ (clean_sorted name' tags' h')
  rw [he, h1'] at h1
  simp only [Out.ok.injEq, Prod.mk.injEq] at h1
  obtain ⟨e1, rfl⟩ := h1
  rw [h2] at h2'
  simp only [Out.ok.injEq, Prod.mk.injEq, and_true] at h2'
  have hinj : Function.Injective ofPair := by
    rintro ⟨a, b⟩ ⟨c, d⟩ h
    simpa [ofPair] using h
  have e2 := (List.map_inj_right (fun a b h => hinj h)).mp h2'
  refine ⟨e1.symm, ?_⟩
  have := (sortBy_perm _ (tags ++ [marker])).symm.trans (e2 ▸ sortBy_perm _ (tags' ++ [marker]))
  exact (List.perm_append_right_iff _).mp this

/-- C32: rollup detection on arbitrary tag bytes is exactly presence of the marker among the tags read. -/
theorem C32_detection (tags : Bytes) (l : List TagPair) (e : Bool) (h : iterate tags = .ok (l, e)) :
    ∃ b, isRollupID tags = .ok b ∧ (b = true ↔ rollupTagPair ∈ l) := by
  rw [iterate_eq] at h
  simp only [Out.ok.injEq] at h
  unfold isRollupID
  rw [search_eq _ _ _ rfl (by simp [TagIter.reset])]
  simp only [TagIter.reset, List.drop_zero, Out.ok_bind, h, Out.ok.injEq, exists_eq_left']
  rw [List.find?_isSome]
  constructor
  · rintro ⟨x, hx, hp⟩
    simp only [Bool.and_eq_true, beq_iff_eq] at hp
    have : x = rollupTagPair := by obtain ⟨a, b⟩ := x; simp_all [rollupTagPair]
    rwa [← this]
  · intro hx
    exact ⟨_, hx, by simp⟩

-- non-vacuity
example : Clean (bs "requests") [(bs "service", bs "foo"), (bs "env", bs "a=b")] ∧
    Distinct [(bs "service", bs "foo"), (bs "env", bs "a=b")] ∧
    newRollupID (bs "requests") ([(bs "service", bs "foo"), (bs "env", bs "a=b")].map ofPair) =
      bs "m3+requests+env=a=b,m3_rollup=true,service=foo" := by
  refine ⟨?_, ?_, ?_⟩
  · unfold Clean; decide
  · unfold Distinct; decide
  · decide

/-- Without the separator conditions the round trip fails: a comma inside a tag value is read back as two tags. -/
theorem C32_separator_needed : ∃ name tags, Distinct tags ∧ ¬ Clean name tags ∧
    ∃ ts, nameAndTags (newRollupID name (tags.map ofPair)) = .ok (name, ts) ∧
      ∃ l e, iterate ts = .ok (l, e) ∧ l.length ≠ tags.length + 1 := by
  refine ⟨bs "n", [(bs "a", bs "1,b=2")], by unfold Distinct; decide, by unfold Clean; decide,
    bs "a=1,b=2,m3_rollup=true", by decide,
    [⟨bs "a", bs "1"⟩, ⟨bs "b", bs "2"⟩, ⟨bs "m3_rollup", bs "true"⟩], false, by decide, by decide⟩

end Verif.Id
