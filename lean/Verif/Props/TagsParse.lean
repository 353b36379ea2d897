import Verif.Props.TagsFilter
/- C31: parsing of tag filter text. -/
namespace Verif.TagsFlt
open Verif.Flt Verif.Id Verif.Spec.TagsFlt Verif.Spec.Id Verif.Policy

theorem hasPrefix_iff' (s e : Bytes) : hasPrefix s e = true ↔ e <+: s := by
  rw [hasPrefix_iff]
  constructor
  · rintro ⟨r, rfl⟩; exact ⟨r, rfl⟩
  · rintro ⟨r, rfl⟩; exact ⟨r, rfl⟩

/-- A code: no word is empty, none is a beginning of another. -/
structure Code (sp : List Bytes) : Prop where
  ne : ∀ e ∈ sp, e ≠ []
  free : ∀ e ∈ sp, ∀ e' ∈ sp, e <+: e' → e = e'

theorem spaces_code : Code spaces where
  ne := by decide
  free := by
    have : ∀ e ∈ spaces, ∀ e' ∈ spaces, hasPrefix e' e = true → e = e' := by decide
    intro e he e' he' h
    exact this e he e' he' ((hasPrefix_iff' _ _).mpr h)

theorem rev_code : Code (spaces.map List.reverse) where
  ne := by decide
  free := by
    have : ∀ e ∈ spaces.map List.reverse, ∀ e' ∈ spaces.map List.reverse, hasPrefix e' e = true → e = e' := by
      decide
    intro e he e' he' h
    exact this e he e' he' ((hasPrefix_iff' _ _).mpr h)

theorem find_code {sp : List Bytes} (hc : Code sp) (e : Bytes) (he : e ∈ sp) (s : Bytes) :
    sp.find? (fun w => hasPrefix (e ++ s) w) = some e := by
  have hs : (sp.find? (fun w => hasPrefix (e ++ s) w)).isSome := by
    rw [List.find?_isSome]
    exact ⟨e, he, (hasPrefix_iff' _ _).mpr (List.prefix_append e s)⟩
  obtain ⟨w, hw⟩ := Option.isSome_iff_exists.mp hs
  rw [hw]
  have h1 := List.mem_of_find?_eq_some hw
  have h2 := (hasPrefix_iff' _ _).mp (List.find?_some hw)
  rcases List.prefix_or_prefix_of_prefix h2 (List.prefix_append e s) with h | h
  · rw [hc.free w h1 e he h]
  · rw [hc.free e he w h1 h]

theorem find_none_iff (sp : List Bytes) (s : Bytes) :
    sp.find? (fun w => hasPrefix s w) = none ↔ ∀ w ∈ sp, ¬ w <+: s := by
  rw [List.find?_eq_none]
  simp only [hasPrefix_iff']

/-- Enough fuel. -/
theorem trimLeftN_stable {sp : List Bytes} (hc : Code sp) : ∀ (n m : Nat) (s : Bytes), s.length ≤ n → s.length ≤ m →
    trimLeftN sp n s = trimLeftN sp m s
  | 0, 0, s, _, _ => rfl
  | 0, m + 1, s, h, _ => by
    have : s = [] := List.length_eq_zero_iff.mp (by omega)
    subst this
    simp only [trimLeftN]
    have : sp.find? (fun e => hasPrefix [] e) = none := by
      rw [find_none_iff]
      intro w hw hp
      exact hc.ne w hw (List.prefix_nil.mp hp)
    rw [this]
  | n + 1, 0, s, _, h => by
    have : s = [] := List.length_eq_zero_iff.mp (by omega)
    subst this
    simp only [trimLeftN]
    have : sp.find? (fun e => hasPrefix [] e) = none := by
      rw [find_none_iff]
      intro w hw hp
      exact hc.ne w hw (List.prefix_nil.mp hp)
    rw [this]
  | n + 1, m + 1, s, h1, h2 => by
    simp only [trimLeftN]
    cases hf : sp.find? (fun e => hasPrefix s e) with
    | none => rfl
    | some e =>
      have hne := hc.ne e (List.mem_of_find?_eq_some hf)
      have hl : e.length ≠ 0 := by simpa using hne
      have hp := (hasPrefix_iff' _ _).mp (List.find?_some hf)
      have := hp.length_le
      exact trimLeftN_stable hc n m _ (by simp; omega) (by simp; omega)

theorem trimLeft_word {sp : List Bytes} (hc : Code sp) (e : Bytes) (he : e ∈ sp) (s : Bytes) :
    trimLeft sp (e ++ s) = trimLeft sp s := by
  unfold trimLeft
  have hl : e.length ≠ 0 := by simpa using hc.ne e he
  cases hn : (e ++ s).length with
  | zero => simp at hn; exact absurd hn.1 (hc.ne e he)
  | succ n =>
    simp only [trimLeftN, find_code hc e he s, List.drop_left']
    simp only [List.length_append] at hn
    exact trimLeftN_stable hc _ _ _ (by omega) (by omega)

theorem trimLeft_none {sp : List Bytes} (s : Bytes) (h : ∀ w ∈ sp, ¬ w <+: s) : trimLeft sp s = s := by
  unfold trimLeft
  cases s.length with
  | zero => rfl
  | succ n => simp only [trimLeftN, (find_none_iff sp s).mpr h]

/-- Induction along trimming. -/
theorem trimLeft_ind {sp : List Bytes} (hc : Code sp) {P : Bytes → Prop}
    (base : ∀ s, (∀ w ∈ sp, ¬ w <+: s) → P s) (step : ∀ e ∈ sp, ∀ s, P s → P (e ++ s)) (s : Bytes) : P s := by
  generalize hn : s.length = n
  induction n using Nat.strongRecOn generalizing s with
  | _ n ih =>
    by_cases h : ∃ w ∈ sp, w <+: s
    · obtain ⟨w, hw, r, rfl⟩ := h
      have : w.length ≠ 0 := by simpa using hc.ne w hw
      exact step w hw r (ih r.length (by simp at hn; omega) r rfl)
    · exact base s (fun w hw hp => h ⟨w, hw, hp⟩)

def trimRight (s : Bytes) : Bytes := (trimLeft (spaces.map List.reverse) s.reverse).reverse

theorem trimSpace_eq (s : Bytes) : trimSpace s = trimRight (trimLeft spaces s) := rfl

theorem trimRight_word (e : Bytes) (he : e ∈ spaces) (s : Bytes) : trimRight (s ++ e) = trimRight s := by
  unfold trimRight
  rw [List.reverse_append, trimLeft_word rev_code _ (List.mem_map.mpr ⟨e, he, rfl⟩)]

theorem trimSpace_word_left (e : Bytes) (he : e ∈ spaces) (s : Bytes) : trimSpace (e ++ s) = trimSpace s := by
  rw [trimSpace_eq, trimLeft_word spaces_code e he, trimSpace_eq]

/-- No byte inside an encoding starts another one. -/
theorem spaces_sync : ∀ e' ∈ spaces, ∀ b ∈ e'.tail, ∀ e ∈ spaces, e.head? ≠ some b := by decide

theorem trimLeft_append (e : Bytes) (he : e ∈ spaces) : ∀ l,
    trimLeft spaces (l ++ e) = trimLeft spaces l ++ e ∨
      (trimLeft spaces l = [] ∧ trimLeft spaces (l ++ e) = []) := by
  intro l
  induction l using trimLeft_ind spaces_code with
  | base s hs =>
    rw [trimLeft_none s hs]
    cases s with
    | nil =>
      right
      refine ⟨rfl, ?_⟩
      have := trimLeft_word spaces_code e he []
      simpa [trimLeft, trimLeftN] using this
    | cons c t =>
      left
      apply trimLeft_none
      intro w hw hp
      rcases List.prefix_or_prefix_of_prefix hp (List.prefix_append (c :: t) e) with h | h
      · exact hs w hw h
      · obtain ⟨x, rfl⟩ := h
        cases x with
        | nil => exact hs _ hw (by simp)
        | cons b x =>
          have hb : b ∈ (c :: t ++ b :: x).tail := by simp
          refine spaces_sync _ hw b hb e he ?_
          obtain ⟨y, hy⟩ := hp
          have : e = b :: x ++ y := by
            have := hy.symm
            simp only [List.append_assoc] at this
            exact List.append_cancel_left this
          rw [this]; rfl
  | step w hw s ih =>
    rw [List.append_assoc, trimLeft_word spaces_code w hw, trimLeft_word spaces_code w hw]
    exact ih

theorem trimSpace_word_right (e : Bytes) (he : e ∈ spaces) (s : Bytes) : trimSpace (s ++ e) = trimSpace s := by
  rw [trimSpace_eq, trimSpace_eq]
  rcases trimLeft_append e he s with h | ⟨h1, h2⟩
  · rw [h, trimRight_word e he]
  · rw [h1, h2]

theorem trimSpace_nil : trimSpace [] = [] := rfl

theorem spaces_no32 : ∀ e ∈ spaces, e = [32] ∨ 32 ∉ e := by decide

theorem splitOn_append_left (e : Bytes) (he : 32 ∉ e) (s : Bytes) :
    ∃ h t, splitOn 32 s = h :: t ∧ splitOn 32 (e ++ s) = (e ++ h) :: t := by
  induction e with
  | nil =>
    cases hs : splitOn 32 s with
    | nil => exact absurd hs (splitOn_ne_nil _ _)
    | cons h t => exact ⟨h, t, rfl, by simpa using hs⟩
  | cons c e ih =>
    obtain ⟨h, t, h1, h2⟩ := ih (fun hm => he (List.mem_cons_of_mem _ hm))
    have hc : c ≠ 32 := fun hc => he (by simp [hc])
    refine ⟨h, t, h1, ?_⟩
    simp only [List.cons_append, splitOn, hc, if_false, h2]

theorem tokens_left (e : Bytes) (he : e ∈ spaces) (s : Bytes) : tokens (e ++ s) = tokens s := by
  rcases spaces_no32 e he with rfl | h32
  · simp [tokens, splitOn, trimSpace_nil]
  · obtain ⟨h, t, h1, h2⟩ := splitOn_append_left e h32 s
    simp only [tokens, h1, h2, List.map_cons, trimSpace_word_left e he]

theorem splitOn_append_right (e : Bytes) (he : 32 ∉ e) : ∀ (s : Bytes),
    ∃ i l, splitOn 32 s = i ++ [l] ∧ splitOn 32 (s ++ e) = i ++ [l ++ e]
  | [] => ⟨[], [], rfl, by simpa using splitOn_of_not_mem 32 e he⟩
  | c :: s => by
    obtain ⟨i, l, h1, h2⟩ := splitOn_append_right e he s
    by_cases hc : c = 32
    · refine ⟨[] :: i, l, ?_, ?_⟩
      · simp [splitOn, hc, h1]
      · simp [splitOn, hc, h2]
    · cases i with
      | nil => exact ⟨[], c :: l, by simp [splitOn, hc, h1], by simp [splitOn, hc, h2]⟩
      | cons h i => exact ⟨(c :: h) :: i, l, by simp [splitOn, hc, h1], by simp [splitOn, hc, h2]⟩

theorem splitOn_append_space : ∀ (s : Bytes), splitOn 32 (s ++ [32]) = splitOn 32 s ++ [[]]
  | [] => rfl
  | c :: s => by
    have ih := splitOn_append_space s
    by_cases hc : c = 32
    · simp [splitOn, hc, ih]
    · cases hs : splitOn 32 s with
      | nil => exact absurd hs (splitOn_ne_nil _ _)
      | cons h t => simp [splitOn, hc, ih, hs]

theorem tokens_right (e : Bytes) (he : e ∈ spaces) (s : Bytes) : tokens (s ++ e) = tokens s := by
  rcases spaces_no32 e he with rfl | h32
  · simp [tokens, splitOn_append_space, trimSpace_nil]
  · obtain ⟨i, l, h1, h2⟩ := splitOn_append_right e h32 s
    simp only [tokens, h1, h2, List.map_append, List.map_cons, List.map_nil, trimSpace_word_right e he]

theorem tokens_trimLeft : ∀ s, tokens (trimLeft spaces s) = tokens s := by
  intro s
  induction s using trimLeft_ind spaces_code with
  | base s hs => rw [trimLeft_none s hs]
  | step e he s ih =>
    rw [trimLeft_word spaces_code e he, tokens_left e he, ih]

theorem tokens_trimRight (s : Bytes) : tokens (trimRight s) = tokens s := by
  have : ∀ r : Bytes, tokens (trimLeft (spaces.map List.reverse) r).reverse = tokens r.reverse := by
    intro r
    induction r using trimLeft_ind rev_code with
    | base r hr => rw [trimLeft_none r hr]
    | step e he r ih =>
      rw [trimLeft_word rev_code e he, ih]
      obtain ⟨w, hw, rfl⟩ := List.mem_map.mp he
      rw [List.reverse_append, List.reverse_reverse, tokens_right w hw]
  have := this s.reverse
  rwa [List.reverse_reverse] at this

theorem tokens_trimSpace (s : Bytes) : tokens (trimSpace s) = tokens s := by
  rw [trimSpace_eq, tokens_trimRight, tokens_trimLeft]

/-- Parsing one word. -/
theorem parseTagFilter_iff (t n v : Bytes) : parseTagFilter t = some (n, v) ↔
    t = n ++ 58 :: v ∧ n ≠ [] ∧ v ≠ [] ∧ 58 ∉ n ∧ 58 ∉ v := by
  unfold parseTagFilter
  constructor
  · intro h
    have hj := joinWith_splitOn 58 t
    split at h
    · next n' v' hs =>
      split at h
      · simp at h
      · split at h
        · simp at h
        · simp only [Option.some.injEq, Prod.mk.injEq] at h
          obtain ⟨rfl, rfl⟩ := h
          rw [hs] at hj
          refine ⟨by simpa [joinWith] using hj.symm, by assumption, by assumption, ?_, ?_⟩
          · exact not_mem_of_mem_splitOn 58 t n' (by simp [hs])
          · exact not_mem_of_mem_splitOn 58 t v' (by simp [hs])
    · simp at h
  · rintro ⟨rfl, h1, h2, h3, h4⟩
    have : splitOn 58 (n ++ 58 :: v) = [n, v] := by
      have := splitOn_joinWith 58 [n, v] (by simp) (by simp [h3, h4])
      simpa [joinWith] using this
    rw [this]
    simp [h1, h2]

theorem parseLoop_iff : ∀ (ps : List Bytes) (res m : TagFilterValueMap),
    parseLoop ps res = some m ↔ ∃ m', m = res ++ m' ∧
      (ps.map trimSpace).filter (fun t => decide (t ≠ [])) = m'.map entryText ∧
      (∀ e ∈ m', e.1 ≠ [] ∧ e.2.pattern ≠ [] ∧ 58 ∉ e.1 ∧ 58 ∉ e.2.pattern ∧ e.2.negate = false) ∧
      (m'.map (·.1)).Nodup ∧ ∀ e ∈ m', ∀ x ∈ res, x.1 ≠ e.1
  | [], res, m => by
    simp only [parseLoop, Option.some.injEq, List.map_nil, List.filter_nil]
    constructor
    · rintro rfl; exact ⟨[], by simp⟩
    · rintro ⟨m', rfl, h, _⟩
      have : m' = [] := by simpa using h
      simp [this]
  | p :: ps, res, m => by
    simp only [parseLoop, List.map_cons]
    by_cases hp : trimSpace p = []
    · rw [if_pos hp, parseLoop_iff ps res m]
      simp [hp]
    · rw [if_neg hp, List.filter_cons_of_pos (by simpa using hp)]
      cases hq : parseTagFilter (trimSpace p) with
      | none =>
        constructor
        · intro h; simp at h
        · rintro ⟨m', _, h1, h2, _⟩
          cases m' with
          | nil => simp at h1
          | cons e m' =>
            simp only [List.map_cons, List.cons.injEq] at h1
            obtain ⟨a, b, c, d, _⟩ := h2 e (by simp)
            have := (parseTagFilter_iff (trimSpace p) e.1 e.2.pattern).mpr ⟨h1.1, a, b, c, d⟩
            rw [hq] at this; cases this
      | some q =>
        obtain ⟨n, v⟩ := q
        obtain ⟨ht, hn, hv, hn5, hv5⟩ := (parseTagFilter_iff _ _ _).mp hq
        simp only
        have key : ∀ e : Bytes × FilterValue, e.2.negate = false → 58 ∉ e.1 →
            58 ∉ e.2.pattern → e.1 ≠ [] → e.2.pattern ≠ [] → trimSpace p = entryText e → e = (n, ⟨v, false⟩) := by
          intro e he h5 h6 h7 h8 ht'
          have := (parseTagFilter_iff (trimSpace p) e.1 e.2.pattern).mpr ⟨ht', h7, h8, h5, h6⟩
          rw [hq] at this
          simp only [Option.some.injEq, Prod.mk.injEq] at this
          obtain ⟨e1, ⟨pat, neg⟩⟩ := e
          simp only at this he
          obtain ⟨rfl, rfl⟩ := this
          rw [he]
        by_cases hd : res.any (fun e => e.1 == n) = true
        · rw [if_pos hd]
          constructor
          · intro h; simp at h
          · rintro ⟨m', _, h1, h2, _, h4⟩
            cases m' with
            | nil => simp at h1
            | cons e m' =>
              simp only [List.map_cons, List.cons.injEq] at h1
              obtain ⟨a, b, c, d, f⟩ := h2 e (by simp)
              have := key e f c d a b h1.1
              subst this
              rw [List.any_eq_true] at hd
              obtain ⟨x, hx, hxn⟩ := hd
              exact absurd (by simpa using hxn) (h4 (n, ⟨v, false⟩) (by simp) x hx)
        · rw [if_neg hd, parseLoop_iff ps _ m]
          have hd' : ∀ x ∈ res, x.1 ≠ n := by
            intro x hx hxn
            exact hd (List.any_eq_true.mpr ⟨x, hx, by simpa using hxn⟩)
          constructor
          · rintro ⟨m', rfl, h1, h2, h3, h4⟩
            refine ⟨(n, ⟨v, false⟩) :: m', by simp, by simp only [h1, List.map_cons]; rw [ht]; rfl, ?_, ?_, ?_⟩
            · intro e he
              rcases List.mem_cons.mp he with rfl | he
              · exact ⟨hn, hv, hn5, hv5, rfl⟩
              · exact h2 e he
            · simp only [List.map_cons, List.nodup_cons]
              refine ⟨?_, h3⟩
              intro hm
              obtain ⟨e, he, hen⟩ := List.mem_map.mp hm
              exact h4 e he (n, ⟨v, false⟩) (by simp) hen.symm
            · intro e he x hx
              rcases List.mem_cons.mp he with rfl | he
              · exact hd' x hx
              · exact h4 e he x (by simp [hx])
          · rintro ⟨m', rfl, h1, h2, h3, h4⟩
            cases m' with
            | nil => simp at h1
            | cons e m' =>
              simp only [List.map_cons, List.cons.injEq] at h1
              obtain ⟨a, b, c, d, f⟩ := h2 e (by simp)
              have := key e f c d a b h1.1
              subst this
              simp only [List.map_cons, List.nodup_cons] at h3
              refine ⟨m', by simp, h1.2, fun e he => h2 e (by simp [he]), h3.2, ?_⟩
              intro e he x hx
              rcases List.mem_append.mp hx with hx | hx
              · exact h4 e (by simp [he]) x hx
              · simp only [List.mem_singleton] at hx
                subst hx
                intro hxe
                exact h3.1 (List.mem_map.mpr ⟨e, he, hxe.symm⟩)

/-- C31: a text is accepted with result `m` exactly when its words are the texts of the entries of `m`, and
`m` has non-empty names and patterns, no colon inside and distinct names. -/
theorem C31_parse_iff (s : Bytes) (m : TagFilterValueMap) :
    parseTagFilterValueMap s = some m ↔ tokens s = m.map entryText ∧ GoodMap m := by
  unfold parseTagFilterValueMap
  rw [parseLoop_iff, ← tokens_trimSpace s]
  simp only [List.nil_append, exists_eq_left', List.not_mem_nil, false_imp_iff, implies_true, and_true, GoodMap]
  rfl

theorem trimSpace_none (s : Bytes) (h1 : ∀ w ∈ spaces, ¬ w <+: s) (h2 : ∀ w ∈ spaces, ¬ w <:+ s) :
    trimSpace s = s := by
  rw [trimSpace_eq, trimLeft_none s h1, trimRight, trimLeft_none, List.reverse_reverse]
  intro w hw hp
  obtain ⟨e, he, rfl⟩ := List.mem_map.mp hw
  exact h2 e he (by simpa using hp)

/-- C31: printing a map and parsing the text gives the same map back. -/
theorem C31_roundtrip (m : TagFilterValueMap) (hg : GoodMap m) (hp : Printable m) :
    parseTagFilterValueMap (printMap m) = some m := by
  rw [C31_parse_iff]
  refine ⟨?_, hg⟩
  have htext : ∀ e ∈ m, 32 ∉ entryText e ∧ trimSpace (entryText e) = entryText e ∧ entryText e ≠ [] := by
    intro e he
    obtain ⟨a, b, c, d⟩ := hp e he
    obtain ⟨g1, g2, g3, g4, _⟩ := hg.1 e he
    have colon : ∀ w ∈ spaces, 58 ∉ w := by decide
    refine ⟨by simp [entryText, a, b], ?_, by simp [entryText]⟩
    apply trimSpace_none
    · intro w hw hpre
      have hq : e.1 <+: entryText e := List.prefix_append _ _
      rcases List.prefix_or_prefix_of_prefix hpre hq with h | ⟨x, rfl⟩
      · exact c w hw h
      · obtain ⟨y, hy⟩ := hpre
        simp only [entryText, List.append_assoc] at hy
        have hxy : x ++ y = 58 :: e.2.pattern := List.append_cancel_left hy
        cases x with
        | nil => exact c _ hw (by simp)
        | cons b x =>
          simp only [List.cons_append, List.cons.injEq] at hxy
          exact colon _ hw (by simp [hxy.1])
    · intro w hw hsuf
      have hq : e.2.pattern <:+ entryText e := ⟨e.1 ++ [58], by simp [entryText]⟩
      rcases List.suffix_or_suffix_of_suffix hsuf hq with h | ⟨x, rfl⟩
      · exact d w hw h
      · obtain ⟨y, hy⟩ := hsuf
        have hxy : y ++ x = e.1 ++ [58] := by
          apply List.append_cancel_right (as := y ++ x) (bs := e.2.pattern) (cs := e.1 ++ [58])
          simpa [entryText] using hy
        rcases List.eq_nil_or_concat x with rfl | ⟨x', b, rfl⟩
        · exact d _ hw (by simp)
        · have : b = 58 := by
            have := congrArg List.getLast? hxy
            simpa using this
          exact colon _ hw (by simp [this])
  unfold printMap
  cases m with
  | nil => rfl
  | cons e m =>
    unfold tokens
    rw [splitOn_joinWith 32 _ (by simp) (by
      intro t ht
      obtain ⟨x, hx, rfl⟩ := List.mem_map.mp ht
      exact (htext x hx).1)]
    rw [List.map_map]
    have h1 : (e :: m).map (trimSpace ∘ entryText) = (e :: m).map entryText := by
      apply List.map_congr_left
      intro x hx; exact (htext x hx).2.1
    rw [h1, List.filter_eq_self]
    intro t ht
    obtain ⟨x, hx, rfl⟩ := List.mem_map.mp ht
    simpa using (htext x hx).2.2

/-- C31: what counts as white space is what Unicode says: the code points 9 to 13, 32, 133, 160, 5760, 8192 to 8202, 8232, 8233, 8239,
8287 and 12288, in UTF-8. -/
theorem C31_spaces (e : Bytes) : e ∈ spaces ↔ ∃ c : Nat, (9 ≤ c ∧ c ≤ 13 ∨ c = 32 ∨ c = 133 ∨ c = 160 ∨ c = 5760 ∨ 8192 ≤ c ∧ c ≤ 8202 ∨
    c = 8232 ∨ c = 8233 ∨ c = 8239 ∨ c = 8287 ∨ c = 12288) ∧ e = String.utf8EncodeChar (Char.ofNat c) := by
  have h : spaces = [9, 10, 11, 12, 13, 32, 133, 160, 5760, 8192, 8193, 8194, 8195, 8196, 8197, 8198, 8199, 8200, 8201, 8202, 8232, 8233, 8239,
      8287, 12288].map fun c => String.utf8EncodeChar (Char.ofNat c) := by decide +kernel
  rw [h, List.mem_map]
  constructor
  · rintro ⟨c, hc, rfl⟩
    simp only [List.mem_cons, List.not_mem_nil, or_false] at hc
    exact ⟨c, by omega, rfl⟩
  · rintro ⟨c, hc, rfl⟩
    refine ⟨c, ?_, rfl⟩
    simp only [List.mem_cons, List.not_mem_nil, or_false]
    omega

/-- C31: two texts with the same words parse alike; in particular surrounding white space is irrelevant. -/
theorem C31_whitespace (s : Bytes) (e e' : Bytes) (he : e ∈ spaces) (he' : e' ∈ spaces) :
    parseTagFilterValueMap (e ++ s ++ e') = parseTagFilterValueMap s := by
  apply Option.ext
  intro m
  rw [C31_parse_iff, C31_parse_iff, tokens_right e' he', tokens_left e he]

theorem validateLoop_iff : ∀ (m : TagFilterValueMap), (validateLoop m ≠ .panic) ∧
    (validateLoop m = .ok () ↔ ∀ e ∈ m, ∃ f, newFilterFromFilterValue e.2 = .ok f)
  | [] => by simp [validateLoop]
  | e :: m => by
    obtain ⟨ih1, ih2⟩ := validateLoop_iff m
    simp only [validateLoop, List.forall_mem_cons]
    cases h : newFilterFromFilterValue e.2 with
    | ok f => exact ⟨ih1, by rw [Out.ok_bind, ih2]; simp⟩
    | err => simp
    | panic => exact absurd h (C29_construction_never_panics e.2.pattern e.2.negate).2

/-- C31: validation accepts exactly the texts that parse to a map all of whose patterns belong to the
pattern language, and returns that map. -/
theorem C31_validate_iff (s : Bytes) (m : TagFilterValueMap) :
    validateTagsFilter s = .ok m ↔ parseTagFilterValueMap s = some m ∧
      ∀ e ∈ m, ∃ p : Verif.Spec.Flt.Pattern, p.WF ∧ e.2.pattern = p.render := by
  have hnf : ∀ fv : FilterValue, (∃ f, newFilterFromFilterValue fv = .ok f) ↔
      ∃ p : Verif.Spec.Flt.Pattern, p.WF ∧ fv.pattern = p.render := by
    intro fv
    rw [← C28_accepts_iff]
    unfold newFilterFromFilterValue
    cases newFilter fv.pattern <;> simp
  unfold validateTagsFilter
  cases h : parseTagFilterValueMap s with
  | none => simp
  | some m' =>
    obtain ⟨h1, h2⟩ := validateLoop_iff m'
    simp only [Option.some.injEq]
    cases hv : validateLoop m' with
    | ok u =>
      have := h2.mp hv
      simp only [Out.ok_bind, Out.ok.injEq]
      constructor
      · rintro rfl; exact ⟨rfl, fun e he => (hnf _).mp (this e he)⟩
      · rintro ⟨h, _⟩; exact h
    | err =>
      simp only [Out.err_bind, reduceCtorEq, false_iff]
      rintro ⟨rfl, h⟩
      have := h2.mpr (fun e he => (hnf _).mpr (h e he))
      rw [hv] at this; cases this
    | panic => exact absurd hv h1

/-- C31 and C30 together: a validated text can be turned into a filter, for either operator. -/
theorem C31_validated_builds (s : Bytes) (m : TagFilterValueMap) (h : validateTagsFilter s = .ok m)
    (key : Bytes) (op : LogicalOp) : (m.map (·.1)).Nodup ∧ ∃ f, newTagsFilter key m op = .ok f := by
  obtain ⟨hp, hall⟩ := (C31_validate_iff s m).mp h
  refine ⟨((C31_parse_iff s m).mp hp).2.2, ?_⟩
  have : ∀ (es : TagFilterValueMap), (∀ e ∈ es, ∃ f, newFilterFromFilterValue e.2 = .ok f) →
      ∀ nf tfs, ∃ r, newLoop key es nf tfs = .ok r := by
    intro es
    induction es with
    | nil => intro _ nf tfs; exact ⟨_, rfl⟩
    | cons e es ih =>
      intro he nf tfs
      obtain ⟨f, hf⟩ := he e (by simp)
      simp only [newLoop, hf, Out.ok_bind]
      split
      · exact ih (fun x hx => he x (by simp [hx])) _ _
      · exact ih (fun x hx => he x (by simp [hx])) _ _
  obtain ⟨r, hr⟩ := this m (by
    intro e he
    obtain ⟨p, hw, hr⟩ := hall e he
    obtain ⟨f, hf⟩ := (C28_accepts_iff e.2.pattern).mpr ⟨p, hw, hr⟩
    unfold newFilterFromFilterValue
    rw [hf]
    exact ⟨_, rfl⟩) none []
  unfold newTagsFilter
  rw [hr]
  exact ⟨_, rfl⟩

-- non-vacuity
example : parseTagFilterValueMap (bs "  name:requests* \t env:{a,b}\n") =
    some [(bs "name", ⟨bs "requests*", false⟩), (bs "env", ⟨bs "{a,b}", false⟩)] := by decide
example : GoodMap [(bs "name", ⟨bs "requests*", false⟩), (bs "env", ⟨bs "{a,b}", false⟩)] ∧
    Printable [(bs "name", ⟨bs "requests*", false⟩), (bs "env", ⟨bs "{a,b}", false⟩)] := by
  refine ⟨⟨by decide, by decide⟩, ?_⟩
  have h : ∀ e ∈ [(bs "name", (⟨bs "requests*", false⟩ : FilterValue)), (bs "env", ⟨bs "{a,b}", false⟩)],
      32 ∉ e.1 ∧ 32 ∉ e.2.pattern ∧ (∀ w ∈ spaces, ¬ hasPrefix e.1 w = true) ∧
        ∀ w ∈ spaces, ¬ hasSuffix e.2.pattern w = true := by decide
  intro e he
  obtain ⟨a, b, c, d⟩ := h e he
  refine ⟨a, b, fun w hw hp => c w hw ((hasPrefix_iff' _ _).mpr hp), fun w hw hp => d w hw ?_⟩
  rw [hasSuffix_iff]
  obtain ⟨r, hr⟩ := hp
  exact ⟨r, hr.symm⟩
example : parseTagFilterValueMap (bs "a:b a:c") = none := by decide
example : parseTagFilterValueMap (bs "a:b:c") = none := by decide

-- C30, non-vacuity: a two-entry map, a metric with ascending tags
example : ((([(bs "name", (⟨bs "req", false⟩ : FilterValue)), (bs "env", ⟨bs "p", false⟩)] :
    TagFilterValueMap).map (·.1)).Nodup) ∧
    (∃ f, newTagsFilter (bs "name") [(bs "name", ⟨bs "req", false⟩), (bs "env", ⟨bs "p", false⟩)] .conjunction = .ok f) ∧
    Clean (bs "req") [(bs "dc", bs "x"), (bs "env", bs "p")] ∧ Ascending [(bs "dc", bs "x"), (bs "env", bs "p")] := by
  have hv : validateTagsFilter (bs "name:req env:p") =
      .ok [(bs "name", ⟨bs "req", false⟩), (bs "env", ⟨bs "p", false⟩)] := by
    rw [C31_validate_iff]
    refine ⟨by decide, ?_⟩
    intro e he
    simp only [List.mem_cons, List.not_mem_nil, or_false] at he
    rcases he with rfl | rfl
    · refine ⟨⟨false, .exact [.lit 114, .lit 101, .lit 113]⟩, ⟨?_, by simp, by decide⟩, by decide⟩
      simp [Verif.Spec.Flt.Body.WF, Verif.Spec.Flt.Piece.WF]
    · refine ⟨⟨false, .exact [.lit 112]⟩, ⟨?_, by simp, by decide⟩, by decide⟩
      simp [Verif.Spec.Flt.Body.WF, Verif.Spec.Flt.Piece.WF]
  obtain ⟨h1, f, h2⟩ := C31_validated_builds _ _ hv (bs "name") .conjunction
  exact ⟨h1, ⟨f, h2⟩, by unfold Clean; decide, by unfold Ascending; decide⟩

end Verif.TagsFlt
