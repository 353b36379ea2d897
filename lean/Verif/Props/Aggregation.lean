import Verif.Lemmas.Aggregation
import Verif.Spec.Aggregation
/-
Properties C01–C05 (aggregation IDs, type strings, quantiles, type-string options).
-/
namespace Verif.Agg
open Verif.Spec

theorem isValid_iff_spec (t : AType) : isValid t = true ↔ ValidAggType t := isValid_iff t

/-! ### C01 -/

/-- C01: compressing valid types (with a compressor in any earlier state) and reading the ID back
gives exactly the distinct types in ascending order. -/
theorem C01_roundtrip (prev : BitVec 64) (ts : List AType) (h : ∀ t ∈ ts, ValidAggType t) :
    ∃ id l, compress prev ts = some id ∧ id.types = some l ∧ AscendingDistinct l ts := by
  cases hc : compress prev ts with
  | none =>
    have := (compressLoop_eq_none_iff ts _).mp hc
    obtain ⟨t, ht, hf⟩ := this
    rw [(isValid_iff t).mpr (h t ht)] at hf
    cases hf
  | some id =>
    have hb := getLsbD_compressLoop ts _ id hc
    have hmem : ∀ j : Nat, j ∈ bitsFrom id 0 ↔ (j : Int) ∈ ts := by
      intro j
      rw [mem_bitsFrom]
      constructor
      · rintro ⟨_, _, h3⟩
        rcases (hb j).mp h3 with h0 | h0
        · simp at h0
        · exact h0
      · intro hj
        have hv := h _ hj
        have : j < 64 := by unfold ValidAggType at hv; omega
        exact ⟨Nat.zero_le _, this, (hb j).mpr (Or.inr hj)⟩
    refine ⟨id, (bitsFrom id 0).map (fun j : Nat => (j : Int)), rfl, ?_, ?_, ?_⟩
    · show decompress id = _
      rw [decompress_spec, if_pos]
      intro j hj
      exact (isValid_iff _).mpr (h _ ((hmem j).mp hj))
    · rw [List.pairwise_map]
      exact (bitsFrom_sorted id 0).imp (fun h => by omega)
    · intro t
      rw [List.mem_map]
      constructor
      · rintro ⟨j, hj, rfl⟩; exact (hmem j).mp hj
      · intro ht
        have hv := h t ht
        unfold ValidAggType at hv
        refine ⟨t.toNat, ?_, by omega⟩
        rw [hmem]
        have : (t.toNat : Int) = t := by omega
        rw [this]; exact ht

example : compress 5 [P99, Sum, Min, Sum] = some 0x100084#64 ∧
    ID.types 0x100084#64 = some [Min, Sum, P99] := by decide

/-- C01: compression fails exactly when some type is invalid. -/
theorem C01_fails_iff (prev : BitVec 64) (ts : List AType) :
    compress prev ts = none ↔ ∃ t ∈ ts, ¬ ValidAggType t := by
  unfold compress
  rw [compressLoop_eq_none_iff]
  constructor
  · rintro ⟨t, ht, hf⟩
    refine ⟨t, ht, fun hv => ?_⟩
    rw [(isValid_iff t).mpr hv] at hf; cases hf
  · rintro ⟨t, ht, hf⟩
    refine ⟨t, ht, ?_⟩
    cases hv : isValid t with
    | false => rfl
    | true => exact absurd ((isValid_iff t).mp hv) hf

example : compress 0 [Sum, 23] = none := by decide

/-- C01: two successful compressions agree exactly when the lists have the same members. -/
theorem C01_eq_iff (p q : BitVec 64) (ts us : List AType) (a b : ID)
    (ha : compress p ts = some a) (hb : compress q us = some b) :
    a = b ↔ ∀ t, t ∈ ts ↔ t ∈ us := by
  have h1 := getLsbD_compressLoop ts _ a ha
  have h2 := getLsbD_compressLoop us _ b hb
  have v1 : ∀ t ∈ ts, 1 ≤ t ∧ t ≤ 22 := by
    intro t ht
    rcases Classical.em (ValidAggType t) with hv | hv
    · exact hv
    · have := (C01_fails_iff p ts).mpr ⟨t, ht, hv⟩; rw [ha] at this; cases this
  have v2 : ∀ t ∈ us, 1 ≤ t ∧ t ≤ 22 := by
    intro t ht
    rcases Classical.em (ValidAggType t) with hv | hv
    · exact hv
    · have := (C01_fails_iff q us).mpr ⟨t, ht, hv⟩; rw [hb] at this; cases this
  simp only [BitVec.and_zero, BitVec.getLsbD_zero, Bool.false_eq_true, false_or,
    show (0 : BitVec 64) = 0#64 from rfl] at h1 h2
  constructor
  · intro e t
    subst e
    constructor
    · intro ht
      have hv := v1 t ht
      have e : ((t.toNat : Nat) : Int) = t := by omega
      have := (h2 t.toNat).mp ((h1 t.toNat).mpr (e ▸ ht))
      rwa [e] at this
    · intro ht
      have hv := v2 t ht
      have e : ((t.toNat : Nat) : Int) = t := by omega
      have := (h1 t.toNat).mp ((h2 t.toNat).mpr (e ▸ ht))
      rwa [e] at this
  · intro h
    apply BitVec.eq_of_getLsbD_eq
    intro i _
    have := h (i : Int)
    rw [← h1, ← h2] at this
    cases hx : a.getLsbD i <;> cases hy : b.getLsbD i <;> simp_all

example : compress 1 [Sum, Last] = compress 2 [Last, Sum, Last] ∧
    (compress 1 [Sum, Last]).isSome = true := by decide

/-! ### C02 -/

/-- C02: a word decodes exactly when all its set bits are valid types. -/
theorem C02_decodes_iff (id : ID) :
    (∃ l, id.types = some l) ↔ ∀ i < 64, id.getLsbD i = true → ValidAggType (i : Int) := by
  show (∃ l, decompress id = some l) ↔ _
  rw [decompress_spec]
  constructor
  · rintro ⟨l, hl⟩ i hi hb
    split at hl
    · rename_i h; exact (isValid_iff _).mp (h i ((mem_bitsFrom _ _ _).mpr ⟨Nat.zero_le _, hi, hb⟩))
    · cases hl
  · intro h
    refine ⟨(bitsFrom id 0).map (fun j : Nat => (j : Int)), ?_⟩
    rw [if_pos]
    intro j hj
    have := (mem_bitsFrom _ _ _).mp hj
    exact (isValid_iff _).mpr (h j this.2.1 this.2.2)

/-- C02: when it decodes, re-compressing the decoded types gives the same word. -/
theorem C02_reencode (prev : BitVec 64) (id : ID) (l : List AType) (h : id.types = some l) :
    compress prev l = some id := by
  have hd : ∃ l, id.types = some l := ⟨l, h⟩
  rw [C02_decodes_iff] at hd
  have h' : decompress id = some l := h
  rw [decompress_spec] at h'
  split at h'
  case isFalse => cases h'
  rename_i hall
  have hl : l = (bitsFrom id 0).map (fun j : Nat => (j : Int)) := by simpa using h'.symm
  have hv : ∀ t ∈ l, ValidAggType t := by
    intro t ht
    rw [hl, List.mem_map] at ht
    obtain ⟨j, hj, rfl⟩ := ht
    exact (isValid_iff _).mp (hall j hj)
  cases hc : compress prev l with
  | none => obtain ⟨t, ht, hn⟩ := (C01_fails_iff _ _).mp hc; exact absurd (hv t ht) hn
  | some r =>
    have hb := getLsbD_compressLoop l _ r hc
    congr 1
    apply BitVec.eq_of_getLsbD_eq
    intro i hi
    have hbi := hb i
    simp only [BitVec.and_zero, BitVec.getLsbD_zero, Bool.false_eq_true, false_or,
      show (0 : BitVec 64) = 0#64 from rfl] at hbi
    have : (i : Int) ∈ l ↔ id.getLsbD i = true := by
      rw [hl, List.mem_map]
      constructor
      · rintro ⟨j, hj, e⟩
        have : j = i := by omega
        subst this
        exact ((mem_bitsFrom _ _ _).mp hj).2.2
      · intro hb; exact ⟨i, (mem_bitsFrom _ _ _).mpr ⟨Nat.zero_le _, hi, hb⟩, rfl⟩
    rw [this] at hbi
    cases hx : r.getLsbD i <;> cases hy : id.getLsbD i <;> simp_all

example : ID.types 0x400082#64 = some [Last, Sum, P9999] ∧ ID.types 0x800000#64 = none ∧
    ID.types 1#64 = none := by decide

/-- C02: `Contains` is true exactly for valid types whose bit is set. -/
theorem C02_contains_iff (id : ID) (t : AType) :
    id.contains t = true ↔ ValidAggType t ∧ id.getLsbD t.toNat = true := by
  unfold ID.contains
  cases hv : isValid t with
  | false =>
    have : ¬ ValidAggType t := fun h => by rw [(isValid_iff t).mpr h] at hv; cases hv
    simp [this]
  | true =>
    have hv' := (isValid_iff t).mp hv
    have hlt : t.toNat < 64 := by omega
    have hm : t.toNat % 64 = t.toNat := Nat.mod_eq_of_lt hlt
    simp only [Bool.not_true, Bool.false_eq_true, if_false, hm, bne_iff_ne, ne_eq]
    have hbit : ∀ j, (id &&& ((1#64) <<< t.toNat)).getLsbD j = (id.getLsbD j && decide (t.toNat = j)) := by
      intro j
      have := getLsbD_bitSet 0#64 t.toNat j hlt
      simp only [bitSet, BitVec.zero_or, BitVec.getLsbD_zero, Bool.false_or] at this
      rw [BitVec.getLsbD_and, this]
    constructor
    · intro hne
      refine ⟨hv', ?_⟩
      cases hb : id.getLsbD t.toNat with
      | true => rfl
      | false =>
        exfalso; apply hne
        apply BitVec.eq_of_getLsbD_eq
        intro j _
        rw [hbit j]
        by_cases e : t.toNat = j
        · subst e; simp [hb]
        · simp [e]
    · rintro ⟨_, hb⟩ h0
      have := hbit t.toNat
      rw [h0] at this
      simp [hb] at this

/-- C02: `Contains` agrees with membership in the decoded list. -/
theorem C02_contains_iff_mem (id : ID) (l : List AType) (h : id.types = some l) (t : AType) :
    id.contains t = true ↔ t ∈ l := by
  have hc := C02_reencode 0 id l h
  have hb := getLsbD_compressLoop l _ id hc
  rw [C02_contains_iff]
  have hd : ∀ t ∈ l, ValidAggType t := by
    intro t ht
    rcases Classical.em (ValidAggType t) with hv | hv
    · exact hv
    · have := (C01_fails_iff 0 l).mpr ⟨t, ht, hv⟩; rw [hc] at this; cases this
  have hbi := hb t.toNat
  simp only [BitVec.and_zero, BitVec.getLsbD_zero, Bool.false_eq_true, false_or,
      show (0 : BitVec 64) = 0#64 from rfl] at hbi
  constructor
  · rintro ⟨hv, hb⟩
    have e : ((t.toNat : Nat) : Int) = t := by unfold ValidAggType at hv; omega
    have := hbi.mp hb
    rwa [e] at this
  · intro ht
    have hv := hd t ht
    have e : ((t.toNat : Nat) : Int) = t := by unfold ValidAggType at hv; omega
    exact ⟨hv, hbi.mpr (e.symm ▸ ht)⟩

example : ID.contains 0x100084#64 Sum = true ∧ ID.contains 0x100084#64 Last = false ∧
    ID.contains 0x1#64 0 = false := by decide

/-- C02: the default ID is the one decoding to the empty list. -/
theorem C02_default_iff (id : ID) : id.isDefault = true ↔ id.types = some [] := by
  constructor
  · intro h; simp [ID.types, decompress, h]
  · intro h
    have := C02_reencode 0 id [] h
    simp [compress, compressLoop] at this
    simp [ID.isDefault, DefaultID, ← this]

/-! ### C03 -/

theorem parseType_typeString (t : AType) (h : ValidAggType t) :
    parseType (typeString goOutOfRange t) = some t ∧ (44 : UInt8) ∉ typeString goOutOfRange t := by
  have hall : ∀ t ∈ ValidTypes, parseType (typeNameAt t.toNat) = some t ∧
      (44 : UInt8) ∉ typeNameAt t.toNat := by decide +kernel
  have := hall t ((mem_validTypes_iff t).mpr h)
  unfold ValidAggType at h
  rw [typeString, if_neg (by omega)]
  exact this

theorem mem_of_lookup_eq_some {k : Bytes} {v : Int} : ∀ {l : List (Bytes × Int)},
    l.lookup k = some v → (k, v) ∈ l
  | [], h => by simp at h
  | (k', v') :: l, h => by
    simp only [List.lookup_cons] at h
    split at h
    · rename_i e
      have : k = k' := by simpa using e
      simp only [Option.some.injEq] at h
      subst this; subst h; simp
    · exact List.mem_cons_of_mem _ (mem_of_lookup_eq_some h)

theorem typeString_of_parseType (s : Bytes) (t : AType) (h : parseType s = some t) :
    ValidAggType t ∧ typeString goOutOfRange t = s := by
  have hm := mem_of_lookup_eq_some h
  simp only [typeStringMap, List.mem_map, Prod.mk.injEq] at hm
  obtain ⟨t', ht', e1, e2⟩ := hm
  subst e2
  have hv := (mem_validTypes_iff t').mp ht'
  refine ⟨hv, ?_⟩
  rw [typeString, if_neg (by omega)]
  exact e1

theorem parseParts_map (ts : List AType) (h : ∀ t ∈ ts, ValidAggType t) :
    parseParts (ts.map (typeString goOutOfRange)) = some ts := by
  induction ts with
  | nil => rfl
  | cons t ts ih =>
    simp only [List.map_cons, parseParts, (parseType_typeString t (h t (by simp))).1,
      ih (fun t ht => h t (by simp [ht]))]

theorem parseParts_inv : ∀ (ps : List Bytes) (ts : List AType), parseParts ps = some ts →
    (∀ t ∈ ts, ValidAggType t) ∧ ts.map (typeString goOutOfRange) = ps
  | [], ts, h => by simp [parseParts] at h; subst h; simp
  | p :: ps, ts, h => by
    simp only [parseParts] at h
    cases hp : parseType p with
    | none => simp [hp] at h
    | some t =>
      cases hps : parseParts ps with
      | none => simp [hp, hps] at h
      | some us =>
        simp only [hp, hps, Option.some.injEq] at h
        subst h
        obtain ⟨h1, h2⟩ := parseParts_inv ps us hps
        obtain ⟨h3, h4⟩ := typeString_of_parseType p t hp
        refine ⟨?_, by simp [h2, h4]⟩
        intro x hx
        rcases List.mem_cons.mp hx with rfl | hx
        · exact h3
        · exact h1 x hx

/-- C03: printing and parsing a non-empty list of valid types is the identity. -/
theorem C03_roundtrip (ts : List AType) (hne : ts ≠ []) (h : ∀ t ∈ ts, ValidAggType t) :
    parseTypes (typesString ts) = some ts := by
  have hl : ts.length ≠ 0 := by simpa using hne
  rw [parseTypes, typesString, if_neg hl, splitOn_joinWith]
  · exact parseParts_map ts h
  · simpa using hne
  · intro p hp
    obtain ⟨t, ht, rfl⟩ := List.mem_map.mp hp
    exact (parseType_typeString t (h t ht)).2

example : parseTypes (typesString [P999, Sum, Sum]) = some [P999, Sum, Sum] ∧
    typesString [P999, Sum, Sum] = bs "P999,Sum,Sum" := by decide

/-- C03: the parser accepts only printed forms of non-empty lists of valid types, so acceptance
determines the list. -/
theorem C03_parse_sound (s : Bytes) (ts : List AType) (h : parseTypes s = some ts) :
    ts ≠ [] ∧ (∀ t ∈ ts, ValidAggType t) ∧ typesString ts = s := by
  obtain ⟨h1, h2⟩ := parseParts_inv _ _ h
  have hne : ts ≠ [] := by
    intro e; subst e
    exact splitOn_ne_nil _ _ h2.symm
  have hl : ts.length ≠ 0 := by simpa using hne
  refine ⟨hne, h1, ?_⟩
  rw [typesString, if_neg hl, h2, joinWith_splitOn]

example : parseTypes (bs "P99,Last") = some [P99, Last] ∧ parseTypes (bs "") = none ∧
    parseTypes (bs "Last,") = none := by decide

theorem typeString_word (t : AType) (h : ValidAggType t) : typeString goOutOfRange t = typeWords.getD (t.toNat - 1) [] := by
  have hall : ∀ t ∈ ValidTypes, typeNameAt t.toNat = typeWords.getD (t.toNat - 1) [] := by decide +kernel
  have := hall t ((mem_validTypes_iff t).mpr h)
  unfold ValidAggType at h
  rw [typeString, if_neg (by omega)]
  exact this

theorem typesString_text : ∀ (ts : List AType), (∀ t ∈ ts, ValidAggType t) → joinWith 44 (ts.map (typeString goOutOfRange)) = typesText ts
  | [], _ => rfl
  | [t], h => by simp [joinWith, typesText, typeString_word t (h t (by simp))]
  | t :: u :: ts, h => by
    have := typesString_text (u :: ts) fun a ha => h a (by simp [List.mem_cons.mp ha])
    simp only [List.map_cons] at this
    simp only [List.map_cons, joinWith, typesText, typeString_word t (h t (by simp))]
    rw [this]
    simp [bs]

/-- C03: the text is that of the words for the types, with commas between them; exactly such texts are parsed, as the types they name. -/
theorem C03_text (ts : List AType) (h : ∀ t ∈ ts, ValidAggType t) :
    typesString ts = typesText ts ∧ ∀ s, parseTypes s = some ts ↔ ts ≠ [] ∧ s = typesText ts := by
  have e : typesString ts = typesText ts := by
    rw [typesString]
    split
    · next hl => rw [List.eq_nil_of_length_eq_zero hl]; rfl
    · exact typesString_text ts h
  refine ⟨e, fun s => ⟨fun hs => ?_, fun ⟨h1, h2⟩ => ?_⟩⟩
  · obtain ⟨h1, _, h3⟩ := C03_parse_sound s ts hs
    exact ⟨h1, by rw [← h3, e]⟩
  · rw [h2, ← e]
    exact C03_roundtrip ts h1 h

theorem joinWith_sub (sep : UInt8) : ∀ (l : List Bytes) (x : Bytes), x ∈ l → ∀ c ∈ x, c ∈ joinWith sep l
  | [], _, h, _, _ => by simp at h
  | [y], x, h, c, hc => by simp only [List.mem_singleton] at h; subst h; exact hc
  | y :: z :: l, x, h, c, hc => by
    simp only [joinWith, List.mem_append, List.mem_cons]
    rcases List.mem_cons.mp h with rfl | h
    · exact Or.inl hc
    · exact Or.inr (Or.inr (joinWith_sub sep (z :: l) x h c hc))

theorem typesText_plain : ∀ (ts : List AType), (∀ t ∈ ts, ValidAggType t) → (40 : UInt8) ∉ typesText ts ∧ (85 : UInt8) ∉ typesText ts := by
  have hw : ∀ t ∈ ValidTypes, (40 : UInt8) ∉ typeWords.getD (t.toNat - 1) [] ∧ (85 : UInt8) ∉ typeWords.getD (t.toNat - 1) [] := by decide +kernel
  intro ts
  induction ts with
  | nil => simp [typesText]
  | cons t ts ih =>
    intro h
    have h1 := hw t ((mem_validTypes_iff t).mpr (h t (by simp)))
    have h2 := ih fun a ha => h a (List.mem_cons_of_mem _ ha)
    cases ts with
    | nil => exact h1
    | cons u ts =>
      have hc : (40 : UInt8) ∉ bs "," ∧ (85 : UInt8) ∉ bs "," := by decide
      simp only [typesText, List.mem_append, not_or]
      exact ⟨⟨⟨h1.1, hc.1⟩, h2.1⟩, ⟨h1.2, hc.2⟩, h2.2⟩

/-- C03: a number that is no type is printed as such, and a text in which one is printed is not parsed. -/
theorem C03_unknown (ts : List AType) (t : AType) (ht : t ∈ ts) (h : ¬ ValidAggType t) :
    typesString [t] = (if t = 0 then bs "UnknownType" else bs ("Type(" ++ toString t ++ ")")) ∧ parseTypes (typesString ts) = none := by
  have e : typeString goOutOfRange t = if t = 0 then bs "UnknownType" else bs ("Type(" ++ toString t ++ ")") := by
    unfold ValidAggType at h
    unfold typeString goOutOfRange
    by_cases h0 : t = 0
    · subst h0; decide +kernel
    · rw [if_pos (by omega), if_neg h0]
  refine ⟨by simp [typesString, joinWith, e], ?_⟩
  cases hp : parseTypes (typesString ts) with
  | none => rfl
  | some us =>
    obtain ⟨_, hv, hs⟩ := C03_parse_sound _ _ hp
    obtain ⟨n1, n2⟩ := typesText_plain us hv
    rw [← (C03_text us hv).1, hs] at n1 n2
    have hl : ts.length ≠ 0 := by intro hl; rw [List.eq_nil_of_length_eq_zero hl] at ht; simp at ht
    rw [typesString, if_neg hl] at n1 n2
    have sub := joinWith_sub 44 _ _ (List.mem_map.mpr ⟨t, ht, e⟩)
    by_cases h0 : t = 0
    · rw [if_pos h0] at sub
      exact absurd (sub 85 (by decide)) n2
    · rw [if_neg h0] at sub
      exact absurd (sub 40 (by simp [bs])) n1

example : ¬ ValidAggType 23 ∧ typesString [23] = bs "Type(23)" ∧ typesString [1, 0] = bs "Last,UnknownType" := by decide +kernel

example : typesText [2, 22] = bs "Min,P9999" ∧ ValidAggType 2 ∧ ValidAggType 22 := by decide

/-! ### C05 -/

theorem validCases (t : Int) (h : 1 ≤ t ∧ t ≤ 22) : t = 1 ∨ t = 2 ∨ t = 3 ∨ t = 4 ∨ t = 5 ∨
    t = 6 ∨ t = 7 ∨ t = 8 ∨ t = 9 ∨ t = 10 ∨ t = 11 ∨ t = 12 ∨ t = 13 ∨ t = 14 ∨ t = 15 ∨ t = 16 ∨
    t = 17 ∨ t = 18 ∨ t = 19 ∨ t = 20 ∨ t = 21 ∨ t = 22 := by omega

theorem quantile_eq_spec (t : AType) : quantile t = quantileOf t := by
  by_cases h : 1 ≤ t ∧ t ≤ 22
  · rcases validCases t h with h | h | h | h | h | h | h | h | h | h | h | h | h | h | h | h | h | h |
      h | h | h | h <;> subst h <;> rfl
  · have h2 : quantileOf t = none := by
      unfold quantileOf
      split <;> first | omega | rfl
    rw [h2]
    have hne : ∀ k ∈ ValidTypes, t ≠ k := fun k hk e => h ((mem_validTypes_iff t).mp (e ▸ hk))
    simp [quantile, hne P10 (by decide), hne P20 (by decide), hne P30 (by decide),
      hne P40 (by decide), hne P50 (by decide), hne Median (by decide), hne P60 (by decide),
      hne P70 (by decide), hne P80 (by decide), hne P90 (by decide), hne P95 (by decide),
      hne P99 (by decide), hne P999 (by decide), hne P9999 (by decide)]

theorem quantile_some_mem (t : AType) (q : Nat) (h : quantile t = some q) : t ∈ ValidTypes := by
  rw [mem_validTypes_iff]
  rw [quantile_eq_spec] at h
  unfold quantileOf at h
  split at h <;> first | omega | (cases h)

theorem quantile_inj (t u : AType) (q : Nat) (ht : quantile t = some q) (hu : quantile u = some q) :
    t = u ∨ (q = 5000 ∧ (t = P50 ∨ t = Median) ∧ (u = P50 ∨ u = Median)) := by
  have hall : ∀ t ∈ ValidTypes, ∀ u ∈ ValidTypes, quantile t = quantile u →
      quantile t ≠ none → t = u ∨ (quantile t = some 5000 ∧ (t = P50 ∨ t = Median) ∧
        (u = P50 ∨ u = Median)) := by decide +kernel
  have := hall t (quantile_some_mem t q ht) u (quantile_some_mem u q hu) (ht.trans hu.symm)
    (by simp [ht])
  rw [ht] at this
  simpa using this

theorem quantilesLoop_append (ts : List AType) : ∀ m res,
    quantilesLoop ts m res = res ++ quantilesLoop ts m [] := by
  induction ts with
  | nil => simp [quantilesLoop]
  | cons t ts ih =>
    intro m res
    simp only [quantilesLoop]
    split
    · exact ih m res
    · split
      · split
        · exact ih _ _
        · rw [ih true (res ++ _), ih true ([] ++ _)]; simp
      · rw [ih m (res ++ _), ih m ([] ++ _)]; simp

theorem mem_quantilesLoop (ts : List AType) : ∀ m, ∀ q, q ∈ quantilesLoop ts m [] ↔
    (∃ t ∈ ts, quantile t = some q) ∧ (m = true → q ≠ 5000) := by
  induction ts with
  | nil => simp [quantilesLoop]
  | cons t ts ih =>
    intro m q
    simp only [quantilesLoop]
    split
    · rename_i hq; rw [ih]; simp [hq]
    · rename_i q0 hq
      have hmed : (t = P50 ∨ t = Median) → q0 = 5000 := by
        rintro (rfl | rfl)
        · have h0 : quantile P50 = some 5000 := by decide
          rw [h0] at hq; simpa using hq.symm
        · have h0 : quantile Median = some 5000 := by decide
          rw [h0] at hq; simpa using hq.symm
      have hnmed : ¬ (t = P50 ∨ t = Median) → q0 ≠ 5000 := by
        intro hn e
        subst e
        rcases quantile_inj t P50 5000 hq (by decide) with e | e
        · exact hn (Or.inl e)
        · exact hn e.2.1
      split
      · rename_i hm
        have := hmed hm
        subst this
        split
        · rename_i hmt
          rw [ih]
          simp only [List.mem_cons, exists_eq_or_imp, hq, Option.some.injEq]
          constructor
          · rintro ⟨h1, h2⟩; exact ⟨Or.inr h1, h2⟩
          · rintro ⟨h1 | h1, h2⟩
            · exact absurd h1.symm (h2 hmt)
            · exact ⟨h1, h2⟩
        · rename_i hmt
          rw [quantilesLoop_append, List.mem_append, ih]
          simp only [List.mem_cons, exists_eq_or_imp, hq, Option.some.injEq, List.nil_append,
            List.not_mem_nil, or_false]
          constructor
          · rintro (rfl | ⟨h1, h2⟩)
            · exact ⟨Or.inl rfl, fun h => absurd h hmt⟩
            · exact ⟨Or.inr h1, fun h => absurd h hmt⟩
          · rintro ⟨h1 | h1, h2⟩
            · exact Or.inl h1.symm
            · by_cases e : q = 5000
              · exact Or.inl e
              · exact Or.inr ⟨h1, fun _ => e⟩
      · rename_i hm
        rw [quantilesLoop_append, List.mem_append, ih]
        have hne := hnmed hm
        simp only [List.mem_cons, exists_eq_or_imp, hq, Option.some.injEq, List.nil_append,
            List.not_mem_nil, or_false]
        constructor
        · rintro (rfl | ⟨h1, h2⟩)
          · exact ⟨Or.inl rfl, fun _ => hne⟩
          · exact ⟨Or.inr h1, h2⟩
        · rintro ⟨h1 | h1, h2⟩
          · exact Or.inl h1.symm
          · exact Or.inr ⟨h1, h2⟩

/-- C05: the extracted quantiles are exactly those of the quantile types in the list. -/
theorem C05_members (ts : List AType) (q : Nat) :
    q ∈ pooledQuantiles ts ↔ ∃ t ∈ ts, quantileOf t = some q := by
  rw [pooledQuantiles, mem_quantilesLoop]
  simp [quantile_eq_spec]

theorem quantilesLoop_dedup (ts : List AType) : ∀ m seen, ts.Nodup →
    (∀ t ∈ ts, ∀ q, quantile t = some q → (q ∈ seen ↔ (q = 5000 ∧ m = true))) →
    quantilesLoop ts m [] = dedupFrom seen (ts.filterMap quantileOf) := by
  induction ts with
  | nil => simp [quantilesLoop, dedupFrom]
  | cons t ts ih =>
    intro m seen hnd hs
    rw [List.nodup_cons] at hnd
    have hs' := fun u hu => hs u (List.mem_cons_of_mem _ hu)
    simp only [quantilesLoop, List.filterMap_cons, ← quantile_eq_spec t]
    cases hq : quantile t with
    | none => exact ih m seen hnd.2 hs'
    | some q =>
      dsimp only
      have hseen := hs t (by simp) q hq
      have hmed : (t = P50 ∨ t = Median) → q = 5000 := by
        rintro (rfl | rfl)
        · have h0 : quantile P50 = some 5000 := by decide
          rw [h0] at hq; simpa using hq.symm
        · have h0 : quantile Median = some 5000 := by decide
          rw [h0] at hq; simpa using hq.symm
      split
      · rename_i hm
        have := hmed hm
        subst this
        split
        · rename_i hmt
          have : 5000 ∈ seen := hseen.mpr ⟨rfl, hmt⟩
          simp only [dedupFrom, this, if_true]
          exact ih m seen hnd.2 hs'
        · rename_i hmt
          have : 5000 ∉ seen := fun h => hmt (hseen.mp h).2
          simp only [dedupFrom, this, if_false]
          rw [quantilesLoop_append, ih true (5000 :: seen) hnd.2]
          · rfl
          · intro u hu q' hq'
            have := hs' u hu q' hq'
            simp only [List.mem_cons, this]
            constructor
            · rintro (h | h)
              · exact ⟨h, trivial⟩
              · exact absurd h.2 hmt
            · intro h; exact Or.inl h.1
      · rename_i hm
        have hne : q ≠ 5000 := by
          intro e
          subst e
          rcases quantile_inj t P50 5000 hq (by decide) with e | e
          · exact hm (Or.inl e)
          · exact hm e.2.1
        have : q ∉ seen := fun h => hne (hseen.mp h).1
        simp only [dedupFrom, this, if_false]
        rw [quantilesLoop_append, ih m (q :: seen) hnd.2]
        · rfl
        · intro u hu q' hq'
          have := hs' u hu q' hq'
          simp only [List.mem_cons, this]
          constructor
          · rintro (rfl | h)
            · rcases quantile_inj u t q' hq' hq with e | e
              · subst e; exact absurd hu hnd.1
              · exact absurd e.1 hne
            · exact h
          · exact Or.inr

/-- C05: for lists without duplicate types, the quantiles appear once each, in order of first
appearance. -/
theorem C05_order (ts : List AType) (h : ts.Nodup) :
    pooledQuantiles ts = dedupFrom [] (ts.filterMap quantileOf) := by
  apply quantilesLoop_dedup ts false [] h
  simp

theorem dedupFrom_nodup (l : List Nat) : ∀ seen, (dedupFrom seen l).Nodup ∧
    ∀ q ∈ dedupFrom seen l, q ∉ seen := by
  induction l with
  | nil => simp [dedupFrom]
  | cons q l ih =>
    intro seen
    simp only [dedupFrom]
    split
    · exact ih seen
    · rename_i hq
      obtain ⟨h1, h2⟩ := ih (q :: seen)
      refine ⟨?_, ?_⟩
      · rw [List.nodup_cons]
        exact ⟨fun hm => (h2 q hm) (by simp), h1⟩
      · intro x hx
        rcases List.mem_cons.mp hx with rfl | hx
        · exact hq
        · exact fun hm => h2 x hx (List.mem_cons_of_mem _ hm)

/-- C05: no quantile is reported twice when no type is listed twice. -/
theorem C05_nodup (ts : List AType) (h : ts.Nodup) : (pooledQuantiles ts).Nodup := by
  rw [C05_order ts h]; exact (dedupFrom_nodup _ []).1

example : [P50, Sum, P99, Median].Nodup ∧
    pooledQuantiles [P50, Sum, P99, Median] = [5000, 9900] := by decide

/-- C05, limits of the deduplication: a repeated type other than Median/P50 is reported twice, so
the no-duplicate hypothesis above cannot be dropped. -/
theorem C05_duplicates_kept : pooledQuantiles [P10, P10] = [1000, 1000] := by decide

/-! ### C04 -/

/-- The base fields and derived tables agree. -/
def Options.Derived (o : Options) : Prop :=
  o.quantiles = pooledQuantiles o.defaultTimer ∧
  o.counterStrings = computeTypeStrings o.quantileFn o.counterFn ∧
  o.timerStrings = computeTypeStrings o.quantileFn o.timerFn ∧
  o.gaugeStrings = computeTypeStrings o.quantileFn o.gaugeFn

theorem Options.derived_computeAll (o : Options) : (o.computeAllDerived).Derived :=
  ⟨by simp only [Options.computeAllDerived], by simp only [Options.computeAllDerived],
    by simp only [Options.computeAllDerived], by simp only [Options.computeAllDerived]⟩

theorem Options.derived_apply (o : Options) (s : Setter) (h : o.Derived) : (o.apply s).Derived := by
  cases s <;> first | exact h | exact Options.derived_computeAll _

theorem Options.derived_foldl (ss : List Setter) : ∀ o : Options, o.Derived →
    (ss.foldl Options.apply o).Derived := by
  induction ss with
  | nil => intro o h; exact h
  | cons s ss ih => intro o h; exact ih _ (Options.derived_apply o s h)

/-- Specification: the argument of the last transform setter for a metric kind, or the identity. -/
def lastTransform (k : Kind) : List Setter → (Bytes → Bytes) → (Bytes → Bytes)
  | [], f => f
  | .counterFn g :: ss, f => lastTransform k ss (if k = .counter then g else f)
  | .timerFn g :: ss, f => lastTransform k ss (if k = .timer then g else f)
  | .gaugeFn g :: ss, f => lastTransform k ss (if k = .gauge then g else f)
  | _ :: ss, f => lastTransform k ss f

/-- Specification: the argument of the last quantile-printer setter, or the initial one. -/
def lastQuantileFn : List Setter → (Nat → Bytes) → (Nat → Bytes)
  | [], f => f
  | .quantileFn g :: ss, _ => lastQuantileFn ss g
  | _ :: ss, f => lastQuantileFn ss f

/-- Specification: the argument of the last default-timer-types setter, or the initial one. -/
def lastTimerTypes : List Setter → List AType → List AType
  | [], f => f
  | .defaultTimer g :: ss, _ => lastTimerTypes ss g
  | _ :: ss, f => lastTimerTypes ss f

def Options.transform (o : Options) : Kind → (Bytes → Bytes)
  | .counter => o.counterFn
  | .timer => o.timerFn
  | .gauge => o.gaugeFn

theorem foldl_fields (k : Kind) (ss : List Setter) : ∀ o : Options,
    (ss.foldl Options.apply o).transform k = lastTransform k ss (o.transform k) ∧
    (ss.foldl Options.apply o).quantileFn = lastQuantileFn ss o.quantileFn ∧
    (ss.foldl Options.apply o).defaultTimer = lastTimerTypes ss o.defaultTimer := by
  induction ss with
  | nil => intro o; exact ⟨rfl, rfl, rfl⟩
  | cons s ss ih =>
    intro o
    obtain ⟨h1, h2, h3⟩ := ih (o.apply s)
    simp only [List.foldl_cons]
    rw [h1, h2, h3]
    cases s <;> cases k <;> exact ⟨rfl, rfl, rfl⟩

theorem typeStringOf_spec (qf : Nat → Bytes) (fn : Bytes → Bytes) (t : AType) (h : ValidAggType t) :
    typeStringOf qf fn t = fn (baseTypeString qf t) := by
  unfold ValidAggType at h
  have hcases : t = 1 ∨ t = 2 ∨ t = 3 ∨ t = 4 ∨ t = 5 ∨ t = 6 ∨ t = 7 ∨ t = 8 ∨ t = 9 ∨ t = 10 ∨
    t = 11 ∨ t = 12 ∨ t = 13 ∨ t = 14 ∨ t = 15 ∨ t = 16 ∨ t = 17 ∨ t = 18 ∨ t = 19 ∨ t = 20 ∨
    t = 21 ∨ t = 22 := by omega
  rcases hcases with h | h | h | h | h | h | h | h | h | h | h | h | h | h | h | h | h | h | h | h |
    h | h <;> subst h <;> rfl

theorem computeLoop_get (qf : Nat → Bytes) (fn : Bytes → Bytes) (ts : List AType) :
    ∀ (res : List Bytes) (i : Nat), (∀ t ∈ ts, 0 ≤ t ∧ t.toNat < res.length) →
      (computeTypeStringsLoop qf fn ts res)[i]? =
        if (i : Int) ∈ ts then some (typeStringOf qf fn i) else res[i]? := by
  induction ts with
  | nil => intro res i _; simp [computeTypeStringsLoop]
  | cons t ts ih =>
    intro res i hb
    simp only [computeTypeStringsLoop]
    rw [ih _ i (by intro u hu; rw [List.length_set]; exact hb u (List.mem_cons_of_mem _ hu))]
    have hbt := hb t (by simp)
    by_cases hi : (i : Int) ∈ ts
    · simp [hi]
    · by_cases ht : (i : Int) = t
      · have : t.toNat = i := by omega
        subst this
        have e : ((t.toNat : Nat) : Int) = t := by omega
        rw [e] at hi ⊢
        simp [hi, hbt.2]
      · have : t.toNat ≠ i := by omega
        simp [hi, ht, List.getElem?_set_ne this]

theorem computeTypeStrings_get (qf : Nat → Bytes) (fn : Bytes → Bytes) (i : Nat) :
    (computeTypeStrings qf fn)[i]? =
      if ValidAggType (i : Int) then some (fn (baseTypeString qf i))
      else if i = 0 then some [] else none := by
  unfold computeTypeStrings
  rw [computeLoop_get]
  · by_cases h : ValidAggType (i : Int)
    · have h' : (i : Int) ∈ ValidTypes := (mem_validTypes_iff _).mpr h
      rw [if_pos h', if_pos h, typeStringOf_spec _ _ _ h]
    · have h' : ¬ (i : Int) ∈ ValidTypes := fun hm => h ((mem_validTypes_iff _).mp hm)
      rw [if_neg h', if_neg h]
      unfold ValidAggType at h
      rw [List.getElem?_replicate]
      by_cases h0 : i = 0
      · subst h0; simp [maxTypeID]
      · have : ¬ i < maxTypeID + 1 := by unfold maxTypeID; omega
        simp [h0, this]
  · intro t ht
    have := (mem_validTypes_iff t).mp ht
    simp [maxTypeID]; omega

theorem Options.strings_of_derived (o : Options) (h : o.Derived) (k : Kind) :
    o.strings k = computeTypeStrings o.quantileFn (o.transform k) := by
  cases k
  · exact h.2.1
  · exact h.2.2.1
  · exact h.2.2.2

/-- C04: after any sequence of setters, the type string reported for a valid type is the documented
base string under the last transform and last quantile printer set — whatever the order of calls. -/
theorem C04_strings (qfn : Nat → Bytes) (ss : List Setter) (k : Kind) (t : AType)
    (h : ValidAggType t) :
    (ss.foldl Options.apply (newTypesOptions qfn)).typeStringFor k t =
      some (lastTransform k ss id (baseTypeString (lastQuantileFn ss qfn) t)) := by
  have hd := Options.derived_foldl ss (newTypesOptions qfn) (Options.derived_computeAll _)
  obtain ⟨f1, f2, _⟩ := foldl_fields k ss (newTypesOptions qfn)
  have hn : (newTypesOptions qfn).transform k = id := by cases k <;> rfl
  have h' := h
  unfold ValidAggType at h'
  rw [Options.typeStringFor, if_neg (by omega), Options.strings_of_derived _ hd,
    computeTypeStrings_get, f1, f2, hn]
  have e : ((t.toNat : Nat) : Int) = t := by omega
  rw [e, if_pos h]
  rfl

/-- C04: the quantiles reported are those of the last default timer types set. -/
theorem C04_quantiles (qfn : Nat → Bytes) (ss : List Setter) (q : Nat) :
    q ∈ (ss.foldl Options.apply (newTypesOptions qfn)).quantiles ↔
      ∃ t ∈ lastTimerTypes ss [Sum, SumSq, Mean, Min, Max, Count, Stdev, Median, P50, P95, P99],
        quantileOf t = some q := by
  have hd := Options.derived_foldl ss (newTypesOptions qfn) (Options.derived_computeAll _)
  obtain ⟨_, _, f3⟩ := foldl_fields .timer ss (newTypesOptions qfn)
  rw [hd.1, C05_members, f3]
  rfl

example :
    let ss := [Setter.gaugeFn (bs "." ++ ·), .quantileFn (fun _ => bs "q"), .counterFn (fun _ => []),
      .defaultTimer [P99]]
    let o := ss.foldl Options.apply (newTypesOptions (fun _ => bs "p"))
    o.typeStringFor .gauge Max = some (bs ".upper") ∧ o.typeStringFor .timer P20 = some (bs "q") ∧
    o.typeStringFor .counter Sum = some [] ∧ o.quantiles = [9900] := by decide

theorem typeForLoop_spec (v : Bytes) (ss : List Bytes) : ∀ id,
    (typeForLoop v id ss = 0 ∧ ∀ i, ss[i]? = some v → ¬ ValidAggType ((id + i : Nat) : Int)) ∨
    (∃ i, typeForLoop v id ss = ((id + i : Nat) : Int) ∧ ss[i]? = some v ∧
      ValidAggType ((id + i : Nat) : Int) ∧
      ∀ j < i, ss[j]? = some v → ¬ ValidAggType ((id + j : Nat) : Int)) := by
  induction ss with
  | nil => intro id; left; simp [typeForLoop]
  | cons s ss ih =>
    intro id
    simp only [typeForLoop]
    have shift : ∀ i, ((id + 1 + i : Nat) : Int) = ((id + (i + 1) : Nat) : Int) := by intro i; omega
    by_cases hv : v = s
    · subst hv
      simp only [beq_self_eq_true, Bool.not_true, Bool.false_eq_true, if_false]
      by_cases hval : isValid (id : Int) = true
      · right
        refine ⟨0, by simp [hval], by simp, (isValid_iff _).mp hval, by simp⟩
      · have hnv : ¬ ValidAggType (id : Int) := fun h => hval ((isValid_iff _).mpr h)
        simp only [hval]
        rcases ih (id + 1) with ⟨h1, h2⟩ | ⟨i, h1, h2, h3, h4⟩
        · left
          refine ⟨h1, ?_⟩
          intro i hi
          cases i with
          | zero => simpa using hnv
          | succ i => rw [← shift]; exact h2 i (by simpa using hi)
        · right
          refine ⟨i + 1, by rw [← shift]; exact h1, by simpa using h2, by rw [← shift]; exact h3, ?_⟩
          intro j hj hs
          cases j with
          | zero => simpa using hnv
          | succ j => rw [← shift]; exact h4 j (by omega) (by simpa using hs)
    · have hb : (v == s) = false := by simpa using hv
      simp only [hb, Bool.not_false, if_true]
      rcases ih (id + 1) with ⟨h1, h2⟩ | ⟨i, h1, h2, h3, h4⟩
      · left
        refine ⟨h1, ?_⟩
        intro i hi
        cases i with
        | zero => simp at hi; exact absurd hi.symm hv
        | succ i => rw [← shift]; exact h2 i (by simpa using hi)
      · right
        refine ⟨i + 1, by rw [← shift]; exact h1, by simpa using h2, by rw [← shift]; exact h3, ?_⟩
        intro j hj hs
        cases j with
        | zero => simp at hs; exact absurd hs.symm hv
        | succ j => rw [← shift]; exact h4 j (by omega) (by simpa using hs)

theorem typeStringFor_nat (o : Options) (k : Kind) (i : Nat) :
    o.typeStringFor k (i : Int) = (o.strings k)[i]? := by
  have : ¬ ((i : Int) < 0) := by omega
  rw [Options.typeStringFor, if_neg this]; rfl

/-- C04: looking up a string never returns a type reported under a different string: the answer is
either "unknown" (and then no valid type has that string) or the smallest valid type reported under
exactly that string. -/
theorem C04_lookup_sound (o : Options) (k : Kind) (v : Bytes) :
    (o.typeFor k v = 0 ∧ ∀ t, ValidAggType t → o.typeStringFor k t ≠ some v) ∨
    (ValidAggType (o.typeFor k v) ∧ o.typeStringFor k (o.typeFor k v) = some v ∧
      ∀ t, ValidAggType t → o.typeStringFor k t = some v → o.typeFor k v ≤ t) := by
  rcases typeForLoop_spec v (o.strings k) 0 with ⟨h1, h2⟩ | ⟨i, h1, h2, h3, h4⟩
  · left
    refine ⟨h1, fun t ht hs => ?_⟩
    have hi : ((t.toNat : Nat) : Int) = t := by unfold ValidAggType at ht; omega
    rw [← hi, typeStringFor_nat] at hs
    have := h2 t.toNat hs
    rw [Nat.zero_add, hi] at this
    exact this ht
  · right
    rw [Nat.zero_add] at h1 h3
    have e : o.typeFor k v = (i : Int) := h1
    rw [e]
    refine ⟨h3, by rw [typeStringFor_nat]; exact h2, ?_⟩
    intro t ht hs
    have hi : ((t.toNat : Nat) : Int) = t := by unfold ValidAggType at ht; omega
    rw [← hi, typeStringFor_nat] at hs
    have : ¬ t.toNat < i := by
      intro hlt
      have := h4 t.toNat hlt hs
      rw [Nat.zero_add, hi] at this
      exact this ht
    omega

/-- C04: when the reported strings of valid types are pairwise distinct, lookup inverts reporting. -/
theorem C04_lookup_inverse (o : Options) (k : Kind) (t : AType) (v : Bytes) (ht : ValidAggType t)
    (hd : ∀ t u, ValidAggType t → ValidAggType u →
      o.typeStringFor k t = o.typeStringFor k u → t = u)
    (hv : o.typeStringFor k t = some v) : o.typeFor k v = t := by
  rcases C04_lookup_sound o k v with ⟨_, h⟩ | ⟨h1, h2, _⟩
  · exact absurd hv (h t ht)
  · exact hd _ _ h1 ht (h2.trans hv.symm)

/-- Non-vacuity: with an injective quantile printer the default strings are pairwise distinct
(checked on all 22 × 22 pairs of the finite type table). -/
example : let o := newTypesOptions (fun q => bs "p" ++ [UInt8.ofNat (q / 100), UInt8.ofNat q])
    ∀ t ∈ ValidTypes, ∀ u ∈ ValidTypes, o.typeStringFor .timer t = o.typeStringFor .timer u → t = u := by
  decide +kernel

/-- C04: when a transform maps everything to one string, lookup is ambiguous and returns the
smallest type (here `Last`), so distinctness is needed above. -/
theorem C04_ambiguous_lookup :
    let o := (newTypesOptions (fun _ => [])).apply (.counterFn (fun _ => []))
    o.typeStringFor .counter Sum = some [] ∧ o.typeFor .counter [] = Last := by decide

end Verif.Agg
