import Verif.Spec.HashMap
import Verif.Lemmas.Validator
import Verif.Lemmas.Cache
/- C78: the generated hash maps behave as maps. -/
namespace Verif.HashMap
open Verif.Spec.HashMap

variable {V : Type}

/-! ### Slots -/

/-- No slot occurs twice. -/
def HMap.Ok (m : HMap V) : Prop := (m.lookup.map (·.1)).Nodup

theorem find_iff {l : List (UInt64 × α)} (hn : (l.map (·.1)).Nodup) (h : UInt64) (e : α) :
    (l.find? fun x => x.1 == h).map (·.2) = some e ↔ (h, e) ∈ l := by
  induction l with
  | nil => simp
  | cons a l ih =>
    obtain ⟨s, x⟩ := a
    rw [List.map_cons, List.nodup_cons] at hn
    rw [List.find?_cons]
    by_cases hs : s = h
    · subst hs
      simp only [beq_self_eq_true, Option.map_some, Option.some.injEq, List.mem_cons, Prod.mk.injEq, true_and]
      constructor
      · intro e; exact .inl e.symm
      · rintro (e | e)
        · exact e.symm
        · exact absurd (List.mem_map.mpr ⟨_, e, rfl⟩) hn.1
    · have hb : (s == h) = false := by simpa using hs
      simp only [hb, List.mem_cons, Prod.mk.injEq]
      rw [ih hn.2]
      constructor
      · intro e; exact .inr e
      · rintro (⟨e, _⟩ | e)
        · exact absurd e.symm hs
        · exact e

theorem slot_iff {m : HMap V} (hm : m.Ok) {h : UInt64} {e : Bytes × V} : m.slot h = some e ↔ (h, e) ∈ m.lookup := find_iff hm h e

theorem ok_remove {m : HMap V} (hm : m.Ok) (h : UInt64) : (m.remove h).Ok :=
  (List.filter_sublist.map _).nodup hm

theorem ok_put {m : HMap V} (hm : m.Ok) (h : UInt64) (e : Bytes × V) : (m.put h e).Ok := by
  unfold HMap.Ok HMap.put
  rw [List.map_append, List.nodup_append]
  refine ⟨ok_remove hm h, by simp, ?_⟩
  intro a ha b hb
  simp only [List.map_cons, List.map_nil, List.mem_cons, List.not_mem_nil, or_false] at hb
  subst hb
  obtain ⟨x, hx, rfl⟩ := List.mem_map.mp ha
  have := (List.mem_filter.mp hx).2
  intro e
  simp [e] at this

theorem slot_remove {m : HMap V} (hm : m.Ok) (h s : UInt64) : (m.remove h).slot s = if s = h then none else m.slot s := by
  apply Option.ext
  intro e
  rw [slot_iff (ok_remove hm h)]
  unfold HMap.remove
  simp only [List.mem_filter]
  by_cases hs : s = h
  · simp [hs]
  · rw [if_neg hs, slot_iff hm]
    simp [hs]

theorem slot_put {m : HMap V} (hm : m.Ok) (h s : UInt64) (e : Bytes × V) : (m.put h e).slot s = if s = h then some e else m.slot s := by
  apply Option.ext
  intro x
  rw [slot_iff (ok_put hm h e)]
  unfold HMap.put HMap.remove
  simp only [List.mem_append, List.mem_filter, List.mem_cons, List.not_mem_nil, or_false, Prod.mk.injEq]
  by_cases hs : s = h
  · subst hs
    simp only [beq_self_eq_true, Bool.not_true, Bool.false_eq_true, and_false, true_and, false_or, if_true, Option.some.injEq]
    exact eq_comm
  · rw [if_neg hs, slot_iff hm]
    simp [hs]

theorem length_remove (m : HMap V) (h : UInt64) : (m.remove h).lookup.length ≤ m.lookup.length := List.length_filter_le _ _

theorem length_put (m : HMap V) (h : UInt64) (e : Bytes × V) : (m.put h e).lookup.length ≤ m.lookup.length + 1 := by
  have := length_remove m h
  unfold HMap.put
  simp only [List.length_append, List.length_cons, List.length_nil]
  omega

/-! ### The walk -/

/-- The `i`-th slot from `h`. -/
def off (h : UInt64) (i : Nat) : UInt64 := h + UInt64.ofNat i

theorem off_zero (h : UInt64) : off h 0 = h := by simp [off]

theorem off_succ (h : UInt64) (i : Nat) : off (h + 1) i = off h (i + 1) := by
  unfold off
  rw [← UInt64.toNat_inj]
  simp [UInt64.toNat_add, UInt64.toNat_ofNat']
  omega

theorem off_inj {h : UInt64} {i j : Nat} (hi : i < 18446744073709551616) (hj : j < 18446744073709551616) (e : off h i = off h j) : i = j := by
  unfold off at e
  rw [← UInt64.toNat_inj] at e
  simp [UInt64.toNat_add, UInt64.toNat_ofNat'] at e
  have := h.toNat_lt
  omega

/-- What the walk over `d` slots from `h` passed: entries with other keys. -/
def Passed (m : HMap V) (k : Bytes) (h : UInt64) (d : Nat) : Prop := ∀ i, i < d → ∃ k' v, m.slot (off h i) = some (k', v) ∧ k' ≠ k

theorem walk_spec (m : HMap V) (k : Bytes) : ∀ (f : Nat) (h : UInt64), (Passed m k h f ∧ m.walk k f h = (off h f, none)) ∨
    ∃ d, d < f ∧ Passed m k h d ∧ ((m.slot (off h d) = none ∧ m.walk k f h = (off h d, none)) ∨
      ∃ v, m.slot (off h d) = some (k, v) ∧ m.walk k f h = (off h d, some v))
  | 0, h => .inl ⟨fun i hi => absurd hi (by omega), by rw [off_zero]; rfl⟩
  | f + 1, h => by
    rw [HMap.walk]
    cases hs : m.slot h with
    | none => exact .inr ⟨0, by omega, fun i hi => absurd hi (by omega), .inl ⟨by rw [off_zero]; exact hs, by rw [off_zero]⟩⟩
    | some e =>
      obtain ⟨k', v⟩ := e
      simp only
      by_cases hk : k' = k
      · subst hk
        exact .inr ⟨0, by omega, fun i hi => absurd hi (by omega), .inr ⟨v, by rw [off_zero]; exact hs, by rw [off_zero, if_pos rfl]⟩⟩
      · rw [if_neg hk]
        have ext : ∀ d, Passed m k (h + 1) d → Passed m k h (d + 1) := by
          intro d hp i hi
          cases i with
          | zero => exact ⟨k', v, by rw [off_zero]; exact hs, hk⟩
          | succ i => rw [← off_succ]; exact hp i (by omega)
        rcases walk_spec m k f (h + 1) with ⟨h1, h2⟩ | ⟨d, h1, h2, h3⟩
        · exact .inl ⟨ext f h1, by rw [h2, off_succ]⟩
        · refine .inr ⟨d + 1, by omega, ext d h2, ?_⟩
          rw [← off_succ]
          exact h3

/-- The fuel is enough. -/
theorem locate_spec {m : HMap V} (hm : m.Ok) (hl : m.lookup.length < 18446744073709551615) (hash : Bytes → UInt64) (k : Bytes) :
    ∃ d, d < 18446744073709551616 ∧ Passed m k (hash k) d ∧
      ((m.slot (off (hash k) d) = none ∧ m.locate hash k = (off (hash k) d, none)) ∨
      ∃ v, m.slot (off (hash k) d) = some (k, v) ∧ m.locate hash k = (off (hash k) d, some v)) := by
  rcases walk_spec m k (m.lookup.length + 1) (hash k) with ⟨h1, _⟩ | ⟨d, h1, h2, h3⟩
  · exfalso
    have hn : ((List.range (m.lookup.length + 1)).map (off (hash k))).Nodup := by
      rw [List.nodup_iff_pairwise_ne, List.pairwise_map]
      refine List.Pairwise.imp_of_mem (R := fun a b => a ≠ b) (fun {a b} ha hb hne e => ?_) List.nodup_range
      rw [List.mem_range] at ha hb
      exact hne (off_inj (by omega) (by omega) e)
    have hs : ∀ x ∈ (List.range (m.lookup.length + 1)).map (off (hash k)), x ∈ m.lookup.map (·.1) := by
      intro x hx
      obtain ⟨i, hi, rfl⟩ := List.mem_map.mp hx
      rw [List.mem_range] at hi
      obtain ⟨k', v, h2, _⟩ := h1 i hi
      exact List.mem_map.mpr ⟨_, (slot_iff hm).mp h2, rfl⟩
    have := (Val.sub_length _ _ hn hs).1
    simp only [List.length_map, List.length_range] at this
    omega
  · exact ⟨d, by omega, h2, h3⟩

/-! ### Maps that can be read -/

/-- Every entry is reached from the hash of its key, and no key occurs twice. -/
structure Inv (hash : Bytes → UInt64) (m : HMap V) : Prop where
  ok : m.Ok
  unique : ∀ s s' k v v', m.slot s = some (k, v) → m.slot s' = some (k, v') → s = s'
  reach : ∀ s k v, m.slot s = some (k, v) → ∃ d, d < 18446744073709551616 ∧ s = off (hash k) d ∧
    ∀ i, i < d → (m.slot (off (hash k) i)).isSome = true

/-- What is in a map that can be read. -/
theorem get_iff {hash : Bytes → UInt64} {m : HMap V} (hi : Inv hash m) (hl : m.lookup.length < 18446744073709551615) (k : Bytes) (v : V) :
    m.get hash k = some v ↔ ∃ s, m.slot s = some (k, v) := by
  obtain ⟨d, hd, hp, hx⟩ := locate_spec hi.ok hl hash k
  unfold HMap.get
  constructor
  · intro h
    rcases hx with ⟨_, h2⟩ | ⟨w, h1, h2⟩
    · rw [h2] at h; cases h
    · rw [h2] at h; cases h; exact ⟨_, h1⟩
  · rintro ⟨s, hs⟩
    obtain ⟨d', hd', rfl, hr⟩ := hi.reach s k v hs
    rcases hx with ⟨h1, h2⟩ | ⟨w, h1, h2⟩
    · exfalso
      by_cases hlt : d < d'
      · have := hr d hlt
        rw [h1] at this
        cases this
      · by_cases he : d = d'
        · subst he; rw [h1] at hs; cases hs
        · obtain ⟨k', v', h3, h4⟩ := hp d' (by omega)
          rw [hs] at h3
          cases h3
          exact h4 rfl
    · have := hi.unique _ _ _ _ _ h1 hs
      rw [this, hs] at h1
      cases h1
      rw [h2]

theorem inv_is {hash : Bytes → UInt64} {m : HMap V} (hi : Inv hash m) (hl : m.lookup.length < 18446744073709551615) :
    Is hash m (m.get hash) where
  get _ := rfl
  iter k v := by
    rw [get_iff hi hl]
    unfold HMap.iter
    constructor
    · intro h
      obtain ⟨⟨s, e⟩, he, heq⟩ := List.mem_map.mp h
      simp only at heq
      subst heq
      exact ⟨s, (slot_iff hi.ok).mpr he⟩
    · rintro ⟨s, hs⟩
      exact List.mem_map.mpr ⟨_, (slot_iff hi.ok).mp hs, rfl⟩
  once := by
    unfold HMap.iter
    rw [List.map_map, List.nodup_iff_pairwise_ne, List.pairwise_map]
    have hn : m.lookup.Pairwise fun a b => a.1 ≠ b.1 := by
      have := hi.ok
      unfold HMap.Ok at this
      rw [List.nodup_iff_pairwise_ne, List.pairwise_map] at this
      exact this
    refine hn.imp_of_mem fun {a b} ha hb hne e => hne ?_
    obtain ⟨s, k, v⟩ := a
    obtain ⟨s', k', v'⟩ := b
    simp only [Function.comp] at e
    subst e
    exact hi.unique s s' k v v' ((slot_iff hi.ok).mpr ha) ((slot_iff hi.ok).mpr hb)
  len := by simp [HMap.len, HMap.iter]

theorem inv_empty (hash : Bytes → UInt64) : Inv hash ({} : HMap V) where
  ok := by simp [HMap.Ok]
  unique s s' k v v' h := by simp [HMap.slot] at h
  reach s k v h := by simp [HMap.slot] at h

/-- `Set` leaves a map that can be read, with one value changed. -/
theorem inv_set {hash : Bytes → UInt64} {m : HMap V} (hi : Inv hash m) (hl : m.lookup.length < 18446744073709551615) (k : Bytes) (v : V) :
    Inv hash (m.set hash k v) ∧ ∀ s k' v', (m.set hash k v).slot s = some (k', v') ↔ (if k' = k then s = (m.locate hash k).1 ∧ v' = v else m.slot s = some (k', v')) := by
  obtain ⟨d, hd, hp, hx⟩ := locate_spec hi.ok hl hash k
  have hloc : (m.locate hash k).1 = off (hash k) d := by rcases hx with ⟨_, h2⟩ | ⟨w, _, h2⟩ <;> rw [h2]
  have hold : ∀ k' v', m.slot (off (hash k) d) = some (k', v') → k' = k := by
    intro k' v' h
    rcases hx with ⟨h1, _⟩ | ⟨w, h1, _⟩ <;> rw [h1] at h <;> cases h
    rfl
  have hnone : ∀ s v', m.slot s = some (k, v') → s = off (hash k) d := by
    intro s v' h
    rcases hx with ⟨h1, h2⟩ | ⟨w, h1, _⟩
    · have := (get_iff hi hl k v').mpr ⟨s, h⟩
      unfold HMap.get at this
      rw [h2] at this
      cases this
    · exact hi.unique _ _ _ _ _ h h1
  unfold HMap.set
  rw [hloc]
  have hslot : ∀ s k' v', (m.put (off (hash k) d) (k, v)).slot s = some (k', v') ↔
      (if k' = k then s = off (hash k) d ∧ v' = v else m.slot s = some (k', v')) := by
    intro s k' v'
    rw [slot_put hi.ok]
    by_cases hs : s = off (hash k) d
    · rw [if_pos hs]
      subst hs
      by_cases hk : k' = k
      · subst hk; simp [eq_comm]
      · rw [if_neg hk]
        constructor
        · intro h; cases h; exact absurd rfl hk
        · intro h; exact absurd (hold _ _ h) hk
    · rw [if_neg hs]
      by_cases hk : k' = k
      · subst hk
        rw [if_pos rfl]
        constructor
        · intro h; exact absurd (hnone _ _ h) hs
        · intro h; exact absurd h.1 hs
      · rw [if_neg hk]
  refine ⟨⟨ok_put hi.ok _ _, ?_, ?_⟩, hslot⟩
  · intro s s' k' v1 v2 h1 h2
    rw [hslot] at h1 h2
    by_cases hk : k' = k
    · rw [if_pos hk] at h1 h2
      rw [h1.1, h2.1]
    · rw [if_neg hk] at h1 h2
      exact hi.unique _ _ _ _ _ h1 h2
  · intro s k' v' h
    have some : ∀ x, (m.slot x).isSome = true → ((m.put (off (hash k) d) (k, v)).slot x).isSome = true := by
      intro x hx
      rw [slot_put hi.ok]
      split
      · rfl
      · exact hx
    rw [hslot] at h
    by_cases hk : k' = k
    · subst hk
      rw [if_pos rfl] at h
      refine ⟨d, hd, h.1, fun i hi' => some _ ?_⟩
      obtain ⟨k1, v1, h1, _⟩ := hp i hi'
      rw [h1]; rfl
    · rw [if_neg hk] at h
      obtain ⟨d', hd', h1, h2⟩ := hi.reach _ _ _ h
      exact ⟨d', hd', h1, fun i hi' => some _ (h2 i hi')⟩

theorem get_set {hash : Bytes → UInt64} {m : HMap V} (hi : Inv hash m) (hl : m.lookup.length + 1 < 18446744073709551615) (k k' : Bytes) (v : V) :
    (m.set hash k v).get hash k' = if k' = k then some v else m.get hash k' := by
  obtain ⟨h1, h2⟩ := inv_set hi (by omega) k v
  have hl' : (m.set hash k v).lookup.length < 18446744073709551615 := by
    have := length_put m (m.locate hash k).1 (k, v)
    unfold HMap.set
    omega
  apply Option.ext
  intro v'
  rw [get_iff h1 hl']
  by_cases hk : k' = k
  · subst hk
    simp only [if_true, Option.some.injEq]
    constructor
    · rintro ⟨s, hs⟩
      rw [h2, if_pos rfl] at hs
      exact hs.2.symm
    · intro e
      exact ⟨_, by rw [h2, if_pos rfl]; exact ⟨rfl, e.symm⟩⟩
  · rw [if_neg hk, get_iff hi (by omega)]
    constructor
    · rintro ⟨s, hs⟩
      rw [h2, if_neg hk] at hs
      exact ⟨s, hs⟩
    · rintro ⟨s, hs⟩
      exact ⟨s, by rw [h2, if_neg hk]; exact hs⟩

/-! ### C78 -/

theorem value_congr {k : Bytes} {old old' : Option V} (h : old = old') (ops : List (Op V)) : value k old ops = value k old' ops := by rw [h]

theorem is_congr {hash : Bytes → UInt64} {m : HMap V} {f g : Bytes → Option V} (h : Is hash m f) (e : ∀ k, f k = g k) : Is hash m g :=
  ⟨fun k => (h.get k).trans (e k), fun k v => by rw [← e]; exact h.iter k v, h.once, h.len⟩

/-- No call of `Delete`. -/
def NoDelete (ops : List (Op V)) : Prop := ∀ k, Op.delete k ∉ ops

theorem run_no_delete {hash : Bytes → UInt64} : ∀ (ops : List (Op V)) (m : HMap V), Inv hash m → NoDelete ops →
    m.lookup.length + ops.length < 18446744073709551615 → Is hash (m.run hash ops) fun k => value k (m.get hash k) ops
  | [], m, hi, _, hl => inv_is (m := m) hi (by simpa using hl)
  | op :: ops, m, hi, hd, hl => by
    simp only [List.length_cons] at hl
    have hd' : NoDelete ops := fun k h => hd k (List.mem_cons_of_mem _ h)
    cases op with
    | set k v =>
      refine is_congr (run_no_delete ops (m.set hash k v) (inv_set hi (by omega) k v).1 hd' ?_) fun k' => ?_
      · have := length_put m (m.locate hash k).1 (k, v)
        unfold HMap.set
        omega
      · rw [get_set hi (by omega)]; rfl
    | delete k => exact absurd List.mem_cons_self (hd k)
    | reset =>
      refine is_congr (run_no_delete ops {} (inv_empty hash) hd' (by simp; omega)) fun k => ?_
      rfl

/-- C78 (in part): without `Delete` a map is a map, whatever the hash function is.  Missing: `Delete`. -/
theorem C78_no_delete_partial (hash : Bytes → UInt64) (ops : List (Op V)) (hd : NoDelete ops) (hl : ops.length < 18446744073709551615) :
    Is hash (HMap.run hash {} ops) fun k => value k none ops :=
  run_no_delete ops {} (inv_empty hash) hd (by simpa using hl)

/-- Every entry is in the slot of its hash, and its key is one of `ks`. -/
structure Home (hash : Bytes → UInt64) (ks : List Bytes) (m : HMap V) : Prop where
  inv : Inv hash m
  home : ∀ s k v, m.slot s = some (k, v) → s = hash k ∧ k ∈ ks

theorem home_locate {hash : Bytes → UInt64} {ks : List Bytes} (hk : ∀ a ∈ ks, ∀ b ∈ ks, hash a = hash b → a = b) {m : HMap V}
    (h : Home hash ks m) (hl : m.lookup.length < 18446744073709551615) {k : Bytes} (hm : k ∈ ks) : (m.locate hash k).1 = hash k := by
  obtain ⟨d, hd, hp, hx⟩ := locate_spec h.inv.ok hl hash k
  have : d = 0 := by
    apply Classical.byContradiction
    intro hne
    obtain ⟨k', v, h1, h2⟩ := hp 0 (by omega)
    rw [off_zero] at h1
    obtain ⟨h3, h4⟩ := h.home _ _ _ h1
    exact h2 (hk _ h4 _ hm h3.symm)
  subst this
  rcases hx with ⟨_, h2⟩ | ⟨w, _, h2⟩ <;> rw [h2, off_zero]

theorem home_delete {hash : Bytes → UInt64} {ks : List Bytes} (hk : ∀ a ∈ ks, ∀ b ∈ ks, hash a = hash b → a = b) {m : HMap V}
    (h : Home hash ks m) (hl : m.lookup.length < 18446744073709551615) {k : Bytes} (hm : k ∈ ks) :
    Home hash ks (m.delete hash k) ∧ (∀ k', (m.delete hash k).get hash k' = if k' = k then none else m.get hash k') ∧
      (m.delete hash k).lookup.length ≤ m.lookup.length := by
  have hloc := home_locate hk h hl hm
  have hlen : (m.delete hash k).lookup.length ≤ m.lookup.length := by
    unfold HMap.delete
    split
    · exact length_remove _ _
    · exact Nat.le_refl _
  have hslot : ∀ s, (m.delete hash k).slot s = if s = hash k then none else m.slot s := by
    intro s
    obtain ⟨d, hd, hp, hx⟩ := locate_spec h.inv.ok hl hash k
    rcases hx with ⟨h1, h2⟩ | ⟨w, h1, h2⟩
    · rw [h2] at hloc
      simp only at hloc
      rw [hloc] at h1
      unfold HMap.delete
      rw [h2]
      simp only
      split
      · rename_i e; rw [e]; exact h1
      · rfl
    · rw [h2] at hloc
      simp only at hloc
      unfold HMap.delete
      rw [h2]
      simp only
      rw [slot_remove h.inv.ok, hloc]
  have hok : (m.delete hash k).Ok := by
    unfold HMap.delete
    split
    · exact ok_remove h.inv.ok _
    · exact h.inv.ok
  have hsub : ∀ s e, (m.delete hash k).slot s = some e → m.slot s = some e := by
    intro s e he
    rw [hslot] at he
    split at he
    · cases he
    · exact he
  have hinv : Inv hash (m.delete hash k) := {
    ok := hok
    unique := fun s s' k' v v' h1 h2 => h.inv.unique _ _ _ _ _ (hsub _ _ h1) (hsub _ _ h2)
    reach := fun s k' v h1 => ⟨0, by omega, by rw [off_zero]; exact (h.home _ _ _ (hsub _ _ h1)).1, fun i hi => absurd hi (by omega)⟩ }
  refine ⟨⟨hinv, fun s k' v h1 => h.home _ _ _ (hsub _ _ h1)⟩, ?_, hlen⟩
  intro k'
  apply Option.ext
  intro v
  rw [get_iff hinv (by omega)]
  by_cases hkk : k' = k
  · subst hkk
    simp only [if_true]
    constructor
    · rintro ⟨s, hs⟩
      have := (h.home _ _ _ (hsub _ _ hs)).1
      rw [hslot, if_pos this] at hs
      cases hs
    · intro e; cases e
  · rw [if_neg hkk, get_iff h.inv hl]
    constructor
    · rintro ⟨s, hs⟩; exact ⟨s, hsub _ _ hs⟩
    · rintro ⟨s, hs⟩
      refine ⟨s, ?_⟩
      obtain ⟨h1, h2⟩ := h.home _ _ _ hs
      rw [hslot, if_neg, hs]
      intro e
      exact hkk (hk _ h2 _ hm (by rw [← h1, e]))

theorem run_home {hash : Bytes → UInt64} {ks : List Bytes} (hk : ∀ a ∈ ks, ∀ b ∈ ks, hash a = hash b → a = b) :
    ∀ (ops : List (Op V)) (m : HMap V), Home hash ks m → (∀ k ∈ keys ops, k ∈ ks) →
    m.lookup.length + ops.length < 18446744073709551615 → Is hash (m.run hash ops) fun k => value k (m.get hash k) ops
  | [], m, h, _, hl => inv_is (m := m) h.inv (by simpa using hl)
  | op :: ops, m, h, hs, hl => by
    simp only [List.length_cons] at hl
    cases op with
    | set k v =>
      have hm : k ∈ ks := hs k (by simp [keys])
      have hl' : (m.set hash k v).lookup.length + ops.length < 18446744073709551615 := by
        have := length_put m (m.locate hash k).1 (k, v)
        unfold HMap.set
        omega
      obtain ⟨h1, h2⟩ := inv_set h.inv (by omega) k v
      have h3 : Home hash ks (m.set hash k v) := by
        refine ⟨h1, fun s k' v' e => ?_⟩
        rw [h2] at e
        by_cases hkk : k' = k
        · rw [if_pos hkk, home_locate hk h (by omega) hm] at e
          rw [hkk]
          exact ⟨e.1, hm⟩
        · rw [if_neg hkk] at e
          exact h.home _ _ _ e
      refine is_congr (run_home hk ops (m.set hash k v) h3 (fun k' hk' => hs k' (by simp [keys, hk'])) hl') fun k' => ?_
      rw [get_set h.inv (by omega)]; rfl
    | delete k =>
      have hm : k ∈ ks := hs k (by simp [keys])
      obtain ⟨h1, h2, h3⟩ := home_delete hk h (by omega) hm
      refine is_congr (run_home hk ops (m.delete hash k) h1 (fun k' hk' => hs k' (by simp [keys, hk'])) (by omega)) fun k' => ?_
      rw [h2]; rfl
    | reset =>
      refine is_congr (run_home hk ops {} ⟨inv_empty hash, fun s k v e => by simp [HMap.slot] at e⟩ (fun k' hk' => hs k' (by simpa [keys] using hk')) (by simp; omega)) fun k => ?_
      rfl

/-- C78 (in part): if no two of the keys have the same hash, a map is a map.  Missing: `Delete` if there are collisions. -/
theorem C78_no_collision_partial (hash : Bytes → UInt64) (ops : List (Op V))
    (hk : ∀ a ∈ keys ops, ∀ b ∈ keys ops, hash a = hash b → a = b) (hl : ops.length < 18446744073709551615) :
    Is hash (HMap.run hash {} ops) fun k => value k none ops :=
  run_home hk ops {} ⟨inv_empty hash, fun s k v e => by simp [HMap.slot] at e⟩ (fun _ h => h) (by simpa using hl)

/-- C78 (in part): whatever the hash function and the calls are, a value that is found was once set for the same key. -/
theorem C78_own_values_partial (hash : Bytes → UInt64) (ops : List (Op V)) (hl : ops.length < 18446744073709551615) (k : Bytes) (v : V)
    (h : (HMap.run hash {} ops).get hash k = some v) : Op.set k v ∈ ops := by
  have inv : ∀ (done rest : List (Op V)) (m : HMap V), m.Ok → m.lookup.length ≤ done.length → (done ++ rest).length < 18446744073709551615 →
      (∀ s k v, m.slot s = some (k, v) → Op.set k v ∈ done) →
      (m.run hash rest).Ok ∧ (m.run hash rest).lookup.length ≤ (done ++ rest).length ∧
        ∀ s k v, (m.run hash rest).slot s = some (k, v) → Op.set k v ∈ done ++ rest := by
    intro done rest
    induction rest generalizing done with
    | nil => intro m h1 h2 _ h3; simpa [HMap.run] using ⟨h1, h2, h3⟩
    | cons op rest ih =>
      intro m h1 h2 h3 h4
      have e : done ++ op :: rest = (done ++ [op]) ++ rest := by simp
      rw [e] at h3 ⊢
      have hlen : m.lookup.length < 18446744073709551615 := by simp at h3; omega
      refine ih (done ++ [op]) (m.step hash op) ?_ ?_ h3 ?_
      · cases op with
        | set k v => exact ok_put h1 _ _
        | delete k => unfold HMap.step HMap.delete; simp only; split; exact ok_remove h1 _; exact h1
        | reset => simp [HMap.step, HMap.reset, HMap.Ok]
      · simp only [List.length_append, List.length_cons, List.length_nil]
        cases op with
        | set k v => have := length_put m (m.locate hash k).1 (k, v); unfold HMap.step HMap.set; simp only; omega
        | delete k =>
          unfold HMap.step HMap.delete
          simp only
          split
          · exact Nat.le_trans (length_remove m _) (by omega)
          · omega
        | reset => simp [HMap.step, HMap.reset]
      · intro s k v hs
        rw [List.mem_append]
        cases op with
        | set k' v' =>
          unfold HMap.step HMap.set at hs
          simp only at hs
          rw [slot_put h1] at hs
          split at hs
          · cases hs; exact .inr (by simp)
          · exact .inl (h4 _ _ _ hs)
        | delete k' =>
          unfold HMap.step HMap.delete at hs
          simp only at hs
          split at hs
          · rw [slot_remove h1] at hs
            split at hs
            · cases hs
            · exact .inl (h4 _ _ _ hs)
          · exact .inl (h4 _ _ _ hs)
        | reset => simp [HMap.step, HMap.reset, HMap.slot] at hs
  obtain ⟨h1, h2, h3⟩ := inv [] ops {} (by simp [HMap.Ok]) (by simp) (by simpa using hl) (fun s k v h => by simp [HMap.slot] at h)
  obtain ⟨d, _, _, hx⟩ := locate_spec h1 (by simp at h2; omega) hash k
  unfold HMap.get at h
  rcases hx with ⟨_, h5⟩ | ⟨w, h4, h5⟩
  · rw [h5] at h; cases h
  · rw [h5] at h; cases h
    simpa using h3 _ _ _ h4

theorem next_ne (h : UInt64) : (h == h + 1) = false ∧ (h + 1 == h) = false := by
  have : h ≠ h + 1 := by
    intro e
    have e' : off h 0 = off h 1 := by rw [off_zero, ← off_succ, off_zero]; exact e
    exact absurd (off_inj (by decide) (by decide) e') (by decide)
  exact ⟨by simpa using this, by simpa using this.symm⟩

/-- C78 fails: if the hash of `b` is that of `a`, deleting `a` loses `b`. -/
theorem C78_violation_lost (hash : Bytes → UInt64) (a b : Bytes) (hne : a ≠ b) (hc : hash a = hash b) (x y : V) :
    let ops := [Op.set a x, .set b y, .delete a]
    (HMap.run hash {} ops).get hash b = none ∧ value b none ops = some y := by
  obtain ⟨h1, h2⟩ := next_ne (hash b)
  refine ⟨?_, ?_⟩
  · simp [HMap.run, HMap.step, HMap.set, HMap.delete, HMap.get, HMap.locate, HMap.walk, HMap.slot, HMap.put, HMap.remove, hc, hne, h1, h2]
  · simp [value, hne.symm]

/-- C78 fails: with a collision a value that was replaced and then deleted can come back. -/
theorem C78_violation_back (hash : Bytes → UInt64) (a b : Bytes) (hne : a ≠ b) (hc : hash a = hash b) (x y z : V) :
    let ops := [Op.set a x, .set b y, .delete a, .set b z, .delete b, .set a x]
    (HMap.run hash {} ops).get hash b = some y ∧ value b none ops = none := by
  obtain ⟨h1, h2⟩ := next_ne (hash b)
  refine ⟨?_, ?_⟩
  · simp [HMap.run, HMap.step, HMap.set, HMap.delete, HMap.get, HMap.locate, HMap.walk, HMap.slot, HMap.put, HMap.remove, hc, hne, h1, h2]
  · simp [value, hne.symm]

/-! ### The maps of the cache and the matcher -/

/-- The calls on the association lists by which the models of the cache and of the matcher stand for these maps. -/
def listed (m : List (Bytes × V)) : List (Op V) → List (Bytes × V)
  | [] => m
  | .set k v :: ops => listed (Cache.mset m k v) ops
  | .delete k :: ops => listed (Cache.mdel m k) ops
  | .reset :: ops => listed [] ops

theorem mget_listed (k : Bytes) : ∀ (ops : List (Op V)) (m : List (Bytes × V)), Cache.mget (listed m ops) k = value k (Cache.mget m k) ops
  | [], _ => rfl
  | .set k' v :: ops, m => by
    rw [listed, mget_listed k ops, value]
    congr 1
    exact Cache.mget_mset ..
  | .delete k' :: ops, m => by
    rw [listed, mget_listed k ops, value]
    congr 1
    exact Cache.mget_mdel ..
  | .reset :: ops, m => by rw [listed, mget_listed k ops, value]; rfl

/-- C78 (in part): the maps the models of the cache and the matcher use answer as the generated ones do, if no two of the keys have
the same hash. -/
theorem C78_as_modelled_partial (hash : Bytes → UInt64) (ops : List (Op V))
    (hk : ∀ a ∈ keys ops, ∀ b ∈ keys ops, hash a = hash b → a = b) (hl : ops.length < 18446744073709551615) (k : Bytes) :
    (HMap.run hash {} ops).get hash k = Cache.mget (listed [] ops) k := by
  rw [(C78_no_collision_partial hash ops hk hl).get, mget_listed]
  rfl

/-! ### Cases -/

/-- A hash function with many collisions: the length of the key. -/
def exHash (k : Bytes) : UInt64 := UInt64.ofNat k.length

/-- Keys that collide, with a slot taken by another key in between: no deletion, then all is well. -/
def exOps : List (Op Nat) := [.set (bs "a") 1, .set (bs "bb") 2, .set (bs "c") 3, .set (bs "a") 4, .set (bs "d") 5, .set (bs "c") 6]

example : NoDelete exOps := by intro k h; simp [exOps] at h
example : (HMap.run exHash {} exOps).lookup.map (·.1) = [2, 1, 4, 3] ∧ (HMap.run exHash {} exOps).get exHash (bs "c") = some 6 := by
  decide +kernel

/-- Keys that do not collide, one deleted. -/
def exOps2 : List (Op Nat) := [.set (bs "a") 1, .set (bs "bb") 2, .delete (bs "a"), .set (bs "bb") 3, .delete (bs "ccc")]

example : (∀ a ∈ keys exOps2, ∀ b ∈ keys exOps2, exHash a = exHash b → a = b) ∧ (HMap.run exHash {} exOps2).get exHash (bs "bb") = some 3 ∧
    (HMap.run exHash {} exOps2).get exHash (bs "a") = none := by decide +kernel

example : bs "a" ≠ bs "c" ∧ exHash (bs "a") = exHash (bs "c") := by decide +kernel

end Verif.HashMap
