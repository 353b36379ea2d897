import Verif.Model.KeyMemory
/- C108: the keys of the generated maps are copies: callers may use their arrays again. -/
namespace Verif.KeyMemory
open Verif.HashMap (HMap)
variable {V : Type}

/-! ### Specification -/

/-- The map with its keys as values (what such a map answers is C78), and the arrays of the callers. -/
structure Plain (V : Type) where
  callers : List Bytes := []
  map : HMap V := {}

/-- What a call does: the key is what the caller's array holds at that time. -/
def Plain.step (hash : Bytes → UInt64) (p : Plain V) : Op V → Option (Option V) × Plain V
  | .make b => (none, { p with callers := p.callers ++ [b] })
  | .write i b => (none, { p with callers := p.callers.set i b })
  | .get i => (some (p.map.get hash (p.callers.getD i [])), p)
  | .set i v _ => (none, { p with map := p.map.set hash (p.callers.getD i []) v })
  | .setUnsafe i v _ _ _ => (none, { p with map := p.map.set hash (p.callers.getD i []) v })
  | .delete i => (none, { p with map := p.map.delete hash (p.callers.getD i []) })
  | .reset => (none, { p with map := p.map.reset })
  | .reallocate => (none, { p with map := p.map.reset })

def Plain.run (hash : Bytes → UInt64) : Plain V → List (Op V) → List (Option V)
  | _, [] => []
  | p, op :: ops => (p.step hash op).1.toList ++ Plain.run hash (p.step hash op).2 ops

/-- Calls that leave the keys to the map. -/
def Safe : Op V → Prop
  | .setUnsafe _ _ nc nf _ => nc = false ∧ nf = true
  | _ => True

instance : DecidablePred (Safe (V := V)) := fun op => by unfold Safe; cases op <;> infer_instance

/-! ### Refinement -/

/-- The map as values. -/
def World.plain (w : World V) : HMap V := ⟨w.lookup.map fun e => (e.1, (w.at e.2.1.ref, e.2.2))⟩

/-- The arrays of the entries. -/
def World.used (w : World V) : List Nat := w.lookup.filterMap fun e => match e.2.1.ref with
  | .own i => some i
  | .caller _ => none

/-- Keys are in arrays of the map, each its own, and none of these is free; what is given back has a pool to go to. -/
structure World.Ok (w : World V) : Prop where
  own : ∀ e ∈ w.lookup, ∃ i, e.2.1.ref = .own i ∧ i < w.arrays.length
  distinct : w.used.Nodup
  held : ∀ free, w.pool = some free → ∀ i ∈ free, i < w.arrays.length ∧ i ∉ w.used
  pooled : ∀ e ∈ w.lookup, e.2.1.finalize = true → w.pool.isSome = true
  slots : (w.lookup.map (·.1)).Nodup

theorem plain_slot (w : World V) (h : UInt64) : w.plain.slot h = (w.slot h).map fun e => (w.at e.1.ref, e.2) := by
  unfold World.plain HMap.slot World.slot
  simp only [List.find?_map, Option.map_map]
  rfl

theorem plain_walk (w : World V) (k : Bytes) : ∀ (f : Nat) (h : UInt64),
    w.plain.walk k f h = ((w.walk k f h).1, (w.walk k f h).2.map (·.2))
  | 0, _ => rfl
  | f + 1, h => by
    unfold HMap.walk World.walk
    rw [plain_slot]
    cases w.slot h with
    | none => rfl
    | some e =>
      obtain ⟨k', v⟩ := e
      simp only [Option.map_some]
      by_cases hk : w.at k'.ref = k
      · rw [if_pos hk, if_pos hk]; rfl
      · rw [if_neg hk, if_neg hk]
        exact plain_walk w k f (h + 1)

theorem plain_locate (hash : Bytes → UInt64) (w : World V) (k : Bytes) :
    w.plain.locate hash k = ((w.locate hash k).1, (w.locate hash k).2.map (·.2)) := by
  unfold HMap.locate World.locate
  have : w.plain.lookup.length = w.lookup.length := by simp [World.plain]
  rw [this]
  exact plain_walk w k _ _

/-- What is found has the key. -/
theorem walk_found (w : World V) (k : Bytes) : ∀ (f : Nat) (h : UInt64) (k' : Key) (v : V), (w.walk k f h).2 = some (k', v) →
    w.at k'.ref = k ∧ w.slot (w.walk k f h).1 = some (k', v)
  | 0, _, _, _, e => by cases e
  | f + 1, h, k', v, e => by
    unfold World.walk at e ⊢
    cases hs : w.slot h with
    | none => rw [hs] at e; cases e
    | some x =>
      obtain ⟨k2, v2⟩ := x
      rw [hs] at e
      simp only at e ⊢
      by_cases hk : w.at k2.ref = k
      · rw [if_pos hk] at e
        rw [if_pos hk]
        cases e
        exact ⟨hk, hs⟩
      · rw [if_neg hk] at e
        rw [if_neg hk]
        exact walk_found w k f _ _ _ e

theorem slot_mem {w : World V} {h : UInt64} {e : Key × V} (hs : w.slot h = some e) : (h, e) ∈ w.lookup := by
  unfold World.slot at hs
  cases hf : w.lookup.find? (fun e => e.1 == h) with
  | none => rw [hf] at hs; cases hs
  | some x =>
    rw [hf] at hs
    simp only [Option.map_some, Option.some.injEq] at hs
    have h1 := List.find?_some hf
    have h2 := List.mem_of_find?_eq_some hf
    obtain ⟨h', e'⟩ := x
    simp only [beq_iff_eq] at h1
    simp only at hs
    subst h1 hs
    exact h2

/-- The entries that are left after one is taken out. -/
theorem drop_used_sub (w : World V) (h : UInt64) : (w.drop h).used.Sublist w.used := by
  unfold World.drop World.used
  exact List.Sublist.filterMap _ List.filter_sublist

theorem plain_drop (w : World V) (h : UInt64) : (w.drop h).plain = w.plain.remove h := by
  unfold World.plain HMap.remove World.drop
  simp only [List.filter_map]
  rfl

theorem ok_drop {w : World V} (hw : w.Ok) (h : UInt64) : (w.drop h).Ok where
  own e he := hw.own e ((List.mem_filter.mp he).1)
  distinct := hw.distinct.sublist (drop_used_sub w h)
  held free hf i hi := ⟨(hw.held free hf i hi).1, fun h' => (hw.held free hf i hi).2 ((drop_used_sub w h).subset h')⟩
  pooled e he := hw.pooled e ((List.mem_filter.mp he).1)
  slots := hw.slots.sublist (List.filter_sublist.map _)

/-- An array in use is that of an entry. -/
theorem used_mem {w : World V} {i : Nat} : i ∈ w.used ↔ ∃ e ∈ w.lookup, e.2.1.ref = .own i := by
  unfold World.used
  rw [List.mem_filterMap]
  refine exists_congr fun e => and_congr_right fun _ => ?_
  cases e.2.1.ref <;> simp

/-- Arrays of no entry may be written. -/
theorem plain_arrays {w : World V} (hw : w.Ok) (as : List Bytes) (h : ∀ i ∈ w.used, as.getD i [] = w.arrays.getD i []) (p : Option (List Nat)) :
    ({ w with arrays := as, pool := p } : World V).plain = w.plain := by
  unfold World.plain
  congr 1
  refine List.map_congr_left fun e he => ?_
  obtain ⟨i, hi, _⟩ := hw.own e he
  rw [hi]
  show (e.1, (as.getD i [], e.2.2)) = (e.1, (w.arrays.getD i [], e.2.2))
  rw [h i (used_mem.mpr ⟨e, he, hi⟩)]

theorem ok_bounds {w : World V} (hw : w.Ok) {i : Nat} (h : i ∈ w.used) : i < w.arrays.length := by
  obtain ⟨e, he, hi⟩ := used_mem.mp h
  obtain ⟨j, hj, hl⟩ := hw.own e he
  rw [hi] at hj
  cases hj
  exact hl

/-- What is taken out leaves its array free. -/
theorem dropped_free {w : World V} (hw : w.Ok) {h : UInt64} {k : Key} {v : V} (hm : (h, (k, v)) ∈ w.lookup) {i : Nat} (hi : k.ref = .own i) :
    i ∉ (w.drop h).used := by
  intro hu
  obtain ⟨e, he, hei⟩ := used_mem.mp hu
  have he' : e ∈ w.lookup := (List.mem_filter.mp he).1
  have hne : e.1 ≠ h := by
    have := (List.mem_filter.mp he).2
    simpa using this
  obtain ⟨a, b, hab⟩ := List.append_of_mem hm
  have hdd := hw.distinct
  unfold World.used at hdd
  rw [hab] at hdd he'
  simp only [List.filterMap_append, List.filterMap_cons, hi] at hdd
  rw [List.nodup_append] at hdd
  obtain ⟨_, d2, d3⟩ := hdd
  have d2' := (List.nodup_cons.mp d2).1
  rcases List.mem_append.mp he' with hx | hx
  · refine d3 i (List.mem_filterMap.mpr ⟨e, hx, by rw [hei]⟩) i (by simp) rfl
  · rcases List.mem_cons.mp hx with rfl | hx
    · exact hne rfl
    · exact d2' (List.mem_filterMap.mpr ⟨e, hx, by rw [hei]⟩)

theorem put_slots {w : World V} (hs : (w.lookup.map (·.1)).Nodup) (h : UInt64) (e : Key × V) : ((w.put h e).lookup.map (·.1)).Nodup := by
  unfold World.put
  simp only [List.map_append, List.map_cons, List.map_nil]
  rw [List.nodup_append]
  refine ⟨hs.sublist (List.filter_sublist.map _), by simp, fun a ha b hb => ?_⟩
  obtain ⟨x, hx, rfl⟩ := List.mem_map.mp ha
  have := (List.mem_filter.mp hx).2
  simp only [List.mem_singleton] at hb
  subst hb
  simpa using this

/-- A copy is in an array of its own. -/
theorem copy_ok {w : World V} (hw : w.Ok) (k : Bytes) (pick : Option Nat) :
    ∃ i, (w.copy k pick).2 = .own i ∧ i < (w.copy k pick).1.arrays.length ∧ i ∉ w.used ∧ (w.copy k pick).1.Ok ∧
      (w.copy k pick).1.plain = w.plain ∧ (w.copy k pick).1.lookup = w.lookup ∧ (w.copy k pick).1.at (.own i) = k ∧
      (∀ free, (w.copy k pick).1.pool = some free → i ∉ free) ∧ (w.copy k pick).1.callers = w.callers ∧
      (w.copy k pick).1.pool.isSome = w.pool.isSome := by
  have new : ∀ x, w.copy k pick = x → x = ({ w with arrays := w.arrays ++ [k] }, .own w.arrays.length) →
      ∃ i, x.2 = .own i ∧ i < x.1.arrays.length ∧ i ∉ w.used ∧ x.1.Ok ∧ x.1.plain = w.plain ∧ x.1.lookup = w.lookup ∧ x.1.at (.own i) = k ∧
        (∀ free, x.1.pool = some free → i ∉ free) ∧ x.1.callers = w.callers ∧ x.1.pool.isSome = w.pool.isSome := by
    rintro x - rfl
    have hu : w.arrays.length ∉ w.used := fun h => Nat.lt_irrefl _ (ok_bounds hw h)
    refine ⟨w.arrays.length, rfl, by simp, hu, ?_, ?_, rfl, ?_, ?_, rfl, rfl⟩
    · refine ⟨fun e he => ?_, hw.distinct, fun free hf i hi => ?_, hw.pooled, hw.slots⟩
      · obtain ⟨i, hi, hl⟩ := hw.own e he
        exact ⟨i, hi, by simp; omega⟩
      · obtain ⟨h1, h2⟩ := hw.held free hf i hi
        exact ⟨by simp; omega, h2⟩
    · refine plain_arrays hw _ (fun i hi => ?_) _
      have := ok_bounds hw hi
      simp [List.getD_eq_getElem?_getD, List.getElem?_append_left this]
    · show (w.arrays ++ [k]).getD w.arrays.length [] = k
      simp [List.getD_eq_getElem?_getD]
    · intro free hf h
      exact Nat.lt_irrefl _ (hw.held free hf _ h).1
  unfold World.copy at new ⊢
  cases hp : w.pool with
  | none =>
    rw [hp] at new
    exact new _ rfl rfl
  | some free =>
    rw [hp] at new
    cases pick with
    | none => exact new _ rfl rfl
    | some i =>
      simp only at new ⊢
      by_cases hi : i ∈ free
      · rw [if_pos hi]
        obtain ⟨h1, h2⟩ := hw.held free hp i hi
        refine ⟨i, rfl, by simpa using h1, h2, ?_, ?_, rfl, ?_, ?_, rfl, by simp⟩
        · refine ⟨fun e he => ?_, hw.distinct, fun free' hf j hj => ?_, fun e he hf => by simp, hw.slots⟩
          · obtain ⟨j, hj, hl⟩ := hw.own e he
            exact ⟨j, hj, by simpa using hl⟩
          · simp only [Option.some.injEq] at hf
            subst hf
            obtain ⟨h3, h4⟩ := hw.held free hp j ((List.mem_filter.mp hj).1)
            exact ⟨by simpa using h3, h4⟩
        · refine plain_arrays hw _ (fun j hj => ?_) _
          have : i ≠ j := by rintro rfl; exact h2 hj
          simp [List.getD_eq_getElem?_getD, List.getElem?_set_ne this]
        · show (w.arrays.set i k).getD i [] = k
          simp [List.getD_eq_getElem?_getD, List.getElem?_set_self h1]
        · intro free' hf
          simp only [Option.some.injEq] at hf
          subst hf
          simp
      · rw [if_neg hi] at new ⊢
        exact new _ rfl rfl

theorem plain_put (w : World V) (h : UInt64) (k : Key) (v : V) : (w.put h (k, v)).plain = w.plain.put h (w.at k.ref, v) := by
  unfold World.plain HMap.put HMap.remove World.put
  simp only [List.map_append, List.filter_map, List.map_cons, List.map_nil]
  rfl

theorem set_ok (hash : Bytes → UInt64) {w : World V} (hw : w.Ok) (r : Ref) (v : V) (fin : Bool) (hfin : fin = true → w.pool.isSome = true)
    (pick : Option Nat) : (w.set hash r v true fin pick).Ok ∧ (w.set hash r v true fin pick).plain = w.plain.set hash (w.at r) v ∧
      (w.set hash r v true fin pick).callers = w.callers := by
  unfold World.set HMap.set
  rw [plain_locate]
  cases hl : w.locate hash (w.at r) with
  | mk h o =>
    cases o with
    | some x =>
      obtain ⟨k, v'⟩ := x
      obtain ⟨f1, f2⟩ := walk_found w (w.at r) (w.lookup.length + 1) (hash (w.at r)) k v' (by
        show (w.locate hash (w.at r)).2 = _
        rw [hl])
      have f2' : w.slot h = some (k, v') := by
        have e : (w.walk (w.at r) (w.lookup.length + 1) (hash (w.at r))).1 = h := congrArg Prod.fst hl
        rw [e] at f2; exact f2
      have hmem := slot_mem f2'
      refine ⟨?_, ?_, rfl⟩
      · obtain ⟨i, hi, hil⟩ := hw.own _ hmem
        simp only at hi
        have hnot : i ∉ (w.drop h).used := dropped_free hw hmem hi
        have hus : (w.put h (k, v)).used = (w.drop h).used ++ [i] := by
          unfold World.used World.put World.drop
          simp only [List.filterMap_append, List.filterMap_cons, hi, List.filterMap_nil]
        have hd := ok_drop hw h
        refine ⟨fun e he => ?_, ?_, fun free hf j hj => ?_, fun e he => ?_, put_slots hw.slots h _⟩
        · rcases List.mem_append.mp he with he | he
          · exact hw.own e ((List.mem_filter.mp he).1)
          · simp only [List.mem_singleton] at he
            subst he
            exact ⟨i, hi, hil⟩
        · rw [hus, List.nodup_append]
          refine ⟨hd.distinct, by simp, fun a ha b hb => ?_⟩
          simp only [List.mem_singleton] at hb
          subst hb
          rintro rfl
          exact hnot ha
        · obtain ⟨h1, h2⟩ := hw.held free hf j hj
          refine ⟨h1, ?_⟩
          rw [hus]
          intro hx
          rcases List.mem_append.mp hx with hx | hx
          · exact h2 ((drop_used_sub w h).subset hx)
          · simp only [List.mem_singleton] at hx
            subst hx
            exact h2 (used_mem.mpr ⟨_, hmem, hi⟩)
        · rcases List.mem_append.mp he with he | he
          · exact hw.pooled e ((List.mem_filter.mp he).1)
          · simp only [List.mem_singleton] at he
            subst he
            exact fun hf => hw.pooled _ hmem hf
      · simp only [plain_put, f1]
    | none =>
      simp only [World.newKey, Bool.not_true, Bool.false_eq_true, if_false]
      obtain ⟨i, c1, c2, c3, c4, c5, c6, c7, c8, c9, c10⟩ := copy_ok hw (w.at r) pick
      generalize w.copy (w.at r) pick = x at c1 c2 c4 c5 c6 c7 c8 c9 c10
      obtain ⟨w', rf⟩ := x
      simp only at c1 c2 c4 c5 c6 c7 c8 c9 c10 ⊢
      subst c1
      refine ⟨?_, ?_, c9⟩
      · have hus : (w'.put h (⟨.own i, fin⟩, v)).used = (w'.drop h).used ++ [i] := by
          unfold World.used World.put World.drop
          simp only [List.filterMap_append, List.filterMap_cons, List.filterMap_nil]
        have hu' : w'.used = w.used := by unfold World.used; rw [c6]
        have hd := ok_drop c4 h
        refine ⟨fun e he => ?_, ?_, fun free hf j hj => ?_, fun e he hf => ?_, put_slots c4.slots h _⟩
        · rcases List.mem_append.mp he with he | he
          · exact c4.own e ((List.mem_filter.mp he).1)
          · simp only [List.mem_singleton] at he
            subst he
            exact ⟨i, rfl, c2⟩
        · rw [hus, List.nodup_append]
          refine ⟨hd.distinct, by simp, fun a ha b hb => ?_⟩
          simp only [List.mem_singleton] at hb
          subst hb
          rintro rfl
          exact c3 (hu' ▸ (drop_used_sub w' h).subset ha)
        · obtain ⟨h1, h2⟩ := c4.held free hf j hj
          refine ⟨h1, ?_⟩
          rw [hus]
          intro hx
          rcases List.mem_append.mp hx with hx | hx
          · exact h2 ((drop_used_sub w' h).subset hx)
          · simp only [List.mem_singleton] at hx
            subst hx
            exact c8 free hf hj
        · rcases List.mem_append.mp he with he | he
          · exact c4.pooled e ((List.mem_filter.mp he).1) hf
          · simp only [List.mem_singleton] at he
            subst he
            show w'.pool.isSome = true
            rw [c10]
            exact hfin hf
      · rw [plain_put, c5]
        show w.plain.put h (w'.at (.own i), v) = _
        rw [c7]

/-- Taking out an entry. -/
theorem remove_ok {w : World V} (hw : w.Ok) {h : UInt64} {k : Key} {v : V} (hm : (h, (k, v)) ∈ w.lookup) :
    ∃ w', w.removeKey h k = some w' ∧ w'.Ok ∧ w'.plain = w.plain.remove h ∧ w'.callers = w.callers ∧ w'.lookup = (w.drop h).lookup := by
  have hd := ok_drop hw h
  unfold World.removeKey
  by_cases hf : k.finalize = true
  · simp only [hf, if_true]
    have hp := hw.pooled _ hm hf
    obtain ⟨i, hi, hl⟩ := hw.own _ hm
    simp only at hi
    unfold World.finalize
    cases hpo : w.pool with
    | none => rw [hpo] at hp; cases hp
    | some free =>
      have hpd : (w.drop h).pool = some free := hpo
      simp only [hpd, hi]
      refine ⟨_, rfl, ?_, (plain_drop w h), rfl, rfl⟩
      have hnot : i ∉ (w.drop h).used := dropped_free hw hm hi
      refine ⟨hd.own, hd.distinct, fun free' hf' j hj => ?_, fun e he hfe => rfl, hd.slots⟩
      simp only [Option.some.injEq] at hf'
      subst hf'
      rcases List.mem_cons.mp hj with rfl | hj
      · exact ⟨hl, hnot⟩
      · exact hd.held free hpd j hj
  · simp only [hf]
    exact ⟨_, rfl, hd, plain_drop w h, rfl, rfl⟩

theorem delete_ok (hash : Bytes → UInt64) {w : World V} (hw : w.Ok) (r : Ref) :
    ∃ w', w.delete hash r = some w' ∧ w'.Ok ∧ w'.plain = w.plain.delete hash (w.at r) ∧ w'.callers = w.callers := by
  unfold World.delete HMap.delete
  rw [plain_locate]
  cases hl : w.locate hash (w.at r) with
  | mk h o =>
    cases o with
    | none => exact ⟨w, rfl, hw, rfl, rfl⟩
    | some x =>
      obtain ⟨k, v⟩ := x
      obtain ⟨_, f2⟩ := walk_found w (w.at r) (w.lookup.length + 1) (hash (w.at r)) k v (by
        show (w.locate hash (w.at r)).2 = _
        rw [hl])
      have f2' : w.slot h = some (k, v) := by
        have e : (w.walk (w.at r) (w.lookup.length + 1) (hash (w.at r))).1 = h := congrArg Prod.fst hl
        rw [e] at f2; exact f2
      obtain ⟨w', h1, h2, h3, h4, _⟩ := remove_ok hw (slot_mem f2')
      exact ⟨w', h1, h2, h3, h4⟩

theorem removeAll_ok : ∀ (ents : List (UInt64 × (Key × V))) {w : World V}, w.Ok → (ents.map (·.1)).Nodup → (∀ e ∈ ents, e ∈ w.lookup) →
    ∃ w', World.removeAll ents w = some w' ∧ w'.Ok ∧ w'.callers = w.callers ∧ (∀ e ∈ w'.lookup, e ∈ w.lookup ∧ e.1 ∉ ents.map (·.1))
  | [], w, hw, _, _ => ⟨w, rfl, hw, rfl, fun e he => ⟨he, by simp⟩⟩
  | (h, (k, v)) :: rest, w, hw, hn, hs => by
    obtain ⟨hn1, hn2⟩ := List.nodup_cons.mp hn
    obtain ⟨w', h1, h2, _, h4, h5⟩ := remove_ok hw (hs (h, (k, v)) List.mem_cons_self)
    have hmem : ∀ e, e ∈ w'.lookup ↔ e ∈ w.lookup ∧ e.1 ≠ h := by
      intro e
      rw [h5]
      unfold World.drop
      simp [List.mem_filter]
    obtain ⟨w2, g1, g2, g3, g4⟩ := removeAll_ok rest h2 hn2 (fun e he => (hmem e).mpr ⟨hs e (by simp [he]), by
      rintro rfl
      exact hn1 (List.mem_map.mpr ⟨e, he, rfl⟩)⟩)
    refine ⟨w2, ?_, g2, g3.trans h4, fun e he => ?_⟩
    · unfold World.removeAll
      rw [h1]
      exact g1
    · obtain ⟨a, b⟩ := g4 e he
      obtain ⟨a1, a2⟩ := (hmem e).mp a
      refine ⟨a1, ?_⟩
      simp only [List.map_cons, List.mem_cons, not_or]
      exact ⟨a2, b⟩

theorem reset_ok {w : World V} (hw : w.Ok) : ∃ w', w.reset = some w' ∧ w'.Ok ∧ w'.lookup = [] ∧ w'.callers = w.callers := by
  obtain ⟨w', h1, h2, h3, h4⟩ := removeAll_ok w.lookup hw hw.slots (fun _ h => h)
  refine ⟨w', h1, h2, ?_, h3⟩
  cases hl : w'.lookup with
  | nil => rfl
  | cons e r =>
    obtain ⟨a, b⟩ := h4 e (by rw [hl]; simp)
    exact absurd (List.mem_map.mpr ⟨e, a, rfl⟩) b

/-- Arrays of callers are not looked at. -/
theorem plain_callers {w : World V} (hw : w.Ok) (cs : List Bytes) : ({ w with callers := cs } : World V).plain = w.plain := by
  unfold World.plain
  congr 1
  refine List.map_congr_left fun e he => ?_
  obtain ⟨i, hi, _⟩ := hw.own e he
  rw [hi]
  rfl

theorem step_ok (hash : Bytes → UInt64) {w : World V} (hw : w.Ok) (op : Op V) (hop : Safe op) :
    ∃ w', w.step hash op = some (((⟨w.callers, w.plain⟩ : Plain V).step hash op).1, w') ∧ w'.Ok ∧
      (⟨w'.callers, w'.plain⟩ : Plain V) = ((⟨w.callers, w.plain⟩ : Plain V).step hash op).2 := by
  cases op with
  | make b => exact ⟨_, rfl, ⟨hw.own, hw.distinct, hw.held, hw.pooled, hw.slots⟩, by rw [plain_callers hw]; rfl⟩
  | write i b => exact ⟨_, rfl, ⟨hw.own, hw.distinct, hw.held, hw.pooled, hw.slots⟩, by rw [plain_callers hw]; rfl⟩
  | get i =>
    refine ⟨w, ?_, hw, rfl⟩
    unfold World.step Plain.step World.get HMap.get
    simp only [plain_locate]
    rfl
  | set i v pick =>
    obtain ⟨h1, h2, h3⟩ := set_ok hash hw (.caller i) v w.pool.isSome id pick
    exact ⟨_, rfl, h1, by rw [h2, h3]; rfl⟩
  | setUnsafe i v nc nf pick =>
    obtain ⟨rfl, rfl⟩ := hop
    obtain ⟨h1, h2, h3⟩ := set_ok hash hw (.caller i) v false (by simp) pick
    exact ⟨_, rfl, h1, by rw [Bool.not_false, Bool.not_true, h2, h3]; rfl⟩
  | delete i =>
    obtain ⟨w', h1, h2, h3, h4⟩ := delete_ok hash hw (.caller i)
    refine ⟨w', ?_, h2, by rw [h3, h4]; rfl⟩
    show (w.delete hash (.caller i)).map _ = _
    rw [h1]
    rfl
  | reset =>
    obtain ⟨w', h1, h2, h3, h4⟩ := reset_ok hw
    refine ⟨w', ?_, h2, ?_⟩
    · show w.reset.map _ = _
      rw [h1]
      rfl
    · have : w'.plain = {} := by unfold World.plain; rw [h3]; rfl
      rw [this, h4]
      rfl
  | reallocate =>
    refine ⟨_, rfl, ⟨by simp [World.reallocate], by simp [World.reallocate, World.used], fun free hf i hi => ?_, by simp [World.reallocate],
      by simp [World.reallocate]⟩, rfl⟩
    exact ⟨(hw.held free hf i hi).1, by simp [World.reallocate, World.used]⟩

theorem run_ok (hash : Bytes → UInt64) : ∀ (ops : List (Op V)) {w : World V}, w.Ok → (∀ op ∈ ops, Safe op) →
    ∃ w', w.run hash ops = some (Plain.run hash ⟨w.callers, w.plain⟩ ops, w') ∧ w'.Ok
  | [], w, hw, _ => ⟨w, rfl, hw⟩
  | op :: ops, w, hw, hs => by
    obtain ⟨w1, h1, h2, h3⟩ := step_ok hash hw op (hs op (by simp))
    obtain ⟨w2, g1, g2⟩ := run_ok hash ops h2 (fun o ho => hs o (by simp [ho]))
    refine ⟨w2, ?_, g2⟩
    unfold World.run
    rw [h1]
    simp only [Option.bind_some]
    rw [g1, h3]
    rfl

theorem empty_ok (pool : Bool) : ({ pool := if pool then some [] else none } : World V).Ok where
  own := by simp
  distinct := by simp [World.used]
  held free hf i hi := by cases pool <;> simp at hf; subst hf; cases hi
  pooled := by simp
  slots := by simp

/-! ### C108 -/

/-- C108: whatever callers write in their arrays before, between and after their calls, and with or without a pool of keys, no call
panics and every `Get` answers as for a map whose keys are the values that the callers' arrays held at the time of each call. -/
theorem C108_keys_are_copies (hash : Bytes → UInt64) (pool : Bool) (ops : List (Op V)) (h : ∀ op ∈ ops, Safe op) :
    ((({ pool := if pool then some [] else none } : World V).run hash ops).map (·.1)) = some (Plain.run hash {} ops) := by
  obtain ⟨w', h1, _⟩ := run_ok hash ops (empty_ok pool) h
  rw [h1]
  rfl

/-- C108: arrays of keys are never shared: after any such calls no two entries have the same array, none has an array of a caller
and none has one that the pool may hand out. -/
theorem C108_not_shared (hash : Bytes → UInt64) (pool : Bool) (ops : List (Op V)) (h : ∀ op ∈ ops, Safe op) {a : List (Option V)} {w : World V}
    (hr : ({ pool := if pool then some [] else none } : World V).run hash ops = some (a, w)) :
    (w.lookup.map (·.2.1.ref)).Nodup ∧ (∀ e ∈ w.lookup, ∀ i, e.2.1.ref ≠ .caller i) ∧
      ∀ free, w.pool = some free → ∀ e ∈ w.lookup, ∀ i ∈ free, e.2.1.ref ≠ .own i := by
  obtain ⟨w', h1, h2⟩ := run_ok hash ops (empty_ok pool) h
  rw [h1] at hr
  cases hr
  refine ⟨?_, fun e he i hi => ?_, fun free hf e he i hi hei => ?_⟩
  · have hd := h2.distinct
    have : w.lookup.map (·.2.1.ref) = w.used.map Ref.own := by
      have ho := h2.own
      unfold World.used
      generalize w.lookup = l at ho
      induction l with
      | nil => rfl
      | cons e l ih =>
        obtain ⟨i, hi, _⟩ := ho e (by simp)
        simp only [List.map_cons, List.filterMap_cons, hi]
        rw [ih (fun e he => ho e (by simp [he]))]
    rw [this]
    exact List.Pairwise.map Ref.own (fun _ _ h e => h (by cases e; rfl)) hd
  · obtain ⟨j, hj, _⟩ := h2.own e he
    rw [hi] at hj
    cases hj
  · exact (h2.held free hf i hi).2 (used_mem.mpr ⟨e, he, hei⟩)

/-- Nothing of this holds of `SetUnsafe` without copies: an array that its caller uses again for another key takes the entry along.
With the constant hash 0 the entry for `[1]` is gone, and there is one for `[2]` that no one set. -/
theorem C108_unsafe_shares :
    (({} : World Nat).run (fun _ => 0) [.make [1], .setUnsafe 0 7 true true none, .write 0 [2], .get 0, .make [1], .get 1]).map (·.1)
      = some [some 7, none] ∧
    Plain.run (fun _ => 0) ({} : Plain Nat) [.make [1], .setUnsafe 0 7 true true none, .write 0 [2], .get 0, .make [1], .get 1]
      = [none, some 7] := by decide

/-- Nor of `SetUnsafe` with keys to be given back, when there is no pool to give them to (as in all the maps of this repository, which
call `Set` only): removing such an entry calls a nil function. -/
theorem C108_unsafe_panics (hash : Bytes → UInt64) (k : Bytes) (v : V) (nc : Bool) :
    ({} : World V).run hash [.make k, .setUnsafe 0 v nc false none, .delete 0] = none := by
  cases nc <;>
    simp [World.run, World.step, World.set, World.locate, World.walk, World.slot, World.newKey, World.copy, World.put, World.delete,
      World.removeKey, World.finalize, World.drop, World.at]

/-- The hypotheses are met by callers that use one array for all keys, with a pool whose array is handed out again. -/
example : let ops : List (Op Nat) := [.make [1], .set 0 7 none, .write 0 [2], .get 0, .set 0 8 none, .delete 0, .write 0 [3], .set 0 9 (some 1),
      .write 0 [1], .get 0, .write 0 [3], .get 0, .write 0 [2], .get 0]
    (∀ op ∈ ops, Safe op) ∧
    (({ pool := some [] } : World Nat).run (fun _ => 0) ops).map (·.1) = some [none, some 7, some 9, none] := by decide

end Verif.KeyMemory
