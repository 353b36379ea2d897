import Verif.Model.MetaMemory
import Verif.Lemmas.MsgpackMemory
import Verif.Lemmas.Conv
import Verif.Props.Metadata
/-
Lemmas on the memory of metadata objects: which arrays the elements have, and what writing to them changes.
-/
namespace Verif.MetaMem
open Verif.Policy Verif.Meta Verif.MPMem

/-- No two places of the arrays `H` have the same array of `h`, and all have arrays that exist and are large enough. -/
def Apart (H : Heap α) (ref : α → Option Slice) (h : Heap β) : Prop :=
  ∀ (a k : Nat) c s, (H.array a)[k]? = some c → ref c = some s → s.arr < h.length ∧ s.len ≤ (h.array s.arr).length ∧
    ∀ (a' k' : Nat) c' s', (H.array a')[k']? = some c' → ref c' = some s' → s'.arr = s.arr → a' = a ∧ k' = k

/-- `h'` is `h` with more arrays, of which only that of `s` has other contents. -/
structure Grow (h : Heap α) (s : Option Slice) (h' : Heap α) : Prop where
  le : h.length ≤ h'.length
  cap : ∀ b, b < h.length → (h'.array b).length = (h.array b).length
  same : ∀ b, b < h.length → (∀ s0, s = some s0 → s0.arr ≠ b) → h'.array b = h.array b

/-- `s'` has the array of `s` or a new one. -/
def Into (h : Heap α) (s s' : Option Slice) (h' : Heap α) : Prop :=
  ∀ t, s' = some t → t.arr < h'.length ∧ t.len ≤ (h'.array t.arr).length ∧ ((∃ s0, s = some s0 ∧ t.arr = s0.arr) ∨ h.length ≤ t.arr)

theorem Grow.refl (h : Heap α) (s : Option Slice) : Grow h s h := ⟨Nat.le_refl _, fun _ _ => rfl, fun _ _ _ => rfl⟩

theorem put_length (H : Heap α) (a i : Nat) (c : α) : (H.put a i c).length = H.length := by simp [Heap.put]

theorem put_array_length (H : Heap α) (a i b : Nat) (c : α) : ((H.put a i c).array b).length = (H.array b).length := by
  unfold Heap.put
  by_cases hab : a = b
  · subst hab
    by_cases ha : a < H.length
    · rw [array_set_same ha]; simp
    · rw [array_out (by simpa using ha), array_out (by omega)]
  · rw [array_set_other hab]

theorem put_other (H : Heap α) {a b : Nat} (i : Nat) (c : α) (hab : b ≠ a) : (H.put a i c).array b = H.array b :=
  array_set_other (fun h => hab h.symm) _

theorem put_cell {H : Heap α} {a i a' k' : Nat} {c d : α} (h : ((H.put a i c).array a')[k']? = some d) :
    (a' = a ∧ k' = i ∧ d = c) ∨ (¬(a' = a ∧ k' = i) ∧ (H.array a')[k']? = some d) := by
  by_cases ha : a' = a
  · subst ha
    by_cases hl : a' < H.length
    · rw [Heap.put, array_set_same hl] at h
      by_cases hk : k' = i
      · subst hk
        rw [List.getElem?_set] at h
        simp only [if_true] at h
        split at h
        · exact .inl ⟨rfl, rfl, by simpa using h.symm⟩
        · cases h
      · rw [List.getElem?_set_ne (fun h => hk h.symm)] at h
        exact .inr ⟨fun h => hk h.2, h⟩
    · rw [array_out (by rw [put_length]; omega)] at h
      simp at h
  · rw [put_other H i c ha] at h
    exact .inr ⟨fun h => ha h.1, h⟩

theorem put_at {H : Heap α} {a i : Nat} (c : α) {d : α} (h : (H.array a)[i]? = some d) : ((H.put a i c).array a)[i]? = some c := by
  have hi : i < (H.array a).length := by
    by_cases hi : i < (H.array a).length
    · exact hi
    · rw [List.getElem?_eq_none (by omega)] at h; cases h
  rw [Heap.put, array_set_same (array_in (by omega)), List.getElem?_set]
  simp [hi]

theorem put_ne {H : Heap α} {a i a' k : Nat} (c : α) (h : ¬(a' = a ∧ k = i)) : ((H.put a i c).array a')[k]? = (H.array a')[k]? := by
  by_cases ha : a' = a
  · subst ha
    by_cases hl : a' < H.length
    · rw [Heap.put, array_set_same hl, List.getElem?_set_ne (fun hk => h ⟨rfl, hk.symm⟩)]
    · rw [array_out (by rw [put_length]; omega), array_out (by omega)]
  · rw [put_other H i c ha]

theorem apart_put {H : Heap α} {ref : α → Option Slice} {h h' : Heap β} {a i : Nat} {c c' : α} (hA : Apart H ref h)
    (hc : (H.array a)[i]? = some c) (hg : Grow h (ref c) h') (hi : Into h (ref c) (ref c') h') : Apart (H.put a i c') ref h' := by
  have hnew : ∀ t, ref c' = some t → ∀ (a2 k2 : Nat) c2 s2, (H.array a2)[k2]? = some c2 → ref c2 = some s2 → s2.arr = t.arr → a2 = a ∧ k2 = i := by
    intro t ht a2 k2 c2 s2 h2 hs2 he
    obtain ⟨_, _, h3⟩ := hi t ht
    rcases h3 with ⟨s0, hs0, h0⟩ | h3
    · exact (hA a i c s0 hc hs0).2.2 a2 k2 c2 s2 h2 hs2 (by rw [he, h0])
    · have := (hA a2 k2 c2 s2 h2 hs2).1
      omega
  intro a1 k1 c1 s1 hp1 hs1
  rcases put_cell hp1 with ⟨rfl, rfl, rfl⟩ | ⟨hn1, h1⟩
  · refine ⟨(hi s1 hs1).1, (hi s1 hs1).2.1, fun a2 k2 c2 s2 h2 hs2 he => ?_⟩
    rcases put_cell h2 with ⟨rfl, rfl, rfl⟩ | ⟨hn2, h2⟩
    · exact ⟨rfl, rfl⟩
    · exact hnew s1 hs1 a2 k2 c2 s2 h2 hs2 he
  · obtain ⟨hb, hl, hu⟩ := hA a1 k1 c1 s1 h1 hs1
    refine ⟨Nat.lt_of_lt_of_le hb hg.le, by rw [hg.cap _ hb]; exact hl, fun a2 k2 c2 s2 h2 hs2 he => ?_⟩
    rcases put_cell h2 with ⟨rfl, rfl, rfl⟩ | ⟨hn2, h2⟩
    · obtain ⟨rfl, rfl⟩ := hnew s2 hs2 a1 k1 c1 s1 h1 hs1 he.symm
      exact ⟨rfl, rfl⟩
    · exact hu a2 k2 c2 s2 h2 hs2 he

theorem read_other {H : Heap α} {ref : α → Option Slice} {h h' : Heap β} {a i a2 k2 : Nat} {c c2 : α} (hA : Apart H ref h)
    (hc : (H.array a)[i]? = some c) (hg : Grow h (ref c) h') (h2 : (H.array a2)[k2]? = some c2) (hne : ¬(a2 = a ∧ k2 = i)) :
    h'.readOpt (ref c2) = h.readOpt (ref c2) := by
  cases hr : ref c2 with
  | none => rfl
  | some s2 =>
    obtain ⟨hb, _, hu⟩ := hA a2 k2 c2 s2 h2 hr
    show (h'.array s2.arr).take _ = (h.array s2.arr).take _
    rw [hg.same s2.arr hb]
    intro s0 hs0 he
    obtain ⟨rfl, rfl⟩ := hu a i c s0 hc hs0 he
    exact hne ⟨rfl, rfl⟩

theorem make_cell {H : Heap α} {n : Nat} {zero c : α} {a k : Nat} (h : (Heap.array (H ++ [List.replicate n zero]) a)[k]? = some c) :
    (H.array a)[k]? = some c ∨ c = zero := by
  by_cases ha : a < H.length
  · rw [array_append ha] at h
    exact .inl h
  · by_cases he : a = H.length
    · subst he
      rw [array_new] at h
      have := List.mem_of_getElem? h
      exact .inr (List.mem_replicate.mp this).2
    · rw [array_out (by simp; omega)] at h
      simp at h

theorem apart_make {H : Heap α} {ref : α → Option Slice} {h : Heap β} (hA : Apart H ref h) {zero : α} (hz : ref zero = none) (n : Nat) :
    Apart (H ++ [List.replicate n zero]) ref h := by
  intro a k c s h1 hs
  rcases make_cell h1 with h1 | rfl
  · obtain ⟨hb, hl, hu⟩ := hA a k c s h1 hs
    refine ⟨hb, hl, fun a2 k2 c2 s2 h2 hs2 he => ?_⟩
    rcases make_cell h2 with h2 | rfl
    · exact hu a2 k2 c2 s2 h2 hs2 he
    · rw [hz] at hs2; cases hs2
  · rw [hz] at hs; cases hs

/-! ### room -/

/-- What `room` gives: nil, if nothing is asked for of a nil slice, or a slice of the array there is or of a new one. -/
theorem room_cases (h : Heap α) (zero : α) (s : Option Slice) (n : Nat) (hs : ∀ s0, s = some s0 → s0.arr < h.length) :
    (room h zero s n = (none, h) ∧ n = 0 ∧ s = none) ∨
    (∃ s0, s = some s0 ∧ room h zero s n = (some ⟨s0.arr, n⟩, h) ∧ n ≤ (h.array s0.arr).length) ∨
    room h zero s n = (some ⟨h.length, n⟩, h ++ [List.replicate n zero]) := by
  unfold room
  by_cases hn : n ≤ h.capOpt s
  · rw [if_pos hn]
    cases s with
    | none => exact .inl ⟨rfl, by simpa [Heap.capOpt] using hn, rfl⟩
    | some s0 => exact .inr (.inl ⟨s0, rfl, rfl, hn⟩)
  · rw [if_neg hn]
    exact .inr (.inr rfl)

theorem grow_append (h : Heap α) (r : List α) (s : Option Slice) : Grow h s (h ++ [r]) :=
  ⟨by simp, fun b hb => by rw [array_append hb], fun b hb _ => array_append hb _⟩

theorem length_take_le' (n : Nat) (l : List α) (h : n ≤ l.length) : (l.take n).length = n := by simp [h]

theorem leaf_spec {conv : α → β → Option α} {g : β → Option α} (hconv : ∀ d b, conv d b = g b) (zero : α) (h : Heap α) (s : Option Slice)
    (pbs : List β) (hs : ∀ s0, s = some s0 → s0.arr < h.length) :
    (leaf conv zero h s pbs = none ∧ mapOpt g pbs = none) ∨
    ∃ s' h' vs, leaf conv zero h s pbs = some (s', h') ∧ mapOpt g pbs = some vs ∧ h'.readOpt s' = vs ∧ Grow h s h' ∧ Into h s s' h' := by
  have key : ∀ (t : Slice) (H : Heap α), room h zero s pbs.length = (some t, H) → t.len = pbs.length → t.arr < H.length →
      pbs.length ≤ (H.array t.arr).length → Grow h s H → ((∃ s0, s = some s0 ∧ t.arr = s0.arr) ∨ h.length ≤ t.arr) →
      (leaf conv zero h s pbs = none ∧ mapOpt g pbs = none) ∨
      ∃ s' h' vs, leaf conv zero h s pbs = some (s', h') ∧ mapOpt g pbs = some vs ∧ h'.readOpt s' = vs ∧ Grow h s h' ∧ Into h s s' h' := by
    intro t H hroom ht ha hc hg hin
    have hconvs : convLoop conv (H.readOpt (some t)) pbs = mapOpt g pbs := by
      refine convLoop_eq_mapOpt conv g hconv _ _ ?_
      show ((H.array t.arr).take t.len).length = _
      rw [ht]; simp [hc]
    unfold leaf
    rw [hroom]
    simp only [hconvs]
    cases hm : mapOpt g pbs with
    | none => exact .inl ⟨rfl, rfl⟩
    | some vs =>
      have hl : vs.length = pbs.length := by
        have := congrArg List.length ((mapOpt_eq_some_iff g pbs vs).mp hm)
        simpa using this.symm
      have hlen : ∀ b, (Heap.array (fill H (some t) vs) b).length = (H.array b).length := by
        intro b
        by_cases hb : t.arr = b
        · subst hb
          rw [fill, array_set_same ha]
          simp; omega
        · rw [fill, array_set_other hb]
      refine .inr ⟨some t, _, vs, rfl, rfl, ?_, ⟨?_, ?_, ?_⟩, ?_⟩
      · show (Heap.array (fill H (some t) vs) t.arr).take t.len = _
        rw [fill, array_set_same ha, ht, ← hl]
        simp
      · simpa [fill] using hg.le
      · intro b hb
        rw [hlen, hg.cap b hb]
      · intro b hb hne
        have hb' : t.arr ≠ b := by
          rcases hin with ⟨s0, hs0, h0⟩ | h0
          · rw [h0]; exact hne s0 hs0
          · omega
        rw [fill, array_set_other hb', hg.same b hb hne]
      · intro t' ht'
        cases ht'
        refine ⟨by simpa [fill] using ha, by rw [hlen, ht]; exact hc, hin⟩
  rcases room_cases h zero s pbs.length hs with ⟨hroom, hn, rfl⟩ | ⟨s0, rfl, hroom, hn⟩ | hroom
  · have : pbs = [] := List.eq_nil_of_length_eq_zero hn
    subst this
    refine .inr ⟨none, h, [], ?_, rfl, rfl, Grow.refl _ _, fun t ht => by cases ht⟩
    unfold leaf
    rw [hroom]
    rfl
  · exact key _ _ hroom rfl (hs s0 rfl) hn (Grow.refl _ _) (.inl ⟨s0, rfl, rfl⟩)
  · refine key _ _ hroom rfl (by simp) ?_ (grow_append _ _ _) (.inr (Nat.le_refl _))
    show _ ≤ (Heap.array (h ++ [_]) h.length).length
    rw [array_new]; simp

/-! ### The loop over elements -/

theorem each_spec {α β V : Type} {heap : W → Heap α} {set : W → Heap α → W} {dec : W → α → β → Option (α × W)} (a : Nat) (Inv : W → Prop)
    (val : W → α → V) (g : β → Option V) (K : W → W → Prop) (hrefl : ∀ w, K w w) (htrans : ∀ w w' w'', K w w' → K w' w'' → K w w'')
    (hset : ∀ w h, heap (set w h) = h)
    (step : ∀ w i c b, Inv w → ((heap w).array a)[i]? = some c → (dec w c b = none ∧ g b = none) ∨
      ∃ c' w' v, dec w c b = some (c', w') ∧ g b = some v ∧ heap w' = heap w ∧ Inv (set w' ((heap w').put a i c')) ∧
        val (set w' ((heap w').put a i c')) c' = v ∧ K w (set w' ((heap w').put a i c')) ∧
        ∀ k c2, k ≠ i → ((heap w).array a)[k]? = some c2 → val (set w' ((heap w').put a i c')) c2 = val w c2) :
    ∀ (pbs : List β) (i : Nat) (w : W), Inv w → i + pbs.length ≤ ((heap w).array a).length →
      (each heap set dec a pbs i w = none ∧ mapOpt g pbs = none) ∨
      ∃ w' vs, each heap set dec a pbs i w = some w' ∧ mapOpt g pbs = some vs ∧ Inv w' ∧ K w w' ∧
        (heap w').length = (heap w).length ∧ (∀ b, ((heap w').array b).length = ((heap w).array b).length) ∧
        (∀ b, b ≠ a → (heap w').array b = (heap w).array b) ∧
        (((heap w').array a).drop i |>.take pbs.length).map (val w') = vs ∧
        ∀ k c, k < i → ((heap w).array a)[k]? = some c → ((heap w').array a)[k]? = some c ∧ val w' c = val w c
  | [], i, w, hw, _ => .inr ⟨w, [], rfl, rfl, hw, hrefl w, rfl, fun _ => rfl, fun _ _ => rfl, by simp, fun _ _ _ h => ⟨h, rfl⟩⟩
  | pb :: pbs, i, w, hw, hl => by
    simp only [List.length_cons] at hl
    have hi : i < ((heap w).array a).length := by omega
    have hc : ((heap w).array a)[i]? = some ((heap w).array a)[i] := List.getElem?_eq_getElem hi
    unfold each
    rw [hc]
    simp only
    rcases step w i _ pb hw hc with ⟨hd, hg⟩ | ⟨c', w', v, hd, hg, hh, hI, hv, hK, ho⟩
    · rw [hd]
      exact .inl ⟨rfl, by simp only [mapOpt, hg]⟩
    · rw [hd]
      simp only
      have hlen : ∀ b, ((heap (set w' ((heap w').put a i c'))).array b).length = ((heap w).array b).length := by
        intro b; rw [hset, put_array_length, hh]
      rcases each_spec a Inv val g K hrefl htrans hset step pbs (i + 1) (set w' ((heap w').put a i c')) hI (by rw [hlen]; omega) with
        ⟨he, hm⟩ | ⟨w2, vs, he, hm, hI2, hK2, hl2, hcap2, hs2, hv2, hk2⟩
      · rw [he]
        exact .inl ⟨rfl, by simp only [mapOpt, hg, hm]⟩
      · rw [he]
        refine .inr ⟨w2, v :: vs, rfl, by simp only [mapOpt, hg, hm], hI2, htrans _ _ _ hK hK2, ?_, ?_, ?_, ?_, ?_⟩
        · rw [hl2, hset, put_length, hh]
        · intro b; rw [hcap2, hlen]
        · intro b hb
          rw [hs2 b hb, hset, put_other _ _ _ hb, hh]
        · have hat : ((heap (set w' ((heap w').put a i c'))).array a)[i]? = some c' := by
            rw [hset]; exact put_at c' (by rw [hh]; exact hc)
          obtain ⟨h1, h2⟩ := hk2 i c' (by omega) hat
          have hd2 : ((heap w2).array a).drop i = c' :: ((heap w2).array a).drop (i + 1) := by
            have hi2 : i < ((heap w2).array a).length := by rw [hcap2, hlen]; exact hi
            rw [List.drop_eq_getElem_cons hi2]
            congr 1
            rw [List.getElem?_eq_getElem hi2] at h1
            exact Option.some.inj h1
          rw [hd2]
          simp only [List.length_cons, List.take_succ_cons, List.map_cons]
          rw [hv2, h2, hv]
        · intro k c hk hck
          have hck' : ((heap (set w' ((heap w').put a i c'))).array a)[k]? = some c := by
            rw [hset, put_ne c' (fun h => by omega), hh]; exact hck
          obtain ⟨h1, h2⟩ := hk2 k c (by omega) hck'
          exact ⟨h1, by rw [h2]; exact ho k c (by omega) hck⟩

/-! ### Decoding -/

/-- The arrays of the pipelines are apart. -/
structure PSep (w : W) : Prop where
  ops : Apart w.pms PMRef.ops w.ops
  sps : Apart w.pms PMRef.sps w.sps

def SRef.slice (c : SRef) : Option Slice := c.pipelines.slice

/-- All arrays are apart, and nothing has that of the package variable. -/
structure Sep (w : W) : Prop extends PSep w where
  pms : Apart w.stg SRef.slice w.pms
  own : ∀ (a k : Nat) c, (w.stg.array a)[k]? = some c → ∀ n, c.pipelines ≠ .shared n

theorem decodePM_step (x : XTime) (w : W) (a i : Nat) (c : PMRef) (pb : PBPipelineMetadata) (hw : PSep w)
    (hc : (w.pms.array a)[i]? = some c) : (decodePM x w c pb = none ∧ PipelineMetadata.fromProto x {} pb = none) ∨
    ∃ c' w' v, decodePM x w c pb = some (c', w') ∧ PipelineMetadata.fromProto x {} pb = some v ∧ w'.pms = w.pms ∧ w'.stg = w.stg ∧
      w'.cur = w.cur ∧ w'.global = w.global ∧ PSep { w' with pms := w'.pms.put a i c' } ∧ w'.pm c' = v ∧
      ∀ (a2 k2 : Nat) c2, ¬(a2 = a ∧ k2 = i) → (w.pms.array a2)[k2]? = some c2 → w'.pm c2 = w.pm c2 := by
  rw [pm_fromProto_spec]
  unfold decodePM
  rcases leaf_spec (conv := Applied.OpUnion.fromProto) (g := Applied.OpUnion.fromProto {}) (fun _ _ => rfl) {} w.ops c.ops pb.pipeline
      (fun s hs => (hw.ops a i c s hc hs).1) with ⟨h1, h2⟩ | ⟨so, ho, vo, h1, h2, h3, h4, h5⟩
  · simp only [h1, h2]
    exact .inl ⟨trivial, trivial⟩
  · simp only [h1, h2]
    rcases leaf_spec (fun d b => sp_fromProto_dst x d EmptyStoragePolicy b) EmptyStoragePolicy w.sps c.sps pb.storagePolicies
      (fun s hs => (hw.sps a i c s hc hs).1) with ⟨g1, g2⟩ | ⟨ss, hs, vs, g1, g2, g3, g4, g5⟩
    · simp only [g1, g2]
      exact .inl ⟨trivial, trivial⟩
    · simp only [g1, g2]
      refine .inr ⟨_, _, _, rfl, rfl, rfl, rfl, rfl, rfl, ⟨?_, ?_⟩, ?_, ?_⟩
      · exact apart_put hw.ops hc h4 h5
      · exact apart_put hw.sps hc g4 g5
      · simp only [Obj.pm, h3, g3]
      · intro a2 k2 c2 hne h
        simp only [Obj.pm, read_other hw.ops hc h4 h hne, read_other hw.sps hc g4 h hne]

/-- What decoding pipelines into array `a` leaves. -/
structure Keep (a : Nat) (w w' : W) : Prop where
  stg : w'.stg = w.stg
  cur : w'.cur = w.cur
  global : w'.global = w.global
  array : ∀ b, b ≠ a → w'.pms.array b = w.pms.array b
  pm : ∀ (b k : Nat) c, b ≠ a → (w.pms.array b)[k]? = some c → w'.pm c = w.pm c

theorem decodePMs_spec (x : XTime) (a : Nat) (pbs : List PBPipelineMetadata) (w : W) (hw : PSep w) (hl : pbs.length ≤ (w.pms.array a).length) :
    (decodePMs x a pbs w = none ∧ metadataFromProto x [] pbs = none) ∨
    ∃ w' vs, decodePMs x a pbs w = some w' ∧ metadataFromProto x [] pbs = some vs ∧ PSep w' ∧ Keep a w w' ∧
      w'.pms.length = w.pms.length ∧ (∀ b, (w'.pms.array b).length = (w.pms.array b).length) ∧
      ((w'.pms.array a).take pbs.length).map w'.pm = vs := by
  rw [metadataFromProto_eq]
  unfold decodePMs
  rcases each_spec (heap := fun w => w.pms) (set := fun w h => { w with pms := h }) (dec := decodePM x) a PSep (fun w c => w.pm c)
      (PipelineMetadata.fromProto x {}) (Keep a) (fun w => ⟨rfl, rfl, rfl, fun _ _ => rfl, fun _ _ _ _ _ => rfl⟩)
      (fun w w' w'' h h' => ⟨h'.stg.trans h.stg, h'.cur.trans h.cur, h'.global.trans h.global,
        fun b hb => (h'.array b hb).trans (h.array b hb),
        fun b k c hb hc => (h'.pm b k c hb (by rw [h.array b hb]; exact hc)).trans (h.pm b k c hb hc)⟩)
      (fun _ _ => rfl)
      (by
        intro w i c b hw hc
        rcases decodePM_step x w a i c b hw hc with h | ⟨c', w', v, h1, h2, h3, h4, h5, h6, h7, h8, h9⟩
        · exact .inl h
        · refine .inr ⟨c', w', v, h1, h2, h3, h7, h8, ⟨h4, h5, h6, ?_, ?_⟩, ?_⟩
          · intro b hb
            show (w'.pms.put a i c').array b = _
            rw [put_other _ _ _ hb, h3]
          · intro b k c2 hb h
            exact h9 b k c2 (fun h => hb h.1) h
          · intro k c2 hk h
            exact h9 a k c2 (fun h => hk h.2) h)
      pbs 0 w hw (by simpa using hl) with h | ⟨w', vs, h1, h2, h3, h4, h5, h6, h7, h8, _⟩
  · exact .inl h
  · exact .inr ⟨w', vs, h1, h2, h3, h4, h5, h6, by simpa using h8⟩

theorem psep_pms {w : W} (hw : PSep w) (s : Option Slice) (n : Nat) (hs : ∀ s0, s = some s0 → s0.arr < w.pms.length) :
    PSep { w with pms := (room w.pms {} s n).2 } := by
  rcases room_cases w.pms {} s n hs with ⟨h, _⟩ | ⟨_, _, h, _⟩ | h <;> rw [h]
  · exact hw
  · exact hw
  · exact ⟨apart_make hw.ops rfl n, apart_make hw.sps rfl n⟩

/-- The pipelines of an element in another array. -/
theorem pipes_other {w w' : W} {p : Pipes} (hg : w'.global = w.global)
    (h : ∀ s, p = .own s → w'.pms.array s.arr = w.pms.array s.arr ∧ ∀ (k : Nat) c, (w.pms.array s.arr)[k]? = some c → w'.pm c = w.pm c) :
    w'.pipes p = w.pipes p := by
  cases p with
  | nil => rfl
  | shared n => show [w'.global].take n = _; rw [hg]; rfl
  | own s =>
    show ((w'.pms.array s.arr).take s.len).map w'.pm = ((w.pms.array s.arr).take s.len).map w.pm
    obtain ⟨h1, h2⟩ := h s rfl
    rw [h1]
    apply List.map_congr_left
    intro c hc
    obtain ⟨k, hk⟩ := List.getElem?_of_mem (List.mem_of_mem_take hc)
    exact h2 k c hk

theorem decodePipes_own {x : XTime} {w : W} {p : Pipes} (hp : ∀ n, p ≠ .shared n) (pbs : List PBPipelineMetadata) :
    decodePipes x w p pbs = match (room w.pms {} p.slice pbs.length).1 with
      | none => some (.nil, w)
      | some s => match decodePMs x s.arr pbs { w with pms := (room w.pms {} p.slice pbs.length).2 } with
        | none => none
        | some w => some (.own s, w) := by
  cases p with
  | shared n => exact absurd rfl (hp n)
  | nil => rfl
  | own s => rfl

theorem decodeStage_step (x : XTime) (w : W) (a i : Nat) (c : SRef) (pb : PBStagedMetadata) (hw : Sep w)
    (hc : (w.stg.array a)[i]? = some c) : (decodeStage x w c pb = none ∧ StagedMetadata.fromProto x {} pb = none) ∨
    ∃ c' w' v, decodeStage x w c pb = some (c', w') ∧ StagedMetadata.fromProto x {} pb = some v ∧ w'.stg = w.stg ∧
      w'.cur = w.cur ∧ w'.global = w.global ∧ Sep { w' with stg := w'.stg.put a i c' } ∧ w'.stage c' = v ∧
      ∀ (a2 k2 : Nat) c2, ¬(a2 = a ∧ k2 = i) → (w.stg.array a2)[k2]? = some c2 → w'.stage c2 = w.stage c2 := by
  have hsl : ∀ s0, c.pipelines.slice = some s0 → s0.arr < w.pms.length := fun s0 h0 => (hw.pms a i c s0 hc h0).1
  have hown : ∀ c', (∀ n, c'.pipelines ≠ .shared n) → ∀ (a2 k2 : Nat) c2, ((w.stg.put a i c').array a2)[k2]? = some c2 →
      ∀ n, c2.pipelines ≠ .shared n := by
    intro c' hc' a2 k2 c2 h2
    rcases put_cell h2 with ⟨_, _, rfl⟩ | ⟨_, h2⟩
    · exact hc'
    · exact hw.own a2 k2 c2 h2
  have key : ∀ (s : Slice) (H : Heap PMRef), room w.pms {} c.pipelines.slice pb.pipelines.length = (some s, H) →
      s.len = pb.pipelines.length → s.arr < H.length → pb.pipelines.length ≤ (H.array s.arr).length →
      Grow w.pms c.pipelines.slice H → (∀ b, b < w.pms.length → H.array b = w.pms.array b) →
      ((∃ s0, c.pipelines.slice = some s0 ∧ s.arr = s0.arr) ∨ w.pms.length ≤ s.arr) →
      (decodeStage x w c pb = none ∧ StagedMetadata.fromProto x {} pb = none) ∨
      ∃ c' w' v, decodeStage x w c pb = some (c', w') ∧ StagedMetadata.fromProto x {} pb = some v ∧ w'.stg = w.stg ∧
        w'.cur = w.cur ∧ w'.global = w.global ∧ Sep { w' with stg := w'.stg.put a i c' } ∧ w'.stage c' = v ∧
        ∀ (a2 k2 : Nat) c2, ¬(a2 = a ∧ k2 = i) → (w.stg.array a2)[k2]? = some c2 → w'.stage c2 = w.stage c2 := by
    intro s H hroom hlen hs hcap hg hold hin
    have hps := psep_pms hw.toPSep c.pipelines.slice pb.pipelines.length hsl
    unfold decodeStage StagedMetadata.fromProto
    rw [decodePipes_own (hw.own a i c hc)]
    rw [hroom] at hps ⊢
    simp only at hps ⊢
    rcases decodePMs_spec x s.arr pb.pipelines { w with pms := H } hps hcap with ⟨h1, h2⟩ | ⟨w', vs, h1, h2, h3, h4, h5, h6, h7⟩
    · simp only [h1, h2]
      exact .inl ⟨trivial, trivial⟩
    · simp only [h1, h2]
      have hother : ∀ b, b < w.pms.length → (∀ s0, c.pipelines.slice = some s0 → s0.arr ≠ b) → b ≠ s.arr := by
        intro b hb hne he
        rcases hin with ⟨s0, hs0, h0⟩ | h0
        · exact hne s0 hs0 (by rw [he, h0])
        · omega
      have hgrow : Grow w.pms c.pipelines.slice w'.pms := by
        refine ⟨?_, ?_, ?_⟩
        · rw [h5]; exact hg.le
        · intro b hb
          rw [h6, hold b hb]
        · intro b hb hne
          rw [h4.array b (hother b hb hne)]
          exact hold b hb
      refine .inr ⟨_, _, _, rfl, rfl, h4.stg, h4.cur, h4.global, ⟨⟨h3.ops, h3.sps⟩, ?_, ?_⟩, ?_, ?_⟩
      · show Apart (w'.stg.put a i _) SRef.slice w'.pms
        rw [h4.stg]
        refine apart_put hw.pms hc hgrow ?_
        intro t ht
        cases ht
        refine ⟨by rw [h5]; exact hs, by rw [h6, hlen]; exact hcap, hin⟩
      · show ∀ (a2 k2 : Nat) c2, ((w'.stg.put a i _).array a2)[k2]? = some c2 → _
        rw [h4.stg]
        exact hown _ (fun n h => by cases h)
      · show StagedMetadata.mk (((w'.pms.array s.arr).take s.len).map w'.pm) _ _ = _
        rw [hlen, h7]
      · intro a2 k2 c2 hne h
        unfold W.stage
        rw [pipes_other (w := w) h4.global]
        intro s2 hs2
        have hsl2 : SRef.slice c2 = some s2 := by unfold SRef.slice; rw [hs2]; rfl
        obtain ⟨hb, _, hu⟩ := hw.pms a2 k2 c2 s2 h hsl2
        have hne2 : s2.arr ≠ s.arr := by
          refine hother _ hb fun s0 hs0 he => ?_
          obtain ⟨rfl, rfl⟩ := hu a i c s0 hc hs0 he
          exact hne ⟨rfl, rfl⟩
        refine ⟨by rw [h4.array _ hne2]; exact hold _ hb, fun k c3 h3' => ?_⟩
        exact h4.pm s2.arr k c3 hne2 (by show (H.array _)[k]? = _; rw [hold _ hb]; exact h3')
  rcases room_cases w.pms {} c.pipelines.slice pb.pipelines.length hsl with ⟨hroom, hn, hnone⟩ | ⟨s0, hs0, hroom, hn⟩ | hroom
  · have hnil : pb.pipelines = [] := List.eq_nil_of_length_eq_zero hn
    have hd : decodeStage x w c pb = some ({ pipelines := .nil, cutoverNanos := pb.cutoverNanos, tombstoned := pb.tombstoned }, w) := by
      unfold decodeStage
      rw [decodePipes_own (hw.own a i c hc), hroom]
    refine .inr ⟨_, _, _, hd, ?_, rfl, rfl, rfl, ⟨⟨hw.ops, hw.sps⟩, ?_, ?_⟩, rfl, fun _ _ _ _ _ => rfl⟩
    · unfold StagedMetadata.fromProto
      rw [hnil]
      rfl
    · exact apart_put hw.pms hc (Grow.refl _ _) (fun t ht => by cases ht)
    · exact hown _ (fun n h => by cases h)
  · exact key _ _ hroom rfl (hsl s0 hs0) hn (Grow.refl _ _) (fun _ _ => rfl) (.inl ⟨s0, hs0, rfl⟩)
  · refine key _ _ hroom rfl (by simp) ?_ (grow_append _ _ _) (fun b hb => array_append hb _) (.inr (Nat.le_refl _))
    show _ ≤ (Heap.array (w.pms ++ [_]) w.pms.length).length
    rw [array_new]; simp

/-- The variable has an array that exists and is large enough. -/
def CurOk (w : W) : Prop := ∀ s, w.cur = some s → s.arr < w.stg.length ∧ s.len ≤ (w.stg.array s.arr).length

theorem sep_stg {w : W} (hw : Sep w) (s : Option Slice) (cur : Option Slice) (n : Nat) (hs : ∀ s0, s = some s0 → s0.arr < w.stg.length) :
    Sep { w with stg := (room w.stg {} s n).2, cur := cur } := by
  rcases room_cases w.stg {} s n hs with ⟨h, _⟩ | ⟨_, _, h, _⟩ | h <;> rw [h]
  · exact ⟨⟨hw.ops, hw.sps⟩, hw.pms, hw.own⟩
  · exact ⟨⟨hw.ops, hw.sps⟩, hw.pms, hw.own⟩
  · refine ⟨⟨hw.ops, hw.sps⟩, apart_make hw.pms rfl n, fun a k c hc m => ?_⟩
    rcases make_cell hc with hc | rfl
    · exact hw.own a k c hc m
    · intro h; cases h

/-- Decoding into an object whose arrays are apart: the object holds what the message says, and its arrays are apart. -/
theorem decode_spec (x : XTime) (w : W) (pbs : List PBStagedMetadata) (hw : Sep w) (hcur : CurOk w) :
    (decode x w pbs = none ∧ stagedFromProto x [] pbs = none) ∨
    ∃ w' vs, decode x w pbs = some w' ∧ stagedFromProto x [] pbs = some vs ∧ Sep w' ∧ CurOk w' ∧ w'.global = w.global ∧ w'.value = vs := by
  rw [stagedFromProto_eq]
  have hsl : ∀ s0, w.cur = some s0 → s0.arr < w.stg.length := fun s0 h0 => (hcur s0 h0).1
  have key : ∀ (s : Slice) (H : Heap SRef), room w.stg {} w.cur pbs.length = (some s, H) → s.len = pbs.length → s.arr < H.length →
      pbs.length ≤ (H.array s.arr).length →
      (decode x w pbs = none ∧ mapOpt (StagedMetadata.fromProto x {}) pbs = none) ∨
      ∃ w' vs, decode x w pbs = some w' ∧ mapOpt (StagedMetadata.fromProto x {}) pbs = some vs ∧ Sep w' ∧ CurOk w' ∧
        w'.global = w.global ∧ w'.value = vs := by
    intro s H hroom hlen hs hcap
    have hsep := sep_stg hw w.cur (some s) pbs.length hsl
    unfold decode
    rw [hroom] at hsep ⊢
    simp only at hsep ⊢
    rcases each_spec (heap := fun w => w.stg) (set := fun w h => { w with stg := h }) (dec := decodeStage x) s.arr Sep (fun w c => w.stage c)
        (StagedMetadata.fromProto x {}) (fun w w' => w'.cur = w.cur ∧ w'.global = w.global) (fun w => ⟨rfl, rfl⟩)
        (fun w w' w'' h h' => ⟨h'.1.trans h.1, h'.2.trans h.2⟩) (fun _ _ => rfl)
        (by
          intro w i c b hw hc
          rcases decodeStage_step x w s.arr i c b hw hc with h | ⟨c', w', v, h1, h2, h3, h4, h5, h6, h7, h8⟩
          · exact .inl h
          · exact .inr ⟨c', w', v, h1, h2, h3, h6, h7, ⟨h4, h5⟩, fun k c2 hk h => h8 s.arr k c2 (fun h => hk h.2) h⟩)
        pbs 0 { w with stg := H, cur := some s } hsep (by simpa using hcap) with h | ⟨w', vs, h1, h2, h3, h4, h5, h6, _, h8, _⟩
    · exact .inl h
    · refine .inr ⟨w', vs, h1, h2, h3, ?_, h4.2, ?_⟩
      · intro s' hs'
        rw [h4.1] at hs'
        cases hs'
        refine ⟨by rw [h5]; exact hs, by rw [h6, hlen]; exact hcap⟩
      · unfold W.value
        rw [h4.1]
        show ((w'.stg.array s.arr).take s.len).map w'.stage = vs
        rw [hlen]
        simpa using h8
  rcases room_cases w.stg {} w.cur pbs.length hsl with ⟨hroom, hn, hnone⟩ | ⟨s0, hs0, hroom, hn⟩ | hroom
  · have hnil : pbs = [] := List.eq_nil_of_length_eq_zero hn
    subst hnil
    refine .inr ⟨w, [], ?_, rfl, hw, hcur, rfl, ?_⟩
    · unfold decode; rw [hroom]
    · unfold W.value; rw [hnone]; rfl
  · exact key _ _ hroom rfl (hsl s0 hs0) hn
  · refine key _ _ hroom rfl (by simp) ?_
    show _ ≤ (Heap.array (w.stg ++ [_]) w.stg.length).length
    rw [array_new]; simp

end Verif.MetaMem
