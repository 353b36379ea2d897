import Verif.Lemmas.MetaMemoryResolve
import Verif.Props.ProtoIterator
/-
C95: a metadata object holds what was decoded into it last, and what the drop policies in that say, whatever it and the other objects were
used for before.
-/
namespace Verif.MetaMem
open Verif.Policy Verif.Meta Verif.MPMem Verif.Spec

/-! ### Specification -/

/-- The stage with the smallest cutover, the last of those. -/
def earliest : List StagedMetadata → StagedMetadata
  | [] => {}
  | [s] => s
  | s :: t :: ss => if s.cutoverNanos < (earliest (t :: ss)).cutoverNanos then s else earliest (t :: ss)

/-- What stages become: if all are dropped, the earliest one says so; else those which are not dropped remain. -/
def resolveStages (ss : List StagedMetadata) : List StagedMetadata :=
  if ss ≠ [] ∧ ∀ s ∈ ss, dropEffective s.pipelines = true then [resolveStage (earliest ss)]
  else (ss.filter fun s => !dropEffective s.pipelines).map resolveStage

/-- No stage is dropped, and the pipelines that are removed come after those that are kept: nothing is moved. -/
def Calm (ss : List StagedMetadata) : Prop :=
  ∀ s ∈ ss, dropEffective s.pipelines = false ∧
    s.pipelines.takeWhile (fun m => m.drop == 0) = s.pipelines.filter (fun m => m.drop == 0)

instance (ss : List StagedMetadata) : Decidable (Calm ss) := by unfold Calm; infer_instance

/-- What each object should hold, and whether elements were moved in it. -/
structure Ideal where
  value : Nat → List StagedMetadata := fun _ => []
  moved : Nat → Bool := fun _ => false

def Ideal.set (s : Ideal) (i : Nat) (v : List StagedMetadata) (b : Bool) : Ideal :=
  { value := fun j => if j = i then v else s.value j, moved := fun j => if j = i then b else s.moved j }

/-- Decoding gives what the message says; resolving what the policies say. -/
def Ideal.use (x : XTime) (s : Ideal) : Use → Option Ideal
  | .decode i pbs => (stagedFromProto x [] pbs).map fun ss => s.set i ss (s.moved i)
  | .resolve i => some (s.set i (resolveStages (s.value i)) (s.moved i || !decide (Calm (s.value i))))

def Ideal.uses (x : XTime) (s : Ideal) : List Use → Option Ideal
  | [] => some s
  | u :: us => match s.use x u with
    | none => none
    | some s => s.uses x us

def Use.object : Use → Nat
  | .decode i _ => i
  | .resolve i => i

/-- Once elements were moved in an object, it is only looked at. -/
def Disciplined (x : XTime) : Ideal → List Use → Prop
  | _, [] => True
  | s, u :: us => s.moved u.object = false ∧ ∀ s', s.use x u = some s' → Disciplined x s' us

/-- All drop policies in the messages exist. -/
def ValidUses (x : XTime) (us : List Use) : Prop :=
  ∀ i pbs, Use.decode i pbs ∈ us → ∀ ss, stagedFromProto x [] pbs = some ss → ∀ s ∈ ss, ∀ m ∈ s.pipelines, ValidDrop m

/-! ### Lemmas -/

theorem earliest_spec : ∀ (ss : List StagedMetadata), ss ≠ [] → ∃ i, ∃ hi : i < ss.length, ss[i] = earliest ss ∧
    ∀ j (hj : j < ss.length), ss[i].cutoverNanos ≤ ss[j].cutoverNanos ∧ (i < j → ss[i].cutoverNanos < ss[j].cutoverNanos)
  | [], h => absurd rfl h
  | [s], _ => ⟨0, by simp, rfl, fun j hj => by
      have : j = 0 := by simpa using hj
      subst this
      exact ⟨Int.le_refl _, fun h => absurd h (Nat.lt_irrefl _)⟩⟩
  | s :: t :: ss, _ => by
    obtain ⟨i, hi, h1, h2⟩ := earliest_spec (t :: ss) (by simp)
    by_cases hc : s.cutoverNanos < (earliest (t :: ss)).cutoverNanos
    · refine ⟨0, by simp, by simp [earliest, hc], fun j hj => ?_⟩
      cases j with
      | zero => exact ⟨Int.le_refl _, fun h => absurd h (Nat.lt_irrefl _)⟩
      | succ j =>
        have hj' : j < (t :: ss).length := by simpa using hj
        have h3 := (h2 j hj').1
        rw [h1] at h3
        have : s.cutoverNanos < (t :: ss)[j].cutoverNanos := by omega
        exact ⟨by show s.cutoverNanos ≤ (t :: ss)[j].cutoverNanos; omega, fun _ => this⟩
    · refine ⟨i + 1, by simpa using hi, by simp only [List.getElem_cons_succ, earliest, if_neg hc, h1], fun j hj => ?_⟩
      cases j with
      | zero => exact ⟨by show (t :: ss)[i].cutoverNanos ≤ s.cutoverNanos; rw [h1]; omega, fun h => by omega⟩
      | succ j =>
        have h3 := h2 j (by simpa using hj)
        exact ⟨h3.1, fun h => h3.2 (by omega)⟩

theorem applyStaged_eq (ss : List StagedMetadata) (hv : ∀ s ∈ ss, ∀ m ∈ s.pipelines, ValidDrop m) :
    (applyStaged ss).1 = resolveStages ss := by
  obtain ⟨h1, h2⟩ := C15_staged ss hv
  unfold resolveStages
  by_cases hc : ss ≠ [] ∧ ∀ s ∈ ss, dropEffective s.pipelines = true
  · rw [if_pos hc]
    obtain ⟨i, hi, he, hm⟩ := h1 hc.1 hc.2
    obtain ⟨j, hj, he', hm'⟩ := earliest_spec ss hc.1
    have hij : i = j := by
      have a1 := hm j hj
      have a2 := hm' i hi
      apply Decidable.byContradiction
      intro hne
      rcases Nat.lt_or_gt_of_ne hne with h | h
      · have := a1.2 h; omega
      · have := a2.2 h; omega
    subst hij
    rw [he, ← he']
  · rw [if_neg hc, h2]
    by_cases hn : ss = []
    · exact .inl hn
    · refine .inr (Decidable.byContradiction fun hne => hc ⟨hn, fun s hs => ?_⟩)
      cases hd : dropEffective s.pipelines with
      | true => rfl
      | false => exact absurd ⟨s, hs, hd⟩ hne

theorem resolve_valid {l : List PipelineMetadata} (h : ∀ p ∈ l, ValidDrop p) : ∀ p ∈ Spec.resolve l, ValidDrop p := by
  unfold Spec.resolve
  split
  · simp [ValidDrop]
  · intro p hp
    exact h p (List.mem_filter.mp hp).1

theorem earliest_mem {ss : List StagedMetadata} (h : ss ≠ []) : earliest ss ∈ ss := by
  obtain ⟨i, hi, h1, _⟩ := earliest_spec ss h
  rw [← h1]
  exact List.getElem_mem hi

theorem resolveStages_valid {ss : List StagedMetadata} (hv : ∀ s ∈ ss, ∀ m ∈ s.pipelines, ValidDrop m) :
    ∀ s ∈ resolveStages ss, ∀ m ∈ s.pipelines, ValidDrop m := by
  unfold resolveStages
  split
  · rename_i h
    intro s hs
    simp only [List.mem_singleton] at hs
    subst hs
    exact resolve_valid (hv _ (earliest_mem h.1))
  · intro s hs
    obtain ⟨t, ht, rfl⟩ := List.mem_map.mp hs
    exact resolve_valid (hv t (List.mem_filter.mp ht).1)

/-! #### When nothing is moved -/

theorem takeWhile_split {p : α → Bool} : ∀ {l : List α}, l.takeWhile p = l.filter p → ∃ m, m ≤ l.length ∧
    (∀ j x, j < m → l[j]? = some x → p x = true) ∧ ∀ j x, m ≤ j → l[j]? = some x → p x = false
  | [], _ => ⟨0, Nat.le_refl _, fun _ _ h => by omega, fun _ _ _ h => by simp at h⟩
  | a :: l, h => by
    cases hp : p a with
    | true =>
      simp only [List.takeWhile_cons, List.filter_cons, hp, if_true, List.cons.injEq, true_and] at h
      obtain ⟨m, h1, h2, h3⟩ := takeWhile_split h
      refine ⟨m + 1, by simpa using h1, fun j x hj hx => ?_, fun j x hj hx => ?_⟩
      · cases j with
        | zero => simp at hx; subst hx; exact hp
        | succ j => exact h2 j x (by omega) (by simpa using hx)
      · cases j with
        | zero => omega
        | succ j => exact h3 j x (by omega) (by simpa using hx)
    | false =>
      simp only [List.takeWhile_cons, List.filter_cons, hp, Bool.false_eq_true, if_false] at h
      refine ⟨0, by omega, fun j x hj => by omega, fun j x _ hx => ?_⟩
      have hm := List.mem_of_getElem? hx
      rcases List.mem_cons.mp hm with rfl | hm
      · exact hp
      · cases hq : p x with
        | false => rfl
        | true =>
          have : x ∈ l.filter p := List.mem_filter.mpr ⟨hm, hq⟩
          rw [← h] at this
          cases this

theorem removeLoop_keep : ∀ (k : Nat) (arr : List PMRef) (len : Nat), (∀ j c, j < k → arr[j]? = some c → c.drop = 0) →
    removeLoop k arr len = (arr, len)
  | 0, _, _, _ => rfl
  | i + 1, arr, len, h => by
    unfold removeLoop
    cases hc : arr[i]? with
    | none => rfl
    | some c =>
      simp only
      rw [if_neg (by simpa [DropNone] using h i c (by omega) hc)]
      exact removeLoop_keep i arr len fun j c hj => h j c (by omega)

theorem removeLoop_cut (m : Nat) : ∀ (n : Nat) (arr : List PMRef), m + n ≤ arr.length → (∀ j c, j < m → arr[j]? = some c → c.drop = 0) →
    (∀ j c, m ≤ j → j < m + n → arr[j]? = some c → c.drop ≠ 0) → removeLoop (m + n) arr (m + n) = (arr, m)
  | 0, arr, _, h, _ => removeLoop_keep m arr m h
  | n + 1, arr, hl, h, h' => by
    show removeLoop ((m + n) + 1) arr ((m + n) + 1) = _
    unfold removeLoop
    have hi : m + n < arr.length := by omega
    rw [List.getElem?_eq_getElem hi]
    simp only
    rw [if_pos (by simpa [DropNone] using h' (m + n) _ (by omega) (by omega) (List.getElem?_eq_getElem hi))]
    have : removeAt arr (m + n + 1) (m + n) = (arr, m + n) := by
      unfold removeAt
      rw [if_pos (by omega)]
    rw [this]
    exact removeLoop_cut m n arr (by omega) h fun j c hj hj2 => h' j c hj (by omega)

theorem resolveCells_calm (o : Obj) (arr : List PMRef) (len : Nat) (hl : len ≤ arr.length)
    (hv : ∀ m ∈ (arr.take len).map o.pm, ValidDrop m) (hd : dropEffective ((arr.take len).map o.pm) = false)
    (hc : ((arr.take len).map o.pm).takeWhile (fun m => m.drop == 0) = ((arr.take len).map o.pm).filter (fun m => m.drop == 0)) :
    ∃ m, m ≤ len ∧ resolveCells arr len = some (arr, m) := by
  have h1 := (resolveCells_map o arr len hl).1
  rw [C14_pipelines _ hv, hd] at h1
  unfold resolveCells at h1 ⊢
  cases hs : scan (arr.take len) 0 0 with
  | none => rw [hs] at h1; simp at h1
  | some p =>
    obtain ⟨a, b⟩ := p
    rw [hs] at h1
    simp only at h1 ⊢
    by_cases ha : a = 0
    · rw [if_pos ha]
      exact ⟨len, Nat.le_refl _, rfl⟩
    · rw [if_neg ha] at h1 ⊢
      by_cases hb : b = 0
      · rw [if_pos hb] at h1; simp at h1
      · rw [if_neg hb]
        obtain ⟨m, hm, hm1, hm2⟩ := takeWhile_split hc
        have hm' : m ≤ len := by simpa [hl] using hm
        have hget : ∀ j c, j < len → arr[j]? = some c → ((arr.take len).map o.pm)[j]? = some (o.pm c) := by
          intro j c hj hcj
          rw [List.getElem?_map, List.getElem?_take, if_pos hj, hcj]
          rfl
        refine ⟨m, hm', ?_⟩
        obtain ⟨n, rfl⟩ : ∃ n, len = m + n := ⟨len - m, by omega⟩
        rw [removeLoop_cut m n arr hl]
        · intro j c hj hcj
          simpa [Obj.pm] using hm1 j _ hj (hget j c (by omega) hcj)
        · intro j c hj hj2 hcj
          simpa [Obj.pm] using hm2 j _ hj (hget j c hj2 hcj)

theorem set_array_same (h : Heap α) (a : Nat) : h.set a (h.array a) = h := by
  apply List.ext_getElem?
  intro j
  by_cases hj : j = a
  · subst hj
    by_cases hl : j < h.length
    · rw [List.getElem?_set_self hl]
      unfold Heap.array
      rw [List.getElem?_eq_getElem hl]
      rfl
    · rw [List.getElem?_eq_none (by simp; omega), List.getElem?_eq_none (by omega)]
  · rw [List.getElem?_set_ne (fun h => hj h.symm)]

/-- Where nothing is moved, resolving pipelines makes the slice shorter. -/
theorem resolvePipes_calm (w : W) (p : Pipes) (hp : ∀ n, p ≠ .shared n) (hs : ∀ s, p = .own s → s.len ≤ (w.pms.array s.arr).length)
    (hv : ∀ m ∈ w.pipes p, ValidDrop m) (hd : dropEffective (w.pipes p) = false)
    (hc : (w.pipes p).takeWhile (fun m => m.drop == 0) = (w.pipes p).filter (fun m => m.drop == 0)) :
    ∃ p', resolvePipes w p = (p', w, .removed) ∧ (∀ n, p' ≠ .shared n) ∧
      ∀ t, p'.slice = some t → ∃ s, p.slice = some s ∧ t.arr = s.arr ∧ t.len ≤ s.len := by
  cases p with
  | shared n => exact absurd rfl (hp n)
  | nil => exact ⟨.nil, rfl, (fun _ h => by cases h), fun _ h => by cases h⟩
  | own s =>
    obtain ⟨m, hm, hr⟩ := resolveCells_calm w.toObj (w.pms.array s.arr) s.len (hs s rfl) hv hd hc
    refine ⟨.own { s with len := m }, ?_, (fun _ h => by cases h), fun t ht => ?_⟩
    · unfold resolvePipes
      simp only [hr, set_array_same]
    · cases ht
      exact ⟨s, rfl, rfl, hm⟩

/-- Stages with the same arrays, of which less may be in use. -/
def Cut (a b : List SRef) : Prop :=
  b.length = a.length ∧ ∀ (j : Nat) d, b[j]? = some d → ∃ c, a[j]? = some c ∧ (∀ n, d.pipelines ≠ .shared n) ∧
    ∀ t, d.slice = some t → ∃ s, c.slice = some s ∧ t.arr = s.arr ∧ t.len ≤ s.len

theorem stagesLoop_calm (w : W) (a : List SRef) (len : Nat) (hlen : len ≤ a.length)
    (hown : ∀ (i : Nat) c, a[i]? = some c → (∀ n, c.pipelines ≠ .shared n) ∧ ∀ s, c.slice = some s → s.len ≤ (w.pms.array s.arr).length)
    (hv : ∀ (i : Nat) c, i < len → a[i]? = some c → (∀ m ∈ w.pipes c.pipelines, ValidDrop m) ∧ dropEffective (w.pipes c.pipelines) = false ∧
      (w.pipes c.pipelines).takeWhile (fun m => m.drop == 0) = (w.pipes c.pipelines).filter (fun m => m.drop == 0)) :
    ∀ (k : Nat) (st : Loop), k ≤ len → st.w = w → Cut a st.arr → (∀ j, j < k → st.arr[j]? = a[j]?) → st.len = len →
      (stagesLoop k st).w = w ∧ Cut a (stagesLoop k st).arr ∧ (stagesLoop k st).len = len ∧ (stagesLoop k st).nonDrops = st.nonDrops + k
  | 0, st, _, hw, hcut, _, hl => ⟨hw, hcut, hl, rfl⟩
  | i + 1, st, hk, hw, hcut, hsame, hl => by
    have hi : i < a.length := by omega
    have hc : st.arr[i]? = some a[i] := by rw [hsame i (by omega), List.getElem?_eq_getElem hi]
    have hai : a[i]? = some a[i] := List.getElem?_eq_getElem hi
    obtain ⟨ho1, ho2⟩ := hown i _ hai
    obtain ⟨hv1, hv2, hv3⟩ := hv i _ (by omega) hai
    obtain ⟨p', hr, hp1, hp2⟩ := resolvePipes_calm w a[i].pipelines ho1 (fun s hs => ho2 s (by unfold SRef.slice; rw [hs]; rfl)) hv1 hv2 hv3
    unfold stagesLoop
    rw [hc]
    simp only [hw, hr]
    obtain ⟨g1, g2, g3, g4⟩ := stagesLoop_calm w a len hlen hown hv i
      { st with arr := st.arr.set i { a[i] with pipelines := p' }, nonDrops := st.nonDrops + 1, w := w } (by omega) rfl
      ⟨by simp [hcut.1], fun j d hd => by
        by_cases hj : j = i
        · subst hj
          have hj' : j < st.arr.length := by rw [hcut.1]; exact hi
          simp only [List.getElem?_set_self hj', Option.some.injEq] at hd
          subst hd
          exact ⟨_, hai, hp1, hp2⟩
        · simp only [List.getElem?_set_ne (fun h => hj (Eq.symm h))] at hd
          exact hcut.2 j d hd⟩
      (fun j hj => by
        simp only [List.getElem?_set_ne (show i ≠ j by omega)]
        exact hsame j (by omega)) hl
    exact ⟨g1, g2, g3, by rw [g4]; simp only; omega⟩

theorem resolve_calm (w : W) (hw : Sep w) (hcur : CurOk w) (hv : ∀ s ∈ w.value, ∀ m ∈ s.pipelines, ValidDrop m) (hc : Calm w.value) :
    Sep (resolve w).1 ∧ CurOk (resolve w).1 := by
  unfold resolve
  cases hcr : w.cur with
  | none => exact ⟨hw, hcur⟩
  | some s =>
    obtain ⟨ha, hl⟩ := hcur s hcr
    simp only
    by_cases hn : s.len = 0
    · rw [if_pos hn]
      exact ⟨hw, hcur⟩
    · rw [if_neg hn]
      have hval : w.value = ((w.stg.array s.arr).take s.len).map w.stage := by unfold W.value; rw [hcr]; rfl
      have hmem : ∀ (i : Nat) c, i < s.len → (w.stg.array s.arr)[i]? = some c → w.stage c ∈ w.value := by
        intro i c hi hci
        rw [hval]
        refine List.mem_map.mpr ⟨c, List.mem_of_getElem? (i := i) ?_, rfl⟩
        rw [List.getElem?_take, if_pos hi]
        exact hci
      obtain ⟨h1, h2, h3, h4⟩ := stagesLoop_calm w (w.stg.array s.arr) s.len hl
        (fun i c hci => ⟨hw.own s.arr i c hci, fun t ht => (hw.pms s.arr i c t hci ht).2.1⟩)
        (fun i c hi hci => ⟨hv _ (hmem i c hi hci), hc _ (hmem i c hi hci)⟩)
        s.len { arr := w.stg.array s.arr, len := s.len, w := w } (Nat.le_refl _) rfl
        ⟨rfl, fun j d hd => ⟨d, hd, hw.own s.arr j d hd, fun t ht => ⟨t, ht, rfl, Nat.le_refl _⟩⟩⟩ (fun _ _ => rfl) rfl
      generalize stagesLoop s.len { arr := w.stg.array s.arr, len := s.len, w := w } = st at *
      have h5 : st.nonDrops = 0 + s.len := h4
      rw [if_neg (by omega)]
      simp only [h1, h3]
      -- each place has the array it had
      have hplace : ∀ (a k : Nat) d, (Heap.array (w.stg.set s.arr st.arr) a)[k]? = some d → ∃ c, (w.stg.array a)[k]? = some c ∧
          (∀ n, d.pipelines ≠ .shared n) ∧ ∀ t, d.slice = some t → ∃ s, c.slice = some s ∧ t.arr = s.arr ∧ t.len ≤ s.len := by
        intro a k d hd
        by_cases hae : s.arr = a
        · subst hae
          rw [array_set_same ha] at hd
          exact h2.2 k d hd
        · rw [array_set_other hae] at hd
          exact ⟨d, hd, hw.own a k d hd, fun t ht => ⟨t, ht, rfl, Nat.le_refl _⟩⟩
      refine ⟨⟨⟨hw.ops, hw.sps⟩, ?_, ?_⟩, ?_⟩
      · intro a k d t hd ht
        obtain ⟨c, hck, _, hcs⟩ := hplace a k d hd
        obtain ⟨s0, hs0, he, hle⟩ := hcs t ht
        obtain ⟨b1, b2, b3⟩ := hw.pms a k c s0 hck hs0
        refine ⟨by rw [he]; exact b1, by rw [he]; exact Nat.le_trans hle b2, fun a' k' d' t' hd' ht' he' => ?_⟩
        obtain ⟨c', hck', _, hcs'⟩ := hplace a' k' d' hd'
        obtain ⟨s0', hs0', he2, _⟩ := hcs' t' ht'
        exact b3 a' k' c' s0' hck' hs0' (by rw [← he2, he', he])
      · intro a k d hd
        exact (hplace a k d hd).choose_spec.2.1
      · intro s' hs'
        cases hs'
        refine ⟨by simpa using ha, ?_⟩
        simp only
        rw [array_set_same ha, h2.1]
        exact hl

/-! #### Any uses -/

structure Agrees (m : Mem) (s : Ideal) : Prop where
  global : m.global = { drop := 1 }
  value : ∀ i, m.value i = s.value i
  valid : ∀ i, ∀ t ∈ s.value i, ∀ p ∈ t.pipelines, ValidDrop p
  sep : ∀ i, s.moved i = false → Sep (m.world i) ∧ CurOk (m.world i)

theorem back_world (m : Mem) (i : Nat) (w : W) : (m.back i w).world i = w := by
  cases w
  simp [Mem.world, Mem.back]

theorem back_other (m : Mem) {i j : Nat} (w : W) (h : j ≠ i) (hg : w.global = m.global) : (m.back i w).world j = m.world j := by
  unfold Mem.world Mem.back
  simp only [if_neg h, hg]

theorem agrees_back {m : Mem} {s : Ideal} (h : Agrees m s) (i : Nat) (w : W) (v : List StagedMetadata) (b : Bool) (hg : w.global = m.global)
    (hv : w.value = v) (hd : ∀ t ∈ v, ∀ p ∈ t.pipelines, ValidDrop p) (hs : b = false → Sep w ∧ CurOk w) :
    Agrees (m.back i w) (s.set i v b) := by
  refine ⟨hg.trans h.global, fun j => ?_, fun j => ?_, fun j => ?_⟩
  · unfold Mem.value Ideal.set
    by_cases hj : j = i
    · subst hj
      rw [back_world]
      simp only [if_true]
      exact hv
    · rw [back_other m w hj hg]
      simp only [if_neg hj]
      exact h.value j
  · unfold Ideal.set
    by_cases hj : j = i
    · simp only [if_pos hj]; exact hd
    · simp only [if_neg hj]; exact h.valid j
  · unfold Ideal.set
    by_cases hj : j = i
    · subst hj
      rw [back_world]
      simp only [if_true]
      exact hs
    · rw [back_other m w hj hg]
      simp only [if_neg hj]
      exact h.sep j

theorem agrees_use {x : XTime} {u : Use} {m m' : Mem} {s : Ideal} (h : Agrees m s) (hd : s.moved u.object = false)
    (hv : ∀ i pbs, u = .decode i pbs → ∀ ss, stagedFromProto x [] pbs = some ss → ∀ s ∈ ss, ∀ m ∈ s.pipelines, ValidDrop m)
    (hm : m.use x u = some m') : ∃ s', s.use x u = some s' ∧ Agrees m' s' := by
  obtain ⟨hs, hc⟩ := h.sep _ hd
  cases u with
  | decode i pbs =>
    simp only [Use.object] at hs hc hd
    rcases decode_spec x (m.world i) pbs hs hc with ⟨h1, _⟩ | ⟨w', vs, h1, h2, h3, h4, h5, h6⟩
    · simp [Mem.use, h1] at hm
    · simp only [Mem.use, h1, Option.map_some, Option.some.injEq] at hm
      subst hm
      refine ⟨s.set i vs (s.moved i), by simp only [Ideal.use, h2, Option.map_some], ?_⟩
      exact agrees_back h i w' vs _ h5 h6 (hv i pbs rfl vs h2) fun _ => ⟨h3, h4⟩
  | resolve i =>
    simp only [Use.object] at hs hc hd
    simp only [Mem.use, Option.some.injEq] at hm
    subst hm
    refine ⟨_, rfl, ?_⟩
    have hval : (m.world i).value = s.value i := h.value i
    obtain ⟨h1, h2⟩ := resolve_spec (m.world i) h.global hs hc
    refine agrees_back h i _ _ _ h2 ?_ (resolveStages_valid (h.valid i)) ?_
    · rw [← applyStaged_eq _ (h.valid i), ← hval, h1]
    · intro hb
      rw [hd, Bool.false_or] at hb
      have hcalm : Calm (s.value i) := by simpa using hb
      refine resolve_calm (m.world i) hs hc ?_ ?_
      · rw [hval]; exact h.valid i
      · rw [hval]; exact hcalm

theorem agrees_uses {x : XTime} : ∀ {us : List Use} {m m' : Mem} {s : Ideal}, Agrees m s → Disciplined x s us → ValidUses x us →
    m.uses x us = some m' → ∃ s', s.uses x us = some s' ∧ Agrees m' s'
  | [], m, m', s, h, _, _, hm => by
    simp only [Mem.uses, Option.some.injEq] at hm
    subst hm
    exact ⟨s, rfl, h⟩
  | u :: us, m, m', s, h, hd, hv, hm => by
    unfold Mem.uses at hm
    cases h1 : m.use x u with
    | none => simp [h1] at hm
    | some m1 =>
      simp only [h1] at hm
      obtain ⟨s1, hs1, ha⟩ := agrees_use h hd.1 (fun i pbs hu => hv i pbs (by simp [hu])) h1
      obtain ⟨s2, hs2, ha2⟩ := agrees_uses ha (hd.2 s1 hs1) (fun i pbs hp => hv i pbs (by simp [hp])) hm
      exact ⟨s2, by simp only [Ideal.uses, hs1, hs2], ha2⟩

/-! ### C95 -/

/-- C95, in part: as long as no object is used again in which resolving moved elements, every object holds what it should, and the drop
metadata that all share stays what it is. -/
theorem C95_partial (x : XTime) (us : List Use) (m : Mem) (hd : Disciplined x {} us) (hv : ValidUses x us)
    (hm : Mem.init.uses x us = some m) :
    ∃ s : Ideal, Ideal.uses x {} us = some s ∧ (∀ i, m.value i = s.value i) ∧ m.global = { drop := 1 } := by
  have h0 : Agrees Mem.init {} := by
    refine ⟨rfl, fun _ => rfl, (fun _ _ ht => by cases ht), fun i _ => ⟨⟨⟨?_, ?_⟩, ?_, ?_⟩, fun _ h => by cases h⟩⟩
    all_goals
      intro a k c
      intros
      simp_all [Mem.init, Mem.world, Heap.array]
  obtain ⟨s, hs, ha⟩ := agrees_uses h0 hd hv hm
  exact ⟨s, hs, ha.value, ha.global⟩

/-- A pipeline with a storage policy. -/
def exPipe (n : Nat) (drop : Int) : PBPipelineMetadata :=
  { aggregationId := BitVec.ofNat 64 n, dropPolicy := drop, storagePolicies := [⟨some ⟨n, 1000000000⟩, some ⟨n⟩⟩] }

/-- The retentions that are seen. -/
def retentions (ss : List StagedMetadata) : List (List (List Int)) := ss.map fun s => s.pipelines.map fun p => p.storagePolicies.map (·.retention)

/-- One object receives a drop, which is resolved, and then a message that asks for aggregation; another object receives a drop. -/
def exReuse : List Use := [.decode 0 [{ pipelines := [{ dropPolicy := 1 }] }], .resolve 0, .decode 0 [{ pipelines := [{ aggregationId := 4 }] }],
  .decode 1 [{ pipelines := [{ dropPolicy := 1 }] }], .resolve 1]

/-- Of what has been counted nothing is lost, and what is kept for a drop is the shared drop metadata. -/
theorem stagesLoop_drop : ∀ (k : Nat) (st : Loop),
    (st.drops ≠ 0 → st.earliest.pipelines = .shared 1) → st.drops ≠ 0 ∨ st.nonDrops ≠ 0 ∨ (0 < k ∧ k ≤ st.arr.length) →
    ((stagesLoop k st).drops ≠ 0 → (stagesLoop k st).earliest.pipelines = .shared 1) ∧
    ((stagesLoop k st).drops ≠ 0 ∨ (stagesLoop k st).nonDrops ≠ 0) ∧ (stagesLoop k st).w.global = st.w.global
  | 0, st, h, h' => ⟨h, by unfold stagesLoop; omega, rfl⟩
  | i + 1, st, h, h' => by
    unfold stagesLoop
    cases hc : st.arr[i]? with
    | none =>
      have := List.getElem?_eq_none_iff.mp hc
      exact ⟨h, by dsimp only; omega, rfl⟩
    | some c =>
      have hp : (resolvePipes st.w c.pipelines).2.2 = .applied → (resolvePipes st.w c.pipelines).1 = .shared 1 := by
        intro hr
        unfold resolvePipes at hr ⊢
        cases hq : c.pipelines with
        | nil => rw [hq] at hr; cases hr
        | shared n =>
          simp only [hq] at hr ⊢
          cases h3 : (applyPipelines ([st.w.global].take n)).2 with
          | applied => rfl
          | removed => rw [h3] at hr; cases hr
        | own s =>
          simp only [hq] at hr ⊢
          cases h3 : resolveCells (st.w.pms.array s.arr) s.len with
          | none => rfl
          | some x => rw [h3] at hr; cases hr
      have hg : (resolvePipes st.w c.pipelines).2.1.global = st.w.global := by
        unfold resolvePipes
        cases c.pipelines with
        | nil => rfl
        | shared n =>
          dsimp only
          cases (applyPipelines ([st.w.global].take n)).2 <;> rfl
        | own s =>
          dsimp only
          cases resolveCells (st.w.pms.array s.arr) s.len <;> rfl
      dsimp only
      rcases hr : resolvePipes st.w c.pipelines with ⟨p, w, r⟩
      rw [hr] at hp hg
      cases r with
      | applied =>
        dsimp only at hp hg ⊢
        have := stagesLoop_drop i
          { arr := (removeAt (st.arr.set i { c with pipelines := p }) st.len i).1
            len := (removeAt (st.arr.set i { c with pipelines := p }) st.len i).2
            drops := st.drops + 1
            nonDrops := st.nonDrops
            earliest := if st.drops + 1 = 1 ∨ c.cutoverNanos < st.earliest.cutoverNanos then { c with pipelines := p } else st.earliest
            w := w }
          (by
            intro _
            dsimp only
            by_cases hd : st.drops + 1 = 1 ∨ c.cutoverNanos < st.earliest.cutoverNanos
            · rw [if_pos hd]; exact hp rfl
            · rw [if_neg hd]; exact h (by omega))
          (Or.inl (by dsimp only; omega))
        rw [← hg]
        exact this
      | removed =>
        dsimp only at hg ⊢
        have := stagesLoop_drop i { st with arr := st.arr.set i { c with pipelines := p }, nonDrops := st.nonDrops + 1, w := w }
          h (Or.inr (Or.inl (by dsimp only; omega)))
        rw [← hg]
        exact this

/-- A variable that holds one stage, whose pipelines are the shared drop metadata. -/
def Dropped (w : W) (e : SRef) : Prop :=
  ∃ h : Heap SRef, w.stg = (h.make e 1 1).2 ∧ w.cur = some (h.make e 1 1).1 ∧ e.pipelines = .shared 1 ∧ w.global = { drop := 1 }

theorem dropped_value {w : W} {e : SRef} (h : Dropped w e) :
    w.value = [{ pipelines := [{ drop := 1 }], cutoverNanos := e.cutoverNanos, tombstoned := e.tombstoned }] := by
  obtain ⟨h, h1, h2, h3, h4⟩ := h
  simp [W.value, h1, h2, Heap.readOpt, Heap.read, Heap.array, Heap.make, W.stage, h3, W.pipes, h4]

theorem dropped_resolve {w : W} {e : SRef} (h : Dropped w e) : ∃ w', resolve w = (w', .applied) ∧ Dropped w' e := by
  obtain ⟨h, h1, h2, h3, h4⟩ := h
  have ha : w.stg.array (h.make e 1 1).1.arr = [e] := by simp [h1, Heap.array, Heap.make]
  have hp : resolvePipes w e.pipelines = (.shared 1, w, .applied) := by
    rw [h3]
    unfold resolvePipes
    rw [h4]
    rfl
  have hst : stagesLoop 1 { arr := [e], len := 1, w := w } =
      { arr := (removeAt ([e].set 0 { e with pipelines := .shared 1 }) 1 0).1
        len := (removeAt ([e].set 0 { e with pipelines := .shared 1 }) 1 0).2
        drops := 1, nonDrops := 0, earliest := { e with pipelines := .shared 1 }, w := w } := by
    simp only [stagesLoop, List.getElem?_cons_zero, hp]
    rfl
  have he : ({ e with pipelines := .shared 1 } : SRef) = e := by rw [← h3]
  unfold resolve
  rw [h2]
  dsimp only
  rw [if_neg (by simp [Heap.make]), ha]
  have hl : (h.make e 1 1).1.len = 1 := rfl
  rw [hl, hst]
  dsimp only
  rw [if_pos rfl, he]
  exact ⟨_, rfl, _, rfl, rfl, h3, h4⟩

/-- C95: what has been resolved to a drop is the drop metadata, and is resolved to it again however often this is asked for. -/
theorem C95_again (w w' : W) (hl : ∀ s, w.cur = some s → s.len ≤ (w.stg.array s.arr).length) (hg : w.global = { drop := 1 })
    (h : resolve w = (w', .applied)) :
    (∃ c t, w'.value = [{ pipelines := [{ drop := 1 }], cutoverNanos := c, tombstoned := t }]) ∧
    ∃ w'', resolve w' = (w'', .applied) ∧ w''.value = w'.value := by
  have hd : ∃ e, Dropped w' e := by
    unfold resolve at h
    cases hc : w.cur with
    | none => rw [hc] at h; cases h
    | some s =>
      rw [hc] at h
      dsimp only at h
      by_cases h0 : s.len = 0
      · rw [if_pos h0] at h; cases h
      · rw [if_neg h0] at h
        obtain ⟨k1, k2, k3⟩ := stagesLoop_drop s.len { arr := w.stg.array s.arr, len := s.len, w := w } (fun h => absurd rfl h)
          (Or.inr (Or.inr ⟨by omega, hl s hc⟩))
        by_cases hn : (stagesLoop s.len { arr := w.stg.array s.arr, len := s.len, w := w }).nonDrops = 0
        · rw [if_pos hn] at h
          cases h
          exact ⟨_, _, rfl, rfl, k1 (by omega), k3.trans hg⟩
        · rw [if_neg hn] at h; cases h
  obtain ⟨e, hd⟩ := hd
  refine ⟨⟨_, _, dropped_value hd⟩, ?_⟩
  obtain ⟨w'', h1, h2⟩ := dropped_resolve hd
  exact ⟨w'', h1, by rw [dropped_value h2, dropped_value hd]⟩

/-- Two stages that are both drops. -/
example : ∃ w, MetaMem.decode unitX (Mem.init.world 0)
      [{ pipelines := [{ dropPolicy := 1 }] }, { pipelines := [{ dropPolicy := 1 }], cutoverNanos := 9 }] = some w ∧
    (resolve w).2 = .applied ∧ w.global = { drop := 1 } ∧ (∀ s, w.cur = some s → s.len ≤ (w.stg.array s.arr).length) :=
  ⟨_, rfl, by decide +kernel, by decide +kernel, fun s h => by cases h; decide +kernel⟩

/-- C95 is violated: the metric of the second object should be dropped, and this is reported, but it holds the pipeline of the first one;
and from then on this is what everything that is dropped holds. -/
theorem C95_violated : ∃ m s, Mem.init.uses unitX exReuse = some m ∧ Ideal.uses unitX {} exReuse = some s ∧
    s.value 1 = [{ pipelines := [{ drop := 1 }] }] ∧ m.value 1 = [{ pipelines := [{ aggID := 4 }] }] ∧ m.global = { aggID := 4 } :=
  ⟨_, _, rfl, rfl, by decide +kernel, by decide +kernel, by decide +kernel⟩

/-- An object receives three pipelines, of which the first is removed, and then three others. -/
def exMovedPipes : List Use := [.decode 0 [{ pipelines := [exPipe 1 2, exPipe 2 0, exPipe 3 0] }], .resolve 0,
  .decode 0 [{ pipelines := [exPipe 4 0, exPipe 5 0, exPipe 6 0] }]]

/-- C95 is violated: the second pipeline has the storage policies of the third. -/
theorem C95_violated_pipelines : ∃ m s, Mem.init.uses unitX exMovedPipes = some m ∧ Ideal.uses unitX {} exMovedPipes = some s ∧
    retentions (s.value 0) = [[[4], [5], [6]]] ∧ retentions (m.value 0) = [[[4], [6], [6]]] :=
  ⟨_, _, rfl, rfl, by decide +kernel, by decide +kernel⟩

/-- An object receives three stages, of which the first is dropped, and then three others. -/
def exMovedStages : List Use := [.decode 0 [{ pipelines := [exPipe 1 1] }, { pipelines := [exPipe 2 0] }, { pipelines := [exPipe 3 0] }], .resolve 0,
  .decode 0 [{ pipelines := [exPipe 4 0], cutoverNanos := 4 }, { pipelines := [exPipe 5 0], cutoverNanos := 5 },
    { pipelines := [exPipe 6 0], cutoverNanos := 6 }]]

/-- C95 is violated: the second stage has the pipelines of the third. -/
theorem C95_violated_stages : ∃ m s, Mem.init.uses unitX exMovedStages = some m ∧ Ideal.uses unitX {} exMovedStages = some s ∧
    retentions (s.value 0) = [[[4]], [[5]], [[6]]] ∧ retentions (m.value 0) = [[[4]], [[6]], [[6]]] :=
  ⟨_, _, rfl, rfl, by decide +kernel, by decide +kernel⟩

/-- The hypotheses of `C95_partial` are met if the pipelines that are removed come last; the object is then used again, with more pipelines
than before, and resolved for good. -/
example : Disciplined unitX {} [.decode 0 [{ pipelines := [exPipe 1 0, exPipe 2 0, exPipe 3 2] }], .resolve 0,
    .decode 0 [{ pipelines := [exPipe 4 2, exPipe 5 0, exPipe 6 0, exPipe 7 0] }], .decode 1 [{ pipelines := [{ dropPolicy := 1 }] }],
    .resolve 1, .resolve 0] := by
  refine ⟨rfl, fun s h => ⟨?_, fun s1 h1 => ⟨?_, fun s2 h2 => ⟨?_, fun s3 h3 => ⟨?_, fun s4 h4 => ⟨?_, fun s5 h5 => trivial⟩⟩⟩⟩⟩⟩ <;>
  (first | cases h | skip) <;> (first | cases h1 | skip) <;> (first | cases h2 | skip) <;> (first | cases h3 | skip) <;>
  (first | cases h4 | skip) <;> decide +kernel

end Verif.MetaMem
