import Verif.Spec.MsgpackMemory
/-
The msgpack iterator with its memory does what the iterator on values does.
-/
namespace Verif.MPMem
open Verif.Policy Verif.MP Verif.Msg

/-! ### Arrays -/

theorem array_set_same {h : Heap α} {a : Nat} (ha : a < h.length) (r : List α) : Heap.array (h.set a r) a = r := by
  simp [Heap.array, ha]

theorem array_set_other {h : Heap α} {a b : Nat} (hab : a ≠ b) (r : List α) : Heap.array (h.set a r) b = h.array b := by
  simp [Heap.array, List.getElem?_set_ne hab]

theorem array_append {h : Heap α} {a : Nat} (ha : a < h.length) (r : List α) : Heap.array (h ++ [r]) a = h.array a := by
  simp [Heap.array, List.getElem?_append_left ha]

theorem array_new (h : Heap α) (r : List α) : Heap.array (h ++ [r]) h.length = r := by
  simp [Heap.array]

theorem array_out {h : Heap α} {a : Nat} (ha : h.length ≤ a) : h.array a = [] := by
  simp [Heap.array, List.getElem?_eq_none ha]

theorem array_in {h : Heap α} {a : Nat} (hn : 0 < (h.array a).length) : a < h.length := by
  apply Decidable.byContradiction
  intro hc
  rw [array_out (by omega)] at hn
  simp at hn

/-- `append` with room: in place. -/
theorem append_room {h : Heap α} {s : Slice} (hr : s.len < h.cap s) (v : α) :
    h.append s v = (⟨s.arr, s.len + 1⟩, h.set s.arr ((h.array s.arr).set s.len v)) := by
  rw [Heap.append, if_pos hr]; rfl

/-! ### The code on values and the code on memory -/

/-- What is in no array but those of floats, and the slices, is as before. -/
structure Still (w w' : W) : Prop where
  floats : w'.floats = w.floats
  pool : w'.pool = w.pool
  held : w'.held = w.held
  timerValues : w'.it.timerValues.arr = w.it.timerValues.arr

/-- What a call does to the arrays of floats that others may use. -/
structure Eff (w w' : W) : Prop where
  len : w.floats.length ≤ w'.floats.length
  /-- of the arrays that are there only that of the iterator and those in the pool are written -/
  kept : ∀ a < w.floats.length, a ∉ w.pool → a ≠ w.it.timerValues.arr → w'.floats.array a = w.floats.array a
  pool : ∀ a ∈ w'.pool, a ∈ w.pool
  timer : w'.it.timerValues.arr = w.it.timerValues.arr ∨ w.floats.length ≤ w'.it.timerValues.arr
  /-- no array gets a second user -/
  apart : ∀ T : List Nat, (w.it.timerValues.arr :: (T ++ (w.pool ++ w.held))).Nodup →
    (∀ a ∈ w.it.timerValues.arr :: (T ++ (w.pool ++ w.held)), a < w.floats.length) →
    (w'.it.timerValues.arr :: (T ++ (w'.pool ++ w'.held))).Nodup ∧
    (∀ a ∈ w'.it.timerValues.arr :: (T ++ (w'.pool ++ w'.held)), a < w'.floats.length)
  held : ∀ a ∈ w.held, a ∈ w'.held

theorem Still.eff {w w' : W} (h : Still w w') : Eff w w' := by
  obtain ⟨h1, h2, h3, h4⟩ := h
  refine ⟨by rw [h1]; exact Nat.le_refl _, fun a _ _ _ => by rw [h1], by rw [h2]; exact fun _ h => h, .inl h4, ?_, by rw [h3]; exact fun _ h => h⟩
  intro T hn hb
  rw [h1, h2, h3, h4]
  exact ⟨hn, hb⟩

theorem Eff.refl (w : W) : Eff w w := Still.eff ⟨rfl, rfl, rfl, rfl⟩

theorem Eff.trans {w w' w'' : W} (h : Eff w w') (h' : Eff w' w'') : Eff w w'' := by
  refine ⟨Nat.le_trans h.len h'.len, ?_, fun a ha => h.pool a (h'.pool a ha), ?_, ?_, fun a ha => h'.held a (h.held a ha)⟩
  · intro a ha hp ht
    rw [h'.kept a (Nat.lt_of_lt_of_le ha h.len) (fun hc => hp (h.pool a hc)) ?_, h.kept a ha hp ht]
    rcases h.timer with e | e
    · rw [e]; exact ht
    · omega
  · rcases h'.timer with e | e
    · rw [e]; exact h.timer
    · exact .inr (Nat.le_trans h.len e)
  · intro T hn hb
    obtain ⟨h1, h2⟩ := h.apart T hn hb
    exact h'.apart T h1 h2

/-- From a state with `P` the code on memory returns what the code on values returns, in the end it shows the same, and `Q` holds. -/
def Tr (P : W → Prop) (m : D W α) (v : D MP.Iter α) (Q : W → Prop) : Prop :=
  ∀ w, P w → v w.see = ((m w).1, (m w).2.see) ∧ Eff w (m w).2 ∧ Q (m w).2

theorem tr_pure (P : W → Prop) (a : α) : Tr P (pure a) (pure a) P := fun w h => ⟨rfl, Eff.refl w, h⟩

theorem bind_run {σ α β : Type} (m : D σ α) (f : α → D σ β) (s : σ) : (m >>= f) s = f (m s).1 (m s).2 := rfl

theorem tr_bind {P Q R : W → Prop} {m : D W α} {v : D MP.Iter α} {f : α → D W β} {g : α → D MP.Iter β} (h : Tr P m v Q)
    (h' : ∀ a, Tr Q (f a) (g a) R) : Tr P (m >>= f) (v >>= g) R := by
  intro w hw
  obtain ⟨h1, h2, h3⟩ := h w hw
  obtain ⟨h4, h5, h6⟩ := h' (m w).1 (m w).2 h3
  refine ⟨?_, h2.trans h5, h6⟩
  rw [bind_run, bind_run, h1]
  exact h4

theorem tr_weaken {P P' Q Q' : W → Prop} {m : D W α} {v : D MP.Iter α} (h : Tr P m v Q) (hp : ∀ w, P' w → P w) (hq : ∀ w, Q w → Q' w) :
    Tr P' m v Q' := fun w hw => let ⟨a, b, c⟩ := h w (hp w hw); ⟨a, b, hq _ c⟩

/-- Two steps on values that are one on memory. -/
theorem tr_group {P Q R : W → Prop} {m : D W Unit} {v : D MP.Iter α} {v' : α → D MP.Iter Unit} {f : D W β} {g : D MP.Iter β}
    (h : Tr P m (v >>= v') Q) (h' : Tr Q f g R) : Tr P (m >>= fun _ => f) (v >>= fun a => v' a >>= fun _ => g) R :=
  tr_bind (m := m) (v := v >>= v') (f := fun _ => f) (g := fun _ => g) h (fun _ => h')

/-- A property of the state that does not speak of the reader, nor of the metric but for the timer. -/
structure Free (P : W → Prop) : Prop where
  base : ∀ w b, P w → P { w with it := { w.it with base := b } }

theorem tr_onBase {P : W → Prop} (hP : Free P) (m : D Base α) : Tr P (onBase m) (MP.onBase m) P := by
  intro w hw
  refine ⟨rfl, Still.eff ⟨rfl, rfl, rfl, rfl⟩, ?_⟩
  exact hP.base w _ hw

/-! ### The invariant -/

/-- The arrays of policies are apart. -/
structure Apart (it : Iter) : Prop where
  bound : ∀ (i : Nat) (s : Slice), it.cachedPolicies[i]? = some (some s) → s.arr < it.pols.length
  apart : ∀ (i j : Nat) (s t : Slice), it.cachedPolicies[i]? = some (some s) → it.cachedPolicies[j]? = some (some t) → s.arr = t.arr → i = j

/-- The values of a timer are in the array of the iterator, or, if they are more than the size for large ones, in one from the pool that was
not given back by the iterator. -/
def TimerOk (it : Iter) : Prop :=
  (it.metric.pooled = false → ∀ s, it.metric.timer = some s → s.arr = it.timerValues.arr) ∧
  (it.metric.pooled = true → ∀ s, it.metric.timer = some s → it.largeFloatsSize < s.len)

def Inv (w : W) : Prop := Apart w.it ∧ TimerOk w.it ∧ ∀ a, w.it.lent = some a → a ∈ w.held

/-- At the start of a message. -/
def Clean (w : W) : Prop := Apart w.it ∧ w.it.metric.timer = none ∧ w.it.metric.pooled = false

theorem Clean.inv {w : W} (h : Clean w) : Inv w := by
  refine ⟨h.1, ?_, fun a ha => ?_⟩
  · exact ⟨fun _ s hs => (by rw [h.2.1] at hs; cases hs), fun _ s hs => (by rw [h.2.1] at hs; cases hs)⟩
  · rw [Iter.lent, h.2.2] at ha; simp at ha

theorem free_inv : Free Inv := ⟨fun _ _ h => ⟨⟨h.1.bound, h.1.apart⟩, h.2.1, h.2.2⟩⟩
theorem free_clean : Free Clean := ⟨fun _ _ h => ⟨⟨h.1.bound, h.1.apart⟩, h.2.1, h.2.2⟩⟩

/-- Changes of the metric apart from the identifier and the values of timers. -/
theorem tr_setMetric (f : MetricRef → MetricRef) (g : MetricUnion → MetricUnion)
    (hs : ∀ m ids fl, g (MetricRef.see m ids fl) = (f m).see ids fl) (ht : ∀ m, (f m).timer = m.timer) (hp : ∀ m, (f m).pooled = m.pooled) :
    Tr Clean (setMetric f) (MP.setMetric g) Clean ∧ Tr Inv (setMetric f) (MP.setMetric g) Inv := by
  constructor
  · intro w hw
    refine ⟨?_, Still.eff ⟨rfl, rfl, rfl, rfl⟩, ⟨hw.1.bound, hw.1.apart⟩, ?_, ?_⟩
    · show ((), _) = ((), _)
      congr 1
      simp only [setMetric, modify, W.see, Iter.see, ← hs]
    · show (f w.it.metric).timer = none
      rw [ht]; exact hw.2.1
    · show (f w.it.metric).pooled = false
      rw [hp]; exact hw.2.2
  · intro w hw
    refine ⟨?_, Still.eff ⟨rfl, rfl, rfl, rfl⟩, ⟨hw.1.bound, hw.1.apart⟩, ?_, ?_⟩
    · show ((), _) = ((), _)
      congr 1
      simp only [setMetric, modify, W.see, Iter.see, ← hs]
    · exact ⟨fun h s h' => hw.2.1.1 (by rw [← hp]; exact h) s (by rw [← ht]; exact h'),
        fun h s h' => hw.2.1.2 (by rw [← hp]; exact h) s (by rw [← ht]; exact h')⟩
    · intro a ha
      refine hw.2.2 a ?_
      have ha' : (if (f w.it.metric).pooled then (f w.it.metric).timer.map (·.arr) else none) = some a := ha
      rw [hp, ht] at ha'; exact ha'

/-! ### Identifiers -/

theorem readFull_data (s : Slice) (w : W) (hr : s.len ≤ w.it.base.data.length) (hc : s.len ≤ w.it.ids.cap s) :
    (readFull s w).it.ids.read s = w.it.base.data.take s.len := by
  rw [readFull]
  simp only
  rw [if_pos hr]
  show (Heap.array (w.it.ids.set s.arr _) s.arr).take s.len = _
  by_cases h0 : s.len = 0
  · simp [h0]
  · have ha : s.arr < w.it.ids.length := array_in (by unfold Heap.cap at hc; omega)
    rw [array_set_same ha, List.take_append_of_le_length (by simp; omega), List.take_of_length_le (by simp; omega)]

theorem idSlice_same (n : Nat) (w : W) : ∃ i ids, idSlice n w = { w with it := { w.it with id := i, ids := ids } } ∧
    (∀ s, i = some s → s.len = n ∧ n ≤ ids.cap s) ∧ (i = none → n = 0) := by
  rw [idSlice]
  split
  · refine ⟨_, _, rfl, ?_, by simp⟩
    intro s hs
    cases hs
    refine ⟨rfl, ?_⟩
    show n ≤ (Heap.array (_ ++ [_]) w.it.ids.length).length
    rw [array_new]; simp
  · rename_i h
    refine ⟨_, w.it.ids, rfl, ?_, ?_⟩
    · intro s hs
      cases hi : w.it.id with
      | none => rw [hi] at hs; simp at hs
      | some t =>
        rw [hi] at hs h
        simp only [Option.map_some, Option.some.injEq] at hs
        subst hs
        refine ⟨rfl, ?_⟩
        have : w.it.ids.capOpt (some t) = w.it.ids.cap t := rfl
        rw [this] at h
        show n ≤ w.it.ids.cap t
        omega
    · intro hn
      cases hi : w.it.id with
      | none => rw [hi] at h; simp [Heap.capOpt] at h; exact h
      | some t => rw [hi] at hn; simp at hn

/-- What `decodeID` does is a change of the reader, of the array for identifiers, and of the identifier of the metric. -/
theorem decodeID_run (l : Lib) (w : W) : ∃ i mid ids, (decodeID l w).2 =
      { w with it := { w.it with id := i, ids := ids, base := (MP.decodeID l w.it.base).2, metric := { w.it.metric with id := mid } } } ∧
    ids.readOpt mid = (MP.decodeID l w.it.base).1 := by
  rcases hd : decodeBytesLen l w.it.base with ⟨n, b⟩
  have e : (decodeID l w).2 = (match b.err with
      | some _ => { w with it := { w.it with base := b, metric := { w.it.metric with id := none } } }
      | none =>
        if n = -1 then
          { w with it := { w.it with base := b, id := w.it.id.map fun s => { s with len := 0 }
                                     metric := { w.it.metric with id := w.it.id.map fun s => { s with len := 0 } } } }
        else
          let w1 := idSlice n.toNat { w with it := { w.it with base := b } }
          let w2 := match w1.it.id with
            | none => w1
            | some s => readFull s w1
          { w2 with it := { w2.it with metric := { w2.it.metric with id := if w2.it.base.err.isSome then none else w2.it.id } } }) := by
    simp only [decodeID, bind_run, onBase, hd, modify]
    cases b.err <;> rfl
  have ev : MP.decodeID l w.it.base = (match b.err with
      | some _ => ([], b)
      | none =>
        if n = -1 then ([], b)
        else if n.toNat ≤ b.data.length then (b.data.take n.toNat, { b with data := b.data.drop n.toNat })
        else ([], { b with data := [], err := some (if b.data.isEmpty then .eof else .other) })) := by
    simp only [MP.decodeID, hd]
    cases b.err <;> rfl
  rw [e, ev]
  clear e ev
  cases hb : b.err with
  | some x => exact ⟨w.it.id, none, w.it.ids, rfl, rfl⟩
  | none =>
    simp only
    by_cases hn : n = -1
    · simp only [hn, if_true]
      refine ⟨_, _, w.it.ids, rfl, ?_⟩
      cases w.it.id with
      | none => rfl
      | some s => simp [Heap.readOpt, Heap.read]
    · simp only [hn, if_false]
      obtain ⟨i, ids, h1, h2, h3⟩ := idSlice_same n.toNat { w with it := { w.it with base := b } }
      rw [h1]
      cases i with
      | none =>
        have h0 := h3 rfl
        simp only [h0, Nat.zero_le, if_true, List.take_zero, List.drop_zero]
        refine ⟨none, none, ids, ?_, rfl⟩
        cases b
        simp only at hb
        subst hb
        rfl
      | some s =>
        obtain ⟨hl, hc⟩ := h2 s rfl
        simp only
        have hf : ∀ w' : W, w' = { w with it := { w.it with base := b, id := some s, ids := ids } } →
            (readFull s w') = { w' with it := { w'.it with ids := (readFull s w').it.ids, base := (readFull s w').it.base } } := by
          intro w' _
          unfold readFull
          simp only
          split <;> rfl
        by_cases hd : n.toNat ≤ b.data.length
        · rw [if_pos hd]
          refine ⟨some s, some s, (readFull s { w with it := { w.it with base := b, id := some s, ids := ids } }).it.ids, ?_, ?_⟩
          · rw [hf _ rfl]
            simp only [readFull, hl, hd, if_true, hb]
            rfl
          · show Heap.read _ s = _
            have := readFull_data s { w with it := { w.it with base := b, id := some s, ids := ids } } (by rw [hl]; exact hd) (by rw [hl]; exact hc)
            rw [this, hl]
        · rw [if_neg hd]
          refine ⟨some s, none, (readFull s { w with it := { w.it with base := b, id := some s, ids := ids } }).it.ids, ?_, rfl⟩
          rw [hf _ rfl]
          simp only [readFull, hl, hd, if_false]
          rfl

theorem tr_decodeID (l : Lib) : Tr Clean (decodeID l) (MP.onBase (MP.decodeID l) >>= fun id => MP.setMetric fun m => { m with id := id }) Clean := by
  intro w hw
  obtain ⟨i, mid, ids, h1, h2⟩ := decodeID_run l w
  rw [h1]
  refine ⟨?_, Still.eff ⟨rfl, rfl, rfl, rfl⟩, ⟨hw.1.bound, hw.1.apart⟩, hw.2.1, hw.2.2⟩
  rw [bind_run]
  show ((), _) = ((), _)
  congr 1
  simp only [MP.onBase, MP.setMetric, W.see, Iter.see, MetricRef.see, h2]

/-! ### Timers -/

theorem set_take_succ {r : List α} {n : Nat} (h : n < r.length) (v : α) : (r.set n v).take (n + 1) = r.take n ++ [v] := by
  rw [List.take_add_one, List.getElem?_set_self h, List.take_set_of_le (Nat.le_refl n)]
  rfl

/-- The loop over the values writes one array. -/
theorem appendFloats_run (l : Lib) : ∀ (n : Nat) (s : Slice) (w : W), s.len + n ≤ w.floats.cap s →
    ∃ r, appendFloats l n s w = (⟨s.arr, s.len + n⟩,
        { w with it := { w.it with base := (repeatD (decodeFloat64 l) n w.it.base).2 }, floats := w.floats.set s.arr r }) ∧
      r.take (s.len + n) = (w.floats.array s.arr).take s.len ++ (repeatD (decodeFloat64 l) n w.it.base).1 ∧
      r.length = (w.floats.array s.arr).length := by
  intro n
  induction n with
  | zero =>
    intro s w _
    refine ⟨w.floats.array s.arr, ?_, by simp [repeatD, pure], rfl⟩
    have : w.floats.set s.arr (w.floats.array s.arr) = w.floats := by
      by_cases h : s.arr < w.floats.length
      · simp [Heap.array, h]
      · exact List.set_eq_of_length_le (by omega)
    rw [this]
    rfl
  | succ n ih =>
    intro s w h
    have hr : s.len < w.floats.cap s := by omega
    have ha : s.arr < w.floats.length := array_in (by unfold Heap.cap at hr; omega)
    obtain ⟨v, b, hv⟩ : ∃ v b, decodeFloat64 l w.it.base = (v, b) := ⟨_, _, rfl⟩
    let w1 : W := { w with it := { w.it with base := b }, floats := w.floats.set s.arr ((w.floats.array s.arr).set s.len v) }
    have hc : (⟨s.arr, s.len + 1⟩ : Slice).len + n ≤ w1.floats.cap ⟨s.arr, s.len + 1⟩ := by
      show s.len + 1 + n ≤ (Heap.array (w.floats.set s.arr _) s.arr).length
      rw [array_set_same ha, List.length_set]
      unfold Heap.cap at h
      omega
    obtain ⟨r, h1, h2, h3⟩ := ih ⟨s.arr, s.len + 1⟩ w1 hc
    have e : appendFloats l (n + 1) s w = appendFloats l n ⟨s.arr, s.len + 1⟩ w1 := by
      simp only [appendFloats, bind_run, onBase, hv, appendFloat, append_room hr]
      rfl
    have ev : repeatD (decodeFloat64 l) (n + 1) w.it.base = (v :: (repeatD (decodeFloat64 l) n b).1, (repeatD (decodeFloat64 l) n b).2) := by
      simp only [repeatD, bind_run, hv]
      rfl
    have hw1 : w1.floats.array s.arr = (w.floats.array s.arr).set s.len v := array_set_same ha _
    refine ⟨r, ?_, ?_, ?_⟩
    · rw [e, h1, ev]
      simp only [w1, List.set_set]
      rw [show s.len + 1 + n = s.len + (n + 1) by omega]
    · rw [ev]
      rw [show s.len + (n + 1) = (⟨s.arr, s.len + 1⟩ : Slice).len + n by show _ = s.len + 1 + n; omega, h2]
      simp only
      rw [hw1, set_take_succ (by unfold Heap.cap at hr; exact hr)]
      simp [w1]
    · rw [h3]
      simp only
      rw [hw1, List.length_set]

theorem erase_perm : ∀ {l : List Nat} {i a : Nat}, l[i]? = some a → l.Perm (a :: l.eraseIdx i)
  | [], _, _, h => by simp at h
  | b :: l, 0, a, h => by
    simp only [List.getElem?_cons_zero, Option.some.injEq] at h
    subst h
    exact List.Perm.refl _
  | b :: l, i + 1, a, h => by
    have ih := erase_perm (l := l) (i := i) (a := a) (by simpa using h)
    rw [List.eraseIdx_cons_succ]
    exact (ih.cons b).trans (List.Perm.swap _ _ _)

theorem getFloats_cases (c : Pick) (n : Nat) (w : W) :
    getFloats c n w = (⟨w.floats.length, 0⟩, { w with floats := w.floats ++ [List.replicate (n + c.room) 0], held := w.floats.length :: w.held }) ∨
    ∃ i a, w.pool[i]? = some a ∧ n ≤ (w.floats.array a).length ∧
      getFloats c n w = (⟨a, 0⟩, { w with pool := w.pool.eraseIdx i, held := a :: w.held }) := by
  rw [getFloats]
  split
  · exact .inl rfl
  · rename_i i _
    split
    · exact .inl rfl
    · rename_i a ha
      split
      · rename_i hc
        exact .inr ⟨i, a, ha, hc, rfl⟩
      · exact .inl rfl

/-- What is needed of the slice for the values of a timer. -/
theorem timerSlice_run (c : Pick) (n : Int) (w : W) (hw : Clean w) : ∃ s p tv fl pool held,
    timerSlice c n w = ((s, p), { w with it := { w.it with timerValues := tv }, floats := fl, pool := pool, held := held }) ∧
    s.len = 0 ∧ n.toNat ≤ fl.cap s ∧ (p = false → s.arr = tv.arr) ∧ (p = true → s.arr ∈ held) ∧ (p = true → w.it.largeFloatsSize < n.toNat) ∧
    ∀ r, r.length = (fl.array s.arr).length →
      Eff w { w with it := { w.it with timerValues := tv }, floats := fl.set s.arr r, pool := pool, held := held } := by
  rw [timerSlice]
  split
  · rename_i h
    refine ⟨_, _, { w.it.timerValues with len := 0 }, w.floats, w.pool, w.held, rfl, rfl, ?_, fun _ => rfl, by simp, by simp, ?_⟩
    · show n.toNat ≤ w.floats.cap w.it.timerValues
      omega
    · intro r hr
      refine ⟨by simp, ?_, fun _ h => h, .inl rfl, ?_, fun _ h => h⟩
      · intro a _ _ ha
        exact array_set_other (fun hc => ha hc.symm) r
      · intro T hn hb
        refine ⟨hn, ?_⟩
        simpa using hb
  · split
    · rename_i h1 h2
      refine ⟨_, _, ⟨w.floats.length, 0⟩, _, w.pool, w.held, rfl, rfl, ?_, fun _ => rfl, by simp, by simp, ?_⟩
      · show n.toNat ≤ (Heap.array (_ ++ [_]) w.floats.length).length
        rw [array_new, List.length_replicate]
        split <;> omega
      · intro r hr
        refine ⟨by simp, ?_, fun _ h => h, .inr (Nat.le_refl _), ?_, fun _ h => h⟩
        · intro a ha _ _
          show Heap.array (List.set (_ ++ _) w.floats.length r) a = _
          rw [array_set_other (by omega), array_append ha]
        · intro T hn hb
          simp only [List.nodup_cons, List.mem_cons] at hn hb ⊢
          refine ⟨⟨?_, hn.2⟩, ?_⟩
          · intro hc
            have := hb _ (.inr hc)
            omega
          · intro a ha
            simp only [List.length_set, List.length_append, List.length_cons, List.length_nil]
            rcases ha with rfl | ha
            · omega
            · have := hb a (.inr ha)
              omega
    · rename_i h1 h2
      rcases getFloats_cases c n.toNat w with e | ⟨i, a, ha, hc, e⟩
      · rw [e]
        refine ⟨⟨w.floats.length, 0⟩, true, w.it.timerValues, _, w.pool, w.floats.length :: w.held, rfl, rfl, ?_, by simp, fun _ => by simp, fun _ => by omega, ?_⟩
        · show n.toNat ≤ (Heap.array (_ ++ [_]) w.floats.length).length
          rw [array_new, List.length_replicate]
          omega
        · intro r hr
          refine ⟨by simp, ?_, fun _ h => h, .inl rfl, ?_, fun _ h => by simp [h]⟩
          · intro a ha _ _
            show Heap.array (List.set (_ ++ _) w.floats.length r) a = _
            rw [array_set_other (by omega), array_append ha]
          · intro T hn hb
            have hmem : ∀ a, a ∈ w.it.timerValues.arr :: (T ++ (w.pool ++ w.floats.length :: w.held)) →
                a = w.floats.length ∨ a ∈ w.it.timerValues.arr :: (T ++ (w.pool ++ w.held)) := by
              intro a ha
              simp only [List.mem_cons, List.mem_append] at ha ⊢
              rcases ha with h | h | h | h | h <;> simp [h]
            refine ⟨?_, ?_⟩
            · have hp : (w.it.timerValues.arr :: (T ++ (w.pool ++ w.floats.length :: w.held))).Perm
                  (w.floats.length :: (w.it.timerValues.arr :: (T ++ (w.pool ++ w.held)))) := by
                refine List.Perm.trans ?_ (List.Perm.swap _ _ _)
                refine List.Perm.cons _ ?_
                rw [← List.append_assoc, ← List.append_assoc]
                exact List.perm_middle
              rw [hp.nodup_iff, List.nodup_cons]
              exact ⟨fun hc => Nat.lt_irrefl _ (hb _ hc), hn⟩
            · intro a ha
              simp only [List.length_set, List.length_append, List.length_cons, List.length_nil]
              rcases hmem a ha with rfl | h
              · omega
              · have := hb a h
                omega
      · rw [e]
        refine ⟨⟨a, 0⟩, true, w.it.timerValues, w.floats, w.pool.eraseIdx i, a :: w.held, rfl, rfl, hc, by simp, fun _ => by simp, fun _ => by omega, ?_⟩
        have hperm : w.pool.Perm (a :: w.pool.eraseIdx i) := erase_perm ha
        intro r hr
        refine ⟨by simp, ?_, fun b hb => List.mem_of_mem_eraseIdx hb, .inl rfl, ?_, fun _ h => by simp [h]⟩
        · intro b _ hb _
          refine array_set_other (fun hc => hb ?_) r
          subst hc
          exact List.mem_of_getElem? ha
        · intro T hn hb
          have hp : (w.it.timerValues.arr :: (T ++ (w.pool.eraseIdx i ++ a :: w.held))).Perm
              (w.it.timerValues.arr :: (T ++ (w.pool ++ w.held))) := by
            refine List.Perm.cons _ (List.Perm.append_left _ ?_)
            refine List.Perm.trans List.perm_middle ?_
            exact (hperm.symm).append_right _
          refine ⟨hp.nodup_iff.mpr hn, ?_⟩
          intro b hb'
          rw [List.length_set]
          exact hb b (hp.mem_iff.mp hb')

theorem tr_decodeValues (l : Lib) (c : Pick) : Tr Clean (decodeValues l c)
    (MP.onBase (decodeArrayLen l) >>= fun n => MP.onBase (repeatD (decodeFloat64 l) n.toNat) >>= fun vs =>
      MP.setMetric fun m => { m with batchTimerVal := vs }) Inv := by
  intro w hw
  obtain ⟨n, b, hn⟩ : ∃ n b, decodeArrayLen l w.it.base = (n, b) := ⟨_, _, rfl⟩
  let w0 : W := { w with it := { w.it with base := b } }
  have hw0 : Clean w0 := free_clean.base w b hw
  obtain ⟨s, p, tv, fl, pool, held, h1, h2, h3, h4, h5, hlarge, h6⟩ := timerSlice_run c n w0 hw0
  let w1 : W := { w0 with it := { w0.it with timerValues := tv }, floats := fl, pool := pool, held := held }
  obtain ⟨r, g1, g2, g3⟩ := appendFloats_run l n.toNat s w1 (by rw [h2]; show 0 + n.toNat ≤ fl.cap s; omega)
  have e : (decodeValues l c w).2 =
      { w with it := { w.it with timerValues := tv, base := (repeatD (decodeFloat64 l) n.toNat b).2,
                                 metric := { w.it.metric with timer := some ⟨s.arr, n.toNat⟩, pooled := if p then true else w.it.metric.pooled } }
               floats := fl.set s.arr r, pool := pool, held := held } := by
    have e1 : decodeValues l c w = (do
        let s ← appendFloats l n.toNat s
        setMetric fun m => { m with timer := some s }
        if p then setMetric fun m => { m with pooled := true } : D W Unit) w1 := by
      simp only [decodeValues, bind_run, onBase, hn]
      rw [h1]
    rw [e1, bind_run, g1, bind_run, h2, Nat.zero_add]
    cases p <;> rfl
  rw [h2, Nat.zero_add, List.take_zero, List.nil_append] at g2
  rw [e]
  refine ⟨?_, ?_, ?_⟩
  · simp only [bind_run, MP.onBase, MP.setMetric]
    show ((), _) = ((), _)
    have hn' : decodeArrayLen l w.see.base = (n, b) := hn
    rw [hn']
    congr 1
    have hr : Heap.readOpt (fl.set s.arr r) (some ⟨s.arr, n.toNat⟩) = (repeatD (decodeFloat64 l) n.toNat b).1 := by
      show (Heap.array (fl.set s.arr r) s.arr).take n.toNat = _
      by_cases ha : s.arr < fl.length
      · rw [array_set_same ha, g2]
      · have h0 : n.toNat = 0 := by
          have : fl.cap s = 0 := by unfold Heap.cap; rw [array_out (by omega)]; rfl
          omega
        rw [h0]; rfl
    simp only [W.see, Iter.see, MetricRef.see, hr]
  · have hnd := h6 r g3
    exact ⟨hnd.len, hnd.kept, hnd.pool, hnd.timer, hnd.apart, hnd.held⟩
  · refine ⟨⟨hw.1.bound, hw.1.apart⟩, ?_, ?_⟩
    · refine ⟨fun hp t ht => ?_, fun hp t ht => ?_⟩
      · cases p with
        | true => cases hp
        | false =>
          cases ht
          exact h4 rfl
      · cases ht
        cases p with
        | true => exact hlarge rfl
        | false =>
          have hp' : w.it.metric.pooled = true := hp
          rw [hw.2.2] at hp'
          cases hp'
    · intro a ha
      cases p with
      | true =>
        have ha' : (if true = true then some s.arr else none) = some a := ha
        simp only [if_true, Option.some.injEq] at ha'
        subst ha'
        exact h5 rfl
      | false =>
        have ha' : (if w.it.metric.pooled = true then some s.arr else none) = some a := ha
        rw [hw.2.2] at ha'
        simp at ha'

end Verif.MPMem
