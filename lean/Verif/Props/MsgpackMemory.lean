import Verif.Lemmas.MsgpackMemoryList
import Verif.Props.Msgpack
/-
C104: what a msgpack iterator shows is its message, whatever arrays it uses again and whoever shares its pool.
-/
namespace Verif.MPMem
open Verif.Policy Verif.Meta Verif.MP Verif.Msg Verif.Spec.MP

section
variable (l : Lib) (x : XTime) (u : Units)

/-! ### What holds at any time -/

/-- The arrays of floats in use: those of the iterators, those in the pool, those taken from it. -/
def Sys.users (s : Sys) : List Nat := s.its.map timerArr ++ (s.pool ++ s.held)

structure Ok (s : Sys) : Prop where
  once : s.users.Nodup
  bound : ∀ a ∈ s.users, a < s.floats.length
  sound : ∀ it ∈ s.its, Sound it

theorem its_perm : ∀ {its : List Iter} {k : Nat} {it : Iter} (it' : Iter), its[k]? = some it →
    ((its.set k it').map timerArr).Perm (it'.timerValues.arr :: (its.eraseIdx k).map timerArr)
  | [], _, _, _, h => by simp at h
  | i :: its, 0, _, it', _ => by simp [timerArr]
  | i :: its, k + 1, it, it', h => by
    have ih := its_perm (its := its) (k := k) it' (by simpa using h)
    simp only [List.set_cons_succ, List.map_cons, List.eraseIdx_cons_succ]
    exact (ih.cons _).trans (List.Perm.swap _ _ _)

theorem set_self_its {its : List Iter} {k : Nat} {it : Iter} (h : its[k]? = some it) : its.set k it = its := set_same h

theorem users_perm {s : Sys} {k : Nat} {it : Iter} (hk : s.its[k]? = some it) :
    s.users.Perm (it.timerValues.arr :: ((s.its.eraseIdx k).map timerArr ++ (s.pool ++ s.held))) := by
  have h := its_perm it hk
  rw [set_self_its hk] at h
  exact h.append_right _

theorem back_perm {s : Sys} {k : Nat} {it : Iter} (hk : s.its[k]? = some it) (w : W) :
    (s.back k w).users.Perm (w.it.timerValues.arr :: ((s.its.eraseIdx k).map timerArr ++ (w.pool ++ w.held))) :=
  (its_perm w.it hk).append_right _

theorem sound_set {s : Sys} (h : ∀ it ∈ s.its, Sound it) {k : Nat} {it : Iter} (hi : Sound it) : ∀ i ∈ s.its.set k it, Sound i := by
  intro i hm
  rcases List.mem_or_eq_of_mem_set hm with h' | h'
  · exact h i h'
  · exact h' ▸ hi

theorem next_run {s : Sys} (h : Ok s) {k : Nat} {it : Iter} (hk : s.its[k]? = some it) (c : Pick) :
    MP.next l x u (it.see s.floats) = ((next l x u c (s.world it)).1, (next l x u c (s.world it)).2.see) ∧
    Eff (s.world it) (next l x u c (s.world it)).2 ∧ Sound (next l x u c (s.world it)).2.it ∧
    (it.base.err = none → it.closed = false →
      ∀ a, (next l x u c (s.world it)).2.it.lent = some a → a ∈ (next l x u c (s.world it)).2.held) := by
  obtain ⟨h1, h2, h3, h4⟩ := nextLoop_run l x u c (it.base.data.length + 2) (s.world it) (h.sound it (List.mem_of_getElem? hk))
  exact ⟨h1, h2, h3, fun he hc => h4 (.inr ⟨by omega, he, hc⟩)⟩

theorem ok_step {s : Sys} (h : Ok s) {a : Act} (ha : s.may a) : Ok (s.step l x u a) := by
  cases a with
  | new reader ig large =>
    refine ⟨?_, ?_, ?_⟩
    · have hp : (s.step l x u (.new reader ig large)).users.Perm (s.floats.length :: s.users) := by
        show ((s.its ++ [_]).map timerArr ++ (s.pool ++ s.held)).Perm _
        rw [List.map_append, List.append_assoc]
        exact List.perm_middle
      rw [hp.nodup_iff, List.nodup_cons]
      exact ⟨fun hc => Nat.lt_irrefl _ (h.bound _ hc), h.once⟩
    · intro a ha
      show a < (s.floats ++ [_]).length
      have hm : a ∈ s.users ∨ a = s.floats.length := by
        have ha' : a ∈ (s.its ++ [_]).map timerArr ++ (s.pool ++ s.held) := ha
        simp only [List.map_append, List.mem_append, List.map_cons, List.map_nil, List.mem_singleton] at ha'
        rcases ha' with (h' | h') | h'
        · exact .inl (List.mem_append_left _ h')
        · exact .inr h'
        · exact .inl (List.mem_append_right _ (List.mem_append.mpr h'))
      simp only [List.length_append, List.length_cons, List.length_nil]
      rcases hm with h' | h'
      · have := h.bound a h'
        omega
      · omega
    · intro it hit
      have hit' : it ∈ s.its ++ [_] := hit
      rw [List.mem_append, List.mem_singleton] at hit'
      rcases hit' with h' | rfl
      · exact h.sound it h'
      · refine ⟨⟨?_, ?_⟩, ?_⟩
        · intro i t hi
          simp at hi
        · intro i j t t' hi
          simp at hi
        · exact ⟨fun _ t ht => (by cases ht), fun _ t ht => (by cases ht)⟩
  | next k c =>
    simp only [Sys.step]
    cases hk : s.its[k]? with
    | none => exact h
    | some it =>
      obtain ⟨_, h2, h3, _⟩ := next_run l x u h hk c
      have hp := users_perm hk
      obtain ⟨q1, q2⟩ := h2.apart ((s.its.eraseIdx k).map timerArr) (hp.nodup_iff.mp h.once) fun a ha => h.bound a (hp.mem_iff.mpr ha)
      have hb := back_perm hk (next l x u c (s.world it)).2
      exact ⟨hb.nodup_iff.mpr q1, fun a ha => q2 a (hb.mem_iff.mp ha), sound_set h.sound h3⟩
  | reset k reader =>
    simp only [Sys.step]
    cases hk : s.its[k]? with
    | none => exact h
    | some it =>
      have hs := h.sound it (List.mem_of_getElem? hk)
      have hp := users_perm hk
      have hb : (s.back k (s.world (it.reset reader))).users.Perm _ := back_perm hk (s.world (it.reset reader))
      have hpp := hb.trans hp.symm
      refine ⟨hpp.nodup_iff.mpr h.once, fun a ha => h.bound a (hpp.mem_iff.mp ha), sound_set h.sound ⟨⟨hs.1.bound, hs.1.apart⟩, ?_⟩⟩
      exact ⟨fun _ t ht => (by cases ht), fun _ t ht => (by cases ht)⟩
  | close k =>
    simp only [Sys.step]
    cases hk : s.its[k]? with
    | none => exact h
    | some it =>
      have hs := h.sound it (List.mem_of_getElem? hk)
      have htv : it.close.timerValues = it.timerValues := by
        unfold Iter.close
        split <;> rfl
      have hp := users_perm hk
      have hb : (s.back k (s.world it.close)).users.Perm _ := back_perm hk (s.world it.close)
      have hpp : (s.back k (s.world it.close)).users.Perm s.users := by
        refine hb.trans ?_
        show (it.close.timerValues.arr :: _).Perm _
        rw [htv]
        exact hp.symm
      refine ⟨hpp.nodup_iff.mpr h.once, fun a ha => h.bound a (hpp.mem_iff.mp ha), sound_set h.sound ?_⟩
      unfold Iter.close
      split
      · exact hs
      · refine ⟨⟨?_, ?_⟩, ?_⟩
        · intro i t hi
          simp at hi
        · intro i j t t' hi
          simp at hi
        · exact ⟨fun _ t ht => (by cases ht), fun _ t ht => (by cases ht)⟩
  | put a =>
    have ha' : a ∈ s.held := ha
    have hp : (s.step l x u (.put a)).users.Perm s.users := by
      refine List.Perm.append_left _ ?_
      show (a :: s.pool ++ s.held.erase a).Perm (s.pool ++ s.held)
      refine List.Perm.trans ?_ ((List.perm_cons_erase ha').symm.append_left s.pool)
      exact List.perm_middle.symm
    exact ⟨hp.nodup_iff.mpr h.once, fun b hb => h.bound b (hp.mem_iff.mp hb), h.sound⟩
  | get i =>
    simp only [Sys.step]
    cases hi : s.pool[i]? with
    | none => exact h
    | some a =>
      simp only
      have hp : (s.its.map timerArr ++ (s.pool.eraseIdx i ++ a :: s.held)).Perm s.users := by
        refine List.Perm.append_left _ ?_
        refine List.perm_middle.trans ?_
        exact (erase_perm hi).symm.append_right _
      exact ⟨hp.nodup_iff.mpr h.once, fun b hb => h.bound b (hp.mem_iff.mp hb), h.sound⟩
  | write a i v =>
    refine ⟨h.once, fun b hb => ?_, h.sound⟩
    show b < (s.floats.put a i v).length
    rw [Heap.put, List.length_set]
    exact h.bound b hb

theorem ok_reach {s : Sys} (h : Reach l x u s) : Ok s := by
  induction h with
  | start => exact ⟨by simp [Sys.users], by simp [Sys.users], by simp⟩
  | step _ ha ih => exact ok_step l x u ih ha

/-! ### C104 -/

/-- No array of floats has two users: each is that of one iterator, or in the pool once, or taken from it once. -/
theorem C104_one_holder {s : Sys} (h : Reach l x u s) : (s.its.map timerArr ++ (s.pool ++ s.held)).Nodup := (ok_reach l x u h).once

/-- An array comes from the pool only for more values than the size for large ones: with so many values or fewer there is none to be given
back. -/
theorem C104_large_only {s : Sys} (h : Reach l x u s) {k : Nat} {it : Iter} (hk : s.its[k]? = some it) {a : Nat} (ha : it.lent = some a) :
    ∃ t, it.metric.timer = some t ∧ t.arr = a ∧ it.largeFloatsSize < t.len := by
  have hs := (ok_reach l x u h).sound it (List.mem_of_getElem? hk)
  unfold Iter.lent at ha
  split at ha
  · rename_i hp
    cases ht : it.metric.timer with
    | none => rw [ht] at ha; simp at ha
    | some t =>
      rw [ht] at ha
      exact ⟨t, rfl, by simpa using ha, hs.2.2 hp t ht⟩
  · cases ha

/-- `Next` answers, and the iterator then shows, what an iterator does that makes new values for each message. -/
theorem C104_next {s : Sys} (h : Reach l x u s) (k : Nat) (c : Pick) :
    s.answer l x u k c = (s.see k).map (fun v => (MP.next l x u v).1) ∧
    (s.step l x u (.next k c)).see k = (s.see k).map fun v => (MP.next l x u v).2 := by
  unfold Sys.answer
  simp only [Sys.see, Sys.step]
  cases hk : s.its[k]? with
  | none => simp [hk]
  | some it =>
    have hlt : k < s.its.length := (List.getElem?_eq_some_iff.mp hk).1
    obtain ⟨h1, _⟩ := next_run l x u (ok_reach l x u h) hk c
    refine ⟨?_, ?_⟩
    · simp only [Option.map_some, h1]
    · show (((s.its.set k _)[k]?).map _) = _
      rw [List.getElem?_set_self hlt]
      simp only [Option.map_some, h1]
      rfl

/-- So do `Reset` and `Close`. -/
theorem C104_reset (s : Sys) (k : Nat) (reader : Bytes) :
    (s.step l x u (.reset k reader)).see k = (s.see k).map fun v => v.reset reader := by
  simp only [Sys.see, Sys.step]
  cases hk : s.its[k]? with
  | none => simp [hk]
  | some it =>
    have hlt : k < s.its.length := (List.getElem?_eq_some_iff.mp hk).1
    rw [List.getElem?_set_self hlt]
    rfl

theorem C104_close (s : Sys) (k : Nat) : (s.step l x u (.close k)).see k = (s.see k).map fun v => v.close := by
  simp only [Sys.see, Sys.step]
  cases hk : s.its[k]? with
  | none => simp [hk]
  | some it =>
    have hlt : k < s.its.length := (List.getElem?_eq_some_iff.mp hk).1
    rw [List.getElem?_set_self hlt]
    simp only [Option.map_some, Option.some.injEq]
    unfold Iter.close MP.Iter.close
    cases hc : it.closed with
    | true =>
      have : (it.see s.floats).closed = true := hc
      rw [this]; rfl
    | false =>
      have : (it.see s.floats).closed = false := hc
      rw [this]; rfl

/-- The array that comes with the metric of an iterator, once `Next` has looked for a message, has been taken from the pool: it is not in
the pool and no iterator uses it for itself. -/
theorem C104_lent {s : Sys} (h : Reach l x u s) {k : Nat} {v : MP.Iter} (hv : s.see k = some v) (he : v.base.err = none) (hc : v.closed = false)
    (c : Pick) {it : Iter} (hi : (s.step l x u (.next k c)).its[k]? = some it) {a : Nat} (ha : it.lent = some a) :
    a ∈ (s.step l x u (.next k c)).held ∧ a ∉ (s.step l x u (.next k c)).pool ∧
      ∀ i ∈ (s.step l x u (.next k c)).its, i.timerValues.arr ≠ a := by
  have hok := ok_step l x u (ok_reach l x u h) (a := .next k c) trivial
  have hm : a ∈ (s.step l x u (.next k c)).held := by
    cases hk : s.its[k]? with
    | none => rw [Sys.see, hk] at hv; simp at hv
    | some it0 =>
      rw [Sys.see, hk] at hv
      simp only [Option.map_some, Option.some.injEq] at hv
      subst hv
      have hlt : k < s.its.length := (List.getElem?_eq_some_iff.mp hk).1
      obtain ⟨_, _, _, h4⟩ := next_run l x u (ok_reach l x u h) hk c
      simp only [Sys.step, hk] at hi ⊢
      have hi' : (s.its.set k (next l x u c (s.world it0)).2.it)[k]? = some it := hi
      rw [List.getElem?_set_self hlt] at hi'
      simp only [Option.some.injEq] at hi'
      exact h4 he hc a (by rw [hi']; exact ha)
  have hn := hok.once
  rw [Sys.users, List.nodup_append] at hn
  obtain ⟨_, hn2, hn3⟩ := hn
  rw [List.nodup_append] at hn2
  refine ⟨hm, fun hp => hn2.2.2 a hp a hm rfl, ?_⟩
  intro i hi' e
  exact hn3 a (List.mem_map.mpr ⟨i, hi', e⟩) a (List.mem_append_right _ hm) rfl

theorem see_congr {it : Iter} {f f' : Heap Wire.F64} (h : ∀ t, it.metric.timer = some t → f'.array t.arr = f.array t.arr) :
    it.see f' = it.see f := by
  unfold Iter.see MetricRef.see
  rw [readOpt_congr it.metric.timer h]

/-- What iterator `k` shows, and which array it has lent, is not changed by one thing done elsewhere. -/
theorem elsewhere_step {s : Sys} (h : Ok s) {k : Nat} {it : Iter} (hk : s.its[k]? = some it) (hl : ∀ a, it.lent = some a → a ∈ s.held)
    {act : Act} (hm : s.may act) (he : act.elsewhere k it.lent) :
    (s.step l x u act).its[k]? = some it ∧ (∀ a, it.lent = some a → a ∈ (s.step l x u act).held) ∧
    it.see (s.step l x u act).floats = it.see s.floats := by
  have hlt : k < s.its.length := (List.getElem?_eq_some_iff.mp hk).1
  have hsound := h.sound it (List.mem_of_getElem? hk)
  -- the array with the values of the timer is in use by `k`, or has been taken
  have hwhere : ∀ t, it.metric.timer = some t → t.arr = it.timerValues.arr ∨ (it.lent = some t.arr ∧ t.arr ∈ s.held) := by
    intro t ht
    cases hp : it.metric.pooled with
    | false => exact .inl (hsound.2.1 hp t ht)
    | true =>
      have : it.lent = some t.arr := by rw [Iter.lent, hp, ht]; rfl
      exact .inr ⟨this, hl _ this⟩
  have hbound : ∀ t, it.metric.timer = some t → t.arr < s.floats.length := by
    intro t ht
    rcases hwhere t ht with e | ⟨_, e⟩
    · rw [e]
      exact h.bound _ (List.mem_append_left _ (List.mem_map.mpr ⟨it, List.mem_of_getElem? hk, rfl⟩))
    · exact h.bound _ (List.mem_append_right _ (List.mem_append_right _ e))
  have hn := h.once
  rw [Sys.users, List.nodup_append] at hn
  obtain ⟨hn1, hn2, hn3⟩ := hn
  rw [List.nodup_append] at hn2
  have hnotpool : ∀ t, it.metric.timer = some t → t.arr ∉ s.pool := by
    intro t ht hc
    rcases hwhere t ht with e | ⟨_, e⟩
    · exact hn3 _ (List.mem_map.mpr ⟨it, List.mem_of_getElem? hk, rfl⟩) _ (List.mem_append_left _ hc) e.symm
    · exact hn2.2.2 _ hc _ e rfl
  have hnotother : ∀ t, it.metric.timer = some t → ∀ (j : Nat) (it' : Iter), j ≠ k → s.its[j]? = some it' → t.arr ≠ it'.timerValues.arr := by
    intro t ht j it' hj hj' e
    have hmem : it'.timerValues.arr ∈ s.its.map timerArr := List.mem_map.mpr ⟨it', List.mem_of_getElem? hj', rfl⟩
    rcases hwhere t ht with e' | ⟨_, e'⟩
    · have h1 : (s.its.map timerArr)[k]? = some it.timerValues.arr := by rw [List.getElem?_map, hk]; rfl
      have h2 : (s.its.map timerArr)[j]? = some it.timerValues.arr := by
        rw [List.getElem?_map, hj']
        show some it'.timerValues.arr = _
        rw [← e, e']
      have hlt' : j < (s.its.map timerArr).length := (List.getElem?_eq_some_iff.mp h2).1
      exact hj ((List.getElem?_inj hlt' hn1).mp (h2.trans h1.symm))
    · exact hn3 _ hmem _ (List.mem_append_right _ e') e.symm
  cases act with
  | new reader ig large =>
    refine ⟨?_, hl, see_congr fun t ht => array_append (hbound t ht) _⟩
    show (s.its ++ [_])[k]? = _
    rw [List.getElem?_append_left hlt]
    exact hk
  | next j c =>
    have hj : j ≠ k := he
    simp only [Sys.step]
    cases hjs : s.its[j]? with
    | none => exact ⟨hk, hl, rfl⟩
    | some it' =>
      obtain ⟨_, h2, _⟩ := next_run l x u h hjs c
      refine ⟨?_, fun a ha => h2.held a (hl a ha), see_congr fun t ht => ?_⟩
      · show (s.its.set j _)[k]? = _
        rw [List.getElem?_set_ne hj]
        exact hk
      · exact h2.kept t.arr (hbound t ht) (hnotpool t ht) (hnotother t ht j it' hj hjs)
  | reset j reader =>
    have hj : j ≠ k := he
    simp only [Sys.step]
    cases hjs : s.its[j]? with
    | none => exact ⟨hk, hl, rfl⟩
    | some it' => exact ⟨by show (s.its.set j _)[k]? = _; rw [List.getElem?_set_ne hj]; exact hk, hl, rfl⟩
  | close j =>
    have hj : j ≠ k := he
    simp only [Sys.step]
    cases hjs : s.its[j]? with
    | none => exact ⟨hk, hl, rfl⟩
    | some it' => exact ⟨by show (s.its.set j _)[k]? = _; rw [List.getElem?_set_ne hj]; exact hk, hl, rfl⟩
  | put a =>
    have hne : it.lent ≠ some a := he
    refine ⟨hk, fun b hb => ?_, rfl⟩
    show b ∈ s.held.erase a
    have hba : b ≠ a := fun e => hne (by rw [← e]; exact hb)
    exact (List.mem_erase_of_ne hba).mpr (hl b hb)
  | get i =>
    simp only [Sys.step]
    cases hi : s.pool[i]? with
    | none => exact ⟨hk, hl, rfl⟩
    | some a => exact ⟨hk, fun b hb => List.mem_cons_of_mem _ (hl b hb), rfl⟩
  | write a i v =>
    have hne : it.lent ≠ some a := he
    have ha : a ∈ s.held := hm
    refine ⟨hk, hl, see_congr fun t ht => ?_⟩
    show Heap.array (s.floats.set a _) t.arr = _
    refine array_set_other (fun e => ?_) _
    rcases hwhere t ht with e' | ⟨e', _⟩
    · exact hn3 _ (List.mem_map.mpr ⟨it, List.mem_of_getElem? hk, rfl⟩) _ (List.mem_append_right _ ha) (e.trans e').symm
    · exact hne (e ▸ e')

/-- What an iterator shows stays, whatever other iterators and other users of the pool do, until it is used again or its array is given back
or written by who has it. -/
theorem C104_stays {s : Sys} (h : Reach l x u s) {k : Nat} {it : Iter} (hk : s.its[k]? = some it) (hl : ∀ a, it.lent = some a → a ∈ s.held)
    (acts : List Act) (hm : s.mayAll l x u acts) (he : ∀ a ∈ acts, a.elsewhere k it.lent) : (s.run l x u acts).see k = s.see k := by
  induction acts generalizing s with
  | nil => rfl
  | cons a as ih =>
    obtain ⟨h1, h2, h3⟩ := elsewhere_step l x u (ok_reach l x u h) hk hl hm.1 (he a (by simp))
    have := ih (.step h hm.1) h1 h2 hm.2 fun b hb => he b (by simp [hb])
    rw [Sys.run, this, Sys.see, Sys.see, h1, hk]
    simp only [Option.map_some, h3]

/-- A message with policies is shown as it was sent, from when `Next` has returned until the iterator is used again or its array given back,
whatever messages the iterator and others had before and have meanwhile. -/
theorem C104_message (L : Laws l) {s : Sys} (h : Reach l x u s) {k : Nat} {v : MP.Iter} (hv : s.see k = some v) {m : Sample} {pl : List StagedPolicies}
    {b r : Bytes} (hb : WItem l x u (.policies m pl) b) (hat : At v (b ++ r)) (c : Pick) :
    s.answer l x u k c = some true ∧
    ∃ it, (s.step l x u (.next k c)).its[k]? = some it ∧
      ∀ acts, (s.step l x u (.next k c)).mayAll l x u acts → (∀ a ∈ acts, a.elsewhere k it.lent) →
        ∃ v', ((s.step l x u (.next k c)).run l x u acts).see k = some v' ∧ v'.metric = store m (drop v.metric) ∧ v'.policiesList = pl ∧
          v'.base = ⟨r, none⟩ := by
  obtain ⟨h1, h2⟩ := C104_next l x u h k c
  have e : MP.next l x u v = (true, { v with base := ⟨r, none⟩, metric := store m (drop v.metric), policiesList := pl }) :=
    nextLoop_policies L _ hb r v hat.1 hat.2
  rw [hv] at h1 h2
  simp only [Option.map_some, e] at h1 h2
  refine ⟨h1, ?_⟩
  cases hi : (s.step l x u (.next k c)).its[k]? with
  | none => rw [Sys.see, hi] at h2; simp at h2
  | some it =>
    refine ⟨it, rfl, fun acts hm he => ?_⟩
    have hb' := hat.1
    have hs := C104_stays l x u (.step (a := .next k c) h trivial) hi (fun a ha => (C104_lent l x u h hv (by rw [hat.1]) hat.2 c hi ha).1) acts hm he
    exact ⟨_, hs.trans h2, rfl, rfl, rfl⟩

/-! ### Iterators do not notice each other -/

theorem next_like {v v' : MP.Iter} (h : Like v v') : (MP.next l x u v).1 = (MP.next l x u v').1 ∧ Like (MP.next l x u v).2 (MP.next l x u v').2 ∧
    (v.base.err = none → v.closed = false → (MP.next l x u v).2 = (MP.next l x u v').2) := by
  obtain ⟨b, ig, cl, ⟨ty, id, cv, tv, gv⟩, pl⟩ := v
  obtain ⟨b', ig', cl', ⟨ty', id', cv', tv', gv'⟩, pl'⟩ := v'
  obtain ⟨h1, h2, h3, h4, h5, h6, h7, h8⟩ := h
  simp only at h1 h2 h3 h4 h5 h6 h7 h8
  subst h1 h2 h3 h4 h5 h6 h7 h8
  by_cases hs : b.err.isSome || cl
  · have e : ∀ f (v : MP.Iter), v.base = b → v.closed = cl → MP.nextLoop l x u (f + 1) v = (false, v) := by
      intro f v hb hc
      have : (v.base.err.isSome || v.closed) = true := by rw [hb, hc]; exact hs
      simp only [MP.nextLoop, this, if_true]
    rw [MP.next, MP.next, e _ _ rfl rfl, e _ _ rfl rfl]
    refine ⟨rfl, ⟨rfl, rfl, rfl, rfl, rfl, rfl, rfl, rfl⟩, fun he hc => ?_⟩
    have he' : b.err = none := he
    have hc' : cl = false := hc
    rw [he', hc'] at hs
    simp at hs
  · have e : MP.next l x u ⟨b, ig, cl, ⟨ty, id, cv, tv, gv⟩, pl⟩ = MP.next l x u ⟨b, ig, cl, ⟨ty, id, cv, tv', gv⟩, pl⟩ := by
      simp only [MP.next, MP.nextLoop, if_neg hs]
    rw [e]
    exact ⟨rfl, ⟨rfl, rfl, rfl, rfl, rfl, rfl, rfl, rfl⟩, fun _ _ => rfl⟩

theorem like_see (it : Iter) (f f' : Heap Wire.F64) : Like (it.see f) (it.see f') := ⟨rfl, rfl, rfl, rfl, rfl, rfl, rfl, rfl⟩

theorem Like.trans {v v' v'' : MP.Iter} (h : Like v v') (h' : Like v' v'') : Like v v'' := by
  obtain ⟨a, b, c, d, e, f, g, i⟩ := h
  obtain ⟨a', b', c', d', e', f', g', i'⟩ := h'
  exact ⟨a.trans a', b.trans b', c.trans c', d.trans d', e.trans e', f.trans f', g.trans g', i.trans i'⟩

theorem alone_step {s : Sys} (h : Reach l x u s) {k : Nat} {v v' : MP.Iter} (hv : s.see k = some v) (hl : Like v v') (a : Act) :
    ∃ w, (s.step l x u a).see k = some w ∧ Like w (alone l x u k v' a) := by
  cases hk : s.its[k]? with
  | none => rw [Sys.see, hk] at hv; simp at hv
  | some it =>
    have hlt : k < s.its.length := (List.getElem?_eq_some_iff.mp hk).1
    have hv' : it.see s.floats = v := by rw [Sys.see, hk] at hv; simpa using hv
    have same : ∀ s' : Sys, s'.its[k]? = some it → ∃ w, s'.see k = some w ∧ Like w v' := by
      intro s' hk'
      refine ⟨it.see s'.floats, by rw [Sys.see, hk']; rfl, (like_see it _ s.floats).trans ?_⟩
      rw [hv']; exact hl
    cases a with
    | new reader ig large =>
      exact same _ (by show (s.its ++ [_])[k]? = _; rw [List.getElem?_append_left hlt]; exact hk)
    | next j c =>
      by_cases hj : j = k
      · subst hj
        obtain ⟨_, h2⟩ := C104_next l x u h j c
        rw [hv] at h2
        refine ⟨_, h2, ?_⟩
        simp only [alone, if_true]
        exact (next_like l x u hl).2.1
      · simp only [alone, if_neg hj, Sys.step]
        cases hjs : s.its[j]? with
        | none => exact same s hk
        | some it' => exact same _ (by show (s.its.set j _)[k]? = _; rw [List.getElem?_set_ne hj]; exact hk)
    | reset j reader =>
      by_cases hj : j = k
      · subst hj
        have h2 := C104_reset l x u s j reader
        rw [hv] at h2
        refine ⟨_, h2, ?_⟩
        simp only [alone, if_true]
        obtain ⟨h1, h2, h3, h4, h5, h6, h7, h8⟩ := hl
        exact ⟨rfl, h2, rfl, h4, rfl, rfl, rfl, rfl⟩
      · simp only [alone, if_neg hj, Sys.step]
        cases hjs : s.its[j]? with
        | none => exact same s hk
        | some it' => exact same _ (by show (s.its.set j _)[k]? = _; rw [List.getElem?_set_ne hj]; exact hk)
    | close j =>
      by_cases hj : j = k
      · subst hj
        have h2 := C104_close l x u s j
        rw [hv] at h2
        refine ⟨_, h2, ?_⟩
        simp only [alone, if_true]
        have hc : v.closed = v'.closed := hl.2.2.1
        unfold MP.Iter.close
        rw [hc]
        split
        · exact hl
        · exact ⟨rfl, hl.2.1, rfl, rfl, rfl, rfl, rfl, rfl⟩
      · simp only [alone, if_neg hj, Sys.step]
        cases hjs : s.its[j]? with
        | none => exact same s hk
        | some it' => exact same _ (by show (s.its.set j _)[k]? = _; rw [List.getElem?_set_ne hj]; exact hk)
    | put a => exact same _ hk
    | get i =>
      simp only [alone, Sys.step]
      cases hi : s.pool[i]? with
      | none => exact same s hk
      | some a => exact same _ hk
    | write a i v => exact same _ hk

theorem alone_run {k : Nat} (acts : List Act) : ∀ {s : Sys} {v v' : MP.Iter}, Reach l x u s → s.see k = some v → Like v v' → s.mayAll l x u acts →
    Reach l x u (s.run l x u acts) ∧ ∃ w, (s.run l x u acts).see k = some w ∧ Like w (acts.foldl (alone l x u k) v') := by
  induction acts with
  | nil => exact fun h hv hl _ => ⟨h, _, hv, hl⟩
  | cons a as ih =>
    intro s v v' h hv hl hm
    obtain ⟨w, h1, h2⟩ := alone_step l x u h hv hl a
    exact ih (.step h hm.1) h1 h2 hm.2

/-- In whatever order iterators that share a pool are used, and whatever is given back to the pool, taken from it and written meanwhile, each
answers and shows at each message what it would if it were alone. -/
theorem C104_alone {s : Sys} (h : Reach l x u s) {k : Nat} {v : MP.Iter} (hv : s.see k = some v) (acts : List Act) (hm : s.mayAll l x u acts)
    (c : Pick) (w : MP.Iter) (hw : w = acts.foldl (alone l x u k) v) :
    (s.run l x u acts).answer l x u k c = some (MP.next l x u w).1 ∧
    (w.base.err = none → w.closed = false → ((s.run l x u acts).step l x u (.next k c)).see k = some (MP.next l x u w).2) ∧
    ∃ w', (s.run l x u acts).see k = some w' ∧ Like w' w := by
  subst hw
  obtain ⟨h1, w', h2, h3⟩ := alone_run l x u acts (v' := v) h hv ⟨rfl, rfl, rfl, rfl, rfl, rfl, rfl, rfl⟩ hm
  obtain ⟨q1, q2⟩ := C104_next l x u h1 k c
  obtain ⟨n1, _, n3⟩ := next_like l x u h3
  rw [h2] at q1 q2
  refine ⟨?_, fun he hc => ?_, w', h2, h3⟩
  · rw [q1, ← n1]; rfl
  · rw [q2, Option.map_some, n3 (h3.1 ▸ he) (h3.2.2.1 ▸ hc)]

end

/-! ### Examples -/

/-- A timer with more values than iterators have room for, a counter with two staged policies, a timer with few values and one with other policies. -/
def exReader (v : Wire.F64) : Bytes :=
  [(⟨false, .timer ⟨bs "t", List.replicate 17 v⟩, exPolicies⟩ : Encoded), ⟨false, .counter ⟨bs "foo", 5⟩, exPolicies⟩,
   ⟨false, .timer ⟨bs "u", [v, v, v]⟩, [{ cutoverNanos := 7, policies := [⟨⟨⟨7000000000, 1⟩, 5⟩, 6⟩] }]⟩].flatMap fun m =>
    encodeMetricWithPolicies std exU m.isNil m.policies m.sample

/-- Two iterators that share a pool and keep arrays of at most 16 values. -/
def exActs : List Act := [.new (exReader 1) false 16, .new (exReader 2) false 16, .next 0 {}, .next 1 {}]

def exShow (s : Sys) (k : Nat) : Option (MetricUnion × List StagedPolicies) := (s.see k).map fun v => (v.metric, v.policiesList)

theorem exReach : ∀ {s : Sys}, Reach std unitX exU s → ∀ {acts : List Act}, s.mayAll std unitX exU acts → Reach std unitX exU (s.run std unitX exU acts)
  | _, h, [], _ => h
  | _, h, _ :: _, hm => exReach (.step h hm.1) hm.2

/-- The first messages: each has an array of its own from the pool (0 and 1 are those of the iterators). -/
example : let s := Sys.run std unitX exU {} exActs
    Reach std unitX exU s ∧ s.held = [3, 2] ∧ s.its.map (·.lent) = [some 2, some 3] ∧
    exShow s 0 = some ({ type := TimerType, id := bs "t", batchTimerVal := List.replicate 17 1 }, exPolicies) ∧
    exShow s 1 = some ({ type := TimerType, id := bs "t", batchTimerVal := List.replicate 17 2 }, exPolicies) :=
  ⟨exReach .start ⟨trivial, trivial, trivial, trivial, trivial⟩, by decide +kernel, by decide +kernel, by decide +kernel, by decide +kernel⟩

/-- The second and third messages: the counter, then the timer with the array of the iterator, and the policies in the arrays of the policies before. -/
example : let s := Sys.run std unitX exU {} (exActs ++ [.next 0 {}, .next 0 {}])
    exShow s 0 = some ({ type := TimerType, id := bs "u", counterVal := 5, batchTimerVal := [1, 1, 1] },
      [{ cutoverNanos := 7, policies := [⟨⟨⟨7000000000, 1⟩, 5⟩, 6⟩] }]) ∧
    exShow s 1 = exShow (Sys.run std unitX exU {} exActs) 1 ∧ s.its.map (·.lent) = [none, some 3] := by decide +kernel

/-- What is done with the first iterator, giving back the array of its timer and using it elsewhere does not change what the second shows. -/
example : let s := Sys.run std unitX exU {} exActs
    let acts : List Act := [.put 2, .next 0 {}, .get 0, .write 2 0 9, .close 0]
    s.mayAll std unitX exU acts ∧ (∀ a ∈ acts, a.elsewhere 1 (some 3)) ∧ exShow (s.run std unitX exU acts) 1 = exShow s 1 := by
  refine ⟨⟨?_, trivial, trivial, ?_, trivial, trivial⟩, ?_, by decide +kernel⟩
  · show 2 ∈ (Sys.run std unitX exU {} exActs).held
    decide +kernel
  · show 2 ∈ (Sys.run std unitX exU (Sys.run std unitX exU {} exActs) [.put 2, .next 0 {}, .get 0]).held
    decide +kernel
  · intro a ha
    simp only [List.mem_cons, List.not_mem_nil, or_false] at ha
    rcases ha with rfl | rfl | rfl | rfl | rfl <;> simp [Act.elsewhere]

/-- The condition is needed: an array that was given back shows what its next holder puts there. -/
example : let s := Sys.run std unitX exU {} exActs
    exShow (s.run std unitX exU [.put 2, .reset 1 (exReader 8), .next 1 { slot := some 0 }]) 0 =
      some ({ type := TimerType, id := bs "t", batchTimerVal := List.replicate 17 8 }, exPolicies) := by decide +kernel

end Verif.MPMem
