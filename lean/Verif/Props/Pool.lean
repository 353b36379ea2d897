import Verif.Model.Pool
/-
C91: a pooled encoder or iterator has one user at a time, who finds in it only what they put in.
-/
namespace Verif.Pools

/-- An object in the hands of a user, and what the user has put into it since they got it. -/
structure Handle where
  user : Nat
  obj : Nat
  put : Bytes
  deriving DecidableEq

/-- What the users see: the objects and who has which. -/
structure Sys where
  world : World
  held : List Handle

/-- What users do: they reset what they get, use it, close it, and then leave it alone, except that they may close it again as long
as it has not been handed out anew (`again`). -/
inductive Do (k : Kind) (again : Bool) : Sys → Sys → Prop where
  | get (s u n d) : Do k again s ⟨(s.world.get n).1.reset (s.world.get n).2 d, ⟨u, (s.world.get n).2, d⟩ :: s.held⟩
  | write {w pre h post} (d) : Do k again ⟨w, pre ++ h :: post⟩ ⟨w.write h.obj d, pre ++ { h with put := h.put ++ d } :: post⟩
  | reset {w pre h post} (d) : Do k again ⟨w, pre ++ h :: post⟩ ⟨w.reset h.obj d, pre ++ { h with put := d } :: post⟩
  | close {w pre h post} (kept) : Do k again ⟨w, pre ++ h :: post⟩ ⟨w.close k h.obj kept, pre ++ post⟩
  | closeAgain {w held o} (kept) : again = true → o < w.next → (∀ h ∈ held, h.obj ≠ o) → Do k again ⟨w, held⟩ ⟨w.close k o kept, held⟩

/-- What can come about; at first there is nothing. -/
inductive Reach (k : Kind) (again : Bool) : Sys → Prop where
  | init (objs) : Reach k again ⟨⟨objs, 0, []⟩, []⟩
  | step {s s'} : Reach k again s → Do k again s s' → Reach k again s'

/-- What holds at any time: what is in use is what its user made of it, everything else is closed if there is a flag, nothing is
in the pool twice or in the pool and in use, and nothing is in use twice. -/
structure Inv (k : Kind) (s : Sys) : Prop where
  held : (s.held.map (·.obj)).Nodup
  pool : s.world.pool.Nodup
  apart : ∀ h ∈ s.held, h.obj ∉ s.world.pool
  known : (∀ h ∈ s.held, h.obj < s.world.next) ∧ ∀ o ∈ s.world.pool, o < s.world.next
  content : ∀ h ∈ s.held, s.world.objs h.obj = ⟨false, h.put⟩
  closed : k.flagged = true → ∀ o < s.world.next, (∀ h ∈ s.held, h.obj ≠ o) → (s.world.objs o).closed = true

theorem upd_same (w : World) (o : Nat) (f : Obj → Obj) : (w.upd o f).objs o = f (w.objs o) := by simp [World.upd]

theorem upd_other (w : World) {o x : Nat} (f : Obj → Obj) (h : x ≠ o) : (w.upd o f).objs x = w.objs x := by simp [World.upd, h]

theorem get_inv {k : Kind} {s : Sys} (hi : Inv k s) (n : Nat) :
    (∀ h ∈ s.held, h.obj ≠ (s.world.get n).2) ∧ (s.world.get n).2 ∉ (s.world.get n).1.pool ∧ (s.world.get n).2 < (s.world.get n).1.next ∧
    (s.world.get n).1.pool.Nodup ∧ (∀ o ∈ (s.world.get n).1.pool, o ∈ s.world.pool) ∧ s.world.next ≤ (s.world.get n).1.next ∧
    (∀ o, o ≠ (s.world.get n).2 → (s.world.get n).1.objs o = s.world.objs o ∧ (o < (s.world.get n).1.next → o < s.world.next)) := by
  unfold World.get
  split
  · rename_i o ho
    have hmem := List.mem_of_getElem? ho
    refine ⟨fun h hh he => hi.apart h hh (he ▸ hmem), ?_, hi.known.2 o hmem, hi.pool.sublist (List.eraseIdx_sublist _ _),
      fun x hx => List.mem_of_mem_eraseIdx hx, Nat.le_refl _, fun x _ => ⟨rfl, fun h => h⟩⟩
    intro hin
    obtain ⟨hlt, he⟩ := List.getElem?_eq_some_iff.mp ho
    have := hi.pool
    rw [List.mem_eraseIdx_iff_getElem] at hin
    obtain ⟨j, hj, hjn, hje⟩ := hin
    exact hjn ((List.getElem_inj this).mp (hje.trans he.symm))
  · refine ⟨fun h hh he => ?_, fun hin => ?_, Nat.lt_succ_self _, hi.pool, fun x hx => hx, Nat.le_succ _, fun x hx => ⟨upd_other s.world (fun _ => ⟨false, []⟩) (o := s.world.next) hx, ?_⟩⟩
    · have := hi.known.1 h hh
      rw [he] at this
      exact absurd this (Nat.lt_irrefl _)
    · exact absurd (hi.known.2 _ hin) (Nat.lt_irrefl _)
    · intro h
      exact Nat.lt_of_le_of_ne (Nat.lt_succ_iff.mp h) hx

theorem nodup_middle {pre post : List Handle} {h : Handle} (hn : ((pre ++ h :: post).map (·.obj)).Nodup) :
    (∀ x ∈ pre ++ post, x.obj ≠ h.obj) ∧ ((pre ++ post).map (·.obj)).Nodup := by
  have hp : ((pre ++ h :: post).map (·.obj)).Perm ((h :: (pre ++ post)).map (·.obj)) := List.perm_middle.map _
  have hn' := List.nodup_cons.mp (hp.nodup_iff.mp hn)
  exact ⟨fun x hx he => hn'.1 (List.mem_map.mpr ⟨x, hx, he⟩), hn'.2⟩

/-- Changing what the user of one object has put in, along with the object. -/
theorem change_inv {k : Kind} {w : World} {pre post : List Handle} {h : Handle} (hi : Inv k ⟨w, pre ++ h :: post⟩) (f : Obj → Obj)
    (c : Bytes) (hf : f ⟨false, h.put⟩ = ⟨false, c⟩) : Inv k ⟨w.upd h.obj f, pre ++ { h with put := c } :: post⟩ := by
  obtain ⟨hne, _⟩ := nodup_middle hi.held
  have hm : ∀ x, x ∈ pre ++ { h with put := c } :: post → x = { h with put := c } ∨ x ∈ pre ++ post := by
    intro x hx
    rcases List.mem_append.mp hx with hx | hx
    · exact .inr (List.mem_append_left _ hx)
    · rcases List.mem_cons.mp hx with hx | hx
      · exact .inl hx
      · exact .inr (List.mem_append_right _ hx)
  have hold : ∀ x ∈ pre ++ post, x ∈ pre ++ h :: post := fun x hx => by
    rcases List.mem_append.mp hx with hx | hx
    · exact List.mem_append_left _ hx
    · exact List.mem_append_right _ (List.mem_cons_of_mem _ hx)
  have hself : h ∈ pre ++ h :: post := List.mem_append_right _ List.mem_cons_self
  refine ⟨?_, hi.pool, fun x hx => ?_, ⟨fun x hx => ?_, hi.known.2⟩, fun x hx => ?_, fun hk o ho hno => ?_⟩
  · simpa using hi.held
  · rcases hm x hx with rfl | hx
    · exact hi.apart h hself
    · exact hi.apart x (hold x hx)
  · rcases hm x hx with rfl | hx
    · exact hi.known.1 h hself
    · exact hi.known.1 x (hold x hx)
  · rcases hm x hx with rfl | hx
    · show (w.upd h.obj f).objs h.obj = _
      rw [upd_same, hi.content h hself, hf]
    · show (w.upd h.obj f).objs x.obj = _
      rw [upd_other _ _ (hne x hx)]
      exact hi.content x (hold x hx)
  · have hoh : o ≠ h.obj := fun he => hno { h with put := c } (List.mem_append_right _ List.mem_cons_self) he.symm
    show ((w.upd h.obj f).objs o).closed = true
    rw [upd_other _ _ hoh]
    refine hi.closed hk o ho fun x hx => ?_
    rcases List.mem_append.mp hx with hx | hx
    · exact hno x (List.mem_append_left _ hx)
    · rcases List.mem_cons.mp hx with rfl | hx
      · exact fun he => hoh he.symm
      · exact hno x (List.mem_append_right _ (List.mem_cons_of_mem _ hx))

theorem do_inv {k : Kind} {again : Bool} (hk : again = true → k.flagged = true) {s s' : Sys} (hd : Do k again s s') (hi : Inv k s) :
    Inv k s' := by
  cases hd with
  | get s u n d =>
    obtain ⟨h1, h2, h3, h4, h5, h6, h7⟩ := get_inv hi n
    refine ⟨List.nodup_cons.mpr ⟨fun hin => ?_, hi.held⟩, h4, fun h hh => ?_, ⟨fun h hh => ?_, fun o ho => Nat.lt_of_lt_of_le (hi.known.2 o (h5 o ho)) h6⟩, fun h hh => ?_, fun hk o ho hno => ?_⟩
    · obtain ⟨h, hh, he⟩ := List.mem_map.mp hin
      exact h1 h hh he
    · rcases List.mem_cons.mp hh with rfl | hh
      · exact h2
      · exact fun hin => hi.apart h hh (h5 _ hin)
    · rcases List.mem_cons.mp hh with rfl | hh
      · exact h3
      · exact Nat.lt_of_lt_of_le (hi.known.1 h hh) h6
    · rcases List.mem_cons.mp hh with rfl | hh
      · exact upd_same (s.world.get n).1 _ (fun _ => ⟨false, d⟩)
      · show ((s.world.get n).1.upd (s.world.get n).2 fun _ => ⟨false, d⟩).objs h.obj = _
        rw [upd_other _ _ (h1 h hh), (h7 _ (h1 h hh)).1]
        exact hi.content h hh
    · have hne : o ≠ (s.world.get n).2 := fun he => hno _ List.mem_cons_self he.symm
      show (((s.world.get n).1.upd (s.world.get n).2 fun _ => ⟨false, d⟩).objs o).closed = true
      rw [upd_other _ _ hne, (h7 _ hne).1]
      exact hi.closed hk o ((h7 _ hne).2 ho) fun h hh => hno h (List.mem_cons_of_mem _ hh)
  | write d => exact change_inv hi _ _ rfl
  | reset d => exact change_inv hi _ _ rfl
  | @close w pre h post kept =>
    obtain ⟨hne, hnd⟩ := nodup_middle hi.held
    have hself : h ∈ pre ++ h :: post := List.mem_append_right _ List.mem_cons_self
    have hold : ∀ x ∈ pre ++ post, x ∈ pre ++ h :: post := fun x hx => by
      rcases List.mem_append.mp hx with hx | hx
      · exact List.mem_append_left _ hx
      · exact List.mem_append_right _ (List.mem_cons_of_mem _ hx)
    have hc : (w.objs h.obj).closed = false := by
      have h0 : w.objs h.obj = ⟨false, h.put⟩ := hi.content h hself
      rw [h0]
    have hcl : w.close k h.obj kept = (w.upd h.obj fun x => ⟨k.flagged, if k.clears then [] else x.content⟩).put h.obj kept := by
      simp [World.close, hc]
    have hp : ∀ o, o ∈ (w.close k h.obj kept).pool → o = h.obj ∨ o ∈ w.pool := by
      intro o ho
      rw [hcl] at ho
      cases kept with
      | false => exact .inr ho
      | true => exact List.mem_cons.mp ho
    have ho : (w.close k h.obj kept).objs = (w.upd h.obj fun x => ⟨k.flagged, if k.clears then [] else x.content⟩).objs := by
      rw [hcl]; cases kept <;> rfl
    have hn : (w.close k h.obj kept).next = w.next := by rw [hcl]; cases kept <;> rfl
    refine ⟨hnd, ?_, fun x hx hin => ?_, ⟨fun x hx => ?_, fun o hop => ?_⟩, fun x hx => ?_, fun hfl o hlt hno => ?_⟩
    · show (w.close k h.obj kept).pool.Nodup
      rw [hcl]
      cases kept with
      | false => exact hi.pool
      | true => exact List.nodup_cons.mpr ⟨hi.apart h hself, hi.pool⟩
    · rcases hp _ hin with he | he
      · exact hne x hx he
      · exact hi.apart x (hold x hx) he
    · show x.obj < (w.close k h.obj kept).next
      rw [hn]
      exact hi.known.1 x (hold x hx)
    · show o < (w.close k h.obj kept).next
      rw [hn]
      rcases hp _ hop with rfl | he
      · exact hi.known.1 h hself
      · exact hi.known.2 o he
    · show (w.close k h.obj kept).objs x.obj = _
      rw [ho, upd_other _ _ (hne x hx)]
      exact hi.content x (hold x hx)
    · show ((w.close k h.obj kept).objs o).closed = true
      have hlt' : o < w.next := by have : o < (w.close k h.obj kept).next := hlt; rwa [hn] at this
      rw [ho]
      by_cases he : o = h.obj
      · subst he; rw [upd_same]; exact hfl
      · rw [upd_other _ _ he]
        refine hi.closed hfl o hlt' fun x hx => ?_
        rcases List.mem_append.mp hx with hx | hx
        · exact hno x (List.mem_append_left _ hx)
        · rcases List.mem_cons.mp hx with rfl | hx
          · exact fun h => he h.symm
          · exact hno x (List.mem_append_right _ hx)
  | @closeAgain w held o kept ha hlt hno =>
    have hfl := hk ha
    have hc := hi.closed hfl o hlt hno
    have : w.close k o kept = w := by
      simp only [World.close, hfl, Bool.true_and]
      exact if_pos hc
    rw [this]
    exact hi

theorem reach_inv {k : Kind} {again : Bool} (hk : again = true → k.flagged = true) {s : Sys} (hr : Reach k again s) : Inv k s := by
  induction hr with
  | init objs => exact ⟨List.nodup_nil, List.nodup_nil, fun _ h => (nomatch h), ⟨fun _ h => (nomatch h), fun _ h => (nomatch h)⟩, fun _ h => (nomatch h), fun _ _ h => (nomatch h)⟩
  | step _ hd ih => exact do_inv hk hd ih

/-- C91: an object with a `closed` flag, an encoder or a msgpack iterator, is in the hands of one user at a time, also if users close
it more than once, and its user finds in it exactly what they put in since they got it. -/
theorem C91_one_user (k : Kind) (hk : k = encoder ∨ k = iterator) {s : Sys} (hr : Reach k true s) :
    (∀ (i j : Nat) (a b : Handle), s.held[i]? = some a → s.held[j]? = some b → a.obj = b.obj → i = j) ∧
    (∀ h ∈ s.held, (s.world.objs h.obj).content = h.put ∧ (s.world.objs h.obj).closed = false ∧ h.obj ∉ s.world.pool) := by
  have hf : k.flagged = true := by rcases hk with rfl | rfl <;> rfl
  have hi := reach_inv (fun _ => hf) hr
  refine ⟨fun i j a b ha hb he => ?_, fun h hh => ⟨by rw [hi.content h hh], by rw [hi.content h hh], hi.apart h hh⟩⟩
  obtain ⟨hil, hia⟩ := List.getElem?_eq_some_iff.mp ha
  obtain ⟨hjl, hjb⟩ := List.getElem?_eq_some_iff.mp hb
  refine (List.getElem_inj (h₀ := by simpa using hil) (h₁ := by simpa using hjl) hi.held).mp ?_
  rw [List.getElem_map, List.getElem_map, hia, hjb]
  exact he

/-- C91 for any kind of object, provided nobody closes one twice.  Missing: closing twice, see `C91_violated`. -/
theorem C91_once_partial (k : Kind) {s : Sys} (hr : Reach k false s) :
    (∀ (i j : Nat) (a b : Handle), s.held[i]? = some a → s.held[j]? = some b → a.obj = b.obj → i = j) ∧
    (∀ h ∈ s.held, (s.world.objs h.obj).content = h.put ∧ h.obj ∉ s.world.pool) := by
  have hi := reach_inv (k := k) (fun h => by cases h) hr
  refine ⟨fun i j a b ha hb he => ?_, fun h hh => ⟨by rw [hi.content h hh], hi.apart h hh⟩⟩
  obtain ⟨hil, hia⟩ := List.getElem?_eq_some_iff.mp ha
  obtain ⟨hjl, hjb⟩ := List.getElem?_eq_some_iff.mp hb
  refine (List.getElem_inj (h₀ := by simpa using hil) (h₁ := by simpa using hjl) hi.held).mp ?_
  rw [List.getElem_map, List.getElem_map, hia, hjb]
  exact he

def noObjs : Nat → Obj := fun _ => ⟨false, []⟩

/-- Two users with an encoder each; a third one has closed theirs twice. -/
def exPools (k : Kind) : Sys :=
  let s0 : World := ⟨noObjs, 0, []⟩
  let s1 := (s0.get 0).1.reset 0 (bs "a")
  let s2 := (s1.close k 0 true).close k 0 true
  let s3 := (s2.get 0).1.reset (s2.get 0).2 (bs "b")
  let s4 := (s3.get 0).1.reset (s3.get 0).2 (bs "c")
  ⟨s4, [⟨2, (s3.get 0).2, bs "c"⟩, ⟨1, (s2.get 0).2, bs "b"⟩]⟩

theorem exPools_reach (k : Kind) : Reach k true (exPools k) := by
  have h1 : Reach k true ⟨(World.get ⟨noObjs, 0, []⟩ 0).1.reset 0 (bs "a"), [⟨0, 0, bs "a"⟩]⟩ := .step (.init noObjs) (.get _ 0 0 (bs "a"))
  have h2 := Reach.step h1 (.close (pre := []) (post := []) true)
  have hn : ∀ w : World, (w.close k 0 true).next = w.next := by
    intro w; unfold World.close; split <;> rfl
  have h3 := Reach.step h2 (.closeAgain (o := 0) true rfl (by rw [hn]; exact Nat.one_pos) (fun h hh => (nomatch hh)))
  exact .step (.step h3 (.get _ 1 0 (bs "b"))) (.get _ 2 0 (bs "c"))

/-- With a flag the two users have different encoders. -/
example : Reach encoder true (exPools encoder) ∧ (exPools encoder).held.map (·.obj) = [1, 0] := ⟨exPools_reach _, by decide +kernel⟩

/-- C91 fails for sorted tag iterators, whose `Close` has no flag: after one user closes theirs twice, two users have the same
iterator, and the first of them reads the tags of the other. -/
theorem C91_violated : ∃ s, Reach tagIterator true s ∧ ∃ a b, s.held = [b, a] ∧ a.user ≠ b.user ∧ a.obj = b.obj ∧
    (s.world.objs a.obj).content ≠ a.put :=
  ⟨exPools tagIterator, exPools_reach _, ⟨1, 0, bs "b"⟩, ⟨2, 0, bs "c"⟩, by decide +kernel, by decide, rfl, by decide +kernel⟩

/-- Outside of C91: an encoder that is not reset after `Get` still has the bytes of the user before, and closing it does not give it
back. -/
theorem C91_reset_needed (w : World) (d : Bytes) (o : Nat) (hp : w.pool = []) :
    let w1 := ((w.reset o []).write o d).close encoder o true
    let w2 := (w1.get 0).1
    (w1.get 0).2 = o ∧ (w2.objs o).content = d ∧ w2.close encoder o true = w2 := by
  simp [World.close, World.reset, World.write, World.upd, World.get, World.put, encoder, hp]

end Verif.Pools
