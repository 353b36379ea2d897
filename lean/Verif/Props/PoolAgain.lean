import Verif.Props.Pool
/- C91: exactly which second closing of an object without a flag lets two users have it. -/
namespace Verif.Pools

/-- What can come about from a state when nobody closes anything twice. -/
inductive Later (k : Kind) : Sys → Sys → Prop where
  | refl (s) : Later k s s
  | step {s s' s''} : Later k s s' → Do k false s' s'' → Later k s s''

/-- Two handles of one object. -/
def Shared (s : Sys) : Prop := ∃ (i j : Nat) (a b : Handle), i ≠ j ∧ s.held[i]? = some a ∧ s.held[j]? = some b ∧ a.obj = b.obj

theorem later_inv {k : Kind} {s s' : Sys} (h : Later k s s') (hi : Inv k s) : Inv k s' := by
  induction h with
  | refl => exact hi
  | step _ hd ih => exact do_inv (fun h => by cases h) hd ih

theorem inv_not_shared {k : Kind} {s : Sys} (hi : Inv k s) : ¬ Shared s := by
  rintro ⟨i, j, a, b, hne, ha, hb, he⟩
  obtain ⟨hil, hia⟩ := List.getElem?_eq_some_iff.mp ha
  obtain ⟨hjl, hjb⟩ := List.getElem?_eq_some_iff.mp hb
  refine hne ((List.getElem_inj (h₀ := by simpa using hil) (h₁ := by simpa using hjl) hi.held).mp ?_)
  rw [List.getElem_map, List.getElem_map, hia, hjb]
  exact he

/-- C91 for objects without a flag, as sorted tag iterators are, exactly: after one that nobody has is closed once more, two users
can come to have it at the same time if and only if it was in the pool and the pool keeps it a second time. -/
theorem C91_again_exact (k : Kind) (hk : k.flagged = false) {s : Sys} (hr : Reach k false s) (o : Nat) (ho : o < s.world.next)
    (hn : ∀ h ∈ s.held, h.obj ≠ o) (kept : Bool) :
    (∃ s', Later k ⟨s.world.close k o kept, s.held⟩ s' ∧ Shared s') ↔ kept = true ∧ o ∈ s.world.pool := by
  have hi := reach_inv (k := k) (fun h => by cases h) hr
  have ec : s.world.close k o kept = (s.world.upd o fun x => ⟨k.flagged, if k.clears then [] else x.content⟩).put o kept := by
    unfold World.close
    rw [hk]
    rfl
  constructor
  · rintro ⟨s', hl, hs⟩
    by_cases hc : kept = true ∧ o ∈ s.world.pool
    · exact hc
    · exfalso
      refine inv_not_shared (later_inv hl ?_) hs
      rw [ec]
      have hobj : ∀ h ∈ s.held, ((s.world.upd o fun x => ⟨k.flagged, if k.clears then [] else x.content⟩).put o kept).objs h.obj =
          s.world.objs h.obj := by
        intro h hh
        unfold World.put
        split
        · exact upd_other s.world (fun x => ⟨k.flagged, if k.clears then [] else x.content⟩) (hn h hh)
        · exact upd_other s.world _ (hn h hh)
      refine ⟨hi.held, ?_, ?_, ⟨?_, ?_⟩, fun h hh => (hobj h hh).trans (hi.content h hh), fun h => by rw [hk] at h; cases h⟩
      · unfold World.put
        split
        · next hkept => exact List.nodup_cons.mpr ⟨fun h => hc ⟨hkept, h⟩, hi.pool⟩
        · exact hi.pool
      · intro h hh
        unfold World.put
        split
        · intro hm
          rcases List.mem_cons.mp hm with he | hm
          · exact hn h hh he
          · exact hi.apart h hh hm
        · exact hi.apart h hh
      · intro h hh
        unfold World.put
        split <;> exact hi.known.1 h hh
      · intro p hp
        unfold World.put at hp ⊢
        split at hp
        · rename_i hkept
          rw [if_pos hkept]
          rcases List.mem_cons.mp hp with rfl | hp
          · exact ho
          · exact hi.known.2 p hp
        · rename_i hkept
          rw [if_neg hkept]
          exact hi.known.2 p hp
  · rintro ⟨rfl, hmem⟩
    rw [ec]
    obtain ⟨j, hj⟩ := List.mem_iff_getElem?.mp hmem
    refine ⟨_, .step (.step (.refl _) (.get _ 0 0 [])) (.get _ 1 j []), 0, 1, _, _, by decide, rfl, rfl, ?_⟩
    simp [World.get, World.put, World.reset, World.upd, hj]

/-- A tag iterator that a user closed and the pool has, and one that the pool dropped. -/
example (kept : Bool) : ∃ s, Reach tagIterator false s ∧ (0 : Nat) < s.world.next ∧ (∀ h ∈ s.held, h.obj ≠ 0) ∧
    (0 ∈ s.world.pool ↔ kept = true) := by
  have h1 := Reach.step (Reach.init (k := tagIterator) (again := false) noObjs) (.get _ 0 0 (bs "a"))
  have h2 := Reach.step h1 (.close (pre := []) (post := []) kept)
  refine ⟨_, h2, ?_, by simp, ?_⟩ <;> cases kept <;> decide +kernel

end Verif.Pools
