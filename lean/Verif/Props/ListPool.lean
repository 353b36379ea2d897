import Verif.Lemmas.ListPool
import Verif.Props.Aggregation
/-
C106: the lists that decompressors and `PooledQuantiles` take from pools are their users' own.
-/
namespace Verif.ListPool
open Verif.Agg Verif.MPMem Verif.Spec

/-- The lists that were not given back. -/
def World.live (w : World α) : List (Option Slice) := w.lists.filterMap id

/-- No two lists share. -/
def World.Ok (w : World α) : Prop := Inv w.pool w.live

theorem live_set {l : List (Option (Option Slice))} {k : Nat} {s : Option Slice} (h : l[k]? = some (some s)) :
    (l.filterMap id).Perm (s :: (l.set k none).filterMap id) ∧
    ∀ s', ((l.set k (some s')).filterMap id).Perm (s' :: (l.set k none).filterMap id) := by
  induction l generalizing k with
  | nil => simp at h
  | cons x l ih => cases k with
    | zero =>
      simp only [List.getElem?_cons_zero, Option.some.injEq] at h
      subst h
      exact ⟨List.Perm.refl _, fun _ => List.Perm.refl _⟩
    | succ k =>
      obtain ⟨h1, h2⟩ := ih (k := k) (by simpa using h)
      cases x with
      | none => exact ⟨h1, h2⟩
      | some x =>
        exact ⟨(h1.cons x).trans (List.Perm.swap ..), fun s' => ((h2 s').cons x).trans (List.Perm.swap ..)⟩

theorem live_mem {w : World α} {k : Nat} {s : Option Slice} (h : w.lists[k]? = some (some s)) : s ∈ w.live :=
  List.mem_filterMap.2 ⟨some s, List.mem_of_getElem? h, rfl⟩

/-- One list of two different ones. -/
theorem live_other {w : World α} {k k' : Nat} {s : Option Slice} (h : w.lists[k']? = some (some s)) (hk : k' ≠ k) :
    s ∈ (w.lists.set k none).filterMap id := by
  refine List.mem_filterMap.2 ⟨some s, List.mem_of_getElem? (i := k') ?_, rfl⟩
  rw [List.getElem?_set_ne (Ne.symm hk)]
  exact h

theorem list_some {w : World α} {k : Nat} {vs : List α} (h : w.list k = some vs) :
    ∃ s, w.lists[k]? = some (some s) ∧ w.pool.heap.readOpt s = vs := by
  unfold World.list at h
  split at h
  · next s hs => exact ⟨s, hs, by simpa using h⟩
  · cases h

theorem list_of {w : World α} {k : Nat} {s : Option Slice} (h : w.lists[k]? = some (some s)) : w.list k = some (w.pool.heap.readOpt s) := by
  unfold World.list; rw [h]

/-- What a user does is seen in their list only. -/
theorem user_spec {w : World α} (ok : w.Ok) (a : UserAct α) : (w.user a).Ok ∧
    (∀ k, k ≠ a.of → (w.user a).list k = w.list k) ∧
    (w.user a).list a.of = (w.list a.of).bind fun vs => match a with
      | .set _ i v => some (vs.set i v)
      | .append _ v => some (vs ++ [v])
      | .put _ _ => none := by
  cases hs : w.lists[a.of]? with
  | none =>
    have e : w.user a = w := by unfold World.user; rw [hs]
    have e2 : w.list a.of = none := by unfold World.list; rw [hs]
    rw [e, e2]; exact ⟨ok, fun _ _ => rfl, rfl⟩
  | some o => cases o with
    | none =>
      have e : w.user a = w := by unfold World.user; rw [hs]
      have e2 : w.list a.of = none := by unfold World.list; rw [hs]
      rw [e, e2]; exact ⟨ok, fun _ _ => rfl, rfl⟩
    | some s =>
      have hi : Inv w.pool (s :: (w.lists.set a.of none).filterMap id) := ok.perm (live_set hs).1
      have hlt : a.of < w.lists.length := (List.getElem?_eq_some_iff.1 hs).1
      rw [list_of hs]
      cases a with
      | set k i v => cases s with
        | none =>
          have e : w.user (.set k i v) = w := by unfold World.user; rw [hs]
          rw [e, list_of hs]
          exact ⟨ok, fun _ _ => rfl, by simp [Heap.readOpt]⟩
        | some s =>
          by_cases hl : i < s.len
          · have e : w.user (.set k i v) = { w with pool := { w.pool with heap := w.pool.heap.put s.arr i v } } := by
              unfold World.user; rw [hs]; simp only [hl, if_true]
            obtain ⟨h1, h2, h3⟩ := set_inv hi i v
            rw [e]
            refine ⟨h1.perm (live_set hs).1.symm, fun k' hk => ?_, ?_⟩
            · cases hk' : w.lists[k']? with
              | none => simp only [World.list, hk']
              | some o => cases o with
                | none => simp only [World.list, hk']
                | some s' => simp only [World.list, hk']; exact congrArg some (h2 s' (live_other hk' hk))
            · rw [list_of (w := { w with pool := { w.pool with heap := w.pool.heap.put s.arr i v } }) hs]
              exact congrArg some h3
          · have e : w.user (.set k i v) = w := by unfold World.user; rw [hs]; simp only [hl, if_false]
            rw [e, list_of hs]
            refine ⟨ok, fun _ _ => rfl, ?_⟩
            show some _ = some _
            rw [List.set_eq_of_length_le]
            show ((w.pool.heap.array s.arr).take s.len).length ≤ i
            rw [List.length_take]; omega
      | append k v =>
        have e : w.user (.append k v) = { w with
            pool := { w.pool with heap := (ListPool.append w.pool.heap s v).2 }
            lists := w.lists.set k (some (ListPool.append w.pool.heap s v).1) } := by
          unfold World.user; rw [hs]
        obtain ⟨h1, h2, h3⟩ := append_inv hi v
        rw [e]
        refine ⟨h1.perm ((live_set hs).2 _).symm, fun k' hk => ?_, ?_⟩
        · have hk2 : (w.lists.set k (some (ListPool.append w.pool.heap s v).1))[k']? = w.lists[k']? := List.getElem?_set_ne (Ne.symm hk)
          cases hk' : w.lists[k']? with
          | none => simp only [World.list, hk2, hk']
          | some o => cases o with
            | none => simp only [World.list, hk2, hk']
            | some s' => simp only [World.list, hk2, hk']; exact congrArg some (h2 s' (live_other hk' hk))
        · have hk2 : (w.lists.set k (some (ListPool.append w.pool.heap s v).1))[k]? = some (some (ListPool.append w.pool.heap s v).1) :=
            List.getElem?_set_self hlt
          show World.list _ k = _
          simp only [World.list, hk2]
          exact congrArg some h3
      | put k kept =>
        have e : w.user (.put k kept) = { w with pool := w.pool.put s kept, lists := w.lists.set k none } := by
          unfold World.user; rw [hs]
        obtain ⟨h1, h2⟩ := put_inv hi kept
        rw [e]
        refine ⟨h1, fun k' hk => ?_, ?_⟩
        · have hk2 : (w.lists.set k none)[k']? = w.lists[k']? := List.getElem?_set_ne (Ne.symm hk)
          simp only [World.list, hk2, h2]
        · have hk2 : (w.lists.set k none)[k]? = some none := List.getElem?_set_self hlt
          show World.list _ k = _
          simp only [World.list, hk2]
          rfl

/-- One more list. -/
theorem handOut_spec {w : World α} {p : Pool α} {s : Option Slice} (h : Inv p (s :: w.live))
    (keep : ∀ s ∈ w.live, p.heap.readOpt s = w.pool.heap.readOpt s) : (w.handOut p s).Ok ∧
    (∀ k, k < w.lists.length → (w.handOut p s).list k = w.list k) ∧ (w.handOut p s).list w.lists.length = some (p.heap.readOpt s) := by
  refine ⟨?_, fun k hk => ?_, ?_⟩
  · show Inv p ((w.lists ++ [some s]).filterMap id)
    rw [List.filterMap_append]
    exact h.perm (List.perm_append_comm (l₁ := [s]))
  · have e : (w.handOut p s).lists[k]? = w.lists[k]? := List.getElem?_append_left hk
    cases hk' : w.lists[k]? with
    | none => simp only [World.list, e, hk']
    | some o => cases o with
      | none => simp only [World.list, e, hk']
      | some s' => simp only [World.list, e, hk']; exact congrArg some (keep s' (live_mem hk'))
  · have e : (w.handOut p s).lists[w.lists.length]? = some (some s) := by simp [World.handOut]
    simp only [World.list, e]
    rfl

theorem decompress_step {w : World AType} (ok : w.Ok) (d : Nat) (pooled : Bool) (c : Pick) (id : Agg.ID) :
    (w.decompress d pooled c id).2.Ok ∧
    (∀ k, k < w.lists.length → (w.decompress d pooled c id).2.list k = w.list k) ∧
    ((w.decompress d pooled c id).1 = (Agg.decompress id).isSome) ∧
    (∀ ts, Agg.decompress id = some ts → (w.decompress d pooled c id).2.list w.lists.length = some ts) := by
  obtain ⟨r, word, q, e, h1, h2, h3, h4⟩ := decompress_inv pooled c (w.words d) id w.pool w.live ok
  unfold World.decompress
  rw [e, ← h2]
  cases r with
  | none =>
    refine ⟨h3, fun k hk => ?_, rfl, fun _ e => by cases e⟩
    show World.list _ k = _
    cases hk' : w.lists[k]? with
    | none => simp only [World.list, hk']
    | some o => cases o with
      | none => simp only [World.list, hk']
      | some s' => simp only [World.list, hk']; exact congrArg some (h1 s' (live_mem hk'))
  | some s =>
    obtain ⟨a1, a2, a3⟩ := handOut_spec (w := { w with words := fun x => if x = d then word else w.words x }) (h4 s rfl) h1
    exact ⟨a1, a2, rfl, fun ts e => by rw [← e]; exact a3⟩

theorem quantiles_step {w : World Nat} (ok : w.Ok) (pooled : Bool) (c : Pick) (ts : List AType) :
    (w.quantiles pooled c ts).2.Ok ∧
    (∀ k, k < w.lists.length → (w.quantiles pooled c ts).2.list k = w.list k) ∧
    (w.quantiles pooled c ts).2.list w.lists.length = some (Agg.pooledQuantiles ts) ∧
    ((w.quantiles pooled c ts).1 = true ↔ pooled = true ∧ Agg.pooledQuantiles ts ≠ []) := by
  obtain ⟨r, q, e, h1, h2, h3, h4, _, h5⟩ := quantilesLoop_inv pooled c ts.length ts false none w.pool w.live ok
  have h2' : soFar q.heap r = Agg.pooledQuantiles ts := h2
  unfold World.quantiles pooledQuantiles
  rw [e]
  cases r with
  | none =>
    have hn : Inv q (none :: w.live) := inv_cons.2 ⟨(fun _ e => by cases e), h3⟩
    obtain ⟨a1, a2, a3⟩ := handOut_spec hn h1
    have hz : Agg.pooledQuantiles ts = [] := h2'.symm
    exact ⟨a1, a2, by rw [hz]; exact a3, ⟨(fun e => by cases e), fun e => absurd hz e.2⟩⟩
  | some s =>
    obtain ⟨a1, a2, a3⟩ := handOut_spec (s := s) h3 h1
    refine ⟨a1, a2, by rw [← h2']; exact a3, ⟨fun e => ⟨e, ?_⟩, fun e => e.1⟩⟩
    rw [← h2']
    exact h5 (fun e => by cases e) rfl

/-! ### C106 -/

/-- Lists and what they hold: the specification, without pools and arrays. -/
structure Shown (α : Type) where
  count : Nat := 0
  list : Nat → Option (List α) := fun _ => none

/-- One more list. -/
def Shown.add (s : Shown α) (vs : List α) : Shown α :=
  { count := s.count + 1, list := fun k => if k = s.count then some vs else s.list k }

/-- What is done with one list. -/
def Shown.user (s : Shown α) (a : UserAct α) : Shown α :=
  { s with list := fun k => if k = a.of then (s.list k).bind fun vs => match a with
      | .set _ i v => some (vs.set i v)
      | .append _ v => some (vs ++ [v])
      | .put _ _ => none
    else s.list k }

/-- The world shows these lists. -/
def World.Shows (w : World α) (s : Shown α) : Prop := w.lists.length = s.count ∧ ∀ k, w.list k = s.list k

/-- What is done with a pool of types: any decompressor, with this pool or without one, decompresses; or a list is used. -/
inductive TypesAct where
  | decompress (d : Nat) (pooled : Bool) (c : Pick) (id : Agg.ID)
  | user (a : UserAct AType)

def World.types (w : World AType) : TypesAct → World AType
  | .decompress d pooled c id => (w.decompress d pooled c id).2
  | .user a => w.user a

/-- The list of a decompression is that of the types of the identifier; there is none if it is not valid. -/
def Shown.types (s : Shown AType) : TypesAct → Shown AType
  | .decompress _ _ _ id => match Agg.decompress id with
    | none => s
    | some ts => s.add ts
  | .user a => s.user a

/-- What is done with a pool of floats. -/
inductive FloatsAct where
  | quantiles (pooled : Bool) (c : Pick) (ts : List AType)
  | user (a : UserAct Nat)

def World.floats (w : World Nat) : FloatsAct → World Nat
  | .quantiles pooled c ts => (w.quantiles pooled c ts).2
  | .user a => w.user a

def Shown.floats (s : Shown Nat) : FloatsAct → Shown Nat
  | .quantiles _ _ ts => s.add (Agg.pooledQuantiles ts)
  | .user a => s.user a

theorem shows_user {w : World α} {s : Shown α} (ok : w.Ok) (h : w.Shows s) (a : UserAct α) : (w.user a).Ok ∧ (w.user a).Shows (s.user a) := by
  obtain ⟨h1, h2, h3⟩ := user_spec ok a
  refine ⟨h1, ?_, fun k => ?_⟩
  · have : (w.user a).lists.length = w.lists.length := by
      unfold World.user
      split
      · cases a with
        | set k i v =>
          simp only
          split
          · rfl
          · split <;> rfl
        | append k v => simp
        | put k kept => simp
      · rfl
    rw [this]; exact h.1
  · show _ = if k = a.of then _ else _
    by_cases hk : k = a.of
    · subst hk
      rw [if_pos rfl, h3, h.2]
    · rw [if_neg hk, h2 k hk, h.2]

theorem list_out {w : World α} {k : Nat} (h : w.lists.length ≤ k) : w.list k = none := by
  unfold World.list; rw [List.getElem?_eq_none h]

theorem shows_add {w w' : World α} {s : Shown α} {vs : List α} (h : w.Shows s) (hl : w'.lists.length = w.lists.length + 1)
    (h1 : ∀ k, k < w.lists.length → w'.list k = w.list k) (h2 : w'.list w.lists.length = some vs) : w'.Shows (s.add vs) := by
  refine ⟨by rw [hl, h.1]; rfl, fun k => ?_⟩
  show _ = if k = s.count then _ else _
  rw [← h.1]
  by_cases hk : k = w.lists.length
  · rw [if_pos hk, hk, h2]
  · rw [if_neg hk, ← h.2]
    by_cases hlt : k < w.lists.length
    · exact h1 k hlt
    · rw [list_out (w := w) (by omega), list_out (by omega)]

theorem decompress_lists (w : World AType) (d : Nat) (pooled : Bool) (c : Pick) (id : Agg.ID) :
    (w.decompress d pooled c id).2.lists.length = if (w.decompress d pooled c id).1 then w.lists.length + 1 else w.lists.length := by
  unfold World.decompress
  cases ListPool.decompress pooled c (w.words d) id w.pool with
  | mk r x => cases r with
    | none => rfl
    | some s => simp [World.handOut]

theorem shows_types {w : World AType} {s : Shown AType} (ok : w.Ok) (h : w.Shows s) (a : TypesAct) :
    (w.types a).Ok ∧ (w.types a).Shows (s.types a) := by
  cases a with
  | user a => exact shows_user ok h a
  | decompress d pooled c id =>
    obtain ⟨h1, h2, h3, h4⟩ := decompress_step ok d pooled c id
    have hl := decompress_lists w d pooled c id
    refine ⟨h1, ?_⟩
    show World.Shows (w.decompress d pooled c id).2 (match Agg.decompress id with | none => s | some ts => s.add ts)
    cases hd : Agg.decompress id with
    | none =>
      rw [h3, hd] at hl
      have hl : (w.decompress d pooled c id).2.lists.length = w.lists.length := hl
      refine ⟨hl.trans h.1, fun k => ?_⟩
      rw [← h.2]
      by_cases hk : k < w.lists.length
      · exact h2 k hk
      · rw [list_out (w := w) (by omega), list_out (by omega)]
    | some ts =>
      rw [h3, hd] at hl
      exact shows_add h hl h2 (h4 ts hd)

theorem shows_floats {w : World Nat} {s : Shown Nat} (ok : w.Ok) (h : w.Shows s) (a : FloatsAct) :
    (w.floats a).Ok ∧ (w.floats a).Shows (s.floats a) := by
  cases a with
  | user a => exact shows_user ok h a
  | quantiles pooled c ts =>
    obtain ⟨h1, h2, h3, _⟩ := quantiles_step ok pooled c ts
    refine ⟨h1, shows_add h ?_ h2 h3⟩
    show (World.quantiles w pooled c ts).2.lists.length = _
    unfold World.quantiles
    simp [World.handOut]

theorem init_ok : ({} : World α).Ok := ⟨⟨List.nodup_nil, (fun _ h => by cases h)⟩, (fun _ h => by cases h)⟩

theorem init_shows : ({} : World α).Shows {} := ⟨rfl, fun _ => rfl⟩

/-- C106: whatever is done with a pool of aggregation types, by any number of decompressors and users, and whatever the pool hands
out, the lists hold what they would hold without a pool: each one the types of its identifier, and what its own user did with it,
until it is given back. -/
theorem C106_types (acts : List TypesAct) : World.Shows (acts.foldl World.types {}) (acts.foldl Shown.types {}) := by
  have key : ∀ (acts : List TypesAct) (w : World AType) (s : Shown AType), w.Ok → w.Shows s →
      World.Shows (acts.foldl World.types w) (acts.foldl Shown.types s) := by
    intro acts
    induction acts with
    | nil => exact fun _ _ _ h => h
    | cons a acts ih => exact fun w s ok h => ih _ _ (shows_types ok h a).1 (shows_types ok h a).2
  exact key acts _ _ init_ok init_shows

/-- C106: likewise for the lists of quantiles. -/
theorem C106_quantiles (acts : List FloatsAct) : World.Shows (acts.foldl World.floats {}) (acts.foldl Shown.floats {}) := by
  have key : ∀ (acts : List FloatsAct) (w : World Nat) (s : Shown Nat), w.Ok → w.Shows s →
      World.Shows (acts.foldl World.floats w) (acts.foldl Shown.floats s) := by
    intro acts
    induction acts with
    | nil => exact fun _ _ _ h => h
    | cons a acts ih => exact fun w s ok h => ih _ _ (shows_floats ok h a).1 (shows_floats ok h a).2
  exact key acts _ _ init_ok init_shows

theorem types_ok (acts : List TypesAct) : World.Ok (acts.foldl World.types {}) := by
  have key : ∀ (acts : List TypesAct) (w : World AType) (s : Shown AType), w.Ok → w.Shows s → World.Ok (acts.foldl World.types w) := by
    intro acts
    induction acts with
    | nil => exact fun _ _ h _ => h
    | cons a acts ih => exact fun w s ok h => ih _ _ (shows_types ok h a).1 (shows_types ok h a).2
  exact key acts _ _ init_ok init_shows

theorem floats_ok (acts : List FloatsAct) : World.Ok (acts.foldl World.floats {}) := by
  have key : ∀ (acts : List FloatsAct) (w : World Nat) (s : Shown Nat), w.Ok → w.Shows s → World.Ok (acts.foldl World.floats w) := by
    intro acts
    induction acts with
    | nil => exact fun _ _ h _ => h
    | cons a acts ih => exact fun w s ok h => ih _ _ (shows_floats ok h a).1 (shows_floats ok h a).2
  exact key acts _ _ init_ok init_shows

/-- C106: at any time a decompression fails exactly for identifiers with a bit that is no type, whatever the decompressor did before. -/
theorem C106_succeeds_iff (acts : List TypesAct) (d : Nat) (pooled : Bool) (c : Pick) (id : Agg.ID) :
    ((acts.foldl World.types {} : World AType).decompress d pooled c id).1 = true ↔
      ∀ i < 64, id.getLsbD i = true → ValidAggType (i : Int) := by
  rw [(decompress_step (types_ok acts) d pooled c id).2.2.1, ← Agg.C02_decodes_iff]
  exact Option.isSome_iff_exists

/-- C106: a list of quantiles is said to be from the pool exactly when it is, that is when there is a pool and a quantile. -/
theorem C106_pooled_iff (acts : List FloatsAct) (pooled : Bool) (c : Pick) (ts : List AType) :
    ((acts.foldl World.floats {} : World Nat).quantiles pooled c ts).1 = true ↔ pooled = true ∧ ∃ t ∈ ts, (quantileOf t).isSome := by
  rw [(quantiles_step (floats_ok acts) pooled c ts).2.2.2]
  refine and_congr_right fun _ => ?_
  constructor
  · intro h
    cases hq : Agg.pooledQuantiles ts with
    | nil => exact absurd hq h
    | cons q l =>
      obtain ⟨t, ht, e⟩ := (C05_members ts q).1 (by rw [hq]; exact List.mem_cons_self ..)
      exact ⟨t, ht, by rw [e]; rfl⟩
  · rintro ⟨t, ht, e⟩ h
    obtain ⟨q, e⟩ := Option.isSome_iff_exists.1 e
    have := (C05_members ts q).2 ⟨t, ht, e⟩
    rw [h] at this
    cases this

/-- Two decompressors with one pool; a list is given back and used again, with a longer one in its place. -/
def exLists : List TypesAct := [.decompress 0 true ⟨0, 1⟩ 6, .decompress 1 true ⟨0, 1⟩ 8, .user (.append 1 Agg.Sum), .user (.put 0 true),
  .decompress 1 true ⟨0, 1⟩ 14, .user (.set 1 0 Agg.Count), .decompress 0 true ⟨0, 1⟩ 1, .decompress 0 false ⟨0, 1⟩ 16]

example : let w := exLists.foldl World.types {}
    w.lists.length = 4 ∧ w.list 0 = none ∧ w.list 1 = some [Agg.Count, Agg.Sum] ∧ w.list 2 = some [Agg.Last, Agg.Min, Agg.Max] ∧
    w.list 3 = some [Agg.Mean] := by decide +kernel

/-- Without the pool the same. -/
example : let s := exLists.foldl Shown.types {}
    s.count = 4 ∧ s.list 0 = none ∧ s.list 1 = some [Agg.Count, Agg.Sum] ∧ s.list 2 = some [Agg.Last, Agg.Min, Agg.Max] ∧
    s.list 3 = some [Agg.Mean] := by decide +kernel

/-- Quantiles in a list that was given back. -/
def exQuantiles : List FloatsAct := [.quantiles true ⟨0, 1⟩ [Agg.P50, Agg.Sum, Agg.P99], .quantiles true ⟨0, 0⟩ [Agg.Sum],
  .user (.put 0 true), .quantiles true ⟨0, 0⟩ [Agg.P95], .quantiles false ⟨0, 0⟩ [Agg.Median, Agg.P50]]

example : let w := exQuantiles.foldl World.floats {}
    w.lists.length = 4 ∧ w.list 0 = none ∧ w.list 1 = some [] ∧ w.list 2 = some [9500] ∧ w.list 3 = some [5000] := by decide +kernel

example : ((exQuantiles.foldl World.floats {} : World Nat).quantiles true ⟨0, 0⟩ [Agg.P95]).1 = true := by decide +kernel

/-- C106, outside the statement: a list that is given back twice is handed out twice, and what one user decompresses overwrites what
the other did. -/
theorem C106_given_back_twice : ∃ (s r1 r2 : Option Slice) (p q1 q2 : Pool AType) (x y z : BitVec 64),
    decompress true ⟨0, 2⟩ 0 6 {} = (some s, x, p) ∧
    decompress true ⟨0, 2⟩ 0 6 ((p.put s true).put s true) = (some r1, y, q1) ∧ q1.heap.readOpt r1 = [Agg.Last, Agg.Min] ∧
    decompress true ⟨0, 2⟩ 0 8 q1 = (some r2, z, q2) ∧ q2.heap.readOpt r1 ≠ [Agg.Last, Agg.Min] :=
  ⟨_, _, _, _, _, _, _, _, _, rfl, rfl, by decide +kernel, rfl, by decide +kernel⟩

end Verif.ListPool
