import Verif.Model.ListPool
import Verif.Lemmas.MsgpackMemory
/-
No array of a pool of lists has two users.
-/
namespace Verif.ListPool
open Verif.Agg Verif.MPMem

/-- The arrays of slices. -/
def arrs (l : List (Option Slice)) : List Nat := l.filterMap fun s => s.map Slice.arr

/-- The slice is of an array that is there and not one of these. -/
def Own (h : Heap α) (R : List Nat) (s : Option Slice) : Prop :=
  ∀ s', s = some s' → s'.arr ∉ R ∧ s'.arr < h.length ∧ s'.len ≤ h.cap s'

/-- These arrays are as before. -/
def Keep (h h' : Heap α) (R : List Nat) : Prop := h.length ≤ h'.length ∧ ∀ a ∈ R, h'.array a = h.array a

/-- The slices are of different arrays. -/
def Good (h : Heap α) (l : List (Option Slice)) : Prop :=
  (arrs l).Nodup ∧ ∀ s, some s ∈ l → s.arr < h.length ∧ s.len ≤ h.cap s

theorem Keep.refl (h : Heap α) (R : List Nat) : Keep h h R := ⟨Nat.le_refl _, fun _ _ => rfl⟩

theorem Keep.trans {h h' h'' : Heap α} {R : List Nat} (a : Keep h h' R) (b : Keep h' h'' R) : Keep h h'' R :=
  ⟨Nat.le_trans a.1 b.1, fun x hx => (b.2 x hx).trans (a.2 x hx)⟩

theorem mem_arrs {l : List (Option Slice)} {s : Slice} (h : some s ∈ l) : s.arr ∈ arrs l :=
  List.mem_filterMap.2 ⟨some s, h, rfl⟩

theorem arrs_lt {h : Heap α} {l : List (Option Slice)} (g : Good h l) : ∀ a ∈ arrs l, a < h.length := by
  intro a ha
  obtain ⟨s, hs, e⟩ := List.mem_filterMap.1 ha
  cases s with
  | none => cases e
  | some s => cases e; exact (g.2 s hs).1

theorem Good.perm {h : Heap α} {l l' : List (Option Slice)} (g : Good h l) (p : l.Perm l') : Good h l' :=
  ⟨(p.filterMap _).nodup_iff.1 g.1, fun s hs => g.2 s (p.mem_iff.2 hs)⟩

theorem good_cons {h : Heap α} {s : Option Slice} {l : List (Option Slice)} : Good h (s :: l) ↔ Own h (arrs l) s ∧ Good h l := by
  cases s with
  | none =>
    constructor
    · intro g
      exact ⟨(fun _ e => by cases e), g.1, fun s hs => g.2 s (List.mem_cons_of_mem _ hs)⟩
    · intro g
      refine ⟨g.2.1, fun s hs => ?_⟩
      cases hs with
      | tail _ hs => exact g.2.2 s hs
  | some s =>
    constructor
    · intro g
      have hn : (s.arr :: arrs l).Nodup := g.1
      refine ⟨fun s' e => ?_, (List.nodup_cons.1 hn).2, fun s' hs => g.2 s' (List.mem_cons_of_mem _ hs)⟩
      cases e
      exact ⟨(List.nodup_cons.1 hn).1, g.2 s (List.mem_cons_self ..)⟩
    · intro g
      refine ⟨List.nodup_cons.2 ⟨(g.1 s rfl).1, g.2.1⟩, fun s' hs => ?_⟩
      cases hs with
      | head => exact (g.1 s rfl).2
      | tail _ hs => exact g.2.2 s' hs

theorem Good.keep {h h' : Heap α} {l : List (Option Slice)} (g : Good h l) (k : Keep h h' (arrs l)) : Good h' l :=
  ⟨g.1, fun s hs => ⟨Nat.lt_of_lt_of_le (g.2 s hs).1 k.1, by
    rw [Heap.cap, k.2 _ (mem_arrs hs)]; exact (g.2 s hs).2⟩⟩

theorem keep_read {h h' : Heap α} {l : List (Option Slice)} (k : Keep h h' (arrs l)) {s : Option Slice} (hs : s ∈ l) :
    h'.readOpt s = h.readOpt s := by
  cases s with
  | none => rfl
  | some s => show h'.read s = h.read s; rw [Heap.read, Heap.read, k.2 _ (mem_arrs hs)]

/-! ### The operations -/

theorem make_spec (h : Heap α) (zero : α) (n : Nat) (R : List Nat) (hR : ∀ a ∈ R, a < h.length) :
    Own (h.make zero 0 n).2 R (some (h.make zero 0 n).1) ∧ Keep h (h.make zero 0 n).2 R ∧
    (h.make zero 0 n).2.readOpt (some (h.make zero 0 n).1) = [] := by
  refine ⟨fun s e => ?_, ⟨by simp [Heap.make], fun a ha => array_append (hR a ha) _⟩, ?_⟩
  · cases e
    refine ⟨fun hc => Nat.lt_irrefl _ (hR _ hc), ?_, Nat.zero_le _⟩
    show h.length < (h ++ [_]).length
    simp
  · simp [Heap.make, Heap.readOpt, Heap.read]

theorem append_spec {h : Heap α} {s : Option Slice} {R : List Nat} (hR : ∀ a ∈ R, a < h.length) (o : Own h R s) (v : α) :
    Own (append h s v).2 R (append h s v).1 ∧ Keep h (append h s v).2 R ∧
    (append h s v).2.readOpt (append h s v).1 = h.readOpt s ++ [v] := by
  cases s with
  | none =>
    refine ⟨fun s e => ?_, ⟨by simp [append], fun a ha => array_append (hR a ha) _⟩, ?_⟩
    · cases e
      refine ⟨fun hc => Nat.lt_irrefl _ (hR _ hc), by simp [append], ?_⟩
      show 1 ≤ (Heap.array (h ++ [[v]]) h.length).length
      rw [array_new]; exact Nat.le_refl _
    · show (Heap.array (h ++ [[v]]) h.length).take 1 = _
      rw [array_new]; rfl
  | some s =>
    obtain ⟨o1, o2, o3⟩ := o s rfl
    by_cases hr : s.len < h.cap s
    · have e : append h (some s) v = (some ⟨s.arr, s.len + 1⟩, h.set s.arr ((h.array s.arr).set s.len v)) := by
        rw [append, append_room hr]
      rw [e]
      refine ⟨fun s' e' => ?_, ⟨by simp, fun a ha => array_set_other (fun hc : s.arr = a => o1 (hc ▸ ha)) _⟩, ?_⟩
      · cases e'
        refine ⟨o1, by simpa using o2, ?_⟩
        show s.len + 1 ≤ (Heap.array (h.set s.arr _) s.arr).length
        rw [array_set_same o2, List.length_set]
        exact hr
      · show (Heap.array (h.set s.arr _) s.arr).take (s.len + 1) = (h.array s.arr).take s.len ++ [v]
        rw [array_set_same o2]
        exact set_take_succ hr v
    · have e : append h (some s) v = (some ⟨h.length, s.len + 1⟩, h ++ [h.read s ++ v :: List.replicate s.len v]) := by
        rw [append, Heap.append, if_neg hr]
      have hl : (h.read s).length = s.len := by
        rw [Heap.read, List.length_take]; exact Nat.min_eq_left o3
      rw [e]
      refine ⟨fun s' e' => ?_, ⟨by simp, fun a ha => array_append (hR a ha) _⟩, ?_⟩
      · cases e'
        refine ⟨fun hc => Nat.lt_irrefl _ (hR _ hc), by simp, ?_⟩
        show s.len + 1 ≤ (Heap.array (h ++ [_]) h.length).length
        rw [array_new, List.length_append, hl]
        simp
      · show (Heap.array (h ++ [_]) h.length).take (s.len + 1) = h.read s ++ [v]
        rw [array_new, List.take_append, hl, List.take_of_length_le (by omega)]
        have : s.len + 1 - s.len = 1 := by omega
        rw [this]; rfl

theorem eraseIdx_perm {l : List α} {i : Nat} {a : α} (h : l[i]? = some a) : l.Perm (a :: l.eraseIdx i) := by
  induction l generalizing i with
  | nil => simp at h
  | cons b l ih => cases i with
    | zero =>
      simp only [List.getElem?_cons_zero, Option.some.injEq] at h
      subst h
      exact List.Perm.refl _
    | succ i =>
      rw [List.eraseIdx_cons_succ]
      exact ((ih (by simpa using h)).cons b).trans (List.Perm.swap _ _ _)

/-- The pool and the lists in use: `L`. -/
structure Inv (p : Pool α) (L : List (Option Slice)) : Prop where
  good : Good p.heap (p.free ++ L)
  empty : ∀ s ∈ p.free, p.heap.readOpt s = [] ∧ ∀ s', s = some s' → s'.len = 0

theorem Inv.perm {p : Pool α} {L L' : List (Option Slice)} (i : Inv p L) (h : L.Perm L') : Inv p L' :=
  ⟨i.good.perm (h.append_left _), i.empty⟩

/-- What holds while a list is being made. -/
theorem inv_cons {p : Pool α} {s : Option Slice} {L : List (Option Slice)} :
    Inv p (s :: L) ↔ Own p.heap (arrs (p.free ++ L)) s ∧ Inv p L := by
  constructor
  · intro i
    have := good_cons.1 (i.good.perm (List.perm_middle))
    exact ⟨this.1, this.2, i.empty⟩
  · intro i
    exact ⟨(good_cons.2 ⟨i.1, i.2.good⟩).perm List.perm_middle.symm, i.2.empty⟩

theorem inv_keep {p : Pool α} {L : List (Option Slice)} (i : Inv p L) {h : Heap α} (k : Keep p.heap h (arrs (p.free ++ L))) :
    Inv { p with heap := h } L :=
  ⟨i.good.keep k, fun s hs => ⟨(keep_read k (List.mem_append_left _ hs)).trans (i.empty s hs).1, (i.empty s hs).2⟩⟩

theorem keep_live {p : Pool α} {L : List (Option Slice)} {h : Heap α} (k : Keep p.heap h (arrs (p.free ++ L))) :
    ∀ s ∈ L, h.readOpt s = p.heap.readOpt s := fun _ hs => keep_read k (List.mem_append_right _ hs)

theorem get_spec {p : Pool α} {L : List (Option Slice)} (i : Inv p L) (zero : α) (c : Pick) :
    Inv (p.get zero c).2 ((p.get zero c).1 :: L) ∧ (∀ s ∈ L, (p.get zero c).2.heap.readOpt s = p.heap.readOpt s) ∧
    (p.get zero c).2.heap.readOpt (p.get zero c).1 = [] := by
  cases hf : p.free[c.slot]? with
  | none =>
    have e : p.get zero c = (some (p.heap.make zero 0 c.room).1, { p with heap := (p.heap.make zero 0 c.room).2 }) := by
      simp only [Pool.get, hf]
    obtain ⟨h1, h2, h3⟩ := make_spec p.heap zero c.room (arrs (p.free ++ L)) (arrs_lt i.good)
    rw [e]
    exact ⟨inv_cons.2 ⟨h1, inv_keep i h2⟩, keep_live h2, h3⟩
  | some s =>
    have e : p.get zero c = (s, { p with free := p.free.eraseIdx c.slot }) := by
      simp only [Pool.get, hf]
    rw [e]
    have hp := eraseIdx_perm hf
    refine ⟨⟨i.good.perm ?_, fun s' hs => i.empty s' (hp.mem_iff.2 (List.mem_cons_of_mem _ hs))⟩, fun _ _ => rfl,
      (i.empty s (hp.mem_iff.2 (List.mem_cons_self ..))).1⟩
    exact (hp.append_right L).trans List.perm_middle.symm

theorem make_inv {p : Pool α} {L : List (Option Slice)} (i : Inv p L) (zero : α) (n : Nat) :
    Inv { p with heap := (p.heap.make zero 0 n).2 } (some (p.heap.make zero 0 n).1 :: L) ∧
    (∀ s ∈ L, (p.heap.make zero 0 n).2.readOpt s = p.heap.readOpt s) ∧
    (p.heap.make zero 0 n).2.readOpt (some (p.heap.make zero 0 n).1) = [] := by
  obtain ⟨h1, h2, h3⟩ := make_spec p.heap zero n (arrs (p.free ++ L)) (arrs_lt i.good)
  exact ⟨inv_cons.2 ⟨h1, inv_keep i h2⟩, keep_live h2, h3⟩

theorem append_inv {p : Pool α} {s : Option Slice} {L : List (Option Slice)} (i : Inv p (s :: L)) (v : α) :
    Inv { p with heap := (append p.heap s v).2 } ((append p.heap s v).1 :: L) ∧
    (∀ s' ∈ L, (append p.heap s v).2.readOpt s' = p.heap.readOpt s') ∧
    (append p.heap s v).2.readOpt (append p.heap s v).1 = p.heap.readOpt s ++ [v] := by
  obtain ⟨o, i⟩ := inv_cons.1 i
  obtain ⟨h1, h2, h3⟩ := append_spec (arrs_lt i.good) o v
  exact ⟨inv_cons.2 ⟨h1, inv_keep i h2⟩, keep_live h2, h3⟩

theorem set_inv {p : Pool α} {s : Slice} {L : List (Option Slice)} (i : Inv p (some s :: L)) (j : Nat) (v : α) :
    Inv { p with heap := p.heap.put s.arr j v } (some s :: L) ∧ (∀ s' ∈ L, (p.heap.put s.arr j v).readOpt s' = p.heap.readOpt s') ∧
    (p.heap.put s.arr j v).readOpt (some s) = (p.heap.readOpt (some s)).set j v := by
  obtain ⟨o, i⟩ := inv_cons.1 i
  obtain ⟨o1, o2, o3⟩ := o s rfl
  have k : Keep p.heap (p.heap.put s.arr j v) (arrs (p.free ++ L)) :=
    ⟨by simp [Heap.put], fun a ha => array_set_other (fun hc : s.arr = a => o1 (hc ▸ ha)) _⟩
  refine ⟨inv_cons.2 ⟨fun s' e => ?_, inv_keep i k⟩, keep_live k, ?_⟩
  · cases e
    refine ⟨o1, by simpa [Heap.put] using o2, ?_⟩
    show s.len ≤ (Heap.array (p.heap.set s.arr _) s.arr).length
    rw [array_set_same o2, List.length_set]
    exact o3
  · show (Heap.array (p.heap.set s.arr _) s.arr).take s.len = ((p.heap.array s.arr).take s.len).set j v
    rw [array_set_same o2, List.take_set]

theorem put_inv {p : Pool α} {s : Option Slice} {L : List (Option Slice)} (i : Inv p (s :: L)) (kept : Bool) :
    Inv (p.put s kept) L ∧ (p.put s kept).heap = p.heap := by
  obtain ⟨o, i⟩ := inv_cons.1 i
  cases kept with
  | false => exact ⟨i, rfl⟩
  | true =>
    refine ⟨⟨?_, ?_⟩, rfl⟩
    · show Good p.heap ((s.map _) :: (p.free ++ L))
      refine good_cons.2 ⟨fun s' e => ?_, i.good⟩
      cases s with
      | none => cases e
      | some s => cases e; exact ⟨(o s rfl).1, (o s rfl).2.1, Nat.zero_le _⟩
    · intro s' hs
      cases hs with
      | head => cases s with
        | none => exact ⟨rfl, fun _ e => by cases e⟩
        | some s => exact ⟨rfl, fun _ e => by cases e; rfl⟩
      | tail _ hs => exact i.empty s' hs

/-! ### The loops -/

theorem decompressLoop_inv (word : BitVec 64) : ∀ (f i : Nat) (s : Option Slice) (p : Pool AType) (L : List (Option Slice)),
    Inv p (s :: L) → ∃ r h, decompressLoop word f i s p.heap = (r, h) ∧ (∀ s' ∈ L, h.readOpt s' = p.heap.readOpt s') ∧
      r.map h.readOpt = Agg.decompressLoop word f i (p.heap.readOpt s) ∧ Inv { p with heap := h } L ∧
      ∀ s', r = some s' → Inv { p with heap := h } (s' :: L)
  | 0, i, s, p, L, hi => ⟨none, p.heap, rfl, fun _ _ => rfl, rfl, (inv_cons.1 hi).2, fun _ e => by cases e⟩
  | f + 1, i, s, p, L, hi => by
    unfold decompressLoop Agg.decompressLoop
    cases hn : nextSet word i with
    | none => exact ⟨some s, p.heap, rfl, fun _ _ => rfl, rfl, (inv_cons.1 hi).2, fun _ e => by cases e; exact hi⟩
    | some j =>
      simp only
      cases hv : isValid (j : Int) with
      | false => exact ⟨none, p.heap, rfl, fun _ _ => rfl, rfl, (inv_cons.1 hi).2, fun _ e => by cases e⟩
      | true =>
        obtain ⟨h1, h2, h3⟩ := append_inv hi (j : Int)
        obtain ⟨r, h, e1, e2, e3, e4, e5⟩ := decompressLoop_inv word f (j + 1) _ _ L h1
        rw [← h3]
        exact ⟨r, h, e1, fun s' hs => (e2 s' hs).trans (h2 s' hs), e3, e4, e5⟩

theorem decompress_inv (pool : Bool) (c : Pick) (word : BitVec 64) (id : Agg.ID) (p : Pool AType) (L : List (Option Slice)) (i : Inv p L) :
    ∃ r w q, decompress pool c word id p = (r, w, q) ∧ (∀ s ∈ L, q.heap.readOpt s = p.heap.readOpt s) ∧
      r.map q.heap.readOpt = Agg.decompress id ∧ Inv q L ∧ ∀ s, r = some s → Inv q (s :: L) := by
  unfold decompress Agg.decompress
  cases hd : id.isDefault with
  | true =>
    exact ⟨some none, word, p, rfl, fun _ _ => rfl, rfl, i, fun _ e => by cases e; exact inv_cons.2 ⟨(fun _ e => by cases e), i⟩⟩
  | false =>
    simp only [Bool.false_eq_true, if_false]
    have key : ∀ (t : Option Slice) (q : Pool AType), Inv q (t :: L) → (∀ s ∈ L, q.heap.readOpt s = p.heap.readOpt s) →
        q.heap.readOpt t = [] → ∃ r w q', (match decompressLoop id 65 0 t q.heap with
          | (r, h) => (r, id, { q with heap := h })) = (r, w, q') ∧ (∀ s ∈ L, q'.heap.readOpt s = p.heap.readOpt s) ∧
          r.map q'.heap.readOpt = Agg.decompressLoop id 65 0 [] ∧ Inv q' L ∧ ∀ s, r = some s → Inv q' (s :: L) := by
      intro t q hq h1 h2
      obtain ⟨r, h, e1, e2, e3, e4, e5⟩ := decompressLoop_inv id 65 0 t q L hq
      rw [e1]
      rw [h2] at e3
      exact ⟨r, id, _, rfl, fun s hs => (e2 s hs).trans (h1 s hs), e3, e4, e5⟩
    cases pool with
    | true =>
      obtain ⟨g1, g2, g3⟩ := get_spec i (0 : AType) c
      exact key _ _ g1 g2 g3
    | false =>
      obtain ⟨g1, g2, g3⟩ := make_inv i (0 : AType) 22
      exact key _ _ g1 g2 g3

/-- What a list that may not have been begun holds. -/
def soFar (h : Heap Nat) : Option (Option Slice) → List Nat
  | none => []
  | some s => h.readOpt s

theorem quantilesLoop_inv (pool : Bool) (c : Pick) (n : Nat) : ∀ (ts : List AType) (m : Bool) (res : Option (Option Slice)) (p : Pool Nat)
    (L : List (Option Slice)), Inv p (res.toList ++ L) → ∃ r q, quantilesLoop pool c n ts m res p = (r, q) ∧
      (∀ s ∈ L, q.heap.readOpt s = p.heap.readOpt s) ∧ soFar q.heap r = Agg.quantilesLoop ts m (soFar p.heap res) ∧
      Inv q (r.toList ++ L) ∧ (r = none → soFar q.heap r = [] ∧ res = none) ∧ (res.isSome → r.isSome) ∧
      ((res.isSome → soFar p.heap res ≠ []) → r.isSome → soFar q.heap r ≠ [])
  | [], m, res, p, L, hi => ⟨res, p, rfl, fun _ _ => rfl, rfl, hi, (fun e => by subst e; exact ⟨rfl, rfl⟩), fun h => h, fun h => h⟩
  | t :: ts, m, res, p, L, hi => by
    unfold quantilesLoop Agg.quantilesLoop
    cases hq : quantile t with
    | none => exact quantilesLoop_inv pool c n ts m res p L hi
    | some q =>
      simp only
      by_cases hc : (t = P50 ∨ t = Median) ∧ m = true
      · rw [if_pos hc, if_pos hc.1, if_pos hc.2]
        exact quantilesLoop_inv pool c n ts m res p L hi
      · rw [if_neg hc]
        have key : ∀ (s : Option Slice) (p' : Pool Nat), Inv p' (s :: L) → (∀ s' ∈ L, p'.heap.readOpt s' = p.heap.readOpt s') →
            p'.heap.readOpt s = soFar p.heap res → ∀ m', m' = (m || decide (t = P50 ∨ t = Median)) →
            ∃ r q', quantilesLoop pool c n ts m' (some (append p'.heap s q).1) { p' with heap := (append p'.heap s q).2 } = (r, q') ∧
              (∀ s ∈ L, q'.heap.readOpt s = p.heap.readOpt s) ∧
              soFar q'.heap r = Agg.quantilesLoop ts m' (soFar p.heap res ++ [q]) ∧ Inv q' (r.toList ++ L) ∧
              (r = none → soFar q'.heap r = [] ∧ res = none) ∧ (res.isSome → r.isSome) ∧
              ((res.isSome → soFar p.heap res ≠ []) → r.isSome → soFar q'.heap r ≠ []) := by
          intro s p' hp' h1 h2 m' _
          obtain ⟨a1, a2, a3⟩ := append_inv hp' q
          obtain ⟨r, q', e1, e2, e3, e4, e5, e6, e7⟩ := quantilesLoop_inv pool c n ts m' (some (append p'.heap s q).1)
            { p' with heap := (append p'.heap s q).2 } L a1
          refine ⟨r, q', e1, fun s' hs => ((e2 s' hs).trans (a2 s' hs)).trans (h1 s' hs), ?_, e4, fun hr => ?_, fun _ => e6 rfl, fun _ => e7 fun _ => ?_⟩
          · rw [e3, ← h2, ← a3]; rfl
          · have := e6 rfl; rw [hr] at this; cases this
          · show (append p'.heap s q).2.readOpt _ ≠ []
            rw [a3]; simp
        have fin : Agg.quantilesLoop ts (m || decide (t = P50 ∨ t = Median)) (soFar p.heap res ++ [q]) =
            if t = P50 ∨ t = Median then
              if m = true then Agg.quantilesLoop ts m (soFar p.heap res) else Agg.quantilesLoop ts true (soFar p.heap res ++ [q])
            else Agg.quantilesLoop ts m (soFar p.heap res ++ [q]) := by
          by_cases ht : t = P50 ∨ t = Median
          · have hm : m = false := by
              cases m with
              | false => rfl
              | true => exact absurd ⟨ht, rfl⟩ hc
            subst hm
            simp [ht]
          · simp [ht]
        rw [← fin]
        cases res with
        | some s => exact key s p hi (fun _ _ => rfl) rfl _ rfl
        | none => cases pool with
          | true =>
            obtain ⟨g1, g2, g3⟩ := get_spec (L := L) hi (0 : Nat) c
            exact key _ _ g1 g2 g3 _ rfl
          | false =>
            obtain ⟨g1, g2, g3⟩ := make_inv (L := L) hi (0 : Nat) n
            exact key _ _ g1 g2 g3 _ rfl

end Verif.ListPool
