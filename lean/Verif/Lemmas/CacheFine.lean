import Verif.Model.CacheFine
import Verif.Lemmas.CacheCommute
import Verif.Props.CacheResults
/-
The cache at the level of its locks follows the cache whose calls are single steps: what a call has done so far, or what it
has still to do, is the difference between the two.
-/
namespace Verif.Cache
open Verif.Active

set_option synthInstance.maxSize 1000

variable {G : Type}

/-! ### What holds of a call -/

/-- The call has an answer already. -/
def Pc.answer : Pc → Option (Op × Option MatchResult)
  | .found q res | .telling q res | .wrote q res | .done q res => some (.look q, some res)
  | .changeTold c _ | .changed c | .changeDone c => some (.change c, none)
  | _ => none

/-- The call changes what is registered. -/
def Pc.change? : Pc → Option Change
  | .change c | .changing c | .changeGaveUp c _ | .changeTold c _ => some c
  | _ => none

/-- The call has asked the source, but its element is not in the list. -/
def Pc.lags : Pc → Bool
  | .storing _ _ _ | .adding _ _ _ => true
  | _ => false

/-- There is a valid entry. -/
def Hit (c : St) (q : Query) (p : Ptr) (res : MatchResult) : Prop :=
  ∃ r, mget c.namespaces q.ns = some r ∧ mget r.elems q.id = some p ∧ (c.heap p).result = res ∧ res.hasExpired q.to = false

/-- There is an entry that is not valid. -/
def Stale (c : St) (q : Query) (r : Results) (p : Ptr) : Prop :=
  mget c.namespaces q.ns = some r ∧ mget r.elems q.id = some p ∧ (c.heap p).result.hasExpired q.to = true

/-- `s` and `r` are what a lookup makes of `c` before it asks the source. -/
def Pre (cfg : Config) (c : St) (q : Query) (s : St) (r : Results) : Prop :=
  (s = c ∧ mget c.namespaces q.ns = some r ∧ mget r.elems q.id = none) ∨
  ∃ r0 p, cfg.invalidateAll = false ∧ Stale c q r0 p ∧ r = { r0 with elems := mdel r0.elems q.id } ∧
    s = ({ c with namespaces := mset c.namespaces q.ns r } : St).listRemove (some p)

/-- What a call that holds the lock makes of the cache whose calls are single steps. -/
def Holds (cfg : Config) (fm : Nat → Bytes → Int → Int → MatchResult) (f c : St) : Pc → Prop
  | .promotingW q _ p res => f = c ∧ Hit c q p res
  | .gaveUp q r => mget c.namespaces q.ns = some r ∧ f = { c with toDelete := c.toDelete ++ [r.elems] }
  | .told q r => ∃ m, c.namespaces = mset m q.ns { r with elems := [] } ∧ f = { c with namespaces := m }
  | .unlinking q r e => ∃ r0 p, e = some p ∧ cfg.invalidateAll = false ∧ Stale c q r0 p ∧ r = { r0 with elems := mdel r0.elems q.id } ∧
      f = { c with namespaces := mset c.namespaces q.ns r }
  | .computing q r => Pre cfg c q f r
  | .storing q r res => Pre cfg c q f r ∧ res = fm r.source q.id q.frm q.to
  | .adding q p res => ∃ s r t, Pre cfg c q s r ∧ res = fm r.source q.id q.frm q.to ∧ f = s.store cfg t q r res ∧ p = s.nextPtr
  | .telling _ _ => ∃ b, f = { c with evictCh := b } ∧ (b = true → c.evictCh = true)
  | .changeGaveUp (.register ns _) r => mget c.namespaces ns = some r ∧ f = { c with toDelete := c.toDelete ++ [r.elems] }
  | .changeGaveUp (.refresh ns src) r => mget c.namespaces ns = some r ∧ r.source = src ∧ f = { c with toDelete := c.toDelete ++ [r.elems] }
  | .changeGaveUp (.unregister ns) r => mget c.namespaces ns = some r ∧
      f = { c with namespaces := mdel c.namespaces ns, toDelete := c.toDelete ++ [r.elems] }
  | .changeTold (.register ns src) _ => ∃ m, c.namespaces = mset m ns { elems := [], source := src } ∧ f = { c with namespaces := m }
  | .changeTold (.refresh ns src) _ => ∃ m, c.namespaces = mset m ns { elems := [], source := src } ∧ f = { c with namespaces := m }
  | .changeTold (.unregister _) _ => False
  | _ => f = c

/-- What holds of a call that reads. -/
def Reads (c : St) : Pc → Prop
  | .promoting q _ p res => Hit c q p res
  | _ => True

/-! ### Steps without the lock of the cache -/

theorem Holds.flags {cfg : Config} {fm : Nat → Bytes → Int → Int → MatchResult} {f c : St} {pc : Pc} (h : Holds cfg fm f c pc) :
    f.deleteCh = c.deleteCh ∧ f.closed = c.closed ∧ f.evictor = c.evictor ∧ f.deleter = c.deleter ∧ (f.evictCh = true → c.evictCh = true) := by
  have pre : ∀ {q s r}, Pre cfg c q s r → s.deleteCh = c.deleteCh ∧ s.closed = c.closed ∧ s.evictor = c.evictor ∧ s.deleter = c.deleter ∧
      (s.evictCh = true → c.evictCh = true) := by
    rintro q s r (⟨rfl, _⟩ | ⟨r0, p, _, _, _, rfl⟩) <;> exact ⟨rfl, rfl, rfl, rfl, id⟩
  have eq : f = c → f.deleteCh = c.deleteCh ∧ f.closed = c.closed ∧ f.evictor = c.evictor ∧ f.deleter = c.deleter ∧
      (f.evictCh = true → c.evictCh = true) := by
    rintro rfl; exact ⟨rfl, rfl, rfl, rfl, id⟩
  cases pc with
  | promotingW => exact eq h.1
  | gaveUp q r => obtain ⟨_, rfl⟩ := h; exact ⟨rfl, rfl, rfl, rfl, id⟩
  | told q r => obtain ⟨m, _, rfl⟩ := h; exact ⟨rfl, rfl, rfl, rfl, id⟩
  | unlinking q r e => obtain ⟨_, _, _, _, _, _, rfl⟩ := h; exact ⟨rfl, rfl, rfl, rfl, id⟩
  | computing q r => exact pre h
  | storing q r res => exact pre h.1
  | adding q p res =>
    obtain ⟨s, r, t, hp, _, rfl, _⟩ := h
    have := pre hp
    exact ⟨this.1, this.2.1, this.2.2.1, this.2.2.2.1, this.2.2.2.2⟩
  | telling q res => obtain ⟨b, rfl, hb⟩ := h; exact ⟨rfl, rfl, rfl, rfl, hb⟩
  | changeGaveUp ch r =>
    cases ch with
    | register => obtain ⟨_, rfl⟩ := h; exact ⟨rfl, rfl, rfl, rfl, id⟩
    | refresh => obtain ⟨_, _, rfl⟩ := h; exact ⟨rfl, rfl, rfl, rfl, id⟩
    | unregister => obtain ⟨_, rfl⟩ := h; exact ⟨rfl, rfl, rfl, rfl, id⟩
  | changeTold ch r =>
    cases ch with
    | register => obtain ⟨m, _, rfl⟩ := h; exact ⟨rfl, rfl, rfl, rfl, id⟩
    | refresh => obtain ⟨m, _, rfl⟩ := h; exact ⟨rfl, rfl, rfl, rfl, id⟩
    | unregister => exact h.elim
  | idle => exact eq h
  | called => exact eq h
  | reading => exact eq h
  | promoting => exact eq h
  | found => exact eq h
  | absent => exact eq h
  | missed => exact eq h
  | writing => exact eq h
  | wrote => exact eq h
  | done => exact eq h
  | change => exact eq h
  | changing => exact eq h
  | changed => exact eq h
  | changeDone => exact eq h

/-- The flags are changed. -/
def St.flagged (s : St) (d cl : Bool) (ev : Evictor) (de : Deleter) : St := { s with deleteCh := d, closed := cl, evictor := ev, deleter := de }

/-- What the steps are that need no lock of the cache. -/
theorem lockFree_cases {cfg : Config} {fm : Nat → Bytes → Int → Int → MatchResult} {s s' : St} {act : Act} (ha : act.lockFree = true)
    (h : s.step cfg fm act = some s') :
    (∃ k left p, act = .deleteOne k ∧ s.deleter = .removing left ∧ left[k]? = some p ∧
      s' = { s.listRemove (some p) with deleter := .removing (left.eraseIdx k) }) ∨
    (act = .evictWake ∧ s.evictor = .waiting ∧ s.evictCh = true ∧ s' = { s with evictCh := false, evictor := .awake }) ∨
    (∃ d cl ev de, s' = s.flagged d cl ev de ∧ ∀ (x : St) fm', x.deleteCh = s.deleteCh → x.closed = s.closed → x.evictor = s.evictor →
      x.deleter = s.deleter → x.step cfg fm' act = some (x.flagged d cl ev de)) := by
  cases act with
  | get | fill | register | refresh | unregister | notify | evictRun | deleteTake => simp [Act.lockFree] at ha
  | evictWake =>
    simp only [St.step] at h
    split at h
    · next hc => cases h; exact Or.inr (Or.inl ⟨rfl, hc.1, hc.2, rfl⟩)
    · cases h
  | evictExit =>
    simp only [St.step] at h
    split at h
    · next hc =>
      cases h
      refine Or.inr (Or.inr ⟨s.deleteCh, s.closed, .gone, s.deleter, rfl, ?_⟩)
      intro x fm' h1 h2 h3 h4
      simp [St.step, h2, h3, hc, St.flagged, ← h1, ← h4]
    · cases h
  | deleteWake =>
    simp only [St.step] at h
    split at h
    · next hc =>
      cases h
      refine Or.inr (Or.inr ⟨false, s.closed, s.evictor, .awake, rfl, ?_⟩)
      intro x fm' h1 h2 h3 h4
      simp [St.step, h1, h4, hc, St.flagged, ← h2, ← h3]
    · cases h
  | deleteExit =>
    simp only [St.step] at h
    split at h
    · next hc =>
      cases h
      refine Or.inr (Or.inr ⟨s.deleteCh, s.closed, s.evictor, .gone, rfl, ?_⟩)
      intro x fm' h1 h2 h3 h4
      simp [St.step, h2, h4, hc, St.flagged, ← h1, ← h3]
    · cases h
  | deleteDone =>
    simp only [St.step] at h
    split at h
    · next hc =>
      cases h
      refine Or.inr (Or.inr ⟨s.deleteCh, s.closed, s.evictor, .waiting, rfl, ?_⟩)
      intro x fm' h1 h2 h3 h4
      simp [St.step, h4, hc, St.flagged, ← h1, ← h2, ← h3]
    · cases h
  | close =>
    cases h
    refine Or.inr (Or.inr ⟨s.deleteCh, true, s.evictor, s.deleter, rfl, ?_⟩)
    intro x fm' h1 h2 h3 h4
    simp [St.step, St.flagged, ← h1, ← h3, ← h4]
  | deleteOne k =>
    simp only [St.step] at h
    cases hd : s.deleter with
    | waiting => rw [hd] at h; cases h
    | awake => rw [hd] at h; cases h
    | gone => rw [hd] at h; cases h
    | removing left =>
      rw [hd] at h
      simp only at h
      cases hk : left[k]? with
      | none => rw [hk] at h; cases h
      | some p =>
        rw [hk] at h
        cases h
        exact Or.inl ⟨k, left, p, rfl, rfl, hk, rfl⟩

theorem Holds.flagged {cfg : Config} {fm : Nat → Bytes → Int → Int → MatchResult} {f c : St} {pc : Pc} (h : Holds cfg fm f c pc)
    (d cl : Bool) (ev : Evictor) (de : Deleter) : Holds cfg fm (f.flagged d cl ev de) (c.flagged d cl ev de) pc := by
  have pre : ∀ {q s r}, Pre cfg c q s r → Pre cfg (c.flagged d cl ev de) q (s.flagged d cl ev de) r := by
    rintro q s r (⟨rfl, h1, h2⟩ | ⟨r0, p, h1, h2, h3, rfl⟩)
    · exact Or.inl ⟨rfl, h1, h2⟩
    · exact Or.inr ⟨r0, p, h1, h2, h3, rfl⟩
  have eq : f = c → f.flagged d cl ev de = c.flagged d cl ev de := by rintro rfl; rfl
  cases pc with
  | promotingW => exact ⟨eq h.1, h.2⟩
  | gaveUp q r => obtain ⟨h1, rfl⟩ := h; exact ⟨h1, rfl⟩
  | told q r => obtain ⟨m, h1, rfl⟩ := h; exact ⟨m, h1, rfl⟩
  | unlinking q r e => obtain ⟨r0, p, h1, h2, h3, h4, rfl⟩ := h; exact ⟨r0, p, h1, h2, h3, h4, rfl⟩
  | computing q r => exact pre h
  | storing q r res => exact ⟨pre h.1, h.2⟩
  | adding q p res =>
    obtain ⟨s, r, t, hp, h2, rfl, h3⟩ := h
    exact ⟨_, r, t, pre hp, h2, rfl, h3⟩
  | telling q res => obtain ⟨b, rfl, hb⟩ := h; exact ⟨b, rfl, hb⟩
  | changeGaveUp ch r =>
    cases ch with
    | register => obtain ⟨h1, rfl⟩ := h; exact ⟨h1, rfl⟩
    | refresh => obtain ⟨h1, h2, rfl⟩ := h; exact ⟨h1, h2, rfl⟩
    | unregister => obtain ⟨h1, rfl⟩ := h; exact ⟨h1, rfl⟩
  | changeTold ch r =>
    cases ch with
    | register => obtain ⟨m, h1, rfl⟩ := h; exact ⟨m, h1, rfl⟩
    | refresh => obtain ⟨m, h1, rfl⟩ := h; exact ⟨m, h1, rfl⟩
    | unregister => exact h.elim
  | idle => exact eq h
  | called => exact eq h
  | reading => exact eq h
  | promoting => exact eq h
  | found => exact eq h
  | absent => exact eq h
  | missed => exact eq h
  | writing => exact eq h
  | wrote => exact eq h
  | done => exact eq h
  | change => exact eq h
  | changing => exact eq h
  | changed => exact eq h
  | changeDone => exact eq h

theorem Holds.evictWake {cfg : Config} {fm : Nat → Bytes → Int → Int → MatchResult} {f c : St} {pc : Pc} (h : Holds cfg fm f c pc) :
    Holds cfg fm { f with evictCh := false, evictor := .awake } { c with evictCh := false, evictor := .awake } pc := by
  have pre : ∀ {q s r}, Pre cfg c q s r → Pre cfg { c with evictCh := false, evictor := .awake } q { s with evictCh := false, evictor := .awake } r := by
    rintro q s r (⟨rfl, h1, h2⟩ | ⟨r0, p, h1, h2, h3, rfl⟩)
    · exact Or.inl ⟨rfl, h1, h2⟩
    · exact Or.inr ⟨r0, p, h1, h2, h3, rfl⟩
  have eq : f = c → ({ f with evictCh := false, evictor := .awake } : St) = { c with evictCh := false, evictor := .awake } := by rintro rfl; rfl
  cases pc with
  | promotingW => exact ⟨eq h.1, h.2⟩
  | gaveUp q r => obtain ⟨h1, rfl⟩ := h; exact ⟨h1, rfl⟩
  | told q r => obtain ⟨m, h1, rfl⟩ := h; exact ⟨m, h1, rfl⟩
  | unlinking q r e => obtain ⟨r0, p, h1, h2, h3, h4, rfl⟩ := h; exact ⟨r0, p, h1, h2, h3, h4, rfl⟩
  | computing q r => exact pre h
  | storing q r res => exact ⟨pre h.1, h.2⟩
  | adding q p res =>
    obtain ⟨s, r, t, hp, h2, rfl, h3⟩ := h
    exact ⟨_, r, t, pre hp, h2, rfl, h3⟩
  | telling q res => obtain ⟨b, rfl, hb⟩ := h; exact ⟨false, rfl, by simp⟩
  | changeGaveUp ch r =>
    cases ch with
    | register => obtain ⟨h1, rfl⟩ := h; exact ⟨h1, rfl⟩
    | refresh => obtain ⟨h1, h2, rfl⟩ := h; exact ⟨h1, h2, rfl⟩
    | unregister => obtain ⟨h1, rfl⟩ := h; exact ⟨h1, rfl⟩
  | changeTold ch r =>
    cases ch with
    | register => obtain ⟨m, h1, rfl⟩ := h; exact ⟨m, h1, rfl⟩
    | refresh => obtain ⟨m, h1, rfl⟩ := h; exact ⟨m, h1, rfl⟩
    | unregister => exact h.elim
  | idle => exact eq h
  | called => exact eq h
  | reading => exact eq h
  | promoting => exact eq h
  | found => exact eq h
  | absent => exact eq h
  | missed => exact eq h
  | writing => exact eq h
  | wrote => exact eq h
  | done => exact eq h
  | change => exact eq h
  | changing => exact eq h
  | changed => exact eq h
  | changeDone => exact eq h

/-- An element that was given up is removed from the list. -/
theorem Holds.deleteOne {cfg : Config} {fm : Nat → Bytes → Int → Int → MatchResult} {f c : St} {pc : Pc} (h : Holds cfg fm f c pc)
    {xs : List Ptr} (hi : Inv c xs) {b : Ptr} (hb : b ∈ c.doomed) (de : Deleter) :
    Holds cfg fm { f.listRemove (some b) with deleter := de } { c.listRemove (some b) with deleter := de } pc := by
  obtain ⟨hlt, hnc⟩ := hi.doomed b hb
  have hmem := hi.all b hlt
  have hdata : SameData c.heap (c.listRemove (some b)).heap := (hi.listRemove hlt hnc).2.1
  have hne : ∀ {ns r id p}, mget c.namespaces ns = some r → mget r.elems id = some p → p ≠ b := by
    rintro ns r id p h1 h2 rfl
    exact hnc ns r.source id ⟨r, h1, rfl, h2⟩
  have stale : ∀ {q r p}, Stale c q r p → Stale { c.listRemove (some b) with deleter := de } q r p := by
    rintro q r p ⟨h1, h2, h3⟩
    refine ⟨h1, h2, ?_⟩
    show ((c.listRemove (some b)).heap p).result.hasExpired q.to = true
    rw [(hdata p).2.2]; exact h3
  have hit : ∀ {q p res}, Hit c q p res → Hit { c.listRemove (some b) with deleter := de } q p res := by
    rintro q p res ⟨r, h1, h2, h3, h4⟩
    refine ⟨r, h1, h2, ?_, h4⟩
    show ((c.listRemove (some b)).heap p).result = res
    rw [(hdata p).2.2]; exact h3
  have pre : ∀ {q s r}, Pre cfg c q s r → Pre cfg { c.listRemove (some b) with deleter := de } q { s.listRemove (some b) with deleter := de } r := by
    rintro q s r (⟨rfl, h1, h2⟩ | ⟨r0, p, h1, h2, h3, rfl⟩)
    · exact Or.inl ⟨rfl, h1, h2⟩
    · refine Or.inr ⟨r0, p, h1, stale h2, h3, ?_⟩
      have hp := (hi.cached q.ns r0.source q.id p ⟨r0, h2.1, rfl, h2.2.1⟩).1
      have hpb : p ≠ b := hne h2.1 h2.2.1
      have e := remove_comm hi.repr hp hmem hpb
      unfold St.listRemove
      simp only
      rw [e]
  have eq : f = c → ({ f.listRemove (some b) with deleter := de } : St) = { c.listRemove (some b) with deleter := de } := by rintro rfl; rfl
  cases pc with
  | promotingW => exact ⟨eq h.1, hit h.2⟩
  | gaveUp q r => obtain ⟨h1, rfl⟩ := h; exact ⟨h1, rfl⟩
  | told q r => obtain ⟨m, h1, rfl⟩ := h; exact ⟨m, h1, rfl⟩
  | unlinking q r e => obtain ⟨r0, p, h1, h2, h3, h4, rfl⟩ := h; exact ⟨r0, p, h1, h2, stale h3, h4, rfl⟩
  | computing q r => exact pre h
  | storing q r res => exact ⟨pre h.1, h.2⟩
  | adding q p res =>
    obtain ⟨s, r, t, hp, h2, rfl, h3⟩ := h
    refine ⟨_, r, t, pre hp, h2, ?_, h3⟩
    -- the list that the lookup has made, and its elements
    obtain ⟨ys, hr, hys, hbs, hnx⟩ : ∃ ys, Repr s.heap s.list ys ∧ (∀ x ∈ ys, x < s.nextPtr) ∧ (b ∈ ys ∨ (s.heap b).deleted = true) ∧
        s.nextPtr = c.nextPtr := by
      rcases hp with ⟨rfl, _⟩ | ⟨r0, p0, _, h4, _, rfl⟩
      · exact ⟨xs, hi.repr, hi.bound, hmem, rfl⟩
      · have hp0 := (hi.cached q.ns r0.source q.id p0 ⟨r0, h4.1, rfl, h4.2.1⟩).1
        have hpb : p0 ≠ b := hne h4.1 h4.2.1
        obtain ⟨k1, k2, k3, _⟩ := remove_repr hi.repr hp0
        refine ⟨_, k1, fun x hx => hi.bound x (List.mem_of_mem_erase hx), ?_, rfl⟩
        rcases hmem with hm | hm
        · exact Or.inl ((hi.repr.nodup.mem_erase_iff).mpr ⟨Ne.symm hpb, hm⟩)
        · refine Or.inr ?_
          show ((remove c.heap c.list (some p0)).1 b).deleted = true
          rw [(k3 b).1, if_neg (Ne.symm hpb)]; exact hm
    have hbn : b ≠ s.nextPtr := by rw [hnx]; omega
    have hpn : s.nextPtr ∉ ys := fun hx => Nat.lt_irrefl _ (hys _ hx)
    have e := remove_upd hr hbs hpn hbn { newElement q.ns q.id res with expiryNanos := newPromotionExpiry cfg t }
    unfold St.store St.listRemove
    simp only
    rw [e]
  | telling q res => obtain ⟨b, rfl, hb⟩ := h; exact ⟨b, rfl, hb⟩
  | changeGaveUp ch r =>
    cases ch with
    | register => obtain ⟨h1, rfl⟩ := h; exact ⟨h1, rfl⟩
    | refresh => obtain ⟨h1, h2, rfl⟩ := h; exact ⟨h1, h2, rfl⟩
    | unregister => obtain ⟨h1, rfl⟩ := h; exact ⟨h1, rfl⟩
  | changeTold ch r =>
    cases ch with
    | register => obtain ⟨m, h1, rfl⟩ := h; exact ⟨m, h1, rfl⟩
    | refresh => obtain ⟨m, h1, rfl⟩ := h; exact ⟨m, h1, rfl⟩
    | unregister => exact h.elim
  | idle => exact eq h
  | called => exact eq h
  | reading => exact eq h
  | promoting => exact eq h
  | found => exact eq h
  | absent => exact eq h
  | missed => exact eq h
  | writing => exact eq h
  | wrote => exact eq h
  | done => exact eq h
  | change => exact eq h
  | changing => exact eq h
  | changed => exact eq h
  | changeDone => exact eq h

/-- A step that needs no lock of the cache can be made by both. -/
theorem Holds.work {cfg : Config} {fm : Nat → Bytes → Int → Int → MatchResult} {f c : St} {pc : Pc} (h : Holds cfg fm f c pc)
    {xs : List Ptr} (hi : Inv c xs) {act : Act} (ha : act.lockFree = true) {fm1 : Nat → Bytes → Int → Int → MatchResult} {f' : St}
    (hs : f.step cfg fm1 act = some f') (fm2 : Nat → Bytes → Int → Int → MatchResult) :
    ∃ c', c.step cfg fm2 act = some c' ∧ Holds cfg fm f' c' pc ∧ c'.namespaces = c.namespaces := by
  obtain ⟨e1, e2, e3, e4, e5⟩ := h.flags
  rcases lockFree_cases ha hs with ⟨k, left, p, rfl, h1, h2, rfl⟩ | ⟨rfl, h1, h2, rfl⟩ | ⟨d, cl, ev, de, rfl, h1⟩
  · have hc : c.deleter = .removing left := e4 ▸ h1
    refine ⟨{ c.listRemove (some p) with deleter := .removing (left.eraseIdx k) }, by simp [St.step, hc, h2], ?_, rfl⟩
    refine h.deleteOne hi ?_ _
    unfold St.doomed
    rw [hc]
    exact List.mem_append_right _ (List.mem_of_getElem? h2)
  · exact ⟨{ c with evictCh := false, evictor := .awake }, by simp [St.step, ← e3, h1, e5 h2], h.evictWake, rfl⟩
  · exact ⟨_, h1 c fm2 e1.symm e2.symm e3.symm e4.symm, h.flagged d cl ev de, rfl⟩

/-- A lookup that has asked the source and puts the element in the list. -/
theorem Pre.fill {cfg : Config} {c : St} {q : Query} {s : St} {r : Results} (h : Pre cfg c q s r) (fm : Nat → Bytes → Int → Int → MatchResult)
    (t : Tick) (x : St) (hx : x = s.store cfg t q r (fm r.source q.id q.frm q.to)) :
    c.tryGetWithLock cfg fm t q.ns q.id q.frm q.to true =
      (if (x.add s.nextPtr).list.length > cfg.capacity + cfg.evictionBatchSize then (x.add s.nextPtr).notifyEviction else x.add s.nextPtr,
        fm r.source q.id q.frm q.to, true) := by
  subst hx
  rcases h with ⟨rfl, h1, h2⟩ | ⟨r0, p, h1, ⟨h2, h3, h4⟩, rfl, rfl⟩
  · simp only [St.tryGetWithLock, h1, h2, Bool.not_true, Bool.false_eq_true, if_false, St.setWithLock, St.invalidateIf]
    rfl
  · simp only [St.tryGetWithLock, h2, h3, h4, Bool.not_true, Bool.false_eq_true, if_false, St.setWithLock, St.invalidateIf, if_true,
      St.invalidateWithLock, h1]
    rfl

end Verif.Cache
