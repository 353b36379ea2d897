import Verif.Model.Namespace
import Verif.Lemmas.RuleOps
import Verif.Lemmas.RuleProto
/-
C54: life cycle of namespaces under all sequences of additions and deletions.
C55: stored form of namespaces; copies; views.
-/
namespace Verif.NS
open Verif.Meta Verif.RuleSet Verif.Rules

/-! ### Specification -/

/-- A call on the namespaces. -/
inductive Cmd where
  | add (name : Bytes) (m : UpdateMeta)
  | delete (name : Bytes) (currRuleSetVersion : Int) (m : UpdateMeta)

/-- The namespaces after a call, whether it succeeds or not. -/
def Namespaces.cmd (nss : Namespaces) : Cmd → Namespaces
  | .add n m => (nss.add n m).1
  | .delete n v m => (nss.delete n v m).1

/-- The namespaces after some calls. -/
def Namespaces.run (nss : Namespaces) (cs : List Cmd) : Namespaces := cs.foldl Namespaces.cmd nss

/-- Namespaces without any namespace. -/
def empty : Namespaces := { version := 0, namespaces := [] }

/-- What may be known about a name. -/
inductive Status where
  | unknown
  | live
  | deleted
  deriving DecidableEq

/-- Abstract life of one name: its snapshots so far, oldest first.  It is unknown until its first snapshot, and then
what the last snapshot says. -/
def status (h : List Snapshot) : Status := match h.getLast? with
  | none => .unknown
  | some s => if s.tombstoned then .deleted else .live

/-- The abstract effect of an addition on the history of the name: unknown and deleted names become live, the former
for version 1 of the ruleset, the latter for the version after the one that deleted it; nothing else happens. -/
def addSpec (m : UpdateMeta) (h : List Snapshot) : List Snapshot := match status h with
  | .unknown => [⟨1, false, m.updatedAtNanos, m.updatedBy⟩]
  | .deleted => h ++ [⟨((h.map (·.forRuleSetVersion)).getLast?.getD 0) + 1, false, m.updatedAtNanos, m.updatedBy⟩]
  | .live => h

/-- The abstract effect of a deletion on the history of the name. -/
def deleteSpec (v : Int) (m : UpdateMeta) (h : List Snapshot) : List Snapshot := match status h with
  | .live => h ++ [⟨v + 1, true, m.updatedAtNanos, m.updatedBy⟩]
  | _ => h

/-- The history of every name after a call. -/
def cmdSpec (f : Bytes → List Snapshot) : Cmd → Bytes → List Snapshot
  | .add n m => fun k => if k = n then addSpec m (f k) else f k
  | .delete n v m => fun k => if k = n then deleteSpec v m (f k) else f k

/-- The history of a name: the snapshots of the namespace of that name, none if there is no such namespace. -/
def Namespaces.history (nss : Namespaces) (name : Bytes) : List Snapshot :=
  ((nss.namespaces.find? fun n => n.name = name).map Namespace.snaps).getD []

/-- Snapshots are live and deleted in turns, the first one live. -/
def Alternates (h : List Snapshot) : Prop := ∀ i s, h[i]? = some s → s.tombstoned = (i % 2 == 1)

/-- What holds of the namespaces made by calls: names are distinct and every namespace has a snapshot. -/
structure Namespaces.OK (nss : Namespaces) : Prop where
  names : (nss.namespaces.map (·.name)).Nodup
  snaps : ∀ n ∈ nss.namespaces, n.snaps ≠ []

/-! ### Lookup -/

theorem lookupLoop_none {name : Bytes} : ∀ {l : List Namespace} {i : Nat}, (∀ n ∈ l, n.name ≠ name) → ∀ res,
    lookupLoop name l i res = match res with | none => .notFound | some r => .found r
  | [], i, _, res => by cases res <;> rfl
  | n :: l, i, h, res => by
    simp only [lookupLoop]
    rw [if_pos (h n (by simp)), lookupLoop_none (fun n hn => h n (by simp [hn])) res]

theorem lookupLoop_at {name : Bytes} : ∀ {pre post : List Namespace} {n : Namespace} {i : Nat}, (∀ n ∈ pre, n.name ≠ name) →
    n.name = name → (∀ n ∈ post, n.name ≠ name) → lookupLoop name (pre ++ n :: post) i none = .found (i + pre.length)
  | [], post, n, i, _, hn, hpost => by
    simp only [List.nil_append, lookupLoop]
    rw [if_neg (by simp [hn]), lookupLoop_none hpost]; rfl
  | p :: pre, post, n, i, hpre, hn, hpost => by
    simp only [List.cons_append, lookupLoop]
    rw [if_pos (hpre p (by simp)), lookupLoop_at (fun n hn => hpre n (by simp [hn])) hn hpost]
    simp; omega

theorem lookupLoop_multiple {name : Bytes} : ∀ {l : List Namespace} {i j : Nat}, (∃ n ∈ l, n.name = name) →
    lookupLoop name l i (some j) = .multiple
  | n :: l, i, j, h => by
    simp only [lookupLoop]
    by_cases hn : n.name = name
    · rw [if_neg (by simp [hn])]
    · rw [if_pos hn, lookupLoop_multiple]
      obtain ⟨n', h', e⟩ := h
      rcases List.mem_cons.mp h' with rfl | h'
      · exact absurd e hn
      · exact ⟨n', h', e⟩

/-- Where a name of distinct names is. -/
theorem split_name {name : Bytes} {l : List Namespace} (hn : (l.map (·.name)).Nodup) {n : Namespace} (h : n ∈ l) (e : n.name = name) :
    ∃ pre post, l = pre ++ n :: post ∧ (∀ n ∈ pre, n.name ≠ name) ∧ (∀ n ∈ post, n.name ≠ name) := by
  obtain ⟨pre, post, rfl⟩ := List.append_of_mem h
  refine ⟨pre, post, rfl, ?_, ?_⟩
  · intro x hx hc
    simp only [List.map_append, List.map_cons, List.nodup_append, List.mem_map, List.mem_cons] at hn
    exact hn.2.2 x.name ⟨x, hx, rfl⟩ n.name (Or.inl rfl) (by rw [hc, e])
  · intro x hx hc
    simp only [List.map_append, List.map_cons, List.nodup_append, List.nodup_cons, List.mem_map] at hn
    exact hn.2.1.1 ⟨x, hx, by rw [hc, e]⟩

/-- The lookup by name finds the one namespace of that name, reports that there is none, or that there are several. -/
theorem lookup_eq (nss : Namespaces) (name : Bytes) :
    (∃ pre n post, nss.namespaces = pre ++ n :: post ∧ n.name = name ∧ (∀ n ∈ pre, n.name ≠ name) ∧ (∀ n ∈ post, n.name ≠ name) ∧
      nss.lookup name = .found pre.length) ∨
    ((∀ n ∈ nss.namespaces, n.name ≠ name) ∧ nss.lookup name = .notFound) ∨
    (¬ (nss.namespaces.map (·.name)).Nodup ∧ nss.lookup name = .multiple) := by
  unfold Namespaces.lookup
  by_cases hex : ∃ n ∈ nss.namespaces, n.name = name
  · obtain ⟨l1, n, l2, e, hn, hpre⟩ : ∃ l1 n l2, nss.namespaces = l1 ++ n :: l2 ∧ n.name = name ∧ ∀ x ∈ l1, x.name ≠ name := by
      generalize nss.namespaces = l at hex
      induction l with
      | nil => obtain ⟨n, h, _⟩ := hex; simp at h
      | cons a l ih =>
        by_cases ha : a.name = name
        · exact ⟨[], a, l, rfl, ha, by simp⟩
        · obtain ⟨n, h, e⟩ := hex
          rcases List.mem_cons.mp h with rfl | h
          · exact absurd e ha
          · obtain ⟨l1, n', l2, e1, e2, e3⟩ := ih ⟨n, h, e⟩
            refine ⟨a :: l1, n', l2, by rw [e1]; rfl, e2, ?_⟩
            intro x hx
            rcases List.mem_cons.mp hx with rfl | hx
            · exact ha
            · exact e3 x hx
    rw [e]
    by_cases hpost : ∃ x ∈ l2, x.name = name
    · refine Or.inr (Or.inr ⟨?_, ?_⟩)
      · intro hnd
        simp only [List.map_append, List.map_cons, List.nodup_append, List.nodup_cons, List.mem_map] at hnd
        obtain ⟨x, hx, ex⟩ := hpost
        exact hnd.2.1.1 ⟨x, hx, by rw [ex, hn]⟩
      · have : ∀ (l1 : List Namespace) (i : Nat), (∀ x ∈ l1, x.name ≠ name) →
            lookupLoop name (l1 ++ n :: l2) i none = .multiple := by
          intro l1
          induction l1 with
          | nil => intro i _; simp only [List.nil_append, lookupLoop]; rw [if_neg (by simp [hn])]; exact lookupLoop_multiple hpost
          | cons a l1 ih =>
            intro i h
            simp only [List.cons_append, lookupLoop]
            rw [if_pos (h a (by simp))]
            exact ih _ (fun x hx => h x (by simp [hx]))
        exact this l1 0 hpre
    · have hpost' : ∀ x ∈ l2, x.name ≠ name := fun x hx hc => hpost ⟨x, hx, hc⟩
      refine Or.inl ⟨l1, n, l2, rfl, hn, hpre, hpost', ?_⟩
      rw [lookupLoop_at hpre hn hpost']; simp
  · have h : ∀ n ∈ nss.namespaces, n.name ≠ name := fun n hn hc => hex ⟨n, hn, hc⟩
    exact Or.inr (Or.inl ⟨h, by rw [lookupLoop_none h]⟩)

theorem lookup_ok {nss : Namespaces} (h : (nss.namespaces.map (·.name)).Nodup) (name : Bytes) :
    (∃ pre n post, nss.namespaces = pre ++ n :: post ∧ n.name = name ∧ (∀ n ∈ pre, n.name ≠ name) ∧ (∀ n ∈ post, n.name ≠ name) ∧
      nss.lookup name = .found pre.length) ∨
    ((∀ n ∈ nss.namespaces, n.name ≠ name) ∧ nss.lookup name = .notFound) := by
  rcases lookup_eq nss name with h' | h' | h'
  · exact Or.inl h'
  · exact Or.inr h'
  · exact absurd h h'.1

theorem find_none {l : List Namespace} {name : Bytes} (h : ∀ n ∈ l, n.name ≠ name) : (l.find? fun n => n.name = name) = none := by
  simpa using h

theorem find_at {pre post : List Namespace} {n : Namespace} {name : Bytes} (h : ∀ n ∈ pre, n.name ≠ name) (e : n.name = name) :
    ((pre ++ n :: post).find? fun n => n.name = name) = some n := by
  rw [List.find?_append, find_none h]
  simp [e]

theorem find_other {pre post : List Namespace} {n n' : Namespace} {k : Bytes} (h : n.name ≠ k) (h' : n'.name ≠ k) :
    ((pre ++ n :: post).find? fun n => n.name = k) = ((pre ++ n' :: post).find? fun n => n.name = k) := by
  rw [List.find?_append, List.find?_append]
  simp [h, h']

theorem find_snoc_other {l : List Namespace} {n : Namespace} {k : Bytes} (h : n.name ≠ k) :
    ((l ++ [n]).find? fun n => n.name = k) = (l.find? fun n => n.name = k) := by
  rw [List.find?_append]
  simp [h]

theorem tombstoned_eq (n : Namespace) : n.tombstoned = true ↔ status n.snaps ≠ .live := by
  unfold Namespace.tombstoned status
  cases n.snaps.getLast? with
  | none => simp
  | some s => by_cases h : s.tombstoned = true <;> simp [h]

theorem getLast?_map' {α β : Type} (f : α → β) (l : List α) : (l.map f).getLast? = l.getLast?.map f := by simp

/-- Replacing the namespace of a name replaces its history and no other. -/
theorem history_set {nss : Namespaces} {pre post : List Namespace} {n n' : Namespace} {name : Bytes}
    (e : nss.namespaces = pre ++ n :: post) (hn : n.name = name) (hn' : n'.name = name) (hpre : ∀ n ∈ pre, n.name ≠ name) :
    ({ nss with namespaces := nss.namespaces.set pre.length n' } : Namespaces).history =
      fun k => if k = name then n'.snaps else nss.history k := by
  funext k
  have e' : nss.namespaces.set pre.length n' = pre ++ n' :: post := by rw [e]; simp
  unfold Namespaces.history
  simp only [e']
  by_cases hk : k = name
  · subst hk
    rw [if_pos rfl, find_at hpre hn']; rfl
  · rw [if_neg hk, e, find_other (n := n') (n' := n) (by rw [hn']; exact fun h => hk h.symm) (by rw [hn]; exact fun h => hk h.symm)]

theorem history_at {nss : Namespaces} {pre post : List Namespace} {n : Namespace} {name : Bytes}
    (e : nss.namespaces = pre ++ n :: post) (hn : n.name = name) (hpre : ∀ n ∈ pre, n.name ≠ name) : nss.history name = n.snaps := by
  unfold Namespaces.history
  rw [e, find_at hpre hn]; rfl

theorem history_none {nss : Namespaces} {name : Bytes} (h : ∀ n ∈ nss.namespaces, n.name ≠ name) : nss.history name = [] := by
  unfold Namespaces.history
  rw [find_none h]; rfl

theorem nodup_set {l pre post : List Namespace} {n n' : Namespace} (e : l = pre ++ n :: post) (hn : n'.name = n.name)
    (h : (l.map (·.name)).Nodup) : ((l.set pre.length n').map (·.name)).Nodup := by
  have : (l.set pre.length n').map (·.name) = l.map (·.name) := by rw [e]; simp [hn]
  rw [this]; exact h

/-! ### One call -/

/-- C54, one addition: it fails exactly for a live namespace, reports a revival exactly for a deleted one, and has the
abstract effect on the histories. -/
theorem C54_add {nss : Namespaces} (h : nss.OK) (name : Bytes) (m : UpdateMeta) :
    (nss.add name m).2 = (match status (nss.history name) with | .unknown => some false | .deleted => some true | .live => none) ∧
    (nss.add name m).1.history = cmdSpec nss.history (.add name m) ∧ (nss.add name m).1.OK ∧
    ((nss.add name m).2 = none → (nss.add name m).1 = nss) ∧ (nss.add name m).1.version = nss.version := by
  rcases lookup_ok h.names name with ⟨pre, n, post, e, hn, hpre, hpost, hl⟩ | ⟨hno, hl⟩
  · have hget : nss.namespaces[pre.length]? = some n := by rw [e]; simp
    have hmem : n ∈ nss.namespaces := by rw [e]; simp
    have hh := history_at e hn hpre
    obtain ⟨last, hlast⟩ : ∃ s, n.snaps.getLast? = some s := by
      cases hs : n.snaps.getLast? with
      | none => exact absurd (List.getLast?_eq_none_iff.mp hs) (h.snaps n hmem)
      | some s => exact ⟨s, rfl⟩
    unfold Namespaces.add
    simp only [hl, hget, Namespace.revive]
    rw [hh]
    by_cases ht : n.tombstoned = true
    · have hst : last.tombstoned = true := by
        unfold Namespace.tombstoned at ht; rw [hlast] at ht; exact ht
      have hs : status n.snaps = .deleted := by unfold status; rw [hlast]; simp [hst]
      rw [if_neg (by simp [ht])]
      simp only [hlast, hs]
      refine ⟨by trivial, ?_, ⟨?_, ?_⟩, by simp, by trivial⟩
      · rw [history_set (n := n) (name := name) e hn (by exact hn) hpre]
        funext k
        simp only [cmdSpec]
        by_cases hk : k = name
        · subst hk
          rw [if_pos rfl, if_pos rfl, hh]
          simp only [addSpec, hs, getLast?_map', hlast, Option.map_some, Option.getD_some]
          rfl
        · rw [if_neg hk, if_neg hk]
      · exact nodup_set (n := n) e rfl h.names
      · intro x hx
        rcases List.mem_or_eq_of_mem_set hx with hx | hx
        · exact h.snaps x hx
        · subst hx; simp [Namespace.snaps]
    · have hs : status n.snaps = .live := by
        refine Classical.byContradiction fun hc => ?_; exact ht ((tombstoned_eq n).mpr hc)
      rw [if_pos (by simpa using ht)]
      simp only [hs]
      refine ⟨by trivial, ?_, h, by simp, by trivial⟩
      funext k
      simp only [cmdSpec]
      by_cases hk : k = name
      · subst hk; rw [if_pos rfl, hh]; simp [addSpec, hs]
      · rw [if_neg hk]
  · have hh := history_none hno
    unfold Namespaces.add
    simp only [hl]
    rw [hh]
    refine ⟨rfl, ?_, ⟨?_, ?_⟩, by simp, by trivial⟩
    · funext k
      simp only [cmdSpec]
      by_cases hk : k = name
      · subst hk
        rw [if_pos rfl, hh]
        unfold Namespaces.history
        simp only
        rw [find_at hno rfl]; rfl
      · rw [if_neg hk]
        unfold Namespaces.history
        simp only
        rw [find_snoc_other (by exact fun h => hk h.symm)]
    · rw [List.map_append, List.nodup_append]
      refine ⟨h.names, by simp, ?_⟩
      intro a ha b hb
      simp only [List.map_cons, List.map_nil, List.mem_singleton] at hb
      obtain ⟨x, hx, rfl⟩ := List.mem_map.mp ha
      rw [hb]; exact hno x hx
    · intro x hx
      rcases List.mem_append.mp hx with hx | hx
      · exact h.snaps x hx
      · simp only [List.mem_singleton] at hx; subst hx; simp [Namespace.snaps]

/-- C54, one deletion: it succeeds exactly for a live namespace and has the abstract effect on the histories. -/
theorem C54_delete {nss : Namespaces} (h : nss.OK) (name : Bytes) (v : Int) (m : UpdateMeta) :
    ((nss.delete name v m).2 = true ↔ status (nss.history name) = .live) ∧
    (nss.delete name v m).1.history = cmdSpec nss.history (.delete name v m) ∧ (nss.delete name v m).1.OK ∧
    ((nss.delete name v m).2 = false → (nss.delete name v m).1 = nss) ∧ (nss.delete name v m).1.version = nss.version := by
  rcases lookup_ok h.names name with ⟨pre, n, post, e, hn, hpre, hpost, hl⟩ | ⟨hno, hl⟩
  · have hget : nss.namespaces[pre.length]? = some n := by rw [e]; simp
    have hh := history_at e hn hpre
    unfold Namespaces.delete
    simp only [hl, hget, Namespace.markTombstoned]
    rw [hh]
    by_cases ht : n.tombstoned = true
    · have hs : status n.snaps ≠ .live := (tombstoned_eq n).mp ht
      rw [if_pos ht]
      refine ⟨by simpa using hs, ?_, h, by simp, rfl⟩
      funext k
      simp only [cmdSpec]
      by_cases hk : k = name
      · subst hk; rw [if_pos rfl, hh]
        unfold deleteSpec
        split
        · rename_i hc; exact absurd hc hs
        · rfl
      · rw [if_neg hk]
    · have hs : status n.snaps = .live := by
        refine Classical.byContradiction fun hc => ?_; exact ht ((tombstoned_eq n).mpr hc)
      rw [if_neg ht]
      refine ⟨by simpa using hs, ?_, ⟨?_, ?_⟩, by simp, rfl⟩
      · simp only
        rw [history_set (n := n) (name := name) e hn (by exact hn) hpre]
        funext k
        simp only [cmdSpec]
        by_cases hk : k = name
        · subst hk
          rw [if_pos rfl, if_pos rfl, hh]
          simp only [deleteSpec, hs]
          rfl
        · rw [if_neg hk, if_neg hk]
      · exact nodup_set (n := n) e rfl h.names
      · intro x hx
        rcases List.mem_or_eq_of_mem_set hx with hx | hx
        · exact h.snaps x hx
        · subst hx; simp [Namespace.snaps]
  · have hh := history_none hno
    unfold Namespaces.delete
    simp only [hl]
    rw [hh]
    refine ⟨by simp [status], ?_, h, by simp, by trivial⟩
    funext k
    simp only [cmdSpec]
    by_cases hk : k = name
    · subst hk; rw [if_pos rfl, hh]; rfl
    · rw [if_neg hk]

/-! ### All sequences of calls -/

theorem cmd_ok {nss : Namespaces} (h : nss.OK) (c : Cmd) : (nss.cmd c).OK ∧ (nss.cmd c).history = cmdSpec nss.history c ∧
    (nss.cmd c).version = nss.version := by
  cases c with
  | add n m => have := C54_add h n m; exact ⟨this.2.2.1, this.2.1, this.2.2.2.2⟩
  | delete n v m => have := C54_delete h n v m; exact ⟨this.2.2.1, this.2.1, this.2.2.2.2⟩

/-- C54: under every sequence of calls names stay distinct and the histories develop as the abstract ones do. -/
theorem C54_refines : ∀ (cs : List Cmd) {nss : Namespaces}, nss.OK →
    (nss.run cs).OK ∧ (nss.run cs).history = cs.foldl cmdSpec nss.history ∧ (nss.run cs).version = nss.version
  | [], nss, h => ⟨h, rfl, rfl⟩
  | c :: cs, nss, h => by
    obtain ⟨h1, h2, h3⟩ := cmd_ok h c
    obtain ⟨g1, g2, g3⟩ := C54_refines cs h1
    refine ⟨g1, ?_, ?_⟩
    · show ((nss.cmd c).run cs).history = _
      rw [g2, h2]; rfl
    · show ((nss.cmd c).run cs).version = _
      rw [g3, h3]

theorem empty_ok : empty.OK := ⟨by simp [empty], by simp [empty]⟩

/-- C54: names stay unique. -/
theorem C54_names_unique (cs : List Cmd) : ((empty.run cs).namespaces.map (·.name)).Nodup := (C54_refines cs empty_ok).1.names

theorem alternates_nil : Alternates [] := by intro i s h; simp at h

theorem alternates_snoc {h : List Snapshot} {s : Snapshot} (ha : Alternates h) (hs : s.tombstoned = (h.length % 2 == 1)) :
    Alternates (h ++ [s]) := by
  intro i x hx
  rw [List.getElem?_append] at hx
  split at hx
  · exact ha i x hx
  · rename_i hlt
    have : i - h.length = 0 := by
      refine Classical.byContradiction fun hc => ?_
      rw [List.getElem?_eq_none (by simp; omega)] at hx
      simp at hx
    rw [this] at hx
    simp at hx
    subst hx
    rw [hs, show i = h.length by omega]

/-- The last snapshot of an alternating history tells its parity. -/
theorem alternates_status {h : List Snapshot} (ha : Alternates h) :
    (status h = .unknown ↔ h = []) ∧ (status h = .live ↔ h.length % 2 = 1) := by
  unfold status
  cases hl : h.getLast? with
  | none => simp [List.getLast?_eq_none_iff.mp hl]
  | some s =>
    have hne : h ≠ [] := fun hc => by simp [hc] at hl
    rw [List.getLast?_eq_getElem?] at hl
    have := ha _ s hl
    have hpos : 0 < h.length := List.length_pos_iff.mpr hne
    constructor
    · by_cases hs : s.tombstoned = true <;> simp [hs, hne]
    · simp only
      rw [this]
      by_cases hp : (h.length - 1) % 2 = 1
      · simp [hp]; omega
      · simp [hp]; omega

theorem cmdSpec_alternates {f : Bytes → List Snapshot} (hf : ∀ k, Alternates (f k)) (c : Cmd) : ∀ k, Alternates (cmdSpec f c k) := by
  intro k
  cases c with
  | add n m =>
    simp only [cmdSpec]
    split
    · unfold addSpec
      have hs := alternates_status (hf k)
      cases he : status (f k) with
      | unknown =>
        have := hs.1.mp he
        have g := alternates_snoc (s := ⟨1, false, m.updatedAtNanos, m.updatedBy⟩) alternates_nil (by rfl)
        exact g
      | live => exact hf k
      | deleted =>
        have hne : ¬ (f k).length % 2 = 1 := fun hc => by rw [hs.2.mpr hc] at he; simp at he
        apply alternates_snoc (hf k)
        simp [hne]
    · exact hf k
  | delete n v m =>
    simp only [cmdSpec]
    split
    · unfold deleteSpec
      have hs := alternates_status (hf k)
      cases he : status (f k) with
      | unknown => exact hf k
      | deleted => exact hf k
      | live =>
        apply alternates_snoc (hf k)
        simp [hs.2.mp he]
    · exact hf k

theorem history_mem {nss : Namespaces} (h : nss.OK) {n : Namespace} (hn : n ∈ nss.namespaces) : nss.history n.name = n.snaps := by
  obtain ⟨pre, post, e, hpre, _⟩ := split_name h.names hn rfl
  exact history_at e rfl hpre

/-- C54: every namespace there is after some calls has a history that is live and deleted in turns, first live. -/
theorem C54_alternates (cs : List Cmd) : ∀ n ∈ (empty.run cs).namespaces, n.snaps ≠ [] ∧ Alternates n.snaps := by
  intro n hn
  obtain ⟨hok, hh, _⟩ := C54_refines cs empty_ok
  refine ⟨hok.snaps n hn, ?_⟩
  rw [← history_mem hok hn, hh]
  have : ∀ (cs : List Cmd) (f : Bytes → List Snapshot), (∀ k, Alternates (f k)) → ∀ k, Alternates (cs.foldl cmdSpec f k) := by
    intro cs
    induction cs with
    | nil => intro f hf; exact hf
    | cons c cs ih => intro f hf; exact ih _ (cmdSpec_alternates hf c)
  exact this cs _ (fun k => alternates_nil) _

theorem set_grows {l pre post : List Namespace} {n n' : Namespace} (e : l = pre ++ n :: post) (hn : n'.name = n.name)
    (hp : n.snaps <+: n'.snaps) : ∀ (i : Nat) (x : Namespace), l[i]? = some x →
      ∃ x', (l.set pre.length n')[i]? = some x' ∧ x'.name = x.name ∧ x.snaps <+: x'.snaps := by
  intro i x hx
  by_cases hi : i = pre.length
  · subst hi
    have hlt : pre.length < l.length := by rw [e]; simp
    have : x = n := by rw [e] at hx; simpa using hx.symm
    subst this
    exact ⟨n', by simp [hlt], hn, hp⟩
  · refine ⟨x, ?_, rfl, List.prefix_refl _⟩
    rw [List.getElem?_set_ne (fun h => hi h.symm), hx]

/-- C54: whatever the namespaces are, no call removes, renames, reorders or shortens anything: each namespace stays
where it is and its history only grows at the end. -/
theorem C54_grows : ∀ (cs : List Cmd) (nss : Namespaces) (i : Nat) (n : Namespace), nss.namespaces[i]? = some n →
    ∃ n', (nss.run cs).namespaces[i]? = some n' ∧ n'.name = n.name ∧ n.snaps <+: n'.snaps := by
  have one : ∀ (c : Cmd) (nss : Namespaces) (i : Nat) (n : Namespace), nss.namespaces[i]? = some n →
      ∃ n', (nss.cmd c).namespaces[i]? = some n' ∧ n'.name = n.name ∧ n.snaps <+: n'.snaps := by
    intro c nss i n hi
    cases c with
    | add name m =>
      simp only [Namespaces.cmd, Namespaces.add]
      rcases lookup_eq nss name with ⟨pre, x, post, e, hx, _, _, hl⟩ | ⟨_, hl⟩ | ⟨_, hl⟩
      · have hget : nss.namespaces[pre.length]? = some x := by rw [e]; simp
        simp only [hl, hget]
        cases hr : x.revive m with
        | none => exact ⟨n, hi, rfl, List.prefix_refl _⟩
        | some x' =>
          refine set_grows e ?_ ?_ i n hi
          · unfold Namespace.revive at hr
            split at hr
            · simp at hr
            · split at hr
              · simp at hr
              · cases hr; rfl
          · unfold Namespace.revive at hr
            split at hr
            · simp at hr
            · split at hr
              · simp at hr
              · cases hr; simp [Namespace.snaps]
      · simp only [hl]
        refine ⟨n, ?_, rfl, List.prefix_refl _⟩
        rw [List.getElem?_append_left (by have := (List.getElem?_eq_some_iff.mp hi).1; exact this), hi]
      · simp only [hl]; exact ⟨n, hi, rfl, List.prefix_refl _⟩
    | delete name v m =>
      simp only [Namespaces.cmd, Namespaces.delete]
      rcases lookup_eq nss name with ⟨pre, x, post, e, hx, _, _, hl⟩ | ⟨_, hl⟩ | ⟨_, hl⟩
      · have hget : nss.namespaces[pre.length]? = some x := by rw [e]; simp
        simp only [hl, hget, Namespace.markTombstoned]
        by_cases ht : x.tombstoned = true
        · rw [if_pos ht]; exact ⟨n, hi, rfl, List.prefix_refl _⟩
        · rw [if_neg ht]
          refine set_grows (n := x) (n' := { x with snapshots := some (x.snaps ++
            [{ forRuleSetVersion := v + 1, tombstoned := true, lastUpdatedAtNanos := m.updatedAtNanos
               lastUpdatedBy := m.updatedBy }]) }) e rfl (by simp [Namespace.snaps]) i n hi
      · simp only [hl]; exact ⟨n, hi, rfl, List.prefix_refl _⟩
      · simp only [hl]; exact ⟨n, hi, rfl, List.prefix_refl _⟩
  intro cs
  induction cs with
  | nil => intro nss i n hi; exact ⟨n, hi, rfl, List.prefix_refl _⟩
  | cons c cs ih =>
    intro nss i n hi
    obtain ⟨n1, h1, e1, p1⟩ := one c nss i n hi
    obtain ⟨n2, h2, e2, p2⟩ := ih (nss.cmd c) i n1 h1
    exact ⟨n2, h2, e2.trans e1, p1.trans p2⟩

/-- C54: after any calls, adding a name reports a revival exactly when a deleted namespace of that name exists, creates
one exactly when there is none, and is refused exactly when a live one exists; deleting succeeds exactly when a live one
exists. -/
theorem C54_outcomes (cs : List Cmd) (name : Bytes) (v : Int) (m : UpdateMeta) :
    let nss := empty.run cs
    (((nss.add name m).2 = some true) ↔ ∃ n ∈ nss.namespaces, n.name = name ∧ n.tombstoned = true) ∧
    (((nss.add name m).2 = some false) ↔ ∀ n ∈ nss.namespaces, n.name ≠ name) ∧
    (((nss.add name m).2 = none) ↔ ∃ n ∈ nss.namespaces, n.name = name ∧ n.tombstoned = false) ∧
    (((nss.delete name v m).2 = true) ↔ ∃ n ∈ nss.namespaces, n.name = name ∧ n.tombstoned = false) ∧
    ((nss.add name m).2 = none → (nss.add name m).1 = nss) ∧
    ((nss.delete name v m).2 = false → (nss.delete name v m).1 = nss) := by
  intro nss
  have h : nss.OK := (C54_refines cs empty_ok).1
  have ha := C54_add h name m
  have hd := C54_delete h name v m
  have key : (status (nss.history name) = .deleted ↔ ∃ n ∈ nss.namespaces, n.name = name ∧ n.tombstoned = true) ∧
      (status (nss.history name) = .unknown ↔ ∀ n ∈ nss.namespaces, n.name ≠ name) ∧
      (status (nss.history name) = .live ↔ ∃ n ∈ nss.namespaces, n.name = name ∧ n.tombstoned = false) := by
    by_cases hex : ∃ n ∈ nss.namespaces, n.name = name
    · obtain ⟨n, hn, e⟩ := hex
      have hh : nss.history name = n.snaps := by rw [← e]; exact history_mem h hn
      have hu : ∀ n' ∈ nss.namespaces, n'.name = name → n' = n := fun n' hn' e' =>
        inj_of_nodup_map (fun n : Namespace => n.name) _ h.names n' n hn' hn (by rw [e', e])
      rw [hh]
      have hne : status n.snaps ≠ .unknown := by
        unfold status
        cases hs : n.snaps.getLast? with
        | none => exact absurd (List.getLast?_eq_none_iff.mp hs) (h.snaps n hn)
        | some s => by_cases hc : s.tombstoned = true <;> simp [hc]
      have ht := tombstoned_eq n
      refine ⟨⟨fun hs => ⟨n, hn, e, ht.mpr (by rw [hs]; simp)⟩, ?_⟩, ⟨fun hs => absurd hs hne, fun hs => absurd e (hs n hn)⟩,
        ⟨fun hs => ⟨n, hn, e, ?_⟩, ?_⟩⟩
      · rintro ⟨n', hn', e', ht'⟩
        rw [hu n' hn' e'] at ht'
        have := ht.mp ht'
        cases hs : status n.snaps with
        | unknown => exact absurd hs hne
        | live => exact absurd hs this
        | deleted => rfl
      · cases hc : n.tombstoned with
        | false => rfl
        | true => exact absurd hs (ht.mp hc)
      · rintro ⟨n', hn', e', ht'⟩
        rw [hu n' hn' e'] at ht'
        refine Classical.byContradiction fun hc => ?_
        rw [ht.mpr hc] at ht'; simp at ht'
    · have hno : ∀ n ∈ nss.namespaces, n.name ≠ name := fun n hn hc => hex ⟨n, hn, hc⟩
      have hh := history_none hno
      rw [hh]
      refine ⟨⟨fun hs => by simp [status] at hs, fun ⟨n, hn, e, _⟩ => absurd e (hno n hn)⟩, ⟨fun _ => hno, fun _ => rfl⟩,
        ⟨fun hs => by simp [status] at hs, fun ⟨n, hn, e, _⟩ => absurd e (hno n hn)⟩⟩
  rw [← key.1, ← key.2.1, ← key.2.2, ha.1]
  refine ⟨?_, ?_, ?_, hd.1, fun hn => ha.2.2.2.1 (by rw [ha.1]; exact hn), hd.2.2.2.1⟩ <;>
    cases status (nss.history name) <;> simp

def exM (t : Int) : UpdateMeta := { cutoverNanos := t, updatedAtNanos := t, updatedBy := bs "u" }

/-- A run with a creation, a deletion, a refused deletion, a revival and a refused addition. -/
def exCmds : List Cmd := [.add (bs "a") (exM 1), .delete (bs "a") 3 (exM 2), .delete (bs "a") 3 (exM 3), .add (bs "b") (exM 4),
  .add (bs "a") (exM 5), .add (bs "a") (exM 6)]

example : (empty.run exCmds).history (bs "a") =
    [⟨1, false, 1, bs "u"⟩, ⟨4, true, 2, bs "u"⟩, ⟨5, false, 5, bs "u"⟩] := by decide +kernel
example : ((empty.run exCmds).add (bs "a") (exM 7)).2 = none ∧
    ((empty.run (exCmds.take 4)).add (bs "a") (exM 7)).2 = some true ∧
    ((empty.run exCmds).add (bs "c") (exM 7)).2 = some false := by decide +kernel

/-! ### C55: stored form -/

/-- The versions the stored form can hold. -/
def Fits (v : Int) : Prop := -2147483648 ≤ v ∧ v < 2147483648

/-- Namespaces whose versions fit into 32 bits and whose slices of snapshots are there. -/
def Namespaces.Storable (nss : Namespaces) : Prop :=
  ∀ n ∈ nss.namespaces, n.snapshots ≠ none ∧ ∀ s ∈ n.snaps, Fits s.forRuleSetVersion

theorem toInt32_fits {v : Int} (h : Fits v) : toInt32 v = v := by
  unfold toInt32
  rw [BitVec.toInt_ofInt]
  unfold Fits at h
  apply Int.bmod_eq_of_le <;> omega

theorem mapM'_some_map {α β : Type} {f : α → Option β} {g : α → β} : ∀ {l : List α}, (∀ a ∈ l, f a = some (g a)) →
    mapM' f l = some (l.map g)
  | [], _ => rfl
  | a :: l, h => by
    simp only [mapM']
    rw [h a (by simp), mapM'_some_map (fun b hb => h b (by simp [hb]))]
    rfl

/-- The stored form, read back, exactly: versions are cut to 32 bits, and everything else is kept; it cannot be made
exactly if some namespace has a nil slice of snapshots. -/
theorem stored (nss : Namespaces) (v : Int) : (nss.proto.bind fun p => newNamespaces v (some p)) =
    if ∀ n ∈ nss.namespaces, n.snapshots ≠ none then
      some { version := v, namespaces := nss.namespaces.map fun n =>
        { name := n.name, snapshots := some (n.snaps.map fun s => { s with forRuleSetVersion := toInt32 s.forRuleSetVersion }) } }
    else none := by
  split
  · rename_i h
    have h1 : nss.proto = some ⟨nss.namespaces.map fun n => some ⟨n.name, n.snaps.map fun s => some s.proto⟩⟩ := by
      unfold Namespaces.proto
      rw [mapM'_some_map (g := fun n : Namespace => ⟨n.name, n.snaps.map fun s => some s.proto⟩)]
      · simp
      · intro n hn
        have := h n hn
        unfold Namespace.proto Namespace.snaps
        cases hs : n.snapshots with
        | none => exact absurd hs this
        | some ss => rfl
    rw [h1]
    simp only [Option.bind_some, newNamespaces]
    rw [mapM'_some_map (g := fun p : Option PBNamespace => (newNamespace p).getD { name := [], snapshots := none })]
    · simp only [Option.map_some, List.map_map]
      congr 2
      apply List.map_congr_left
      intro n _
      simp only [Function.comp, newNamespace]
      rw [mapM'_some_map (g := fun p : Option PBSnapshot => (newNamespaceSnapshot p).getD default)]
      · simp [newNamespaceSnapshot, Snapshot.proto, Function.comp_def]
      · intro p hp
        obtain ⟨s, _, rfl⟩ := List.mem_map.mp hp
        rfl
    · intro p hp
      obtain ⟨n, _, rfl⟩ := List.mem_map.mp hp
      simp only [newNamespace]
      rw [mapM'_some_map (g := fun p : Option PBSnapshot => (newNamespaceSnapshot p).getD default)]
      · rfl
      · intro p hp
        obtain ⟨s, _, rfl⟩ := List.mem_map.mp hp
        rfl
  · rename_i h
    have : nss.proto = none := by
      unfold Namespaces.proto
      cases hm : mapM' Namespace.proto nss.namespaces with
      | none => rfl
      | some l =>
        exfalso; apply h
        have g : ∀ (l : List Namespace) (l' : List PBNamespace), mapM' Namespace.proto l = some l' → ∀ n ∈ l, n.snapshots ≠ none := by
          intro l
          induction l with
          | nil => simp
          | cons a l ih =>
            intro l' hl n hn
            simp only [mapM'] at hl
            cases ha : a.proto with
            | none => simp [ha] at hl
            | some pa =>
              cases hl' : mapM' Namespace.proto l with
              | none => simp [ha, hl'] at hl
              | some l'' =>
                rcases List.mem_cons.mp hn with rfl | hn
                · intro hc; simp [Namespace.proto, hc] at ha
                · exact ih l'' hl' n hn
        exact g _ _ hm
    rw [this]; rfl

/-- C55: namespaces written to their stored form and read back are the same namespaces. -/
theorem C55_roundtrip {nss : Namespaces} (h : nss.Storable) (v : Int) :
    (nss.proto.bind fun p => newNamespaces v (some p)) = some { nss with version := v } := by
  rw [stored, if_pos fun n hn => (h n hn).1]
  congr 2
  conv => rhs; rw [← List.map_id nss.namespaces]
  apply List.map_congr_left
  intro n hn
  obtain ⟨h1, h2⟩ := h n hn
  have : (n.snaps.map fun s => { s with forRuleSetVersion := toInt32 s.forRuleSetVersion }) = n.snaps := by
    conv => rhs; rw [← List.map_id n.snaps]
    apply List.map_congr_left
    intro s hs
    rw [toInt32_fits (h2 s hs)]; rfl
  rw [this]
  cases n with
  | mk name snapshots =>
    cases snapshots with
    | none => simp at h1
    | some ss => rfl

/-- C55: and only those: what is not storable is refused or comes back different. -/
theorem C55_exact (nss : Namespaces) (v : Int) :
    (nss.proto.bind fun p => newNamespaces v (some p)) = some { nss with version := v } ↔ nss.Storable := by
  refine ⟨fun h => ?_, fun h => C55_roundtrip h v⟩
  rw [stored] at h
  split at h
  · rename_i hne
    simp only [Option.some.injEq, Namespaces.mk.injEq, true_and] at h
    intro n hn
    refine ⟨hne n hn, fun s hs => ?_⟩
    obtain ⟨i, hi⟩ := List.getElem?_of_mem hn
    have h1 := congrArg (fun l : List Namespace => l[i]?) h
    simp only [List.getElem?_map, hi, Option.map_some, Option.some.injEq] at h1
    have h2 := congrArg Namespace.snaps h1
    have h2' : (n.snaps.map fun s => ({ s with forRuleSetVersion := toInt32 s.forRuleSetVersion } : Snapshot)) = n.snaps := h2
    obtain ⟨j, hj⟩ := List.getElem?_of_mem hs
    have h3 := congrArg (fun l : List Snapshot => l[j]?) h2'
    simp only [List.getElem?_map, hj, Option.map_some, Option.some.injEq] at h3
    have h4 := congrArg Snapshot.forRuleSetVersion h3
    simp only at h4
    rw [← h4]
    unfold toInt32 Fits
    have := BitVec.le_toInt (BitVec.ofInt 32 s.forRuleSetVersion)
    have := BitVec.toInt_lt (x := BitVec.ofInt 32 s.forRuleSetVersion)
    omega
  · simp at h

/-- Whatever was read from the stored form (whose versions have 32 bits) is storable, and stays so under calls that
delete at versions that fit, as long as no revival passes the largest version. -/
theorem C55_loaded {v : Int} {p : PBNamespaces} {nss : Namespaces} (h : newNamespaces v (some p) = some nss)
    (hp : ∀ n, some n ∈ p.namespaces → ∀ s, some s ∈ n.snapshots → Fits s.forRulesetVersion) : nss.Storable := by
  simp only [newNamespaces] at h
  cases hm : mapM' newNamespace p.namespaces with
  | none => simp [hm] at h
  | some l =>
    simp only [hm, Option.map_some, Option.some.injEq] at h
    subst h
    intro n hn
    obtain ⟨a, ha, e⟩ := mapM'_some_mem hm n hn
    cases a with
    | none => simp [newNamespace] at e
    | some pn =>
      simp only [newNamespace] at e
      cases hs : mapM' newNamespaceSnapshot pn.snapshots with
      | none => simp [hs] at e
      | some ss =>
        simp only [hs, Option.map_some, Option.some.injEq] at e
        subst e
        refine ⟨by simp, fun s hs' => ?_⟩
        obtain ⟨b, hb, eb⟩ := mapM'_some_mem hs s hs'
        cases b with
        | none => simp [newNamespaceSnapshot] at eb
        | some ps =>
          simp only [newNamespaceSnapshot, Option.some.injEq] at eb
          subst eb
          exact hp pn ha ps hb

/-- C55: a copy has the same namespaces and histories, and can be stored. -/
theorem C55_clone (nss : Namespaces) : nss.clone.history = nss.history ∧ nss.clone.version = nss.version ∧
    nss.clone.namespaces.map (·.name) = nss.namespaces.map (·.name) ∧
    nss.clone.namespaces.map Namespace.snaps = nss.namespaces.map Namespace.snaps ∧
    (∀ n ∈ nss.clone.namespaces, n.snapshots ≠ none) ∧ nss.clone.views = nss.views := by
  refine ⟨?_, rfl, ?_, ?_, ?_, ?_⟩
  · funext k
    unfold Namespaces.history Namespaces.clone
    simp only [List.find?_map, Option.map_map]
    rfl
  · simp [Namespaces.clone, Namespace.clone]
  · simp [Namespaces.clone, Namespace.clone, Namespace.snaps]
  · intro n hn
    obtain ⟨x, _, rfl⟩ := List.mem_map.mp hn
    simp [Namespace.clone]
  · unfold Namespaces.views Namespaces.clone
    simp only
    induction nss.namespaces with
    | nil => rfl
    | cons n l ih => simp only [List.map_cons, mapM', ih]; rfl

/-- The views show, for each namespace in order, its latest snapshot; they can be made exactly if every namespace has one. -/
theorem C55_views (nss : Namespaces) (vs : List NamespaceView) : nss.views = some vs ↔
    (∀ n ∈ nss.namespaces, n.snaps ≠ []) ∧ vs = nss.namespaces.map fun n =>
      { id := n.name, forRuleSetVersion := (n.snaps.getLast?.getD default).forRuleSetVersion, tombstoned := n.tombstoned
        lastUpdatedBy := (n.snaps.getLast?.getD default).lastUpdatedBy
        lastUpdatedAtMillis := (n.snaps.getLast?.getD default).lastUpdatedAtNanos.tdiv 1000000 } := by
  unfold Namespaces.views
  apply mapM'_char
  intro n _ b
  unfold Namespace.view Namespace.tombstoned
  cases hl : n.snaps with
  | nil => simp
  | cons a l =>
    have hlen : ¬ ((((a :: l).length : Int) - 1 < 0) ∨ ((a :: l).length : Int) - 1 ≥ (a :: l).length) := by simp; omega
    rw [if_neg hlen]
    have ht : (((a :: l).length : Int) - 1).toNat = (a :: l).length - 1 := by simp
    rw [ht, ← List.getLast?_eq_getElem?]
    obtain ⟨s, hs⟩ : ∃ s, (a :: l).getLast? = some s := by
      cases h : (a :: l).getLast? with
      | none => simp at h
      | some s => exact ⟨s, rfl⟩
    rw [hs]
    simp [toMillis, eq_comm]

example : (empty.run exCmds).Storable := by
  intro n hn
  have : ∀ n ∈ (empty.run exCmds).namespaces, n.snapshots ≠ none ∧ ∀ s ∈ n.snaps,
      -2147483648 ≤ s.forRuleSetVersion ∧ s.forRuleSetVersion < 2147483648 := by decide +kernel
  exact this n hn

end Verif.NS
