import Verif.Props.Store
/-
C57: with namespaces created, deleted and revived through combined writes, by any number of clients, a snapshot that says a
namespace is deleted names a version of its rule set that is stored as deleted.
-/
namespace Verif.Store
open Verif.Meta Verif.RuleSet Verif.Rules Verif.NS Verif.Policy

/-! ### The protocol -/

/-- One step of some client.  Rule sets are read, copied, edited and written at will; namespaces are read, and changed only
together with the rule set they belong to: created with a new rule set (further edited before it is written), revived with
the revived rule set, deleted with the deleted rule set and its version. -/
inductive Act57 where
  | rules (a : Act) (h : match a with | .editNSS _ _ => False | .cloneNSS _ => False | .writeAll _ _ => False | _ => True)
  | create (j : Nat) (uuid name : Bytes) (m : UpdateMeta) (cs : List (RuleSet.Cmd × UpdateMeta))
  | delete (j i : Nat) (m : UpdateMeta)
  | revive (j i : Nat) (m : UpdateMeta)

/-- The combined write of a creation; nothing is written unless the name is new. -/
def create (o : Options) (kv : KV) (nss : Namespaces) (uuid name : Bytes) (m : UpdateMeta) (cs : List (RuleSet.Cmd × UpdateMeta)) : KV :=
  if (nss.add name m).2 = some false then
    (writeAll o kv (nss.add name m).1 ((newEmptyRuleSet uuid name m).commands cs)).1
  else kv

/-- The combined write of a deletion; nothing is written unless both edits succeed. -/
def delete (o : Options) (kv : KV) (nss : Namespaces) (r : RuleSet) (m : UpdateMeta) : KV × Write :=
  if (nss.delete r.namespace_ r.version m).2 ∧ (r.delete m).2 then
    writeAll o kv (nss.delete r.namespace_ r.version m).1 (r.delete m).1
  else (kv, .err)

/-- The combined write of a revival; nothing is written unless both edits succeed. -/
def revive (o : Options) (kv : KV) (nss : Namespaces) (r : RuleSet) (m : UpdateMeta) : KV :=
  if (nss.add r.namespace_ m).2 = some true ∧ (r.revive m).2 then
    (writeAll o kv (nss.add r.namespace_ m).1 (r.revive m).1).1
  else kv

def World.step57 (o : Options) (w : World) : Act57 → World
  | .rules a _ => w.step o a
  | .create j u name m cs => match w.nss[j]? with
    | none => w
    | some nss => { w with kv := create o w.kv nss u name m cs }
  | .delete j i m => match w.nss[j]? with
    | none => w
    | some nss => match w.rs[i]? with
      | none => w
      | some r => { w with kv := (delete o w.kv nss r m).1 }
  | .revive j i m => match w.nss[j]? with
    | none => w
    | some nss => match w.rs[i]? with
      | none => w
      | some r => { w with kv := revive o w.kv nss r m }

def World.run57 (o : Options) (w : World) (as : List Act57) : World := as.foldl (World.step57 o) w

/-! ### Specification -/

/-- Version `v` of the rule set of the namespace is stored, as a deleted rule set. -/
def Realised (o : Options) (kv : KV) (name : Bytes) (v : Int) : Prop :=
  ∃ (i : Nat) (p : PBRuleSet), v = (i : Int) + 1 ∧ (kv (o.ruleSetKey name))[i]? = some (.ruleSet p) ∧ p.tombstoned = true

/-- Every deletion recorded in the namespaces is realised. -/
def AllRealised (o : Options) (kv : KV) (nss : Namespaces) : Prop :=
  ∀ n ∈ nss.namespaces, ∀ s ∈ n.snaps, s.tombstoned = true → Realised o kv n.name s.forRuleSetVersion

/-- Fewer than 2³¹ values are stored for every key. -/
def Small (kv : KV) : Prop := ∀ k, (kv k).length < 2147483648

/-! ### Proof -/

theorem Realised.mono {o : Options} {kv kv' : KV} {name : Bytes} {v : Int} (h : Realised o kv name v) (g : ∀ k, kv k <+: kv' k) :
    Realised o kv' name v := by
  obtain ⟨i, p, e, hp, ht⟩ := h
  obtain ⟨t, et⟩ := g (o.ruleSetKey name)
  refine ⟨i, p, e, ?_, ht⟩
  rw [← et, List.getElem?_append_left (List.getElem?_eq_some_iff.mp hp).1, hp]

theorem AllRealised.mono {o : Options} {kv kv' : KV} {nss : Namespaces} (h : AllRealised o kv nss) (g : ∀ k, kv k <+: kv' k) :
    AllRealised o kv' nss := fun n hn s hs ht => (h n hn s hs ht).mono g

/-- The only new deletion after a call is the one a deletion adds. -/
theorem delete_new {nss nss' : Namespaces} {name : Bytes} {v : Int} {m : UpdateMeta} (h : nss.delete name v m = (nss', true)) :
    ∀ n ∈ nss'.namespaces, ∀ s ∈ n.snaps, (∃ n0 ∈ nss.namespaces, n0.name = n.name ∧ s ∈ n0.snaps) ∨
      (n.name = name ∧ s.forRuleSetVersion = v + 1) := by
  unfold Namespaces.delete at h
  rcases lookup_eq nss name with ⟨pre, x, post, e, hx, _, _, hl⟩ | ⟨_, hl⟩ | ⟨_, hl⟩
  · have hget : nss.namespaces[pre.length]? = some x := by rw [e]; simp
    simp only [hl, hget, Namespace.markTombstoned] at h
    by_cases ht : x.tombstoned = true
    · rw [if_pos ht] at h; simp at h
    · rw [if_neg ht] at h
      simp only [Prod.mk.injEq, and_true] at h
      subst h
      intro n hn s hs
      rcases List.mem_or_eq_of_mem_set hn with hn | hn
      · exact Or.inl ⟨n, hn, rfl, hs⟩
      · subst hn
        simp only [Namespace.snaps, Option.getD_some, List.mem_append, List.mem_singleton] at hs
        rcases hs with hs | hs
        · exact Or.inl ⟨x, by rw [e]; simp, rfl, hs⟩
        · subst hs; exact Or.inr ⟨hx, rfl⟩
  · simp [hl] at h
  · simp [hl] at h

theorem add_new {nss : Namespaces} {name : Bytes} {m : UpdateMeta} :
    ∀ n ∈ (nss.add name m).1.namespaces, ∀ s ∈ n.snaps, s.tombstoned = true → ∃ n0 ∈ nss.namespaces, n0.name = n.name ∧ s ∈ n0.snaps := by
  intro n hn s hs ht
  unfold Namespaces.add at hn
  rcases lookup_eq nss name with ⟨pre, x, post, e, hx, _, _, hl⟩ | ⟨_, hl⟩ | ⟨_, hl⟩
  · have hget : nss.namespaces[pre.length]? = some x := by rw [e]; simp
    simp only [hl, hget] at hn
    cases hr : x.revive m with
    | none => simp only [hr] at hn; exact ⟨n, hn, rfl, hs⟩
    | some x' =>
      simp only [hr] at hn
      rcases List.mem_or_eq_of_mem_set hn with hn | hn
      · exact ⟨n, hn, rfl, hs⟩
      · subst hn
        unfold Namespace.revive at hr
        split at hr
        · simp at hr
        · split at hr
          · simp at hr
          · simp only [Option.some.injEq] at hr
            subst hr
            simp only [Namespace.snaps, Option.getD_some, List.mem_append, List.mem_singleton] at hs
            rcases hs with hs | hs
            · exact ⟨x, by rw [e]; simp, rfl, hs⟩
            · subst hs; simp at ht
  · simp only [hl, List.mem_append, List.mem_singleton] at hn
    rcases hn with hn | hn
    · exact ⟨n, hn, rfl, hs⟩
    · subst hn
      simp [Namespace.snaps] at hs
      subst hs; simp at ht
  · simp only [hl] at hn; exact ⟨n, hn, rfl, hs⟩

theorem add_realised {o : Options} {kv : KV} {nss : Namespaces} (h : AllRealised o kv nss) (name : Bytes) (m : UpdateMeta) :
    AllRealised o kv (nss.add name m).1 := by
  intro n hn s hs ht
  obtain ⟨n0, h0, e, hs0⟩ := add_new n hn s hs ht
  rw [← e]; exact h n0 h0 s hs0 ht

/-- What is read from stored namespaces that are all realised is all realised, and storing keeps that, as long as versions
fit. -/
def StoredRealised (o : Options) (kv : KV) (p : PBNamespaces) : Prop :=
  ∀ v nss, newNamespaces v (some p) = some nss → AllRealised o kv nss

theorem realised_fits {o : Options} {kv : KV} (hs : Small kv) {name : Bytes} {v : Int} (h : Realised o kv name v) : Fits v := by
  obtain ⟨i, p, e, hp, _⟩ := h
  have h1 := hs (o.ruleSetKey name)
  have h2 := (List.getElem?_eq_some_iff.mp hp).1
  unfold Fits; omega

theorem stored_realised {o : Options} {kv : KV} (hs : Small kv) {nss : Namespaces} (h : AllRealised o kv nss) {q : PBNamespaces}
    (hq : nss.proto = some q) : StoredRealised o kv q := by
  intro v nss' hn
  have hst := stored nss v
  rw [hq] at hst
  simp only [Option.bind_some] at hst
  rw [hn] at hst
  split at hst
  · simp only [Option.some.injEq] at hst
    subst hst
    intro n hn s hs' ht
    obtain ⟨n0, h0, rfl⟩ := List.mem_map.mp hn
    simp only [Namespace.snaps, Option.getD_some] at hs'
    obtain ⟨s0, hs0, rfl⟩ := List.mem_map.mp hs'
    have hr := h n0 h0 s0 hs0 ht
    simp only [toInt32_fits (realised_fits hs hr)]
    exact hr
  · simp at hst

theorem stored_mono {o : Options} {kv kv' : KV} {p : PBNamespaces} (h : StoredRealised o kv p) (g : ∀ k, kv k <+: kv' k) :
    StoredRealised o kv' p := fun v nss hn => (h v nss hn).mono g

structure Inv57 (o : Options) (w : World) : Prop where
  nss : ∀ n ∈ w.nss, AllRealised o w.kv n
  stored : ∀ p, .namespaces p ∈ w.kv o.namespacesKey → StoredRealised o w.kv p

theorem writeAll_grows {o : Options} (hk : KeysOK o) (kv : KV) (nss : Namespaces) (r : RuleSet) :
    ∀ k, kv k <+: (writeAll o kv nss r).1 k := by
  intro k
  obtain ⟨_, _, h3, h4⟩ := C56_write_all hk kv nss r
  by_cases hok : (writeAll o kv nss r).2 = .ok
  · obtain ⟨p, q, _, _, e⟩ := h3 hok
    rw [e]; simp only
    split
    · exact List.prefix_append _ _
    · split
      · exact List.prefix_append _ _
      · exact List.prefix_refl _
  · rw [h4 hok]; exact List.prefix_refl _

theorem writeRuleSet_grows (o : Options) (kv : KV) (r : RuleSet) : ∀ k, kv k <+: (writeRuleSet o kv r).1 k := by
  intro k
  obtain ⟨_, _, h3, h4⟩ := C56_write o kv r
  by_cases hok : (writeRuleSet o kv r).2 = .ok
  · obtain ⟨p, _, e⟩ := h3 hok
    rw [e]; simp only
    split
    · rename_i h; rw [h]; exact List.prefix_append _ _
    · exact List.prefix_refl _
  · rw [h4 hok]; exact List.prefix_refl _

theorem writeRuleSet_namespaces {o : Options} (hk : KeysOK o) (kv : KV) (r : RuleSet) :
    (writeRuleSet o kv r).1 o.namespacesKey = kv o.namespacesKey := by
  obtain ⟨_, _, h3, h4⟩ := C56_write o kv r
  by_cases hok : (writeRuleSet o kv r).2 = .ok
  · obtain ⟨p, _, e⟩ := h3 hok
    rw [e]; simp only
    rw [if_neg fun h => hk.apart _ h.symm]
  · rw [h4 hok]

/-- A combined write of namespaces that are realised once it is done keeps the invariant. -/
theorem writeAll_inv {o : Options} (hk : KeysOK o) {w : World} (h : Inv57 o w) (nss : Namespaces) (r : RuleSet)
    (hs : Small (writeAll o w.kv nss r).1)
    (hr : (writeAll o w.kv nss r).2 = .ok → AllRealised o (writeAll o w.kv nss r).1 nss) :
    Inv57 o { w with kv := (writeAll o w.kv nss r).1 } := by
  have hg := writeAll_grows hk w.kv nss r
  refine ⟨fun n hn => (h.nss n hn).mono hg, ?_⟩
  intro p hp
  obtain ⟨_, _, h3, h4⟩ := C56_write_all hk w.kv nss r
  by_cases hok : (writeAll o w.kv nss r).2 = .ok
  · obtain ⟨p', q, _, hq, e⟩ := h3 hok
    have hp' : Value.namespaces p ∈ w.kv o.namespacesKey ++ [.namespaces q] := by
      have : (writeAll o w.kv nss r).1 o.namespacesKey = w.kv o.namespacesKey ++ [.namespaces q] := by
        rw [e]; simp
      rw [← this]; exact hp
    rcases List.mem_append.mp hp' with hp' | hp'
    · exact stored_mono (h.stored p hp') hg
    · simp only [List.mem_singleton, Value.namespaces.injEq] at hp'
      subst hp'
      exact stored_realised hs (hr hok) hq
  · simp only [h4 hok] at hp
    exact stored_mono (h.stored p hp) hg

theorem rdelete_fields {r : RuleSet} {m : UpdateMeta} (h : (r.delete m).2 = true) :
    (r.delete m).1.tombstoned = true ∧ (r.delete m).1.version = r.version ∧ (r.delete m).1.namespace_ = r.namespace_ := by
  unfold RuleSet.delete at h ⊢
  by_cases ht : r.tombstoned = true
  · rw [if_pos ht] at h; simp at h
  · rw [if_neg ht]; exact ⟨rfl, rfl, rfl⟩

/-- A deletion that is written stores the deleted rule set as the version named by the new snapshot. -/
theorem delete_stored {o : Options} (hk : KeysOK o) {kv : KV} {nss : Namespaces} {r : RuleSet} {m : UpdateMeta}
    (hd : (r.delete m).2 = true) (hok : (writeAll o kv (nss.delete r.namespace_ r.version m).1 (r.delete m).1).2 = .ok) :
    Realised o (writeAll o kv (nss.delete r.namespace_ r.version m).1 (r.delete m).1).1 r.namespace_ (r.version + 1) ∧
    ((writeAll o kv (nss.delete r.namespace_ r.version m).1 (r.delete m).1).1 (o.ruleSetKey r.namespace_)).length = r.version + 1 := by
  obtain ⟨f1, f2, f3⟩ := rdelete_fields hd
  obtain ⟨h1, _, h3, _⟩ := C56_write_all hk kv (nss.delete r.namespace_ r.version m).1 (r.delete m).1
  obtain ⟨p, q, hp, _, e⟩ := h3 hok
  have hv := (h1.mp hok).2.2.2.1
  rw [f2, f3] at hv
  have e1 : (writeAll o kv (nss.delete r.namespace_ r.version m).1 (r.delete m).1).1 (o.ruleSetKey r.namespace_) =
      kv (o.ruleSetKey r.namespace_) ++ [.ruleSet p] := by
    rw [e]; simp only; rw [if_neg (hk.apart _), f3, if_pos rfl]
  refine ⟨⟨(kv (o.ruleSetKey r.namespace_)).length, p, by rw [hv], ?_, ?_⟩, ?_⟩
  · rw [e1]; simp
  · rw [(proto_fields hp).2, f1]
  · rw [e1, hv]; simp

theorem step57_grows {o : Options} (hk : KeysOK o) (w : World) (a : Act57) : ∀ k, w.kv k <+: (w.step57 o a).kv k := by
  intro k
  cases a with
  | rules a ha =>
    cases a <;> simp only [World.step57, World.step] <;> try (split <;> exact List.prefix_refl _)
    · exact List.prefix_refl _
    · exact List.prefix_refl _
    · split
      · exact List.prefix_refl _
      · exact writeRuleSet_grows o w.kv _ k
    · exact ha.elim
  | create j u name m cs =>
    simp only [World.step57]
    split
    · exact List.prefix_refl _
    · unfold create
      split
      · exact writeAll_grows hk _ _ _ k
      · exact List.prefix_refl _
  | delete j i m =>
    simp only [World.step57]
    split
    · exact List.prefix_refl _
    · split
      · exact List.prefix_refl _
      · unfold delete
        split
        · exact writeAll_grows hk _ _ _ k
        · exact List.prefix_refl _
  | revive j i m =>
    simp only [World.step57]
    split
    · exact List.prefix_refl _
    · split
      · exact List.prefix_refl _
      · unfold revive
        split
        · exact writeAll_grows hk _ _ _ k
        · exact List.prefix_refl _

theorem step57_inv {o : Options} (hk : KeysOK o) {w : World} (h : Inv57 o w) (a : Act57) (hs : Small (w.step57 o a).kv) :
    Inv57 o (w.step57 o a) := by
  cases a with
  | rules a ha =>
    simp only [World.step57] at hs ⊢
    cases a with
    | readRS name =>
      simp only [World.step]
      split
      · exact ⟨h.nss, h.stored⟩
      · exact h
    | readNSS =>
      simp only [World.step]
      split
      · rename_i nss hn
        refine ⟨mem_snoc h.nss ?_, h.stored⟩
        unfold readNamespaces at hn
        split at hn
        · simp at hn
        · simp at hn
        · rename_i p hp
          split at hn
          · simp at hn
          · rename_i nss' hn'
            simp only [Read.ok.injEq] at hn
            subst hn
            exact h.stored p (List.mem_of_getLast? hp) _ _ hn'
      · exact h
    | newRS u n m => exact ⟨h.nss, h.stored⟩
    | newNSS =>
      refine ⟨mem_snoc h.nss ?_, h.stored⟩
      intro n hn; simp [NS.empty] at hn
    | editRS i c m =>
      simp only [World.step]
      split
      · exact h
      · exact ⟨h.nss, h.stored⟩
    | cloneRS i =>
      simp only [World.step]
      split
      · exact h
      · exact ⟨h.nss, h.stored⟩
    | editNSS j c => exact ha.elim
    | cloneNSS j => exact ha.elim
    | writeAll j i => exact ha.elim
    | writeRS i =>
      simp only [World.step]
      split
      · exact h
      · rename_i r hr
        have hg := writeRuleSet_grows o w.kv r
        refine ⟨fun n hn => (h.nss n hn).mono hg, fun p hp => ?_⟩
        simp only [writeRuleSet_namespaces hk] at hp
        exact stored_mono (h.stored p hp) hg
  | create j u name m cs =>
    simp only [World.step57] at hs ⊢
    split
    · exact h
    · rename_i nss hn
      simp only [hn] at hs
      unfold create at hs ⊢
      split
      · rename_i hc
        rw [if_pos hc] at hs
        exact writeAll_inv hk h _ _ hs fun _ =>
          (add_realised (h.nss nss (List.mem_of_getElem? hn)) name m).mono (writeAll_grows hk _ _ _)
      · exact h
  | delete j i m =>
    simp only [World.step57] at hs ⊢
    split
    · exact h
    · rename_i nss hn
      simp only [hn] at hs
      split
      · exact h
      · rename_i r hr
        simp only [hr] at hs
        unfold delete at hs ⊢
        split
        · rename_i hc
          rw [if_pos hc] at hs
          refine writeAll_inv hk h _ _ hs fun hok => ?_
          have hg := writeAll_grows hk w.kv (nss.delete r.namespace_ r.version m).1 (r.delete m).1
          have hd : nss.delete r.namespace_ r.version m = ((nss.delete r.namespace_ r.version m).1, true) := Prod.ext rfl hc.1
          intro n hn' s hs' ht
          rcases delete_new hd n hn' s hs' with ⟨n0, h0, e, hs0⟩ | ⟨e1, e2⟩
          · rw [← e]; exact ((h.nss nss (List.mem_of_getElem? hn)) n0 h0 s hs0 ht).mono hg
          · rw [e1, e2]; exact (delete_stored hk hc.2 hok).1
        · exact h
  | revive j i m =>
    simp only [World.step57] at hs ⊢
    split
    · exact h
    · rename_i nss hn
      simp only [hn] at hs
      split
      · exact h
      · rename_i r hr
        simp only [hr] at hs
        unfold revive at hs ⊢
        split
        · rename_i hc
          rw [if_pos hc] at hs
          exact writeAll_inv hk h _ _ hs fun _ =>
            (add_realised (h.nss nss (List.mem_of_getElem? hn)) _ m).mono (writeAll_grows hk _ _ _)
        · exact h

theorem run57_inv {o : Options} (hk : KeysOK o) : ∀ (as : List Act57) {w : World}, Inv57 o w → Small (w.run57 o as).kv →
    Inv57 o (w.run57 o as)
  | [], _, h, _ => h
  | a :: as, w, h, hs => by
    have hg : ∀ (as : List Act57) (w : World) (k : Bytes), w.kv k <+: (w.run57 o as).kv k := by
      intro as
      induction as with
      | nil => intro w k; exact List.prefix_refl _
      | cons a as ih => intro w k; exact (step57_grows hk w a k).trans (ih _ k)
    refine run57_inv hk as (step57_inv hk h a ?_) hs
    intro k
    exact Nat.lt_of_le_of_lt (hg as (w.step57 o a) k).length_le (hs k)

/-- C57: from an empty store, whatever any number of clients do: a deleted namespace names, in its latest snapshot, a version
of its rule set that is stored as deleted.  So does every earlier deletion.  A watcher that compares the version of the rule
set it has seen with the one named has, when they are equal, seen the deletion. -/
theorem C57_named_versions {o : Options} (hk : KeysOK o) (as : List Act57) (hs : Small ((start fun _ => []).run57 o as).kv)
    {nss : Namespaces} (hr : readNamespaces o ((start fun _ => []).run57 o as).kv = .ok nss) :
    ∀ n ∈ nss.namespaces, ∀ s ∈ n.snaps, s.tombstoned = true →
      ∃ (i : Nat) (p : PBRuleSet), s.forRuleSetVersion = (i : Int) + 1 ∧
        (((start fun _ => []).run57 o as).kv (o.ruleSetKey n.name))[i]? = some (.ruleSet p) ∧ p.tombstoned = true := by
  have h := run57_inv hk as (w := start fun _ => []) ⟨by simp [start], by simp [start]⟩ hs
  unfold readNamespaces at hr
  split at hr
  · simp at hr
  · simp at hr
  · rename_i p hp
    split at hr
    · simp at hr
    · rename_i nss' hn'
      simp only [Read.ok.injEq] at hr
      subst hr
      exact h.stored p (List.mem_of_getLast? hp) _ _ hn'

/-- C57, at the moment of the deletion: after a successful combined deletion, in any state of the store, the last snapshot
of the stored namespace says it is deleted and names exactly the version the rule set now has, whose value is deleted. -/
theorem C57_deleted {o : Options} (hk : KeysOK o) {kv : KV} {nss : Namespaces} (hn : nss.OK) (r : RuleSet) (m : UpdateMeta)
    (hst : nss.Storable) (hsm : ((kv (o.ruleSetKey r.namespace_)).length : Int) + 1 < 2147483648)
    (hok : (delete o kv nss r m).2 = .ok) :
    let kv' := (delete o kv nss r m).1
    ∃ nss', readNamespaces o kv' = .ok nss' ∧
      (nss'.history r.namespace_).getLast? = some ⟨(kv' (o.ruleSetKey r.namespace_)).length, true, m.updatedAtNanos, m.updatedBy⟩ ∧
      ∃ p, (kv' (o.ruleSetKey r.namespace_)).getLast? = some (.ruleSet p) ∧ p.tombstoned = true := by
  intro kv'
  have hkv : kv' = (delete o kv nss r m).1 := rfl
  unfold delete at hok hkv
  by_cases hc : (nss.delete r.namespace_ r.version m).2 = true ∧ (r.delete m).2 = true
  · rw [if_pos hc] at hok hkv
    obtain ⟨h1, _, h3, _⟩ := C56_write_all hk kv (nss.delete r.namespace_ r.version m).1 (r.delete m).1
    obtain ⟨p, q, hp, hq, e⟩ := h3 hok
    obtain ⟨f1, f2, f3⟩ := rdelete_fields hc.2
    have hv := (h1.mp hok).2.2.2.1
    rw [f2, f3] at hv
    obtain ⟨d1, d2, d3, _, _⟩ := C54_delete hn r.namespace_ r.version m
    have hlive := d1.mp hc.1
    have ek : kv' (o.ruleSetKey r.namespace_) = kv (o.ruleSetKey r.namespace_) ++ [.ruleSet p] := by
      rw [hkv, e]; simp only; rw [if_neg (hk.apart _), f3, if_pos rfl]
    have en : kv' o.namespacesKey = kv o.namespacesKey ++ [.namespaces q] := by
      rw [hkv, e]; simp
    have hst' : (nss.delete r.namespace_ r.version m).1.Storable := by
      have hd : nss.delete r.namespace_ r.version m = ((nss.delete r.namespace_ r.version m).1, true) := Prod.ext rfl hc.1
      intro n hn'
      refine ⟨?_, fun s hs => ?_⟩
      · intro hnone
        have := d3.snaps n hn'
        simp [Namespace.snaps, hnone] at this
      · rcases delete_new hd n hn' s hs with ⟨n0, h0, _, hs0⟩ | ⟨_, e2⟩
        · exact (hst n0 h0).2 s hs0
        · rw [e2, hv]; unfold Fits; omega
    have hrt := C55_roundtrip hst' (kv'.version o.namespacesKey)
    rw [hq] at hrt
    simp only [Option.bind_some] at hrt
    refine ⟨{ (nss.delete r.namespace_ r.version m).1 with version := kv'.version o.namespacesKey }, ?_, ?_, ?_⟩
    · unfold readNamespaces
      rw [en, List.getLast?_concat]
      simp only
      rw [hrt]
    · have hh : ({ (nss.delete r.namespace_ r.version m).1 with version := kv'.version o.namespacesKey } : Namespaces).history =
          (nss.delete r.namespace_ r.version m).1.history := rfl
      rw [hh, d2]
      simp only [cmdSpec, if_true, deleteSpec, hlive, List.getLast?_concat, hv, ek]
      simp
    · exact ⟨p, by rw [ek]; simp, by rw [(proto_fields hp).2, f1]⟩
  · rw [if_neg hc] at hok; simp at hok

/-- An execution: create, two clients read, one edits and writes, the other deletes (refused as stale), reads again and
deletes, the namespace is revived and deleted again. -/
def exActs57 : List Act57 := [.rules .newNSS trivial, .create 0 (bs "u") (bs "a") (exM 1) [],
  .rules .readNSS trivial, .rules (.readRS (bs "a")) trivial, .rules (.readRS (bs "a")) trivial,
  .rules (.editRS 0 (.one (.addMapping (bs "1") (exData "m" "city:sf"))) (exM 2)) trivial, .rules (.writeRS 0) trivial,
  .delete 1 1 (exM 3), .rules (.readRS (bs "a")) trivial, .delete 1 2 (exM 4),
  .rules .readNSS trivial, .rules (.readRS (bs "a")) trivial, .revive 2 3 (exM 5),
  .rules .readNSS trivial, .rules (.readRS (bs "a")) trivial, .delete 3 4 (exM 6)]

example : let w := (start fun _ => []).run57 exOpts exActs57
    (w.kv (bs "r/a")).length = 5 ∧ (w.kv (bs "n")).length = 4 ∧
    (match readNamespaces exOpts w.kv with | .ok nss => (nss.history (bs "a")).map fun s => (s.forRuleSetVersion, s.tombstoned) | _ => []) =
      [(1, false), (3, true), (4, false), (5, true)] := by decide +kernel

end Verif.Store
