import Verif.Model.Store
import Verif.Props.Namespace
import Verif.Props.RuleSetEdits
/-
C56: no lost updates in the rule store, for all interleavings of any number of clients.

The clients are modelled by the objects they hold: rule sets and namespaces obtained by reading from the store, made
anew, copied or edited.  An action is one call on the store or on one of the objects; which client makes it does not
matter, so that every interleaving of clients is a list of actions.
-/
namespace Verif.Store
open Verif.Meta Verif.RuleSet Verif.Rules Verif.NS Verif.Policy

/-! ### Clients -/

/-- The store and the objects held by clients. -/
structure World where
  kv : KV
  rs : List RuleSet
  nss : List Namespaces

/-- One call by some client on the store or on an object it holds. -/
inductive Act where
  | readRS (name : Bytes)
  | readNSS
  | newRS (uuid name : Bytes) (m : UpdateMeta)
  | newNSS
  | editRS (i : Nat) (c : RuleSet.Cmd) (m : UpdateMeta)
  | editNSS (j : Nat) (c : NS.Cmd)
  | cloneRS (i : Nat)
  | cloneNSS (j : Nat)
  | writeRS (i : Nat)
  | writeAll (j i : Nat)

def World.step (o : Options) (w : World) : Act → World
  | .readRS name => match readRuleSet o w.kv name with
    | .ok rs => { w with rs := w.rs ++ [rs] }
    | _ => w
  | .readNSS => match readNamespaces o w.kv with
    | .ok nss => { w with nss := w.nss ++ [nss] }
    | _ => w
  | .newRS u n m => { w with rs := w.rs ++ [newEmptyRuleSet u n m] }
  | .newNSS => { w with nss := w.nss ++ [NS.empty] }
  | .editRS i c m => match w.rs[i]? with
    | none => w
    | some r => { w with rs := w.rs.set i (r.command m c) }
  | .editNSS j c => match w.nss[j]? with
    | none => w
    | some n => { w with nss := w.nss.set j (n.cmd c) }
  | .cloneRS i => match w.rs[i]? with
    | none => w
    | some r => { w with rs := w.rs ++ [r.clone] }
  | .cloneNSS j => match w.nss[j]? with
    | none => w
    | some n => { w with nss := w.nss ++ [n.clone] }
  | .writeRS i => match w.rs[i]? with
    | none => w
    | some r => { w with kv := (writeRuleSet o w.kv r).1 }
  | .writeAll j i => match w.rs[i]? with
    | none => w
    | some r => match w.nss[j]? with
      | none => w
      | some n => { w with kv := (writeAll o w.kv n r).1 }

def World.run (o : Options) (w : World) (as : List Act) : World := as.foldl (World.step o) w

/-! ### Specification -/

/-- `r` is made from `r0` by edits and copying. -/
inductive Derives : RuleSet → RuleSet → Prop where
  | refl (r : RuleSet) : Derives r r
  | edit {r0 r : RuleSet} (c : RuleSet.Cmd) (m : UpdateMeta) : Derives r0 r → Derives r0 (r.command m c)
  | clone {r0 r : RuleSet} : Derives r0 r → Derives r0 r.clone

/-- `n` is made from `n0` by calls and copying. -/
inductive DerivesN : Namespaces → Namespaces → Prop where
  | refl (n : Namespaces) : DerivesN n n
  | edit {n0 n : Namespaces} (c : NS.Cmd) : DerivesN n0 n → DerivesN n0 (n.cmd c)
  | clone {n0 n : Namespaces} : DerivesN n0 n → DerivesN n0 n.clone

/-- What a client that reads the value `v`, stored as the version `n` of a key, starts from; before the first value it
starts from a new rule set. -/
def StartsRS (o : Options) (n : Nat) (v : Option Value) (r0 : RuleSet) : Prop := match v with
  | none => n = 0 ∧ ∃ u name m, r0 = newEmptyRuleSet u name m
  | some (.ruleSet p) => newRuleSetFromProto o.x o.filterKey n (some p) = some r0
  | some (.namespaces _) => False

def StartsN (n : Nat) (v : Option Value) (n0 : Namespaces) : Prop := match v with
  | none => n = 0 ∧ n0 = NS.empty
  | some (.namespaces p) => newNamespaces n (some p) = some n0
  | some (.ruleSet _) => False

/-- The value stored as version `n` of a key (none for version 0 and for versions not yet written). -/
def KV.at (kv : KV) (k : Bytes) (n : Nat) : Option Value := if n = 0 then none else (kv k)[n - 1]?

/-- `new` holds what a client made by edits from `old`, stored as version `n`. -/
def FollowsRS (o : Options) (n : Nat) (old : Option Value) (new : Value) : Prop :=
  ∃ r0 r p, StartsRS o n old r0 ∧ Derives r0 r ∧ r.proto o.x = some p ∧ new = .ruleSet p

def FollowsN (n : Nat) (old : Option Value) (new : Value) : Prop :=
  ∃ n0 ns p, StartsN n old n0 ∧ DerivesN n0 ns ∧ ns.proto = some p ∧ new = .namespaces p

/-- Different namespaces have different keys, and none has the key of the namespaces. -/
structure KeysOK (o : Options) : Prop where
  inj : ∀ a b, o.ruleSetKey a = o.ruleSetKey b → a = b
  apart : ∀ a, o.ruleSetKey a ≠ o.namespacesKey

/-- Every value is stored under the key that belongs to it. -/
def Placed (o : Options) (kv : KV) : Prop := ∀ k, ∀ v ∈ kv k, match v with
  | .namespaces _ => k = o.namespacesKey
  | .ruleSet p => k = o.ruleSetKey p.namespace_

/-! ### Single writes -/

theorem append_ne_self {α : Type} (l : List α) (a : α) : l ++ [a] ≠ l := by
  intro h
  have := congrArg List.length h
  simp at this

/-- The validator, if there is one, passes the rule set. -/
def Passes (o : Options) (rs : RuleSet) : Prop := ∀ v, o.validator = some v → v rs = true

theorem accepted_iff (o : Options) (rs : RuleSet) : accepted o rs = true ↔ Passes o rs := by
  unfold accepted Passes
  cases o.validator <;> simp

/-- C56: the outcome of a ruleset write.  It succeeds exactly if the rule set is accepted, can be stored and has the
version of the key; it then adds one value to the key of its namespace.  An acceptable write with another version fails
with a stale-data error.  A write that does not succeed changes nothing. -/
theorem C56_write (o : Options) (kv : KV) (rs : RuleSet) :
    let w := writeRuleSet o kv rs
    let k := o.ruleSetKey rs.namespace_
    (w.2 = .ok ↔ Passes o rs ∧ (rs.proto o.x).isSome ∧ rs.version = (kv k).length) ∧
    (w.2 = .stale ↔ Passes o rs ∧ (rs.proto o.x).isSome ∧ rs.version ≠ (kv k).length) ∧
    (w.2 = .ok → ∃ p, rs.proto o.x = some p ∧ w.1 = fun k' => if k' = k then kv k ++ [.ruleSet p] else kv k') ∧
    (w.2 ≠ .ok → w.1 = kv) := by
  intro w k
  show (w.2 = .ok ↔ _) ∧ _
  have hw : w = writeRuleSet o kv rs := rfl
  unfold writeRuleSet ruleSetTransaction at hw
  rw [← accepted_iff]
  cases ha : accepted o rs with
  | false => simp [ha] at hw; simp [hw]
  | true =>
    cases hp : rs.proto o.x with
    | none => simp [ha, hp] at hw; simp [hw]
    | some p =>
      simp only [ha, hp, Bool.not_true, Bool.false_eq_true, if_false] at hw
      unfold commitWrite KV.commit KV.version at hw
      by_cases hv : ((kv (o.ruleSetKey rs.namespace_)).length : Int) = rs.version
      · simp only [List.all_cons, List.all_nil, hv, decide_true, Bool.and_true, if_true, List.foldl_cons, List.foldl_nil] at hw
        rw [hw]
        refine ⟨by simpa using hv.symm, ?_, fun _ => ⟨p, rfl, ?_⟩, by simp⟩
        · simp only [reduceCtorEq, false_iff]
          intro h; exact h.2.2 hv.symm
        · funext k'
          by_cases hk : k' = o.ruleSetKey rs.namespace_
          · subst hk; rfl
          · simp only; rw [if_neg hk, if_neg hk]
      · simp only [List.all_cons, List.all_nil, hv, decide_false, Bool.false_and, Bool.false_eq_true, if_false] at hw
        rw [hw]
        refine ⟨?_, ?_, by simp, by simp⟩
        · simp only [reduceCtorEq, false_iff]
          intro h; exact hv h.2.2.symm
        · simpa using fun h => hv h.symm

/-- C56: a rule set that the validator does not pass is never stored, not even if its version is right. -/
theorem C56_validated (o : Options) (kv : KV) (nss : Namespaces) (rs : RuleSet) (h : ¬ Passes o rs) :
    writeRuleSet o kv rs = (kv, .err) ∧ writeAll o kv nss rs = (kv, .err) := by
  have : accepted o rs = false := by
    cases ha : accepted o rs with
    | false => rfl
    | true => exact absurd ((accepted_iff o rs).mp ha) h
  simp [writeRuleSet, writeAll, this]

/-- C56: the outcome of a combined write.  It succeeds exactly if the rule set is accepted, both can be stored and both
have the versions of their keys; it then adds one value to each of both keys.  An acceptable write with another version of
either fails with a stale-data error.  A write that does not succeed changes neither. -/
theorem C56_write_all {o : Options} (hk : KeysOK o) (kv : KV) (nss : Namespaces) (rs : RuleSet) :
    let w := writeAll o kv nss rs
    let k := o.ruleSetKey rs.namespace_
    (w.2 = .ok ↔ Passes o rs ∧ (rs.proto o.x).isSome ∧ nss.proto.isSome ∧
      rs.version = (kv k).length ∧ nss.version = (kv o.namespacesKey).length) ∧
    (w.2 = .stale ↔ Passes o rs ∧ (rs.proto o.x).isSome ∧ nss.proto.isSome ∧
      ¬ (rs.version = (kv k).length ∧ nss.version = (kv o.namespacesKey).length)) ∧
    (w.2 = .ok → ∃ p q, rs.proto o.x = some p ∧ nss.proto = some q ∧ w.1 = fun k' =>
      if k' = o.namespacesKey then kv k' ++ [.namespaces q] else if k' = k then kv k' ++ [.ruleSet p] else kv k') ∧
    (w.2 ≠ .ok → w.1 = kv) := by
  intro w k
  show (w.2 = .ok ↔ _) ∧ _
  have hw : w = writeAll o kv nss rs := rfl
  unfold writeAll ruleSetTransaction namespacesTransaction at hw
  rw [← accepted_iff]
  cases ha : accepted o rs with
  | false => simp [ha] at hw; simp [hw]
  | true =>
    cases hp : rs.proto o.x with
    | none => simp [ha, hp] at hw; simp [hw]
    | some p =>
      cases hq : nss.proto with
      | none => simp [ha, hp, hq] at hw; simp [hw]
      | some q =>
        simp only [ha, hp, hq, Bool.not_true, Bool.false_eq_true, if_false] at hw
        unfold commitWrite KV.commit KV.version at hw
        by_cases hv : ((kv (o.ruleSetKey rs.namespace_)).length : Int) = rs.version ∧
            ((kv o.namespacesKey).length : Int) = nss.version
        · simp only [List.cons_append, List.nil_append, List.all_cons, List.all_nil, hv.1, hv.2, decide_true, Bool.and_true, if_true,
            List.foldl_cons, List.foldl_nil] at hw
          rw [hw]
          refine ⟨?_, ?_, fun _ => ⟨p, q, rfl, rfl, ?_⟩, by simp⟩
          · simpa using ⟨hv.1.symm, hv.2.symm⟩
          · simp only [reduceCtorEq, false_iff]
            intro h; exact h.2.2.2 ⟨hv.1.symm, hv.2.symm⟩
          · funext k'
            by_cases h1 : k' = o.namespacesKey
            · subst h1
              have : ¬ o.namespacesKey = o.ruleSetKey rs.namespace_ := fun h => hk.apart _ h.symm
              simp [this]
            · simp only; rw [if_neg h1, if_neg h1]
        · have hf : ([(o.ruleSetKey rs.namespace_, rs.version)] ++ [(o.namespacesKey, nss.version)]).all
              (fun c : Bytes × Int => decide (((kv c.1).length : Int) = c.2)) = false := by
            simp only [List.cons_append, List.nil_append, List.all_cons, List.all_nil, Bool.and_true]
            by_cases h1 : ((kv (o.ruleSetKey rs.namespace_)).length : Int) = rs.version
            · have h2 : ¬ ((kv o.namespacesKey).length : Int) = nss.version := fun h => hv ⟨h1, h⟩
              simp [h2]
            · simp [h1]
          simp only [hf, Bool.false_eq_true, if_false] at hw
          rw [hw]
          refine ⟨?_, ?_, by simp, by simp⟩
          · simp only [reduceCtorEq, false_iff]
            intro h; exact hv ⟨h.2.2.2.1.symm, h.2.2.2.2.symm⟩
          · simp only [true_iff]
            exact ⟨by trivial, by simp, by simp, fun h => hv ⟨h.1.symm, h.2.symm⟩⟩

/-! ### What edits keep -/

theorem edit_keeps (rs : RuleSet) (m : UpdateMeta) (e : Edit) :
    (rs.edit m e).1.version = rs.version ∧ (rs.edit m e).1.namespace_ = rs.namespace_ := by
  cases e <;> simp only [RuleSet.edit, RuleSet.addMappingRule, RuleSet.updateMappingRule, RuleSet.deleteMappingRule,
    RuleSet.addRollupRule, RuleSet.updateRollupRule, RuleSet.deleteRollupRule, RuleSet.delete, RuleSet.revive] <;>
    split <;> exact ⟨rfl, rfl⟩

theorem run_keeps : ∀ (es : List (Edit × UpdateMeta)) (rs : RuleSet),
    (rs.run es).version = rs.version ∧ (rs.run es).namespace_ = rs.namespace_
  | [], _ => ⟨rfl, rfl⟩
  | e :: es, rs => by
    have h := run_keeps es (rs.edit e.2 e.1).1
    have g := edit_keeps rs e.2 e.1
    exact ⟨h.1.trans g.1, h.2.trans g.2⟩

theorem command_keeps (rs : RuleSet) (m : UpdateMeta) (c : RuleSet.Cmd) :
    (rs.command m c).version = rs.version ∧ (rs.command m c).namespace_ = rs.namespace_ := by
  obtain ⟨es, h, _⟩ := commands_run [(c, m)] rs
  have : rs.command m c = rs.run es := h
  rw [this]
  exact run_keeps es rs

theorem Derives.keeps {r0 r : RuleSet} (h : Derives r0 r) : r.version = r0.version ∧ r.namespace_ = r0.namespace_ := by
  induction h with
  | refl => exact ⟨rfl, rfl⟩
  | @edit r c m _ ih => have := command_keeps r m c; exact ⟨this.1.trans ih.1, this.2.trans ih.2⟩
  | clone _ ih => exact ih

theorem cmd_version (n : Namespaces) (c : NS.Cmd) : (n.cmd c).version = n.version := by
  cases c with
  | add name m =>
    simp only [Namespaces.cmd, Namespaces.add]
    split
    · rfl
    · rfl
    · split
      · rfl
      · split <;> rfl
  | delete name v m =>
    simp only [Namespaces.cmd, Namespaces.delete]
    split
    · rfl
    · rfl
    · split
      · rfl
      · split <;> rfl

theorem DerivesN.keeps {n0 n : Namespaces} (h : DerivesN n0 n) : n.version = n0.version := by
  induction h with
  | refl => rfl
  | edit c _ ih => rw [cmd_version]; exact ih
  | clone _ ih => exact ih

theorem loaded_fields {x : XTime} {key : Bytes} {v : Int} {p : PBRuleSet} {r : RuleSet}
    (h : newRuleSetFromProto x key v (some p) = some r) :
    r.version = v ∧ r.namespace_ = p.namespace_ ∧ r.tombstoned = p.tombstoned := by
  unfold newRuleSetFromProto at h
  simp only at h
  split at h
  · simp at h
  · split at h
    · simp at h
    · simp only [Option.some.injEq] at h
      subst h; exact ⟨rfl, rfl, rfl⟩

theorem proto_fields {x : XTime} {r : RuleSet} {p : PBRuleSet} (h : r.proto x = some p) :
    p.namespace_ = r.namespace_ ∧ p.tombstoned = r.tombstoned := by
  unfold RuleSet.proto at h
  split at h
  · simp at h
  · split at h
    · simp at h
    · simp only [Option.some.injEq] at h
      subst h; exact ⟨rfl, rfl⟩

theorem newNamespaces_version {v : Int} {p : PBNamespaces} {n : Namespaces} (h : newNamespaces v (some p) = some n) :
    n.version = v := by
  unfold newNamespaces at h
  simp only at h
  cases hm : mapM' newNamespace p.namespaces with
  | none => simp [hm] at h
  | some l => simp only [hm, Option.map_some, Option.some.injEq] at h; subst h; rfl

/-! ### All executions -/

/-- The rule set is made by edits from what was read at some version of its key. -/
def BasedRS (o : Options) (kv : KV) (r : RuleSet) : Prop := ∃ n r0, n ≤ (kv (o.ruleSetKey r.namespace_)).length ∧
  StartsRS o n (kv.at (o.ruleSetKey r.namespace_) n) r0 ∧ Derives r0 r

def BasedN (o : Options) (kv : KV) (r : Namespaces) : Prop := ∃ n n0, n ≤ (kv o.namespacesKey).length ∧
  StartsN n (kv.at o.namespacesKey n) n0 ∧ DerivesN n0 r

/-- What holds throughout: the store only grows, values are where they belong, objects are based on some version, and
every value written is based on the version before it. -/
structure Inv (o : Options) (kv0 : KV) (w : World) : Prop where
  grows : ∀ k, kv0 k <+: w.kv k
  placed : Placed o w.kv
  rs : ∀ r ∈ w.rs, BasedRS o w.kv r
  nss : ∀ n ∈ w.nss, BasedN o w.kv n
  chainRS : ∀ name n, (kv0 (o.ruleSetKey name)).length ≤ n → ∀ v, (w.kv (o.ruleSetKey name))[n]? = some v →
    FollowsRS o n (w.kv.at (o.ruleSetKey name) n) v
  chainN : ∀ n, (kv0 o.namespacesKey).length ≤ n → ∀ v, (w.kv o.namespacesKey)[n]? = some v →
    FollowsN n (w.kv.at o.namespacesKey n) v

theorem at_mono {kv kv' : KV} {k : Bytes} (h : kv k <+: kv' k) {n : Nat} (hn : n ≤ (kv k).length) : kv'.at k n = kv.at k n := by
  unfold KV.at
  split
  · rfl
  · obtain ⟨t, e⟩ := h
    rw [← e, List.getElem?_append_left (by omega)]

theorem BasedRS.mono {o : Options} {kv kv' : KV} (h : ∀ k, kv k <+: kv' k) {r : RuleSet} (hr : BasedRS o kv r) : BasedRS o kv' r := by
  obtain ⟨n, r0, hn, hs, hd⟩ := hr
  exact ⟨n, r0, Nat.le_trans hn (h _).length_le, by rw [at_mono (h _) hn]; exact hs, hd⟩

theorem BasedN.mono {o : Options} {kv kv' : KV} (h : ∀ k, kv k <+: kv' k) {r : Namespaces} (hr : BasedN o kv r) : BasedN o kv' r := by
  obtain ⟨n, r0, hn, hs, hd⟩ := hr
  exact ⟨n, r0, Nat.le_trans hn (h _).length_le, by rw [at_mono (h _) hn]; exact hs, hd⟩

theorem starts_version {o : Options} {n : Nat} {v : Option Value} {r0 : RuleSet} (h : StartsRS o n v r0) : r0.version = n := by
  unfold StartsRS at h
  split at h
  · obtain ⟨h1, u, name, m, h2⟩ := h; subst h2 h1; rfl
  · exact (loaded_fields h).1
  · exact h.elim

theorem startsN_version {n : Nat} {v : Option Value} {n0 : Namespaces} (h : StartsN n v n0) : n0.version = n := by
  unfold StartsN at h
  split at h
  · obtain ⟨h1, h2⟩ := h; subst h2 h1; rfl
  · exact newNamespaces_version h
  · exact h.elim

/-- An object with the version of its key is based on the last value of the key. -/
theorem BasedRS.current {o : Options} {kv : KV} {r : RuleSet} (h : BasedRS o kv r)
    (hv : r.version = (kv (o.ruleSetKey r.namespace_)).length) :
    ∃ r0, StartsRS o (kv (o.ruleSetKey r.namespace_)).length (kv (o.ruleSetKey r.namespace_)).getLast? r0 ∧ Derives r0 r := by
  obtain ⟨n, r0, _, hs, hd⟩ := h
  have hn : n = (kv (o.ruleSetKey r.namespace_)).length := by
    have h1 := hd.keeps.1
    rw [starts_version hs, hv] at h1
    exact (Int.ofNat_inj.mp h1).symm
  refine ⟨r0, ?_, hd⟩
  rw [hn] at hs
  unfold KV.at at hs
  split at hs
  · rename_i h0
    rw [List.length_eq_zero_iff.mp h0]; rw [h0] at hs; exact hs
  · rw [List.getLast?_eq_getElem?]; exact hs

theorem BasedN.current {o : Options} {kv : KV} {r : Namespaces} (h : BasedN o kv r)
    (hv : r.version = (kv o.namespacesKey).length) :
    ∃ r0, StartsN (kv o.namespacesKey).length (kv o.namespacesKey).getLast? r0 ∧ DerivesN r0 r := by
  obtain ⟨n, r0, _, hs, hd⟩ := h
  have hn : n = (kv o.namespacesKey).length := by
    have h1 := hd.keeps
    rw [startsN_version hs, hv] at h1
    exact (Int.ofNat_inj.mp h1).symm
  refine ⟨r0, ?_, hd⟩
  rw [hn] at hs
  unfold KV.at at hs
  split at hs
  · rename_i h0
    rw [List.length_eq_zero_iff.mp h0]; rw [h0] at hs; exact hs
  · rw [List.getLast?_eq_getElem?]; exact hs

theorem at_last (kv : KV) (k : Bytes) : kv.at k (kv k).length = (kv k).getLast? := by
  unfold KV.at
  split
  · rename_i h0; rw [List.length_eq_zero_iff.mp h0]; rfl
  · rw [List.getLast?_eq_getElem?]

/-- Appending a value that follows the last one keeps the chain. -/
theorem chain_append {P : Nat → Option Value → Value → Prop} {kv kv' : KV} {k : Bytes} {v : Value} {b : Nat}
    (h : ∀ n, b ≤ n → ∀ v, (kv k)[n]? = some v → P n (kv.at k n) v) (e : kv' k = kv k ++ [v])
    (hv : P (kv k).length (kv k).getLast? v) : ∀ n, b ≤ n → ∀ v, (kv' k)[n]? = some v → P n (kv'.at k n) v := by
  intro n hb u hu
  rw [e, List.getElem?_append] at hu
  split at hu
  · rename_i hlt
    rw [at_mono (kv := kv) (by rw [e]; exact List.prefix_append _ _) (by omega)]
    exact h n hb u hu
  · rename_i hlt
    have hn : n = (kv k).length := by
      refine Classical.byContradiction fun hc => ?_
      rw [List.getElem?_eq_none (by simp; omega)] at hu
      simp at hu
    rw [hn] at hu
    simp at hu
    subst hu
    rw [hn, at_mono (kv := kv) (by rw [e]; exact List.prefix_append _ _) (Nat.le_refl _), at_last]
    exact hv

/-- A write keeps the invariant. -/
theorem inv_kv {o : Options} (hk : KeysOK o) {kv0 : KV} {w : World} (h : Inv o kv0 w) {kv' : KV} {p : PBRuleSet} {q : Option PBNamespaces}
    {r : RuleSet} {ns : Namespaces} (hr : r ∈ w.rs) (hn : q.isSome → ns ∈ w.nss) (hp : r.proto o.x = some p)
    (hq : ∀ q', q = some q' → ns.proto = some q')
    (hv : r.version = (w.kv (o.ruleSetKey r.namespace_)).length) (hvn : q.isSome → ns.version = (w.kv o.namespacesKey).length)
    (e1 : kv' (o.ruleSetKey r.namespace_) = w.kv (o.ruleSetKey r.namespace_) ++ [.ruleSet p])
    (e2 : kv' o.namespacesKey = w.kv o.namespacesKey ++ (q.map Value.namespaces).toList)
    (e3 : ∀ k, k ≠ o.ruleSetKey r.namespace_ → k ≠ o.namespacesKey → kv' k = w.kv k) :
    Inv o kv0 { w with kv := kv' } := by
  have hg : ∀ k, w.kv k <+: kv' k := by
    intro k
    by_cases h1 : k = o.ruleSetKey r.namespace_
    · rw [h1, e1]; exact List.prefix_append _ _
    · by_cases h2 : k = o.namespacesKey
      · rw [h2, e2]; exact List.prefix_append _ _
      · rw [e3 k h1 h2]; exact List.prefix_refl _
  refine ⟨fun k => (h.grows k).trans (hg k), ?_, fun r hr => (h.rs r hr).mono hg, fun n hn => (h.nss n hn).mono hg, ?_, ?_⟩
  · intro k v hv'
    by_cases h1 : k = o.ruleSetKey r.namespace_
    · subst h1
      simp only [e1, List.mem_append, List.mem_singleton] at hv'
      rcases hv' with hv' | hv'
      · exact h.placed _ v hv'
      · subst hv'; simp only; rw [(proto_fields hp).1]
    · by_cases h2 : k = o.namespacesKey
      · subst h2
        simp only [e2, List.mem_append, Option.mem_toList, Option.map_eq_some_iff] at hv'
        rcases hv' with hv' | ⟨q', _, hv'⟩
        · exact h.placed _ v hv'
        · subst hv'; rfl
      · simp only [e3 k h1 h2] at hv'; exact h.placed _ v hv'
  · intro name
    by_cases h1 : o.ruleSetKey name = o.ruleSetKey r.namespace_
    · rw [h1]
      have hc := h.chainRS name
      rw [h1] at hc
      refine chain_append (P := FollowsRS o) hc e1 ?_
      obtain ⟨r0, hs, hd⟩ := (h.rs r hr).current hv
      exact ⟨r0, r, p, hs, hd, hp, rfl⟩
    · have := e3 _ h1 (hk.apart name)
      intro n hb v hv'
      have hat : kv'.at (o.ruleSetKey name) n = w.kv.at (o.ruleSetKey name) n := by unfold KV.at; rw [this]
      simp only [hat]
      simp only [this] at hv'
      exact h.chainRS name n hb v hv'
  · cases q with
    | none =>
      have e2' : kv' o.namespacesKey = w.kv o.namespacesKey := by rw [e2]; simp
      intro n hb v hv'
      have hat : kv'.at o.namespacesKey n = w.kv.at o.namespacesKey n := by unfold KV.at; rw [e2']
      simp only [hat]
      simp only [e2'] at hv'
      exact h.chainN n hb v hv'
    | some q =>
      refine chain_append (P := FollowsN) h.chainN e2 ?_
      obtain ⟨n0, hs, hd⟩ := (h.nss ns (hn rfl)).current (hvn rfl)
      exact ⟨n0, ns, q, hs, hd, hq q rfl, rfl⟩

theorem inv_objects {o : Options} {kv0 : KV} {w : World} (h : Inv o kv0 w) {rs : List RuleSet} {nss : List Namespaces}
    (h1 : ∀ r ∈ rs, BasedRS o w.kv r) (h2 : ∀ n ∈ nss, BasedN o w.kv n) : Inv o kv0 { kv := w.kv, rs := rs, nss := nss } :=
  ⟨h.grows, h.placed, h1, h2, h.chainRS, h.chainN⟩

theorem mem_snoc {α : Type} {P : α → Prop} {l : List α} {a : α} (h : ∀ x ∈ l, P x) (ha : P a) : ∀ x ∈ l ++ [a], P x := by
  intro x hx
  rcases List.mem_append.mp hx with hx | hx
  · exact h x hx
  · simp only [List.mem_singleton] at hx; subst hx; exact ha

theorem mem_set {α : Type} {P : α → Prop} {l : List α} {i : Nat} {a : α} (h : ∀ x ∈ l, P x) (ha : P a) : ∀ x ∈ l.set i a, P x := by
  intro x hx
  rcases List.mem_or_eq_of_mem_set hx with hx | hx
  · exact h x hx
  · subst hx; exact ha

theorem step_inv {o : Options} (hk : KeysOK o) {kv0 : KV} {w : World} (h : Inv o kv0 w) (a : Act) : Inv o kv0 (w.step o a) := by
  cases a with
  | readRS name =>
    simp only [World.step]
    split
    · rename_i r hr
      refine inv_objects h (mem_snoc h.rs ?_) h.nss
      unfold readRuleSet at hr
      split at hr
      · simp at hr
      · simp at hr
      · rename_i p hp
        split at hr
        · simp at hr
        · rename_i r' hr'
          simp only [Read.ok.injEq] at hr
          subst hr
          have hmem : Value.ruleSet p ∈ w.kv (o.ruleSetKey name) := List.mem_of_getLast? hp
          have hname : o.ruleSetKey name = o.ruleSetKey r'.namespace_ := by
            rw [(loaded_fields hr').2.1]; exact h.placed _ _ hmem
          refine ⟨(w.kv (o.ruleSetKey name)).length, r', ?_, ?_, .refl _⟩
          · rw [hname]; exact Nat.le_refl _
          · rw [← hname, at_last, hp]; exact hr'
    · exact h
  | readNSS =>
    simp only [World.step]
    split
    · rename_i r hr
      refine inv_objects h h.rs (mem_snoc h.nss ?_)
      unfold readNamespaces at hr
      split at hr
      · simp at hr
      · simp at hr
      · rename_i p hp
        split at hr
        · simp at hr
        · rename_i r' hr'
          simp only [Read.ok.injEq] at hr
          subst hr
          refine ⟨(w.kv o.namespacesKey).length, r', Nat.le_refl _, ?_, .refl _⟩
          rw [at_last, hp]; exact hr'
    · exact h
  | newRS u n m =>
    refine inv_objects h (mem_snoc h.rs ?_) h.nss
    exact ⟨0, _, Nat.zero_le _, ⟨rfl, u, n, m, rfl⟩, .refl _⟩
  | newNSS =>
    refine inv_objects h h.rs (mem_snoc h.nss ?_)
    exact ⟨0, _, Nat.zero_le _, ⟨rfl, rfl⟩, .refl _⟩
  | editRS i c m =>
    simp only [World.step]
    split
    · exact h
    · rename_i r hr
      refine inv_objects h (mem_set h.rs ?_) h.nss
      obtain ⟨n, r0, hn, hs, hd⟩ := h.rs r (List.mem_of_getElem? hr)
      refine ⟨n, r0, ?_, ?_, .edit c m hd⟩
      · rw [(command_keeps r m c).2]; exact hn
      · rw [(command_keeps r m c).2]; exact hs
  | editNSS j c =>
    simp only [World.step]
    split
    · exact h
    · rename_i r hr
      refine inv_objects h h.rs (mem_set h.nss ?_)
      obtain ⟨n, r0, hn, hs, hd⟩ := h.nss r (List.mem_of_getElem? hr)
      exact ⟨n, r0, hn, hs, .edit c hd⟩
  | cloneRS i =>
    simp only [World.step]
    split
    · exact h
    · rename_i r hr
      refine inv_objects h (mem_snoc h.rs ?_) h.nss
      obtain ⟨n, r0, hn, hs, hd⟩ := h.rs r (List.mem_of_getElem? hr)
      exact ⟨n, r0, hn, hs, .clone hd⟩
  | cloneNSS j =>
    simp only [World.step]
    split
    · exact h
    · rename_i r hr
      refine inv_objects h h.rs (mem_snoc h.nss ?_)
      obtain ⟨n, r0, hn, hs, hd⟩ := h.nss r (List.mem_of_getElem? hr)
      exact ⟨n, r0, hn, hs, .clone hd⟩
  | writeRS i =>
    simp only [World.step]
    split
    · exact h
    · rename_i r hr
      obtain ⟨h1, _, h3, h4⟩ := C56_write o w.kv r
      by_cases hok : (writeRuleSet o w.kv r).2 = .ok
      · obtain ⟨p, hp, e⟩ := h3 hok
        refine inv_kv hk h (q := none) (ns := NS.empty) (List.mem_of_getElem? hr) (by simp) hp (by simp) (h1.mp hok).2.2
          (by simp) ?_ ?_ ?_
        · rw [e]; simp
        · rw [e]
          have : ¬ o.namespacesKey = o.ruleSetKey r.namespace_ := fun h => hk.apart _ h.symm
          simp [this]
        · intro k hk1 _; rw [e]; simp [hk1]
      · rw [h4 hok]; exact h
  | writeAll j i =>
    simp only [World.step]
    split
    · exact h
    · rename_i r hr
      split
      · exact h
      · rename_i n hn
        obtain ⟨h1, _, h3, h4⟩ := C56_write_all hk w.kv n r
        by_cases hok : (writeAll o w.kv n r).2 = .ok
        · obtain ⟨p, q, hp, hq, e⟩ := h3 hok
          have hv := (h1.mp hok).2.2.2
          have : ¬ o.ruleSetKey r.namespace_ = o.namespacesKey := hk.apart _
          refine inv_kv hk h (q := some q) (ns := n) (List.mem_of_getElem? hr) (fun _ => List.mem_of_getElem? hn) hp
            (fun q' hq' => by rw [hq, ← hq']) hv.1 (fun _ => hv.2) ?_ ?_ ?_
          · rw [e]; simp [this]
          · rw [e]; simp
          · intro k hk1 hk2; rw [e]; simp [hk1, hk2]
        · rw [h4 hok]; exact h

theorem inv_start {o : Options} {kv0 : KV} (h : Placed o kv0) : Inv o kv0 { kv := kv0, rs := [], nss := [] } := by
  refine ⟨fun _ => List.prefix_refl _, h, by simp, by simp, ?_, ?_⟩
  · intro name n hb v hv
    rw [List.getElem?_eq_none hb] at hv; simp at hv
  · intro n hb v hv
    rw [List.getElem?_eq_none hb] at hv; simp at hv

theorem run_inv {o : Options} (hk : KeysOK o) {kv0 : KV} : ∀ (as : List Act) {w : World}, Inv o kv0 w → Inv o kv0 (w.run o as)
  | [], _, h => h
  | a :: as, _, h => run_inv hk as (step_inv hk h a)

/-- The world at the start: nobody holds anything. -/
def start (kv0 : KV) : World := { kv := kv0, rs := [], nss := [] }

/-- C56: whatever any number of clients do, every successful ruleset write is based on the version stored immediately
before it: the rule set written is made by edits from what reading that version gives (from a new rule set if there was
none), and the write adds it to the history of its own key and changes no other key. -/
theorem C56_no_lost_update {o : Options} (hk : KeysOK o) {kv0 : KV} (h0 : Placed o kv0) (as : List Act) (i : Nat) (r : RuleSet)
    (hr : ((start kv0).run o as).rs[i]? = some r) (hok : (writeRuleSet o ((start kv0).run o as).kv r).2 = .ok) :
    let kv := ((start kv0).run o as).kv
    let k := o.ruleSetKey r.namespace_
    ∃ r0 p, StartsRS o (kv k).length (kv k).getLast? r0 ∧ Derives r0 r ∧ r.proto o.x = some p ∧
      (writeRuleSet o kv r).1 k = kv k ++ [.ruleSet p] ∧ ∀ k', k' ≠ k → (writeRuleSet o kv r).1 k' = kv k' := by
  intro kv k
  have h := run_inv hk as (inv_start h0)
  obtain ⟨h1, _, h3, _⟩ := C56_write o kv r
  obtain ⟨p, hp, e⟩ := h3 hok
  obtain ⟨r0, hs, hd⟩ := (h.rs r (List.mem_of_getElem? hr)).current (h1.mp hok).2.2
  refine ⟨r0, p, hs, hd, hp, ?_, ?_⟩
  · rw [e]; simp only; rw [if_pos rfl]
  · intro k' hk'; rw [e]; simp only; rw [if_neg hk']

/-- C56, for combined writes. -/
theorem C56_no_lost_update_all {o : Options} (hk : KeysOK o) {kv0 : KV} (h0 : Placed o kv0) (as : List Act) (i j : Nat) (r : RuleSet)
    (n : Namespaces) (hr : ((start kv0).run o as).rs[i]? = some r) (hn : ((start kv0).run o as).nss[j]? = some n)
    (hok : (writeAll o ((start kv0).run o as).kv n r).2 = .ok) :
    let kv := ((start kv0).run o as).kv
    let k := o.ruleSetKey r.namespace_
    let kn := o.namespacesKey
    ∃ r0 n0 p q, StartsRS o (kv k).length (kv k).getLast? r0 ∧ Derives r0 r ∧ r.proto o.x = some p ∧
      StartsN (kv kn).length (kv kn).getLast? n0 ∧ DerivesN n0 n ∧ n.proto = some q ∧
      (writeAll o kv n r).1 k = kv k ++ [.ruleSet p] ∧ (writeAll o kv n r).1 kn = kv kn ++ [.namespaces q] ∧
      ∀ k', k' ≠ k → k' ≠ kn → (writeAll o kv n r).1 k' = kv k' := by
  intro kv k kn
  have h := run_inv hk as (inv_start h0)
  obtain ⟨h1, _, h3, _⟩ := C56_write_all hk kv n r
  obtain ⟨p, q, hp, hq, e⟩ := h3 hok
  have hv := (h1.mp hok).2.2.2
  obtain ⟨r0, hs, hd⟩ := (h.rs r (List.mem_of_getElem? hr)).current hv.1
  obtain ⟨n0, hs', hd'⟩ := (h.nss n (List.mem_of_getElem? hn)).current hv.2
  refine ⟨r0, n0, p, q, hs, hd, hp, hs', hd', hq, ?_, ?_, ?_⟩
  · have : ¬ o.ruleSetKey r.namespace_ = o.namespacesKey := hk.apart _
    rw [e]; simp only; rw [if_neg this, if_pos rfl]
  · rw [e]; simp only; rw [if_pos rfl]
  · intro k' h1 h2; rw [e]; simp only; rw [if_neg h2, if_neg h1]

/-- C56: nothing stored is ever changed or removed, and every value stored since the start was made by edits from the
value stored immediately before it: the histories are chains without forks. -/
theorem C56_chain {o : Options} (hk : KeysOK o) {kv0 : KV} (h0 : Placed o kv0) (as : List Act) :
    let kv := ((start kv0).run o as).kv
    (∀ k, kv0 k <+: kv k) ∧
    (∀ name n v, (kv0 (o.ruleSetKey name)).length ≤ n → (kv (o.ruleSetKey name))[n]? = some v →
      FollowsRS o n (kv.at (o.ruleSetKey name) n) v) ∧
    (∀ n v, (kv0 o.namespacesKey).length ≤ n → (kv o.namespacesKey)[n]? = some v →
      FollowsN n (kv.at o.namespacesKey n) v) := by
  intro kv
  have h := run_inv hk as (inv_start h0)
  exact ⟨h.grows, fun name n v hb hv => h.chainRS name n hb v hv, fun n v hb hv => h.chainN n hb v hv⟩

/-- C56: of two writes based on the same version at most one succeeds: once a write of a rule set has succeeded, every
later write of a rule set of that namespace and version fails and changes nothing, whatever happens in between. -/
theorem C56_second_is_stale {o : Options} (hk : KeysOK o) {kv0 : KV} (h0 : Placed o kv0) (as bs : List Act) (i : Nat) (r r' : RuleSet)
    (hr : ((start kv0).run o as).rs[i]? = some r) (hok : (writeRuleSet o ((start kv0).run o as).kv r).2 = .ok)
    (hv : r'.version = r.version) (hn : r'.namespace_ = r.namespace_) :
    let w := ((start kv0).run o (as ++ .writeRS i :: bs))
    (writeRuleSet o w.kv r').2 ≠ .ok ∧ (writeRuleSet o w.kv r').1 = w.kv ∧
    (Passes o r' → (r'.proto o.x).isSome → (writeRuleSet o w.kv r').2 = .stale) := by
  intro w
  obtain ⟨g1, _, g3, _⟩ := C56_write o ((start kv0).run o as).kv r
  obtain ⟨p, _, e⟩ := g3 hok
  have hgrow : ∀ (bs : List Act) (w : World) (h : ∃ kv0, Inv o kv0 w) (k : Bytes), w.kv k <+: (w.run o bs).kv k := by
    intro bs w h k
    obtain ⟨kv1, h⟩ := h
    have h' : Inv o w.kv w := ⟨fun _ => List.prefix_refl _, h.placed, h.rs, h.nss,
      fun name n hb v hv => by rw [List.getElem?_eq_none hb] at hv; simp at hv,
      fun n hb v hv => by rw [List.getElem?_eq_none hb] at hv; simp at hv⟩
    exact (run_inv hk bs h').grows k
  have hw : w = (((start kv0).run o as).step o (.writeRS i)).run o bs := by
    show (start kv0).run o (as ++ .writeRS i :: bs) = _
    unfold World.run; rw [List.foldl_append]; rfl
  have hp := hgrow bs (((start kv0).run o as).step o (.writeRS i)) ⟨kv0, step_inv hk (run_inv hk as (inv_start h0)) _⟩ (o.ruleSetKey r.namespace_)
  rw [← hw] at hp
  have hl := hp.length_le
  have e1 : (((start kv0).run o as).step o (.writeRS i)).kv (o.ruleSetKey r.namespace_) =
      ((start kv0).run o as).kv (o.ruleSetKey r.namespace_) ++ [.ruleSet p] := by
    simp only [World.step, hr]
    rw [e]; simp
  rw [e1, List.length_append] at hl
  have hv0 := (g1.mp hok).2.2
  have hne : r'.version ≠ (w.kv (o.ruleSetKey r'.namespace_)).length := by
    rw [hv, hn, hv0]
    simp only [List.length_singleton] at hl
    omega
  obtain ⟨f1, f2, _, f4⟩ := C56_write o w.kv r'
  have hnot : (writeRuleSet o w.kv r').2 ≠ .ok := fun hc => hne (f1.mp hc).2.2
  exact ⟨hnot, f4 hnot, fun ha hp' => f2.mpr ⟨ha, hp', hne⟩⟩

/-! ### Examples -/

/-- Options with the keys `n` and `r/…`; nothing depends on units of time here. -/
def exOpts : Options :=
  { namespacesKey := bs "n", ruleSetKey := fun name => bs "r/" ++ name, validator := none
    x := ⟨fun _ => none, fun _ => none, fun _ => 0, fun _ => [], fun _ => none, fun _ => []⟩, filterKey := bs "name" }

theorem exOpts_ok : KeysOK exOpts :=
  ⟨fun a b h => List.append_cancel_left h, fun a h => by simp [exOpts, bs] at h⟩

def exKV : KV := fun _ => []

/-- A client creates a namespace; two clients read its rule set, both edit it, and one of them writes. -/
def exActs : List Act := [.newRS (bs "u") (bs "a") (exM 1), .newNSS, .editNSS 0 (.add (bs "a") (exM 1)), .writeAll 0 0,
  .readRS (bs "a"), .readRS (bs "a"), .editRS 1 (.one .delete) (exM 2),
  .editRS 2 (.one (.addMapping (bs "1") (exData "m" "city:sf"))) (exM 3), .writeRS 2]

/-- The hypotheses are met: the state is reached, the second client's write succeeded, and the first client's is refused as
stale; after reading again it succeeds. -/
example : Placed exOpts exKV := by intro k v hv; simp [exKV] at hv
example : let w := (start exKV).run exOpts exActs
    (w.kv (bs "r/a")).length = 2 ∧ (w.kv (bs "n")).length = 1 ∧
    (w.rs[1]?.map fun r => (writeRuleSet exOpts w.kv r).2) = some .stale ∧
    ((w.run exOpts [.readRS (bs "a"), .editRS 3 (.one .delete) (exM 4)]).rs[3]?.map fun r => (writeRuleSet exOpts w.kv r).2) =
      some .ok := by decide +kernel

end Verif.Store
