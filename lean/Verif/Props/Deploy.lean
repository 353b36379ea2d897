import Verif.Model.Deploy
import Verif.Props.MatcherCache
import Verif.Props.StoreBytes
/-
C87: the store and the matcher on one key-value store.
-/
namespace Verif.Deploy
open Verif.Meta Verif.RuleSet Verif.Rules Verif.NS Verif.Store Verif.Wire Verif.Active Verif.Matcher
open Verif.Cache (mget mdel St Heap newCache Config Tick)

/-- The key-value store, and a matcher that watches it. -/
structure Dep where
  kv : BKV
  sys : Sys

/-- The matcher can be given `v` as the rule set of namespace `name`: it is what it makes of one of the values that were stored under
the key, the latest or an earlier one, with the version the value has. -/
def Stored (o : Options) (kv : BKV) (name : Bytes) (v : RuleSet) : Prop :=
  ∃ n b, (kv (o.ruleSetKey name))[n]? = some b ∧ toRuleSet o ((n + 1 : Nat) : Int) b = .ok (some v)

/-- Likewise the namespaces. -/
def StoredNames (o : Options) (kv : BKV) (nss : Namespaces) : Prop :=
  ∃ n b, (kv o.namespacesKey)[n]? = some b ∧ toNamespaces ((n + 1 : Nat) : Int) b = .ok (some nss)

/-- Every rule set that the call writes is in `W`. -/
def Writes (W : RuleSet → Prop) : Call → Prop
  | .writeRuleSet rs => W rs
  | .writeAll _ rs => W rs
  | _ => True

/-- Steps, in any order: a client of the store makes a call, to write only rule sets in `W`; the matcher takes up a stored value of the namespaces; it creates or
watches a ruleset, which may at once be given a stored value; a ruleset is given a stored value; and all other steps of the matcher as
they are (`Matcher.SStep`). -/
inductive DStep (o : Options) (W : RuleSet → Prop) (cfg : Config) (env : Env) (past : Int) (nsOf : Nat → Bytes) : Dep → Dep → Prop
  | call (kv : BKV) (y : Sys) (c : Call) (hc : c.Sane o.x) (hw : Writes W c) : DStep o W cfg env past nsOf ⟨kv, y⟩ ⟨(callB o kv c).1, y⟩
  | update (kv : BKV) (y : Sys) (nss : Namespaces) (todo : List (Bytes × Namespace)) (hp : y.phase = .idle)
      (ho : todo.Perm (incoming nss.namespaces)) (hs : StoredNames o kv nss) :
      DStep o W cfg env past nsOf ⟨kv, y⟩ ⟨kv, { y with phase := .adding (incoming nss.namespaces) todo }⟩
  | add (kv : BKV) (y : Sys) (e : Env63) (inc todo : List (Bytes × Namespace)) (name : Bytes) (elem : Namespace) (he : e.past = past)
      (hp : y.phase = .adding inc ((name, elem) :: todo)) (hf : mget y.ns.rules name = none → e.fresh name ∉ y.used ∧ nsOf (e.fresh name) = name)
      (hs : ∀ v now, e.watch name = .watching (some (v, now)) → Stored o kv name v) :
      DStep o W cfg env past nsOf ⟨kv, y⟩
        ⟨kv, (addOne e y.ns name elem).2.foldl Sys.notify
          { y with ns := (addOne e y.ns name elem).1, used := target e y.ns name :: y.used, phase := .adding inc todo }⟩
  | ruleset (kv : BKV) (y : Sys) (src : Nat) (v : RuleSet) (now : Int) (hu : src ∈ y.used) (hs : Stored o kv (nsOf src) v) :
      DStep o W cfg env past nsOf ⟨kv, y⟩
        ⟨kv, { y with ns := y.ns.put src ((y.ns.objs src).process past v now), pending := src :: y.pending }⟩
  | cache (kv : BKV) (y : Sys) (act : Cache.Act) (c : St) (hi : Internal act) (hs : y.cache.step cfg (y.world.answers (Matcher.answers env)) act = some c) :
      DStep o W cfg env past nsOf ⟨kv, y⟩ ⟨kv, { y with cache := c }⟩
  | addDone (kv : BKV) (y : Sys) (inc : List (Bytes × Namespace)) (todo : List (Bytes × Nat)) (hp : y.phase = .adding inc [])
      (ho : todo.Perm y.ns.rules) : DStep o W cfg env past nsOf ⟨kv, y⟩ ⟨kv, { y with phase := .removing inc todo }⟩
  | remove (kv : BKV) (y : Sys) (e : Env63) (inc : List (Bytes × Namespace)) (todo : List (Bytes × Nat)) (name : Bytes) (src : Nat)
      (he : e.past = past) (hp : y.phase = .removing inc ((name, src) :: todo)) :
      DStep o W cfg env past nsOf ⟨kv, y⟩
        ⟨kv, (removeOne e inc y.ns name src).2.foldl Sys.notify
          { y with ns := (removeOne e inc y.ns name src).1, phase := .removing inc todo }⟩
  | removeDone (kv : BKV) (y : Sys) (inc : List (Bytes × Namespace)) (hp : y.phase = .removing inc []) :
      DStep o W cfg env past nsOf ⟨kv, y⟩ ⟨kv, { y with phase := .idle }⟩
  | deliver (kv : BKV) (y : Sys) (src : Nat) (hp : src ∈ y.pending) :
      DStep o W cfg env past nsOf ⟨kv, y⟩ ⟨kv, { y with cache := y.cache.refresh (nsOf src) src, pending := y.pending.erase src }⟩
  | close (kv : BKV) (y : Sys) : DStep o W cfg env past nsOf ⟨kv, y⟩ ⟨kv, { y with ns := y.ns.close }⟩

/-- A new matcher, and a store under whose keys nothing was set. -/
inductive DReach (o : Options) (W : RuleSet → Prop) (cfg : Config) (env : Env) (past : Int) (nsOf : Nat → Bytes) : Dep → Prop
  | init (h : Heap) (objs : Nat → RS) : DReach o W cfg env past nsOf ⟨fun _ => [], ⟨newCache h, ⟨[], objs⟩, [], [], .idle⟩⟩
  | step {d d'} : DReach o W cfg env past nsOf d → DStep o W cfg env past nsOf d d' → DReach o W cfg env past nsOf d'

variable {o : Options} {W : RuleSet → Prop} {cfg : Config} {env : Env} {past : Int} {nsOf : Nat → Bytes}

/-- The matcher's part of a run is a run of the matcher. -/
theorem DReach.matcher {d : Dep} (h : DReach o W cfg env past nsOf d) : SReach cfg env past nsOf d.sys := by
  induction h with
  | init hp objs => exact .init hp objs
  | step _ hs ih =>
    cases hs with
    | call kv y c hc hw => exact ih
    | update kv y nss todo hp ho hs => exact .step ih (.update y nss.namespaces todo hp ho)
    | add kv y e inc todo name elem he hp hf hs => exact .step ih (.add y e inc todo name elem he hp hf)
    | ruleset kv y src v now hu hs => exact .step ih (.ruleset y src v now hu)
    | cache kv y act c hi hs => exact .step ih (.cache y act c hi hs)
    | addDone kv y inc todo hp ho => exact .step ih (.addDone y inc todo hp ho)
    | remove kv y e inc todo name src he hp => exact .step ih (.remove y e inc todo name src he hp)
    | removeDone kv y inc hp => exact .step ih (.removeDone y inc hp)
    | deliver kv y src hp => exact .step ih (.deliver y src hp)
    | close kv y => exact .step ih (.close y)

/-! ### The key-value store -/

/-- Every rule set stored passed the validator, was stored under its key, and was written on top of the previous version. -/
structure KVInv (o : Options) (W : RuleSet → Prop) (kv : KV) : Prop where
  good : Good o kv
  vetted : ∀ (k : Bytes) (i : Nat) (p : PBRuleSet), (kv k)[i]? = some (.ruleSet p) → ∃ rs, W rs ∧ Passes o rs ∧ rs.proto o.x = some p ∧ rs.version = i ∧ k = o.ruleSetKey rs.namespace_

theorem getElem?_snoc {α : Type} {l : List α} {a b : α} {i : Nat} (h : (l ++ [a])[i]? = some b) : l[i]? = some b ∨ (i = l.length ∧ b = a) := by
  rcases Nat.lt_trichotomy i l.length with hi | hi | hi
  · rw [List.getElem?_append_left hi] at h; exact Or.inl h
  · subst hi
    rw [List.getElem?_append_right (Nat.le_refl _), Nat.sub_self, List.getElem?_cons_zero] at h
    exact Or.inr ⟨rfl, (Option.some.inj h).symm⟩
  · rw [List.getElem?_eq_none (by simp; omega)] at h; cases h

theorem KVInv.call {kv : KV} (hk : KeysOK o) (h : KVInv o W kv) (c : Call) (hc : c.Sane o.x) (hw' : Writes W c) : KVInv o W (Store.call o kv c).1 := by
  refine ⟨good_call h.good hk.apart c hc, ?_⟩
  cases c with
  | readNamespaces => exact h.vetted
  | readRuleSet name => exact h.vetted
  | writeRuleSet rs =>
    obtain ⟨h1, _, h3, h4⟩ := C56_write o kv rs
    show ∀ k i p, ((writeRuleSet o kv rs).1 k)[i]? = _ → _
    by_cases hw : (writeRuleSet o kv rs).2 = .ok
    · obtain ⟨p, hp, e⟩ := h3 hw
      obtain ⟨hv, _, hn⟩ := h1.mp hw
      intro k i p' hi
      rw [e] at hi
      simp only at hi
      split at hi
      · next hk' =>
        rcases getElem?_snoc hi with hi | ⟨hi', hb⟩
        · rw [hk']; exact h.vetted _ i p' hi
        · cases hb
          exact ⟨rs, hw', hv, hp, by rw [hn, hi'], hk'⟩
      · exact h.vetted _ i p' hi
    · rw [h4 hw]; exact h.vetted
  | writeAll nss rs =>
    obtain ⟨h1, _, h3, h4⟩ := C56_write_all hk kv nss rs
    show ∀ k i p, ((writeAll o kv nss rs).1 k)[i]? = _ → _
    by_cases hw : (writeAll o kv nss rs).2 = .ok
    · obtain ⟨p, q, hp, _, e⟩ := h3 hw
      obtain ⟨hv, _, _, hn, _⟩ := h1.mp hw
      intro k i p' hi
      rw [e] at hi
      simp only at hi
      split at hi
      · next hk' =>
        rcases getElem?_snoc hi with hi | ⟨hi', hb⟩
        · exact h.vetted _ i p' hi
        · cases hb
      · split at hi
        · next hk' =>
          rcases getElem?_snoc hi with hi | ⟨hi', hb⟩
          · exact h.vetted _ i p' hi
          · cases hb
            exact ⟨rs, hw', hv, hp, by rw [hn, hi', hk'], hk'⟩
        · exact h.vetted _ i p' hi
    · rw [h4 hw]; exact h.vetted

/-- A call only adds values. -/
theorem call_grows (kv : KV) (hk : KeysOK o) (c : Call) (k : Bytes) : kv k <+: (Store.call o kv c).1 k := by
  cases c with
  | readNamespaces => exact List.prefix_refl _
  | readRuleSet name => exact List.prefix_refl _
  | writeRuleSet rs =>
    obtain ⟨_, _, h3, h4⟩ := C56_write o kv rs
    show kv k <+: (writeRuleSet o kv rs).1 k
    by_cases hw : (writeRuleSet o kv rs).2 = .ok
    · obtain ⟨p, _, e⟩ := h3 hw
      rw [e]
      simp only
      split
      · next hk' => rw [hk']; exact List.prefix_append _ _
      · exact List.prefix_refl _
    · rw [h4 hw]; exact List.prefix_refl _
  | writeAll nss rs =>
    obtain ⟨_, _, h3, h4⟩ := C56_write_all hk kv nss rs
    show kv k <+: (writeAll o kv nss rs).1 k
    by_cases hw : (writeAll o kv nss rs).2 = .ok
    · obtain ⟨p, q, _, _, e⟩ := h3 hw
      rw [e]
      simp only
      split
      · exact List.prefix_append _ _
      · split
        · exact List.prefix_append _ _
        · exact List.prefix_refl _
    · rw [h4 hw]; exact List.prefix_refl _

theorem prefix_getElem? {α : Type} {l l' : List α} (h : l <+: l') {i : Nat} {a : α} (ha : l[i]? = some a) : l'[i]? = some a := by
  obtain ⟨t, rfl⟩ := h
  have : i < l.length := (List.getElem?_eq_some_iff.mp ha).1
  rw [List.getElem?_append_left this]; exact ha

/-! ### The matcher -/

/-- The rules of a ruleset are none, or a value that was stored under the key of its namespace. -/
def Rules (o : Options) (kv : BKV) (past : Int) (name : Bytes) (r : RS) : Prop :=
  (r.matcher = none ∧ r.version = 0) ∨
  ∃ v now, Stored o kv name v ∧ r.matcher = some (RuleSet.activeSet v (now - past)) ∧ r.version = v.version

def Known (o : Options) (kv : BKV) (name : Bytes) : Prop := ∃ nss, StoredNames o kv nss ∧ ∃ n ∈ nss.namespaces, n.name = name

structure DInv (o : Options) (W : RuleSet → Prop) (past : Int) (nsOf : Nat → Bytes) (d : Dep) : Prop where
  kv : ∃ kv, d.kv = KV.bytes kv ∧ KVInv o W kv
  rules : ∀ src ∈ d.sys.used, Rules o d.kv past (nsOf src) (d.sys.ns.objs src)
  known : ∀ name src, mget d.sys.ns.rules name = some src → Known o d.kv name
  todo : ∀ inc todo, d.sys.phase = .adding inc todo → ∀ x ∈ todo, Known o d.kv x.1

theorem foldl_notify_ns (l : List Event) (y : Sys) : (l.foldl Sys.notify y).ns = y.ns ∧ (l.foldl Sys.notify y).used = y.used ∧
    (l.foldl Sys.notify y).phase = y.phase := by
  induction l generalizing y with
  | nil => exact ⟨rfl, rfl, rfl⟩
  | cons e l ih =>
    obtain ⟨a, b, c⟩ := ih (y.notify e)
    simp only [List.foldl_cons]
    rw [a, b, c]
    cases e <;> exact ⟨rfl, rfl, rfl⟩

theorem watchOrNot_rules {kv : BKV} {name : Bytes} {r : RS} (e : Env63) (elem : Namespace)
    (hs : ∀ v now, e.watch name = .watching (some (v, now)) → Stored o kv name v) (h : Rules o kv e.past name r) :
    Rules o kv e.past name (watchOrNot e elem name r).1 := by
  unfold watchOrNot RS.watch RS.unwatch
  split
  · exact h
  · split
    · exact h
    · cases hw : e.watch name with
      | failed => exact h
      | watching f =>
        cases f with
        | none => exact h
        | some v => exact Or.inr ⟨v.1, v.2, hs v.1 v.2 hw, rfl, rfl⟩

theorem incoming_mem {nss : List Namespace} : ∀ x ∈ incoming nss, ∃ n ∈ nss, n.name = x.1 := by
  have aux : ∀ (l : List Namespace) (m : List (Bytes × Namespace)), (∀ x ∈ m, ∃ n ∈ nss, n.name = x.1) → (∀ n ∈ l, n ∈ nss) →
      ∀ x ∈ l.foldl (fun m n => Cache.mset m n.name n) m, ∃ n ∈ nss, n.name = x.1 := by
    intro l
    induction l with
    | nil => intro m hm _ x hx; exact hm x hx
    | cons n l ih =>
      intro m hm hl
      refine ih _ ?_ fun n' h => hl n' (List.mem_cons_of_mem _ h)
      intro x hx
      unfold Cache.mset at hx
      rcases List.mem_append.mp hx with hx | hx
      · exact hm x ((List.mem_filter.mp hx).1)
      · simp only [List.mem_singleton] at hx
        subst hx
        exact ⟨n, hl n (by simp), rfl⟩
  exact aux nss [] (by simp) (fun n h => h)

theorem mget_mem' {m : List (Bytes × Nat)} {ns name : Bytes} {src : Nat} (h : mget (mdel m name) ns = some src) : mget m ns = some src := by
  rw [Cache.mget_mdel] at h
  split at h
  · cases h
  · exact h

theorem DInv.step (hcap : 0 ≤ cfg.capacity) (hk : KeysOK o) {d d' : Dep} (hr : DReach o W cfg env past nsOf d) (h : DInv o W past nsOf d)
    (hs : DStep o W cfg env past nsOf d d') : DInv o W past nsOf d' := by
  have hi := hr.matcher.inv hcap
  obtain ⟨⟨kvm, hkv, hv⟩, hrules, hknown, htodo⟩ := h
  cases hs with
  | call kv y c hc hw =>
    simp only at hkv hrules hknown htodo
    have e : (callB o kv c).1 = (Store.call o kvm c).1.bytes := by rw [hkv, bytes_call hv.good]
    have grows : ∀ (k : Bytes) (i : Nat) (b : Bytes), (kv k)[i]? = some b → ((callB o kv c).1 k)[i]? = some b := by
      intro k i b hb
      rw [e]
      rw [hkv] at hb
      unfold KV.bytes at hb ⊢
      exact prefix_getElem? (List.IsPrefix.map _ (call_grows kvm hk c k)) hb
    have hst : ∀ name v, Stored o kv name v → Stored o (callB o kv c).1 name v := fun name v ⟨n, b, hb, hv⟩ => ⟨n, b, grows _ _ _ hb, hv⟩
    have hkn : ∀ name, Known o kv name → Known o (callB o kv c).1 name :=
      fun name ⟨nss, ⟨n, b, hb, hv⟩, hn⟩ => ⟨nss, ⟨n, b, grows _ _ _ hb, hv⟩, hn⟩
    refine ⟨⟨_, e, hv.call hk c hc hw⟩, ?_, fun name src hm => hkn _ (hknown name src hm), fun inc todo hp x hx => hkn _ (htodo inc todo hp x hx)⟩
    intro src hm
    rcases hrules src hm with h1 | ⟨v, now, h1, h2⟩
    · exact Or.inl h1
    · exact Or.inr ⟨v, now, hst _ _ h1, h2⟩
  | update kv y nss todo hp ho hs =>
    refine ⟨⟨kvm, hkv, hv⟩, hrules, hknown, ?_⟩
    intro inc todo' hp' x hx
    simp only [Phase.adding.injEq] at hp'
    obtain ⟨_, rfl⟩ := hp'
    obtain ⟨n, hn, e⟩ := incoming_mem x (ho.mem_iff.mp hx)
    exact ⟨nss, hs, n, hn, e⟩
  | add kv y e inc todo name elem he hp hf hs =>
    subst he
    obtain ⟨n1, n2, n3⟩ := foldl_notify_ns (addOne e y.ns name elem).2
      { y with ns := (addOne e y.ns name elem).1, used := target e y.ns name :: y.used, phase := .adding inc todo }
    refine ⟨⟨kvm, hkv, hv⟩, ?_, ?_, ?_⟩
    · simp only
      rw [n1, n2]
      intro src hm
      simp only at hm ⊢
      rw [addOne_objs]
      have hname : nsOf (target e y.ns name) = name := by
        unfold target
        cases h0 : mget y.ns.rules name with
        | none => exact (hf h0).2
        | some s0 => exact (hi.owner name s0 h0).2
      split
      · next heq =>
        rw [heq, hname]
        refine watchOrNot_rules e elem hs ?_
        unfold before NsSt.ruleset
        cases h0 : mget y.ns.rules name with
        | none => exact Or.inl ⟨rfl, rfl⟩
        | some s0 =>
          have := hrules s0 (hi.owner name s0 h0).1
          rw [(hi.owner name s0 h0).2] at this
          exact this
      · next hne =>
        rcases List.mem_cons.mp hm with hm | hm
        · exact absurd hm hne
        · exact hrules src hm
    · simp only
      rw [n1]
      intro ns src hm
      rw [addOne_mget] at hm
      split at hm
      · next e' =>
        rw [e']
        exact htodo inc _ hp (name, elem) (by simp)
      · exact hknown ns src hm
    · simp only
      rw [n3]
      intro inc' todo' hp' x hx
      simp only [Phase.adding.injEq] at hp'
      obtain ⟨_, rfl⟩ := hp'
      exact htodo inc _ hp x (by simp [hx])
  | ruleset kv y src v now hu hs =>
    refine ⟨⟨kvm, hkv, hv⟩, ?_, hknown, htodo⟩
    intro src' hm
    simp only [NsSt.put] at hm ⊢
    split
    · next e => subst e; exact Or.inr ⟨v, now, hs, rfl, rfl⟩
    · exact hrules src' hm
  | cache kv y act c hi hs => exact ⟨⟨kvm, hkv, hv⟩, hrules, hknown, htodo⟩
  | addDone kv y inc todo hp ho => exact ⟨⟨kvm, hkv, hv⟩, hrules, hknown, by intro _ _ h; cases h⟩
  | remove kv y e inc todo name src he hp =>
    obtain ⟨n1, n2, n3⟩ := foldl_notify_ns (removeOne e inc y.ns name src).2
      { y with ns := (removeOne e inc y.ns name src).1, phase := .removing inc todo }
    refine ⟨⟨kvm, hkv, hv⟩, ?_, ?_, ?_⟩
    · simp only
      rw [n1, n2]
      intro src' hm
      simp only at hm ⊢
      rcases removeOne_eq e inc y.ns name src with ⟨_, _, e'⟩ | ⟨_, e'⟩
      · rw [e']
        simp only [NsSt.put]
        split
        · next e'' => subst e''; exact hrules _ hm
        · exact hrules _ hm
      · rw [e']; exact hrules _ hm
    · simp only
      rw [n1]
      intro ns src' hm
      rcases removeOne_eq e inc y.ns name src with ⟨_, _, e'⟩ | ⟨_, e'⟩
      · simp only [e'] at hm
        exact hknown ns src' (mget_mem' hm)
      · simp only [e'] at hm
        exact hknown ns src' hm
    · simp only
      rw [n3]
      intro _ _ h; cases h
  | removeDone kv y inc hp => exact ⟨⟨kvm, hkv, hv⟩, hrules, hknown, by intro _ _ h; cases h⟩
  | deliver kv y src hp => exact ⟨⟨kvm, hkv, hv⟩, hrules, hknown, htodo⟩
  | close kv y =>
    refine ⟨⟨kvm, hkv, hv⟩, ?_, hknown, htodo⟩
    intro src hm
    have := hrules src hm
    simp only [NsSt.close]
    split
    · exact this
    · exact this

theorem DReach.inv (hcap : 0 ≤ cfg.capacity) (hk : KeysOK o) {d : Dep} (h : DReach o W cfg env past nsOf d) : DInv o W past nsOf d := by
  induction h with
  | init hp objs =>
    refine ⟨⟨fun _ => [], rfl, ⟨by simp, by simp⟩, by simp⟩, by simp, ?_, ?_⟩
    · intro name src h; simp [mget] at h
    · intro inc todo h; cases h
  | step hr hs ih => exact ih.step hcap hk hr hs

/-- What is under the keys can be read: no call panics on it. -/
theorem stored_value (hcap : 0 ≤ cfg.capacity) (hk : KeysOK o) {d : Dep} (h : DReach o W cfg env past nsOf d) {name : Bytes} {n : Nat} {b : Bytes}
    (hb : (d.kv (o.ruleSetKey name))[n]? = some b) : ∃ rs p, W rs ∧ Passes o rs ∧ rs.proto o.x = some p ∧ rs.version = n ∧ rs.namespace_ = name ∧
      ∀ version, toRuleSet o version b = .ok (newRuleSetFromProto o.x o.filterKey version (some p)) := by
  obtain ⟨kvm, hkv, hv⟩ := (h.inv hcap hk).kv
  rw [hkv] at hb
  unfold KV.bytes at hb
  rw [List.getElem?_map] at hb
  obtain ⟨v, hv', rfl⟩ := Option.map_eq_some_iff.mp hb
  obtain ⟨p, rfl, hu⟩ := hv.good.ruleSets name v (List.mem_of_getElem? hv')
  obtain ⟨rs, h0, h1, h2, h3, h4⟩ := hv.vetted _ _ p hv'
  refine ⟨rs, p, h0, h1, h2, h3, (hk.inj _ _ h4).symm, fun version => ?_⟩
  unfold toRuleSet
  rw [hu]

theorem toRuleSet_version {version : Int} {b : Bytes} {v : RuleSet} (h : toRuleSet o version b = .ok (some v)) : v.version = version := by
  unfold toRuleSet at h
  split at h
  · cases h
  · cases h
  · exact (loaded_fields (Out.ok.inj h)).1

/-- **C87.** Whatever clients write, and however their writes, the watches, the announcements and the lookups interleave, a lookup
that is answered is answered from rules that were stored: for a namespace that the matcher does not have, or of which it has not read
rules, by default; otherwise by the rules of one version stored under the key of that namespace - a rule set of that namespace, which
passed the validator and was written on top of the version before - as long as the ruleset has announced its last change. -/
theorem C87_answers (hcap : 0 ≤ cfg.capacity) (hk : KeysOK o) {d : Dep} (h : DReach o W cfg env past nsOf d)
    (tagValue : Bytes → Bytes → Option Bytes) (tag dflt id : Bytes) (t : Tick) (frm to : Int) (second : Bool) (c' : St) (res : MatchResult)
    (hg : d.sys.cache.tryGetWithLock cfg (d.sys.world.answers (Matcher.answers env)) t (namespaceOf tagValue tag dflt id) id frm to second = (c', res, true)) :
    ∃ ns, (tagValue id tag = some ns ∨ tagValue id tag = none ∧ ns = dflt) ∧
      (mget d.sys.ns.rules ns = none → res = emptyMatchResult) ∧
      (∀ src, mget d.sys.ns.rules ns = some src → src ∉ d.sys.pending →
        (d.sys.ns.version ns = 0 ∧ res = emptyMatchResult) ∨
        ∃ (n : Nat) (b : Bytes) (v rs : RuleSet) (p : PBRuleSet) (now f u : Int), d.sys.ns.version ns = n + 1 ∧ (d.kv (o.ruleSetKey ns))[n]? = some b ∧
          toRuleSet o (n + 1) b = .ok (some v) ∧ v.namespace_ = ns ∧
          W rs ∧ Passes o rs ∧ rs.version = n ∧ rs.proto o.x = some p ∧ newRuleSetFromProto o.x o.filterKey (n + 1) (some p) = some v ∧
          res = Active.forwardMatch env (RuleSet.activeSet v (now - past)) id f u ∧ ((f = frm ∧ u = to) ∨ to < res.expireAtNanos)) := by
  obtain ⟨ns, h1, h2, h3⟩ := C70_match cfg hcap env past nsOf d.sys h.matcher tagValue tag dflt id t frm to second c' res hg
  refine ⟨ns, h1, h2, ?_⟩
  intro src hs hp
  obtain ⟨h4, h5⟩ := h3 src hs hp
  obtain ⟨hu, hns⟩ := (h.matcher.inv hcap).owner ns src hs
  have hver : d.sys.ns.version ns = (d.sys.ns.objs src).version := by unfold NsSt.version; rw [hs]
  rcases (h.inv hcap hk).rules src hu with ⟨hm, hv⟩ | ⟨v, now, ⟨n, b, hb, hl⟩, hm, hv⟩
  · exact Or.inl ⟨hver.trans hv, h4 hm⟩
  · right
    rw [hns] at hb
    obtain ⟨f, u, e, hfu⟩ := h5 _ hm
    obtain ⟨rs, p, k0, k1, k2, k3, k4, k5⟩ := stored_value hcap hk h hb
    have hl' := hl
    rw [k5] at hl'
    have hl' := Out.ok.inj hl'
    have hvn : v.namespace_ = ns := by rw [(loaded_fields hl').2.1, (proto_fields k2).1, k4]
    refine ⟨n, b, v, rs, p, now, f, u, ?_, hb, by simpa using hl, hvn, k0, k1, k3, k2, by simpa using hl', e, hfu⟩
    rw [hver, hv, toRuleSet_version hl]; simp

/-- **C87.** If the version of a namespace in the matcher is that in the store, then lookups are answered by the rules that a client
would read from the store. -/
theorem C87_current (hcap : 0 ≤ cfg.capacity) (hk : KeysOK o) {d : Dep} (h : DReach o W cfg env past nsOf d)
    (tagValue : Bytes → Bytes → Option Bytes) (tag dflt id : Bytes) (t : Tick) (frm to : Int) (second : Bool) (c' : St) (res : MatchResult)
    (hg : d.sys.cache.tryGetWithLock cfg (d.sys.world.answers (Matcher.answers env)) t (namespaceOf tagValue tag dflt id) id frm to second = (c', res, true)) :
    ∃ ns, (tagValue id tag = some ns ∨ tagValue id tag = none ∧ ns = dflt) ∧
      ∀ src, mget d.sys.ns.rules ns = some src → src ∉ d.sys.pending → d.sys.ns.version ns = d.kv.version (o.ruleSetKey ns) →
        (readRuleSetB o d.kv ns = .ok .notFound ∧ res = emptyMatchResult) ∨
        ∃ (v : RuleSet) (now f u : Int), readRuleSetB o d.kv ns = .ok (.ok v) ∧
          res = Active.forwardMatch env (RuleSet.activeSet v (now - past)) id f u ∧ ((f = frm ∧ u = to) ∨ to < res.expireAtNanos) := by
  obtain ⟨ns, h1, _, h3⟩ := C87_answers hcap hk h tagValue tag dflt id t frm to second c' res hg
  refine ⟨ns, h1, fun src hs hp hver => ?_⟩
  rcases h3 src hs hp with ⟨hv, hr⟩ | ⟨n, b, v, _, _, now, f, u, hv, hb, hl, _, _, _, _, _, _, e, hfu⟩
  · left
    refine ⟨?_, hr⟩
    rw [hver] at hv
    unfold BKV.version at hv
    exact (C79_missing o d.kv ns).1.mpr (List.length_eq_zero_iff.mp (by omega))
  · right
    refine ⟨v, now, f, u, ?_, e, hfu⟩
    rw [hver] at hv
    have hlen : (d.kv (o.ruleSetKey ns)).length = n + 1 := by unfold BKV.version at hv; omega
    unfold readRuleSetB
    rw [List.getLast?_eq_getElem?, hlen, Nat.add_sub_cancel, hb]
    unfold toRuleSet at hl
    simp only
    rw [hv]
    split at hl
    · cases hl
    · cases hl
    · next p hp =>
      rw [hp]
      simp only
      rw [Out.ok.inj hl]

/-- **C87.** The matcher has rulesets only for namespaces that were stored under the namespaces key, reading what is stored never panics,
and a version it reports is one that was stored. -/
theorem C87_state (hcap : 0 ≤ cfg.capacity) (hk : KeysOK o) {d : Dep} (h : DReach o W cfg env past nsOf d) :
    (∀ ns src, mget d.sys.ns.rules ns = some src → ∃ (n : Nat) (b : Bytes) (nss : Namespaces), (d.kv o.namespacesKey)[n]? = some b ∧
      toNamespaces (n + 1) b = .ok (some nss) ∧ ∃ x ∈ nss.namespaces, x.name = ns) ∧
    (∀ ns src, mget d.sys.ns.rules ns = some src → 0 ≤ d.sys.ns.version ns ∧ d.sys.ns.version ns ≤ d.kv.version (o.ruleSetKey ns)) ∧
    (∀ ns, ∀ b ∈ d.kv (o.ruleSetKey ns), ∀ version, toRuleSet o version b ≠ .panic) ∧
    (∀ b ∈ d.kv o.namespacesKey, ∀ version, toNamespaces version b ≠ .panic) := by
  refine ⟨?_, ?_, ?_, ?_⟩
  · intro ns src hs
    obtain ⟨nss, ⟨n, b, hb, hl⟩, x, hx⟩ := (h.inv hcap hk).known ns src hs
    exact ⟨n, b, nss, hb, by simpa using hl, x, hx⟩
  · intro ns src hs
    obtain ⟨hu, hns⟩ := (h.matcher.inv hcap).owner ns src hs
    have hver : d.sys.ns.version ns = (d.sys.ns.objs src).version := by unfold NsSt.version; rw [hs]
    unfold BKV.version
    rcases (h.inv hcap hk).rules src hu with ⟨hm, hv⟩ | ⟨v, now, ⟨n, b, hb, hl⟩, hm, hv⟩
    · rw [hver, hv]; omega
    · have := (List.getElem?_eq_some_iff.mp hb).1
      rw [hver, hv, toRuleSet_version hl]
      rw [hns] at this
      omega
  · intro ns b hb version
    obtain ⟨n, hn⟩ := List.mem_iff_getElem?.mp hb
    obtain ⟨_, _, _, _, _, _, _, e⟩ := stored_value hcap hk h hn
    rw [e]; simp
  · intro b hb version
    obtain ⟨kvm, hkv, hv⟩ := (h.inv hcap hk).kv
    rw [hkv] at hb
    obtain ⟨v, hv', rfl⟩ := List.mem_map.mp hb
    obtain ⟨p, rfl, hu⟩ := hv.good.namespaces v hv'
    unfold toNamespaces
    rw [hu]; simp

/-- Several steps. -/
inductive DSteps (o : Options) (W : RuleSet → Prop) (cfg : Config) (env : Env) (past : Int) (nsOf : Nat → Bytes) : Dep → Dep → Prop
  | refl (d : Dep) : DSteps o W cfg env past nsOf d d
  | tail {d d' d''} : DSteps o W cfg env past nsOf d d' → DStep o W cfg env past nsOf d' d'' → DSteps o W cfg env past nsOf d d''

theorem DSteps.head {a b c : Dep} (hab : DStep o W cfg env past nsOf a b) (hbc : DSteps o W cfg env past nsOf b c) : DSteps o W cfg env past nsOf a c := by
  induction hbc with
  | refl => exact .tail (.refl _) hab
  | tail _ hs ih => exact .tail ih hs

theorem deliver_all (src : Nat) : ∀ (n : Nat) (kv : BKV) (y : Sys), y.pending.count src = n →
    ∃ y', DSteps o W cfg env past nsOf ⟨kv, y⟩ ⟨kv, y'⟩ ∧ y'.ns = y.ns ∧ src ∉ y'.pending := by
  intro n
  induction n with
  | zero => intro kv y h; exact ⟨y, .refl _, rfl, List.count_eq_zero.mp h⟩
  | succ n ih =>
    intro kv y h
    have hm : src ∈ y.pending := List.count_pos_iff.mp (by omega)
    obtain ⟨y', h1, h2, h3⟩ := ih kv { y with cache := y.cache.refresh (nsOf src) src, pending := y.pending.erase src } (by
      simp only [List.count_erase_self]; omega)
    refine ⟨y', ?_, h2, h3⟩
    exact DSteps.head (.deliver kv y src hm) h1

/-- **C87.** The matcher can always catch up: whatever happened, if the rule set in the store can be read, giving it to the ruleset of
its namespace and announcing it leads to a state in which the hypotheses of `C87_current` hold, without the store being touched. -/
theorem C87_catches_up (hcap : 0 ≤ cfg.capacity) {d : Dep} (h : DReach o W cfg env past nsOf d) {ns : Bytes} {src : Nat} {v : RuleSet}
    (hs : mget d.sys.ns.rules ns = some src) (hv : readRuleSetB o d.kv ns = .ok (.ok v)) (now : Int) :
    ∃ d', DSteps o W cfg env past nsOf d d' ∧ d'.kv = d.kv ∧ mget d'.sys.ns.rules ns = some src ∧ src ∉ d'.sys.pending ∧
      d'.sys.ns.version ns = d.kv.version (o.ruleSetKey ns) ∧ d'.sys.ns.version ns ≠ 0 := by
  obtain ⟨hu, hns⟩ := (h.matcher.inv hcap).owner ns src hs
  obtain ⟨kv, y⟩ := d
  simp only at hs hv hu hns ⊢
  unfold readRuleSetB at hv
  split at hv
  · cases hv
  · next b hb =>
    have hne : kv (o.ruleSetKey ns) ≠ [] := by intro e; rw [e] at hb; cases hb
    have hpos : 0 < (kv (o.ruleSetKey ns)).length := List.length_pos_iff.mpr hne
    have hcast : (((kv (o.ruleSetKey ns)).length - 1 + 1 : Nat) : Int) = kv.version (o.ruleSetKey ns) := by unfold BKV.version; omega
    split at hv
    · cases hv
    · cases hv
    · next p hp =>
      split at hv
      · cases hv
      · next rs hrs =>
        have hst : Stored o kv (nsOf src) rs := by
          rw [hns]
          refine ⟨(kv (o.ruleSetKey ns)).length - 1, b, by rw [← List.getLast?_eq_getElem?]; exact hb, ?_⟩
          unfold toRuleSet
          rw [hcast, hp]
          simp only
          rw [hrs]
        obtain ⟨y', h1, h2, h3⟩ := deliver_all (o := o) (W := W) (cfg := cfg) (env := env) (past := past) (nsOf := nsOf) src _ kv
          { y with ns := y.ns.put src ((y.ns.objs src).process past rs now), pending := src :: y.pending } rfl
        have hver : y'.ns.version ns = kv.version (o.ruleSetKey ns) := by
          unfold NsSt.version
          rw [h2]
          simp only [NsSt.put, hs, if_true, RS.process]
          exact (loaded_fields hrs).1
        refine ⟨⟨kv, y'⟩, DSteps.head (.ruleset kv y src rs now hu hst) h1, rfl, ?_, h3, hver, ?_⟩
        · simp only [h2, NsSt.put]; exact hs
        · simp only [hver]; unfold BKV.version; omega

/-! ### A run

A client stores a rule set and the namespaces; the matcher reads both, and its ruleset announces the rules. -/

def exList : Namespaces := ⟨0, [⟨bs "ns", some [⟨1, false, 7, bs "u"⟩]⟩]⟩
/-- The only rule set that clients write. -/
def exWritten (rs : RuleSet) : Prop := rs = { exRead with version := 0 }
def exCall : Call := .writeAll exList { exRead with version := 0 }
def exKV : BKV := (callB exStoreOpts (fun _ => []) exCall).1
def exLoadedNames : Namespaces := match (exKV exStoreOpts.namespacesKey).map (toNamespaces 1) with
  | [.ok (some nss)] => nss
  | _ => ⟨0, []⟩
def exLoaded : RuleSet := match (exKV (exStoreOpts.ruleSetKey (bs "ns"))).map (toRuleSet exStoreOpts 1) with
  | [.ok (some rs)] => rs
  | _ => exRead
def exNsName : Nat → Bytes := fun _ => bs "ns"
def exAll : Env := { exMEnv with filterMatches := fun _ _ => true }
def exWatch : Env63 := { exEnv63 12 with watch := fun _ => .watching (some (exLoaded, 12)) }
def exElem : Namespace := ⟨bs "ns", some [⟨1, false, 7, bs "u"⟩]⟩
def exDep1 : Dep := ⟨exKV, exInit⟩
def exDep2 : Dep := ⟨exKV, { exInit with phase := .adding (incoming exLoadedNames.namespaces) [(bs "ns", exElem)] }⟩
def exDep3 : Dep := ⟨exKV, (addOne exWatch exDep2.sys.ns (bs "ns") exElem).2.foldl Sys.notify
  { exDep2.sys with ns := (addOne exWatch exDep2.sys.ns (bs "ns") exElem).1, used := target exWatch exDep2.sys.ns (bs "ns") :: exDep2.sys.used, phase := .adding (incoming exLoadedNames.namespaces) [] }⟩
def exDep4 : Dep := ⟨exKV, { exDep3.sys with cache := exDep3.sys.cache.refresh (bs "ns") (exFresh (bs "ns")), pending := exDep3.sys.pending.erase (exFresh (bs "ns")) }⟩

theorem exKeys : KeysOK exStoreOpts := ⟨exOpts_ok.1, exOpts_ok.2⟩

theorem exCall_sane : exCall.Sane exStoreOpts.x := by
  refine ⟨⟨by unfold Spec.StoredRules.NamespacesInRange; decide +kernel, fun pb h => ?_⟩,
    ⟨exRead_inRange.1, exRead_inRange.2, exRead_inRange.3, exRead_inRange.4, exRead_inRange.5⟩, exRead_sane.2⟩
  have e : (exList.proto.map fun pb => decide ((namespacesMsg.marshal pb).length < 100)) = some true := by decide +kernel
  rw [h] at e
  have e : (namespacesMsg.marshal pb).length < 100 := by simpa using e
  omega

theorem exNames_stored : StoredNames exStoreOpts exKV exLoadedNames := by
  have hl : (exKV exStoreOpts.namespacesKey).length = 1 := by decide +kernel
  have hm : (match (exKV exStoreOpts.namespacesKey).map (toNamespaces 1) with | [.ok (some _)] => true | _ => false) = true := by decide +kernel
  obtain ⟨b, hb⟩ := List.length_eq_one_iff.mp hl
  unfold exLoadedNames
  rw [hb] at hm ⊢
  refine ⟨0, b, by rw [hb]; rfl, ?_⟩
  simp only [List.map_cons, List.map_nil] at hm ⊢
  show toNamespaces 1 b = _
  split at hm
  · next h =>
    simp only [List.cons.injEq, and_true] at h
    simp only [h]
  · cases hm

theorem exLoaded_stored : Stored exStoreOpts exKV (bs "ns") exLoaded := by
  have hl : (exKV (exStoreOpts.ruleSetKey (bs "ns"))).length = 1 := by decide +kernel
  have hm : (match (exKV (exStoreOpts.ruleSetKey (bs "ns"))).map (toRuleSet exStoreOpts 1) with | [.ok (some _)] => true | _ => false) = true := by
    decide +kernel
  obtain ⟨b, hb⟩ := List.length_eq_one_iff.mp hl
  unfold exLoaded
  rw [hb] at hm ⊢
  refine ⟨0, b, by rw [hb]; rfl, ?_⟩
  simp only [List.map_cons, List.map_nil] at hm ⊢
  show toRuleSet exStoreOpts 1 b = _
  split at hm
  · next h =>
    simp only [List.cons.injEq, and_true] at h
    simp only [h]
  · cases hm

theorem exDep4_reach : DReach exStoreOpts exWritten Cache.exCfg exAll 5 exNsName exDep4 := by
  have h0 : DReach exStoreOpts exWritten Cache.exCfg exAll 5 exNsName ⟨fun _ => [], exInit⟩ := .init _ _
  have h1 : DReach exStoreOpts exWritten Cache.exCfg exAll 5 exNsName exDep1 := .step h0 (.call _ exInit exCall exCall_sane rfl)
  have h2 : DReach exStoreOpts exWritten Cache.exCfg exAll 5 exNsName exDep2 :=
    .step h1 (.update exKV exInit exLoadedNames [(bs "ns", exElem)] rfl (by
      rw [show incoming exLoadedNames.namespaces = [(bs "ns", exElem)] from by decide +kernel]) exNames_stored)
  have h3 : DReach exStoreOpts exWritten Cache.exCfg exAll 5 exNsName exDep3 :=
    .step h2 (.add exKV exDep2.sys exWatch (incoming exLoadedNames.namespaces) [] (bs "ns") exElem rfl rfl
      (fun _ => ⟨by simp [exDep2, exInit], rfl⟩) (fun v now h => by
        simp only [exWatch, WatchOutcome.watching.injEq, Option.some.injEq, Prod.mk.injEq] at h
        rw [← h.1]; exact exLoaded_stored))
  exact .step h3 (.deliver exKV exDep3.sys (exFresh (bs "ns")) (by decide +kernel))

/-- The hypotheses of the theorems hold; a lookup in the namespace is answered by version 1 of the rules, with the pipelines of the mapping
rule in force at the time of the lookup, and one elsewhere by default. -/
example : (0 ≤ Cache.exCfg.capacity) ∧ mget exDep4.sys.ns.rules (bs "ns") = some (exFresh (bs "ns")) ∧ exDep4.sys.pending = [] ∧
    exDep4.sys.ns.version (bs "ns") = exDep4.kv.version (exStoreOpts.ruleSetKey (bs "ns")) ∧
    (let r := exDep4.sys.cache.tryGetWithLock Cache.exCfg (exDep4.sys.world.answers (Matcher.answers exAll)) Cache.exTick
      (namespaceOf m3TagValue (bs "n") (bs "d") (bs "m3+x+n=ns")) (bs "m3+x+n=ns") 6 7 true
     (r.2.1.version, (r.2.1.forExistingID.map fun s => s.pipelines.map fun p => p.storagePolicies.length), r.2.2) = (1, [[1, 1]], true)) ∧
    (let r := exDep4.sys.cache.tryGetWithLock Cache.exCfg (exDep4.sys.world.answers (Matcher.answers exAll)) Cache.exTick
      (namespaceOf m3TagValue (bs "n") (bs "d") (bs "m3+x+n=other")) (bs "m3+x+n=other") 6 7 true
     (r.2.1.version, r.2.2) = (0, true)) := by decide +kernel

/-- And of `C87_catches_up`. -/
example : (match readRuleSetB exStoreOpts exDep4.kv (bs "ns") with | .ok (.ok v) => v.version == 1 | _ => false) = true := by decide +kernel

end Verif.Deploy
