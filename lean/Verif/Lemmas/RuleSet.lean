import Verif.Model.RuleSet
import Verif.Props.ReverseMatch
/- Growth of rule lists under edits. -/
namespace Verif.RuleSet
open Verif.Agg Verif.Policy Verif.Meta Verif.Rules Verif.Active Verif.Spec.Rules

variable {S : Type} [Snap S] {D : Type}

/-- Two lists of the same length, related place by place. -/
inductive All2 {α β : Type} (R : α → β → Prop) : List α → List β → Prop
  | nil : All2 R [] []
  | cons {a b l m} : R a b → All2 R l m → All2 R (a :: l) (b :: m)

theorem All2.imp {α β : Type} {R Q : α → β → Prop} (h : ∀ a b, R a b → Q a b) {l : List α} {m : List β} (hr : All2 R l m) :
    All2 Q l m := by
  induction hr with
  | nil => exact .nil
  | cons hab _ ih => exact .cons (h _ _ hab) ih

/-- The later state of a rule: same identifier, the history continued by snapshots with property `P`. -/
def Extends (P : S → Prop) (r r' : Rule S) : Prop :=
  r'.uuid = r.uuid ∧ ∃ ex, r'.snapshots = r.snapshots ++ ex ∧ ∀ s ∈ ex, P s

/-- The later state of a list of rules: every rule in its place with its history continued, then new rules, all new
snapshots with property `P`. -/
def Grows (P : S → Prop) (old new : List (Rule S)) : Prop :=
  ∃ kept added, new = kept ++ added ∧ All2 (Extends P) old kept ∧ ∀ r ∈ added, ∀ s ∈ r.snapshots, P s

omit [Snap S] in
theorem Extends.refl (P : S → Prop) (r : Rule S) : Extends P r r := ⟨rfl, [], by simp, by simp⟩

omit [Snap S] in
theorem Extends.trans {P : S → Prop} {a b c : Rule S} (h : Extends P a b) (h' : Extends P b c) : Extends P a c := by
  obtain ⟨h1, e1, h2, h3⟩ := h
  obtain ⟨k1, e2, k2, k3⟩ := h'
  refine ⟨k1.trans h1, e1 ++ e2, by rw [k2, h2, List.append_assoc], ?_⟩
  intro s hs
  rcases List.mem_append.mp hs with h | h
  · exact h3 s h
  · exact k3 s h

omit [Snap S] in
theorem all2_refl {α : Type} {R : α → α → Prop} (h : ∀ a, R a a) : ∀ l : List α, All2 R l l
  | [] => .nil
  | a :: l => .cons (h a) (all2_refl h l)

omit [Snap S] in
theorem all2_trans {α : Type} {R : α → α → Prop} (h : ∀ a b c, R a b → R b c → R a c) :
    ∀ {l₁ l₂ l₃ : List α}, All2 R l₁ l₂ → All2 R l₂ l₃ → All2 R l₁ l₃
  | _, _, _, .nil, .nil => .nil
  | _, _, _, .cons a as, .cons b bs => .cons (h _ _ _ a b) (all2_trans h as bs)

omit [Snap S] in
theorem Grows.refl (P : S → Prop) (l : List (Rule S)) : Grows P l l :=
  ⟨l, [], by simp, all2_refl (Extends.refl P) l, by simp⟩

omit [Snap S] in
theorem all2_append_left {α β : Type} {R : α → β → Prop} : ∀ {l₁ l₂ : List α} {m : List β},
    All2 R (l₁ ++ l₂) m → ∃ m₁ m₂, m = m₁ ++ m₂ ∧ All2 R l₁ m₁ ∧ All2 R l₂ m₂
  | [], _, m, h => ⟨[], m, rfl, .nil, h⟩
  | a :: l₁, _, _, .cons (b := b) hab h => by
    obtain ⟨m₁, m₂, rfl, h1, h2⟩ := all2_append_left h
    exact ⟨b :: m₁, m₂, rfl, .cons hab h1, h2⟩

omit [Snap S] in
theorem all2_mem_right {α β : Type} {R : α → β → Prop} : ∀ {l : List α} {m : List β}, All2 R l m →
    ∀ b ∈ m, ∃ a ∈ l, R a b
  | _, _, .nil, b, hb => by cases hb
  | _, _, .cons (a := a) h hs, b, hb => by
    rcases List.mem_cons.mp hb with rfl | hb
    · exact ⟨a, by simp, h⟩
    · obtain ⟨a, ha, h⟩ := all2_mem_right hs b hb
      exact ⟨a, by simp [ha], h⟩

omit [Snap S] in
theorem all2_mem_left {α β : Type} {R : α → β → Prop} : ∀ {l : List α} {m : List β}, All2 R l m →
    ∀ a ∈ l, ∃ b ∈ m, R a b
  | _, _, .nil, b, hb => by cases hb
  | _, _, .cons (b := b) h hs, a, ha => by
    rcases List.mem_cons.mp ha with rfl | ha
    · exact ⟨b, by simp, h⟩
    · obtain ⟨b, hb, h⟩ := all2_mem_left hs a ha
      exact ⟨b, by simp [hb], h⟩

omit [Snap S] in
theorem Grows.trans {P : S → Prop} {a b c : List (Rule S)} (h : Grows P a b) (h' : Grows P b c) : Grows P a c := by
  obtain ⟨k1, ad1, rfl, f1, p1⟩ := h
  obtain ⟨k2, ad2, rfl, f2, p2⟩ := h'
  obtain ⟨m1, m2, rfl, g1, g2⟩ := all2_append_left f2
  refine ⟨m1, m2 ++ ad2, by rw [List.append_assoc], all2_trans (fun _ _ _ => Extends.trans) f1 g1, ?_⟩
  intro r hr s hs
  rcases List.mem_append.mp hr with hr | hr
  · obtain ⟨r0, hr0, _, ex, he, hp⟩ := all2_mem_right g2 r hr
    rw [he] at hs
    rcases List.mem_append.mp hs with hs | hs
    · exact p1 r0 hr0 s hs
    · exact hp s hs
  · exact p2 r hr s hs

omit [Snap S] in
theorem Extends.mono {P Q : S → Prop} (h : ∀ s, P s → Q s) {r r' : Rule S} (he : Extends P r r') : Extends Q r r' := by
  obtain ⟨h1, ex, h2, h3⟩ := he
  exact ⟨h1, ex, h2, fun s hs => h s (h3 s hs)⟩

omit [Snap S] in
theorem Grows.mono {P Q : S → Prop} (h : ∀ s, P s → Q s) {a b : List (Rule S)} (hg : Grows P a b) : Grows Q a b := by
  obtain ⟨k, ad, rfl, f, p⟩ := hg
  exact ⟨k, ad, rfl, f.imp fun _ _ he => he.mono h, fun r hr s hs => h s (p r hr s hs)⟩

omit [Snap S] in
theorem Grows.set {P : S → Prop} {l : List (Rule S)} {i : Nat} {r r' : Rule S} (hi : l[i]? = some r) (h : Extends P r r') :
    Grows P l (l.set i r') := by
  refine ⟨l.set i r', [], by simp, ?_, by simp⟩
  induction l generalizing i with
  | nil => simp at hi
  | cons a l ih =>
    cases i with
    | zero =>
      simp only [List.getElem?_cons_zero, Option.some.injEq] at hi
      subst hi
      exact .cons h (all2_refl (Extends.refl P) l)
    | succ i =>
      simp only [List.getElem?_cons_succ] at hi
      exact .cons (Extends.refl P a) (ih hi)

/-- The kit's operations behave as edits of a history. -/
structure Kit.Ok (k : Kit S D) : Prop where
  /-- A snapshot is added at the end, live, named by the edit, cutting over at the edit's time; or nothing happens. -/
  add : ∀ r d m, (∃ s, k.add r d m = ({ r with snapshots := r.snapshots ++ [s] }, true) ∧ Snap.cutover s = m.cutoverNanos ∧
      Snap.tombstoned s = false ∧ Snap.name s = k.nameOf d) ∨ k.add r d m = (r, false)
  /-- Success does not depend on the rule. -/
  addSame : ∀ r r' d m, (k.add r d m).2 = (k.add r' d m).2
  tomb : ∀ s m, Snap.cutover (k.tomb s m) = m.cutoverNanos ∧ Snap.tombstoned (k.tomb s m) = true ∧
    Snap.name (k.tomb s m) = Snap.name s

theorem mappingKit_ok : mappingKit.Ok where
  add r d m := by
    simp only [mappingKit, addMappingSnapshot]
    split
    · exact Or.inl ⟨_, rfl, rfl, rfl, rfl⟩
    · exact Or.inr rfl
  addSame r r' d m := by simp only [mappingKit, addMappingSnapshot]; split <;> rfl
  tomb s m := ⟨rfl, rfl, rfl⟩

theorem rollupKit_ok : rollupKit.Ok where
  add r d m := by
    simp only [rollupKit, addRollupSnapshot]
    split
    · exact Or.inl ⟨_, rfl, rfl, rfl, rfl⟩
    · exact Or.inr rfl
  addSame r r' d m := by simp only [rollupKit, addRollupSnapshot]; split <;> rfl
  tomb s m := ⟨rfl, rfl, rfl⟩

/-- New snapshots cut over at the time of the edit. -/
def At (m : UpdateMeta) (s : S) : Prop := Snap.cutover s = m.cutoverNanos

theorem add_extends {k : Kit S D} (hk : k.Ok) (r : Rule S) (d : D) (m : UpdateMeta) : Extends (At m) r (k.add r d m).1 := by
  rcases hk.add r d m with ⟨s, h, hc, _⟩ | h
  · rw [h]; exact ⟨rfl, [s], rfl, by simpa [At] using hc⟩
  · rw [h]; exact Extends.refl _ r

theorem revive_extends {k : Kit S D} (hk : k.Ok) (r : Rule S) (d : D) (m : UpdateMeta) :
    Extends (At m) r (revive k.add r d m).1 := by
  unfold revive
  split
  · exact Extends.refl _ r
  · split
    · exact Extends.refl _ r
    · exact add_extends hk r d m

theorem tombstone_extends {k : Kit S D} (hk : k.Ok) (r : Rule S) (m : UpdateMeta) :
    Extends (At m) r (markTombstoned k.tomb r m).1 := by
  unfold markTombstoned
  split
  · exact Extends.refl _ r
  · split
    · exact Extends.refl _ r
    · split
      · exact Extends.refl _ r
      · exact ⟨rfl, _, rfl, by simpa [At] using (hk.tomb _ m).1⟩

theorem addRule_grows {k : Kit S D} (hk : k.Ok) (rules : List (Rule S)) (fresh : Bytes) (d : D) (m : UpdateMeta) :
    Grows (At m) rules (addRule k rules fresh d m).1 := by
  unfold addRule
  split
  · exact Grows.refl _ _
  · simp only
    split
    · refine ⟨rules, _, rfl, all2_refl (Extends.refl _) _, ?_⟩
      intro r hr s hs
      rw [List.mem_singleton] at hr
      subst hr
      obtain ⟨_, ex, h1, h2⟩ := add_extends hk { uuid := fresh, snapshots := [] } d m
      rw [h1] at hs
      exact h2 s (by simpa using hs)
    · exact Grows.refl _ _
  · split
    · exact Grows.refl _ _
    · rename_i r hi
      exact Grows.set hi (revive_extends hk r d m)

theorem updateRule_grows {k : Kit S D} (hk : k.Ok) (rules : List (Rule S)) (id : Bytes) (d : D) (m : UpdateMeta) :
    Grows (At m) rules (updateRule k rules id d m).1 := by
  unfold updateRule
  split
  · exact Grows.refl _ _
  · split
    · exact Grows.refl _ _
    · rename_i r hi
      exact Grows.set hi (add_extends hk r d m)

theorem deleteRule_grows {k : Kit S D} (hk : k.Ok) (rules : List (Rule S)) (id : Bytes) (m : UpdateMeta) :
    Grows (At m) rules (deleteRule k rules id m).1 := by
  unfold deleteRule
  split
  · exact Grows.refl _ _
  · split
    · exact Grows.refl _ _
    · rename_i r hi
      exact Grows.set hi (tombstone_extends hk r m)

theorem deleteAll_grows {k : Kit S D} (hk : k.Ok) (rules : List (Rule S)) (m : UpdateMeta) :
    Grows (At m) rules (deleteAll k rules m) := by
  refine ⟨deleteAll k rules m, [], by simp, ?_, by simp⟩
  unfold deleteAll
  induction rules with
  | nil => exact .nil
  | cons r rs ih =>
    refine .cons ?_ ih
    show Extends (At m) r (if (!r.tombstoned) = true then (markTombstoned k.tomb r m).1 else r)
    split
    · exact tombstone_extends hk r m
    · exact Extends.refl _ r

/-! ### Growth and matching -/

theorem inForce_append (ss ex : List S) (t : Int) (h : ∀ s ∈ ex, t < Snap.cutover s) :
    inForce (ss ++ ex) t = inForce ss t := by
  unfold inForce
  rw [List.filter_append]
  have : ex.filter (fun s => decide (Snap.cutover s ≤ t)) = [] := by
    rw [List.filter_eq_nil_iff]
    intro s hs
    have := h s hs
    simp only [decide_eq_true_eq]
    omega
  rw [this, List.append_nil]

theorem Grows.current {P : S → Prop} {old new : List (Rule S)} (h : Grows P old new) (t : Int)
    (hP : ∀ s, P s → t < Snap.cutover s) : current new t = current old t := by
  obtain ⟨kept, added, rfl, hf, ha⟩ := h
  unfold Spec.Rules.current
  rw [List.filterMap_append]
  have : added.filterMap (fun r => inForce r.snapshots t) = [] := by
    rw [List.filterMap_eq_nil_iff]
    intro r hr
    have := inForce_append ([] : List S) r.snapshots t (fun s hs => hP s (ha r hr s hs))
    rw [List.nil_append] at this
    rw [this]
    rfl
  rw [this, List.append_nil]
  clear this ha
  induction hf with
  | nil => rfl
  | cons h _ ih =>
    obtain ⟨_, ex, he, hp⟩ := h
    rw [List.filterMap_cons, List.filterMap_cons, ih, he, inForce_append _ _ _ fun s hs => hP s (hp s hs)]

theorem Grows.times {P : S → Prop} {old new : List (Rule S)} (h : Grows P old new) (c : Int)
    (hP : ∀ s, P s → c < Snap.cutover s) :
    (∃ r ∈ new, ∃ s ∈ r.snapshots, Snap.cutover s = c) ↔ (∃ r ∈ old, ∃ s ∈ r.snapshots, Snap.cutover s = c) := by
  obtain ⟨kept, added, rfl, hf, ha⟩ := h
  constructor
  · rintro ⟨r, hr, s, hs, hc⟩
    rcases List.mem_append.mp hr with hr | hr
    · obtain ⟨r0, h0, _, ex, he, hp⟩ := all2_mem_right hf r hr
      rw [he] at hs
      rcases List.mem_append.mp hs with hs | hs
      · exact ⟨r0, h0, s, hs, hc⟩
      · have := hP s (hp s hs); omega
    · have := hP s (ha r hr s hs); omega
  · rintro ⟨r, hr, s, hs, hc⟩
    obtain ⟨r1, h1, _, ex, he, _⟩ := all2_mem_left hf r hr
    exact ⟨r1, by simp [h1], s, by rw [he]; simp [hs], hc⟩

theorem activeIndexLoop_append_left (ss ex : List S) (t : Int) : ∀ k, k ≤ ss.length →
    activeIndexLoop (ss ++ ex) t k = activeIndexLoop ss t k
  | 0, _ => rfl
  | k + 1, h => by
    rw [activeIndexLoop, activeIndexLoop, List.getElem?_append_left (by omega),
      activeIndexLoop_append_left ss ex t k (by omega)]

theorem activeIndexLoop_append (ss ex : List S) (t : Int) (h : ∀ s ∈ ex, t < Snap.cutover s) : ∀ j, j ≤ ex.length →
    activeIndexLoop (ss ++ ex) t (ss.length + j) = activeIndexLoop ss t ss.length
  | 0, _ => activeIndexLoop_append_left ss ex t _ (Nat.le_refl _)
  | j + 1, hj => by
    have ih := activeIndexLoop_append ss ex t h j (by omega)
    have hj' : j < ex.length := hj
    rw [← Nat.add_assoc, activeIndexLoop, List.getElem?_append_right (by omega)]
    have : ss.length + j - ss.length = j := by omega
    rw [this, List.getElem?_eq_getElem hj']
    simp only
    rw [if_pos (h _ (List.getElem_mem _)), ih]

theorem Extends.activeRule {P : S → Prop} {r r' : Rule S} (h : Extends P r r') (t : Int)
    (hP : ∀ s, P s → t < Snap.cutover s) : Extends P (r.activeRule t) (r'.activeRule t) := by
  obtain ⟨hu, ex, he, hp⟩ := h
  have hidx : r'.activeIndex t = r.activeIndex t := by
    unfold Rule.activeIndex
    rw [he, List.length_append]
    exact activeIndexLoop_append _ _ _ (fun s hs => hP s (hp s hs)) _ (Nat.le_refl _)
  unfold Rule.activeRule
  rw [hidx]
  cases hk : r.activeIndex t with
  | zero => exact ⟨hu, ex, he, hp⟩
  | succ k =>
    have hle := activeIndexLoop_le r.snapshots t r.snapshots.length
    have : r.activeIndex t ≤ r.snapshots.length := hle
    refine ⟨hu, ex, ?_, hp⟩
    simp only
    rw [he, List.drop_append_of_le_length (by omega)]

theorem Grows.active {P : S → Prop} {old new : List (Rule S)} (h : Grows P old new) (t : Int)
    (hP : ∀ s, P s → t < Snap.cutover s) :
    Grows P (old.map fun r => r.activeRule t) (new.map fun r => r.activeRule t) := by
  obtain ⟨kept, added, rfl, hf, ha⟩ := h
  refine ⟨kept.map fun r => r.activeRule t, added.map fun r => r.activeRule t, by simp, ?_, ?_⟩
  · clear ha
    induction hf with
    | nil => exact .nil
    | cons h _ ih => exact .cons (h.activeRule t hP) ih
  · intro r hr s hs
    simp only [List.mem_map] at hr
    obtain ⟨r0, hr0, rfl⟩ := hr
    unfold Rule.activeRule at hs
    split at hs
    · exact ha r0 hr0 s hs
    · exact ha r0 hr0 s (List.mem_of_mem_drop hs)

end Verif.RuleSet
