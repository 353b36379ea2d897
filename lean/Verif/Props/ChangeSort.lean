import Verif.Spec.ChangeSort
import Verif.Props.RuleSetEdits
/- C85: sorting changes and rules. -/
namespace Verif.Json
open Verif.Rules Verif.RuleSet Verif.Spec.ChangeSort

section
variable {α : Type} {less : α → α → Bool}

/-- Without descents, nothing is less than anything before it, for an ordering by a key. -/
theorem noDescent_pairwise {β : Type} {lt : β → β → Bool} (h : StrictTotal lt) (k : α → β) : ∀ {l : List α},
    NoDescent (fun a b => lt (k a) (k b)) l → l.Pairwise (fun a b => lt (k b) (k a) = false)
  | [], _ => List.Pairwise.nil
  | [_], _ => by simp
  | a :: b :: l, hd => by
    have ih := noDescent_pairwise h k hd.2
    refine List.pairwise_cons.mpr ⟨fun c hc => ?_, ih⟩
    have hba : lt (k b) (k a) = false := hd.1
    rcases List.mem_cons.mp hc with rfl | hc
    · exact hba
    · have hcb := (List.pairwise_cons.mp ih).1 c hc
      apply Bool.eq_false_iff.mpr
      intro hca
      rcases h.tri (k a) (k b) with hab | hab | hab
      · rw [h.trans _ _ _ hca hab] at hcb; cases hcb
      · rw [hab, hcb] at hca; cases hca
      · rw [hba] at hab; cases hab

theorem noDescent_of_pairwise : ∀ {l : List α}, l.Pairwise (fun a b => less b a = false) → NoDescent less l
  | [], _ => trivial
  | [_], _ => trivial
  | a :: b :: l, h => ⟨(List.pairwise_cons.mp h).1 b (by simp), noDescent_of_pairwise (List.pairwise_cons.mp h).2⟩

theorem noDescent_congr {less' : α → α → Bool} : ∀ {l : List α}, (∀ a ∈ l, ∀ b ∈ l, less a b = less' a b) → NoDescent less l → NoDescent less' l
  | [], _, _ => trivial
  | [_], _, _ => trivial
  | a :: b :: l, h, hd => ⟨by rw [← h b (by simp) a (by simp)]; exact hd.1,
      noDescent_congr (fun x hx y hy => h x (by simp at hx ⊢; exact Or.inr hx) y (by simp at hy ⊢; exact Or.inr hy)) hd.2⟩

/-- Arrangements by a key are unique when the keys are distinct. -/
theorem sorted_unique {β : Type} {lt : β → β → Bool} (h : StrictTotal lt) (k : α → β) {l l' : List α}
    (hp : l.Perm l') (hn : (l.map k).Nodup) (hl : l.Pairwise (fun a b => lt (k b) (k a) = false))
    (hl' : l'.Pairwise (fun a b => lt (k b) (k a) = false)) : l = l' := by
  have hinj : ∀ {m : List α}, (m.map k).Nodup → ∀ a b, a ∈ m → b ∈ m → k a = k b → a = b := by
    intro m
    induction m with
    | nil => intro _ a b ha; cases ha
    | cons x m ih =>
      intro hn a b ha hb e
      rw [List.map_cons, List.nodup_cons] at hn
      rcases List.mem_cons.mp ha with rfl | ha' <;> rcases List.mem_cons.mp hb with rfl | hb'
      · rfl
      · exact absurd (List.mem_map.mpr ⟨b, hb', e.symm⟩) hn.1
      · exact absurd (List.mem_map.mpr ⟨a, ha', e⟩) hn.1
      · exact ih hn.2 a b ha' hb' e
  refine hp.eq_of_pairwise ?_ hl hl'
  intro a b ha hb h1 h2
  apply hinj hn a b ha (hp.mem_iff.mpr hb)
  rcases h.tri (k a) (k b) with e | e | e
  · rw [h2] at e; cases e
  · exact e
  · rw [h1] at e; cases e
end

/-! ### Changes -/

/-- Lexicographic order of pairs. -/
def pairLt (p q : Nat × Bytes) : Bool := decide (p.1 < q.1) || (decide (p.1 = q.1) && bytesLt p.2 q.2)

theorem pairLt_strictTotal : StrictTotal pairLt where
  irrefl p := by simp [pairLt, bytesLt_irrefl]
  trans p q r h1 h2 := by
    simp only [pairLt, Bool.or_eq_true, Bool.and_eq_true, decide_eq_true_eq] at *
    rcases h1 with h1 | ⟨h1, h1'⟩ <;> rcases h2 with h2 | ⟨h2, h2'⟩
    · left; omega
    · left; omega
    · left; omega
    · right; exact ⟨h1.trans h2, bytesLt_strictTotal.trans _ _ _ h1' h2'⟩
  tri p q := by
    simp only [pairLt, Bool.or_eq_true, Bool.and_eq_true, decide_eq_true_eq]
    by_cases h : p.1 = q.1
    · rcases bytesLt_strictTotal.tri p.2 q.2 with h' | h' | h'
      · exact Or.inl (Or.inr ⟨h, h'⟩)
      · exact Or.inr (Or.inl (Prod.ext h h'))
      · exact Or.inr (Or.inr (Or.inr ⟨h.symm, h'⟩))
    · by_cases h' : p.1 < q.1
      · exact Or.inl (Or.inl h')
      · exact Or.inr (Or.inr (Or.inl (by omega)))

theorem less_key {V : Type} (name : V → Bytes) {a b : ViewChange V} (ha : Documented a) (hb : Documented b) :
    changeLess name a b = pairLt (rank a, label name a) (rank b, label name b) := by
  have h1 : bytesLt (bs "add") (bs "change") = true := by decide
  have h2 : bytesLt (bs "add") (bs "delete") = true := by decide
  have h3 : bytesLt (bs "change") (bs "delete") = true := by decide
  have h1' : bytesLt (bs "change") (bs "add") = false := by decide
  have h2' : bytesLt (bs "delete") (bs "add") = false := by decide
  have h3' : bytesLt (bs "delete") (bs "change") = false := by decide
  have n1 : ¬ (bs "change" = bs "add") := by decide
  have n2 : ¬ (bs "delete" = bs "add") := by decide
  have n3 : ¬ (bs "delete" = bs "change") := by decide
  cases ha <;> cases hb <;> simp [changeLess, pairLt, rank, label, bytesLt_irrefl, h1, h2, h3, h1', h2', h3', n1, n2, n3]

/-- C85: sorting documented changes keeps them all and puts additions first, then modifications, then deletions, the former
by rule name and the latter by identifier.  Missing for the full claim: deletions that also carry a rule
(`C85_violation_cycle`). -/
theorem C85_order_partial {V : Type} (name : V → Bytes) (l out : List (ViewChange V)) (hd : ∀ c ∈ l, Documented c)
    (h : Sorts (changeLess name) l out) : out.Perm l ∧ out.Pairwise (Before name) := by
  refine ⟨h.1, ?_⟩
  have hk := noDescent_congr (less' := fun a b => pairLt (rank a, label name a) (rank b, label name b))
    (fun a ha b hb => less_key name (hd a (h.1.mem_iff.mp ha)) (hd b (h.1.mem_iff.mp hb))) h.2
  refine (noDescent_pairwise pairLt_strictTotal (fun c => (rank c, label name c)) hk).imp ?_
  intro a b hab
  simp only [pairLt, Bool.or_eq_false_iff, decide_eq_false_iff_not, Bool.and_eq_false_iff] at hab
  unfold Before
  rcases hab with ⟨h1, h2 | h2⟩
  · left; omega
  · by_cases h3 : rank a < rank b
    · exact Or.inl h3
    · exact Or.inr ⟨by omega, h2⟩

/-- C85: such an arrangement exists, and when no two of the changes agree in both operation and name or identifier it does not
depend on the order they were given in. -/
theorem C85_canonical_partial {V : Type} (name : V → Bytes) (l l' : List (ViewChange V)) (hd : ∀ c ∈ l, Documented c)
    (hp : l.Perm l') :
    (∃ out, Sorts (changeLess name) l out) ∧
    ((l.map fun c => (rank c, label name c)).Nodup → ∀ out out', Sorts (changeLess name) l out → Sorts (changeLess name) l' out' →
      out = out') := by
  constructor
  · refine ⟨sortBy (fun a b => pairLt (rank a, label name a) (rank b, label name b)) l, sortBy_perm _ _, ?_⟩
    refine noDescent_congr (less := fun a b => pairLt (rank a, label name a) (rank b, label name b)) ?_
      (noDescent_of_pairwise (sortByKey_sorted pairLt_strictTotal (fun c : ViewChange V => (rank c, label name c)) l))
    intro a ha b hb
    exact (less_key name (hd a ((mem_sortBy _).mp ha)) (hd b ((mem_sortBy _).mp hb))).symm
  · intro hn out out' h h'
    have key : ∀ {m o : List (ViewChange V)}, (∀ c ∈ m, Documented c) → Sorts (changeLess name) m o →
        o.Pairwise (fun a b => pairLt (rank b, label name b) (rank a, label name a) = false) := by
      intro m o hm ho
      exact noDescent_pairwise pairLt_strictTotal (fun c => (rank c, label name c))
        (noDescent_congr (fun a ha b hb => less_key name (hm a (ho.1.mem_iff.mp ha)) (hm b (ho.1.mem_iff.mp hb))) ho.2)
    refine sorted_unique pairLt_strictTotal (fun c => (rank c, label name c)) (h.1.trans (hp.trans h'.1.symm)) ?_
      (key hd h) (key (fun c hc => hd c (hp.mem_iff.mpr hc)) h')
    exact ((h.1.map _).nodup_iff).mpr hn

/-- C85: whatever the changes carry, of two of them at most one is put before the other, and none before itself. -/
theorem C85_asym {V : Type} (name : V → Bytes) (a b : ViewChange V) :
    changeLess name a a = false ∧ (changeLess name a b = true → changeLess name b a = false) := by
  have anti : ∀ x y, bytesLt x y = true → bytesLt y x = false := fun x y h => by
    cases h' : bytesLt y x with
    | false => rfl
    | true => exact absurd (bytesLt_strictTotal.trans _ _ _ h h') (by simp [bytesLt_irrefl])
  have key : ∀ a b : ViewChange V, changeLess name a b = true → changeLess name b a = false := by
    intro a b h
    unfold changeLess at h ⊢
    by_cases h1 : bytesLt a.op b.op = true
    · rw [if_neg (by simp [anti _ _ h1]), if_pos h1]
    · rw [if_neg h1] at h
      by_cases h2 : bytesLt b.op a.op = true
      · rw [if_pos h2] at h; cases h
      · rw [if_neg h2] at h
        rw [if_neg h2, if_neg h1]
        cases ha : a.ruleData <;> cases hb : b.ruleData <;> cases hi : a.ruleID <;> cases hj : b.ruleID <;>
          simp only [ha, hb, hi, hj] at h ⊢ <;> first | cases h | exact anti _ _ h | rfl
  refine ⟨?_, key a b⟩
  cases h : changeLess name a a with
  | false => rfl
  | true => rw [key a a h] at h; cases h

/-- C85: sorting the rules of a view keeps them all, in the order of their names, and does not depend on the order they were
in when their names differ. -/
theorem C85_rules {V : Type} (name : V → Bytes) (l l' out out' : List V) (h : Sorts (nameLess name) l out) (hp : l.Perm l')
    (h' : Sorts (nameLess name) l' out') :
    out.Perm l ∧ out.Pairwise (fun a b => bytesLt (name b) (name a) = false) ∧ ((l.map name).Nodup → out = out') := by
  have h1 := noDescent_pairwise bytesLt_strictTotal name h.2
  have h2 := noDescent_pairwise bytesLt_strictTotal name h'.2
  exact ⟨h.1, h1, fun hn => sorted_unique bytesLt_strictTotal name (h.1.trans (hp.trans h'.1.symm)) (((h.1.map name).nodup_iff).mpr hn) h1 h2⟩

/-- The change `ApplyRuleSetChanges` works with (rules/ruleset.go:597-641). -/
def asChange (fresh : Bytes) (c : ViewChange MappingView) : Change MappingData :=
  ⟨c.op, c.ruleID, c.ruleData.map fun d => (d.id, ⟨d.name, d.filter, d.aggID, d.storagePolicies, d.drop⟩), fresh⟩

def exRule (name : String) : MappingView := ⟨[], bs name, false, 0, bs "city:sf", 0, [], 1, [], 0⟩
def exDel (id : String) (name : Option String) : ViewChange MappingView := ⟨bs "delete", some (bs id), name.map exRule⟩
def exAdd (name : String) : ViewChange MappingView := ⟨bs "add", none, some (exRule name)⟩
def exChg (name : String) : ViewChange MappingView := ⟨bs "change", none, some (exRule name)⟩

/-- Beside C85: a batch out of order. -/
example :
    let l := [exDel "2" none, exAdd "b", exDel "1" none, exChg "a", exAdd "a"]
    (∀ c ∈ l, Documented c) ∧ (l.map fun c => (rank c, label (·.name) c)).Nodup ∧
    Sorts (changeLess (·.name)) l [exAdd "a", exAdd "b", exChg "a", exDel "1" none, exDel "2" none] := by
  refine ⟨?_, by decide +kernel, ?_⟩
  · intro c hc
    simp only [List.mem_cons, List.not_mem_nil, or_false] at hc
    rcases hc with rfl | rfl | rfl | rfl | rfl
    · exact .delete _
    · exact .add _ _
    · exact .delete _
    · exact .change _ _
    · exact .add _ _
  · exact ⟨by decide +kernel, by decide +kernel, by decide +kernel, by decide +kernel, by decide +kernel, trivial⟩

/-- C85 is violated: for three deletions of different rules, two of which also carry the rule (which applying a deletion
ignores), the ordering goes round in a circle.  Two different arrangements are both without descents, and in every
arrangement some deletion comes before one that is less. -/
theorem C85_violation_cycle : ∃ l out out' : List (ViewChange MappingView),
    (∀ c ∈ l, c.op = bs "delete" ∧ c.ruleID.isSome = true) ∧ (l.map (·.ruleID)).Nodup ∧
    Sorts (changeLess (·.name)) l out ∧ Sorts (changeLess (·.name)) l out' ∧ out ≠ out' ∧
    ∀ o : List (ViewChange MappingView), o.Perm l → ¬ o.Pairwise (fun a b => changeLess (·.name) b a = false) := by
  refine ⟨[exDel "1" (some "b"), exDel "2" none, exDel "3" (some "a")], [exDel "1" (some "b"), exDel "2" none, exDel "3" (some "a")],
    [exDel "2" none, exDel "3" (some "a"), exDel "1" (some "b")], by decide +kernel, by decide +kernel,
    ⟨by decide +kernel, by decide +kernel, by decide +kernel, trivial⟩, ⟨by decide +kernel, by decide +kernel, by decide +kernel, trivial⟩,
    by decide +kernel, ?_⟩
  intro o hp hs
  cases o with
  | nil => exact absurd hp.length_eq (by decide)
  | cons c t =>
    have hmem : ∀ d, d ∈ [exDel "1" (some "b"), exDel "2" none, exDel "3" (some "a")] → d ≠ c → changeLess (·.name) d c = false := by
      intro d hd hne
      rcases List.mem_cons.mp (hp.mem_iff.mpr hd) with h | h
      · exact absurd h hne
      · exact (List.pairwise_cons.mp hs).1 d h
    have hc : c ∈ [exDel "1" (some "b"), exDel "2" none, exDel "3" (some "a")] := hp.mem_iff.mp (by simp)
    simp only [List.mem_cons, List.not_mem_nil, or_false] at hc
    rcases hc with rfl | rfl | rfl
    · exact absurd (hmem (exDel "3" (some "a")) (by simp) (by decide +kernel)) (by decide +kernel)
    · exact absurd (hmem (exDel "1" (some "b")) (by simp) (by decide +kernel)) (by decide +kernel)
    · exact absurd (hmem (exDel "2" none) (by simp) (by decide +kernel)) (by decide +kernel)

/-- C85, outside of the claim: sorting can make a batch fail.  Deleting a rule and then adding one of the same name works;
sorted, the addition comes first and is refused, and nothing is deleted. -/
theorem C85_effect : ∃ (rs : RuleSet) (l out : List (ViewChange MappingView)), Sorts (changeLess (·.name)) l out ∧
    (RuleSet.applyChanges rs (l.map (asChange (bs "9"))) [] (exMeta 20)).2 = .ok () ∧
    (RuleSet.applyChanges rs (out.map (asChange (bs "9"))) [] (exMeta 20)).2 = .err :=
  ⟨(exEmpty.addMappingRule (bs "1") (exData "a" "city:sf") (exMeta 10)).1, [exDel "1" none, exAdd "a"], [exAdd "a", exDel "1" none],
    ⟨by decide +kernel, by decide +kernel, trivial⟩, by decide +kernel, by decide +kernel⟩

end Verif.Json
