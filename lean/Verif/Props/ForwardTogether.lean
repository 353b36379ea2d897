import Verif.Props.MatchM3
/- C39 without conditions: what all the entries for a rollup identifier say together, whatever order Go's sort, which is not stable,
leaves entries of the same identifier in. -/
namespace Verif.Active
open Verif.Agg Verif.Policy Verif.Meta Verif.Id Verif.TagsFlt Verif.Rules Verif.Spec.Rules Verif.Spec

/-! ### Specification -/

/-- What the entries for `x` say at the stage that has `k` stages after it (those that go back that far). -/
def saidAt (l : List IDWithMetadatas) (x : Bytes) (k : Nat) : List StagedMetadata :=
  (l.filter fun y => decide (y.id = x)).filterMap fun y => y.metadatas.reverse[k]?

/-- What is generated for `x`. -/
def madeFor (l : List IDWithMetadatas) (x : Bytes) : List StagedMetadata :=
  (l.filter fun y => decide (y.id = x)).flatMap (·.metadatas)

def entriesFor (l : List IDWithMetadatas) (x : Bytes) : Nat := (l.filter fun y => decide (y.id = x)).length

/-- In order of the identifiers; the same identifier may occur repeatedly. -/
def InOrder (l : List IDWithMetadatas) : Prop := l.Pairwise fun a b => bytesLt b.id a.id = false

/-- A result of `mergeResultsForNewRollupIDs` at the stages, one after the other, for any sort. -/
def MergeRun (F : Int → List IDWithMetadatas) : List Int → List IDWithMetadatas → List IDWithMetadatas → Prop
  | [], l, l' => l' = l
  | c :: cs, l, l' => ∃ m, m.Perm ((mergeRollupLoop c (l.length + (F c).length) l (F c)).1 ++
      (mergeRollupLoop c (l.length + (F c).length) l (F c)).2) ∧ InOrder m ∧ MergeRun F cs m l'

/-- A result of `ForwardMatch` for rollup identifiers, for any sort. -/
def RollupsOver (env : Env) (as : ActiveRuleSet) (id : Bytes) (frm to : Int) (l : List IDWithMetadatas) : Prop :=
  ∃ F : Int → List IDWithMetadatas, (∀ τ, (F τ).Perm (forwardMatchAt env as id τ).forNewRollupIDs ∧ InOrder (F τ)) ∧
    MergeRun F (stages as frm to) (F frm) l

/-! ### The merging loop -/

theorem said_cons (y : IDWithMetadatas) (l : List IDWithMetadatas) (x : Bytes) (k : Nat) :
    saidAt (y :: l) x k = (if y.id = x then (y.metadatas.reverse[k]?).toList else []) ++ saidAt l x k := by
  unfold saidAt
  by_cases h : y.id = x
  · simp only [h, decide_true, List.filter_cons_of_pos, if_true, List.filterMap_cons]
    cases y.metadatas.reverse[k]? <;> rfl
  · simp [h]

theorem said_append (l l' : List IDWithMetadatas) (x : Bytes) (k : Nat) : saidAt (l ++ l') x k = saidAt l x k ++ saidAt l' x k := by
  unfold saidAt
  rw [List.filter_append, List.filterMap_append]

theorem said_perm {l l' : List IDWithMetadatas} (h : l.Perm l') (x : Bytes) (k : Nat) : (saidAt l x k).Perm (saidAt l' x k) :=
  (h.filter _).filterMap _

theorem made_cons (y : IDWithMetadatas) (l : List IDWithMetadatas) (x : Bytes) :
    madeFor (y :: l) x = (if y.id = x then y.metadatas else []) ++ madeFor l x := by
  unfold madeFor
  by_cases h : y.id = x <;> simp [h]

theorem entries_cons (y : IDWithMetadatas) (l : List IDWithMetadatas) (x : Bytes) :
    entriesFor (y :: l) x = (if y.id = x then 1 else 0) + entriesFor l x := by
  unfold entriesFor
  by_cases h : y.id = x
  · simp [h]; omega
  · simp [h]

theorem entries_append (l l' : List IDWithMetadatas) (x : Bytes) : entriesFor (l ++ l') x = entriesFor l x + entriesFor l' x := by
  unfold entriesFor
  rw [List.filter_append, List.length_append]

theorem entries_perm {l l' : List IDWithMetadatas} (h : l.Perm l') (x : Bytes) : entriesFor l x = entriesFor l' x :=
  (h.filter _).length_eq

/-- Each of `l` is one live stage. -/
def Single (l : List IDWithMetadatas) : Prop := ∀ y ∈ l, ∃ m, y.metadatas = [m] ∧ m.tombstoned = false

theorem said_single {l : List IDWithMetadatas} (h : Single l) (x : Bytes) : saidAt l x 0 = madeFor l x ∧ ∀ k, saidAt l x (k + 1) = [] := by
  induction l with
  | nil => exact ⟨rfl, fun _ => rfl⟩
  | cons y l ih =>
    obtain ⟨m, hm, _⟩ := h y (by simp)
    obtain ⟨i1, i2⟩ := ih fun z hz => h z (by simp [hz])
    refine ⟨?_, fun k => ?_⟩
    · rw [said_cons, made_cons, i1, hm]
      rfl
    · rw [said_cons, i2, hm]
      by_cases hy : y.id = x <;> simp [hy]

/-- What was said is still said, one stage further back; at the new stage each generated one is said once, and what else is said is a
tombstone. -/
theorem loop_said (T : Int) (x : Bytes) : ∀ (k : Nat) (cs ns : List IDWithMetadatas), Single ns → cs.length + ns.length ≤ k →
    let r := mergeRollupLoop T k cs ns
    (∀ j, saidAt r.1 x (j + 1) = saidAt cs x j) ∧ Single r.2 ∧
    ((saidAt (r.1 ++ r.2) x 0).filter fun m => !m.tombstoned).Perm (madeFor ns x) ∧
    (∀ m ∈ saidAt r.1 x 0, m.tombstoned = true → m = tombstoneAt T) ∧ ∀ y, entriesFor r.1 y = entriesFor cs y
  | 0, cs, ns, hn, hk => by
    have h1 : cs = [] := List.length_eq_zero_iff.mp (by omega)
    have h2 : ns = [] := List.length_eq_zero_iff.mp (by omega)
    subst h1 h2
    exact ⟨fun _ => rfl, by simp [mergeRollupLoop, Single], .refl _, by simp [mergeRollupLoop, saidAt], fun _ => rfl⟩
  | k + 1, [], ns, hn, _ => by
    refine ⟨fun _ => rfl, hn, ?_, by simp [mergeRollupLoop, saidAt], fun _ => rfl⟩
    simp only [mergeRollupLoop, List.nil_append, (said_single hn x).1]
    rw [List.filter_eq_self.mpr]
    intro m hm
    unfold madeFor at hm
    obtain ⟨y, hy, hmy⟩ := List.mem_flatMap.mp hm
    obtain ⟨m', h1, h2⟩ := hn y (List.mem_filter.mp hy).1
    rw [h1, List.mem_singleton] at hmy
    simp [hmy, h2]
  | k + 1, c :: cs, [], hn, hk => by
    simp only [List.length_cons, List.length_nil] at hk
    obtain ⟨i1, i2, i3, i4, i5⟩ := loop_said T x k cs [] hn (by simp; omega)
    simp only [mergeRollupLoop]
    refine ⟨fun j => ?_, i2, ?_, ?_, fun y => ?_⟩
    · rw [said_cons, said_cons, i1]; simp
    · rw [List.cons_append, said_cons, List.filter_append]
      by_cases h : c.id = x
      · simpa [h, tombstoneAt] using i3
      · simpa [h] using i3
    · intro m hm ht
      rw [said_cons] at hm
      rcases List.mem_append.mp hm with hm | hm
      · by_cases h : c.id = x
        · simpa [h] using hm
        · simp [h] at hm
      · exact i4 m hm ht
    · rw [entries_cons, entries_cons, i5]
  | k + 1, c :: cs, n :: ns, hn, hk => by
    simp only [List.length_cons] at hk
    have hns : Single ns := fun y hy => hn y (by simp [hy])
    obtain ⟨m0, hm0, hl0⟩ := hn n (by simp)
    rw [mergeRollupLoop]
    by_cases he : c.id = n.id
    · obtain ⟨i1, i2, i3, i4, i5⟩ := loop_said T x k cs ns hns (by omega)
      simp only [if_pos he]
      refine ⟨fun j => ?_, i2, ?_, ?_, fun y => ?_⟩
      · rw [said_cons, said_cons, i1]; simp [hm0]
      · rw [List.cons_append, said_cons, made_cons, List.filter_append]
        by_cases h : c.id = x
        · have h' : n.id = x := he ▸ h
          simpa [h, h', hm0, hl0] using i3
        · have h' : ¬ n.id = x := he ▸ h
          simpa [h, h'] using i3
      · intro m hm ht
        rw [said_cons] at hm
        rcases List.mem_append.mp hm with hm | hm
        · by_cases h : c.id = x
          · have : m = m0 := by simpa [h, hm0] using hm
            rw [this, hl0] at ht
            cases ht
          · simp [h] at hm
        · exact i4 m hm ht
      · rw [entries_cons, entries_cons, i5]
    · rw [if_neg he]
      by_cases hl : bytesLt c.id n.id = true
      · obtain ⟨i1, i2, i3, i4, i5⟩ := loop_said T x k cs (n :: ns) hn (by simp; omega)
        simp only [if_pos hl]
        refine ⟨fun j => ?_, i2, ?_, ?_, fun y => ?_⟩
        · rw [said_cons, said_cons, i1]; simp
        · rw [List.cons_append, said_cons, List.filter_append]
          by_cases h : c.id = x
          · simpa [h, tombstoneAt] using i3
          · simpa [h] using i3
        · intro m hm ht
          rw [said_cons] at hm
          rcases List.mem_append.mp hm with hm | hm
          · by_cases h : c.id = x
            · simpa [h] using hm
            · simp [h] at hm
          · exact i4 m hm ht
        · rw [entries_cons, entries_cons, i5]
      · obtain ⟨i1, i2, i3, i4, i5⟩ := loop_said T x k (c :: cs) ns hns (by simp; omega)
        simp only [if_neg hl]
        refine ⟨i1, ?_, ?_, i4, i5⟩
        · intro y hy
          rcases List.mem_cons.mp hy with rfl | hy
          · exact ⟨m0, hm0, hl0⟩
          · exact i2 y hy
        · rw [made_cons]
          have hp : (saidAt ((mergeRollupLoop T k (c :: cs) ns).1 ++ n :: (mergeRollupLoop T k (c :: cs) ns).2) x 0).Perm
              ((if n.id = x then n.metadatas else []) ++
                saidAt ((mergeRollupLoop T k (c :: cs) ns).1 ++ (mergeRollupLoop T k (c :: cs) ns).2) x 0) := by
            refine (said_perm List.perm_middle x 0).trans ?_
            rw [said_cons, hm0]
            exact .refl _
          refine (hp.filter _).trans ?_
          rw [List.filter_append]
          refine List.Perm.append ?_ i3
          by_cases h : n.id = x <;> simp [h, hm0, hl0]

theorem entries_zero_of_lt {l : List IDWithMetadatas} {x : Bytes} (h : ∀ y ∈ l, bytesLt x y.id = true) : entriesFor l x = 0 := by
  unfold entriesFor
  rw [List.length_eq_zero_iff, List.filter_eq_nil_iff]
  intro y hy
  have := h y hy
  simp only [decide_eq_true_eq]
  rintro rfl
  rw [bytesLt_irrefl] at this
  cases this

theorem lt_of_lt_of_le {a b c : Bytes} (h : bytesLt a b = true) (h' : bytesLt c b = false) : bytesLt a c = true := by
  rcases bytesLt_tri b c with h1 | h1 | h1
  · exact bytesLt_trans _ _ _ h h1
  · exact h1 ▸ h
  · rw [h1] at h'; cases h'

/-- As many entries are added for an identifier as the next results have more of. -/
theorem loop_entries (T : Int) (x : Bytes) : ∀ (k : Nat) (cs ns : List IDWithMetadatas), InOrder cs → InOrder ns → cs.length + ns.length ≤ k →
    entriesFor (mergeRollupLoop T k cs ns).2 x = entriesFor ns x - entriesFor cs x
  | 0, cs, ns, _, _, hk => by
    have h1 : cs = [] := List.length_eq_zero_iff.mp (by omega)
    have h2 : ns = [] := List.length_eq_zero_iff.mp (by omega)
    subst h1 h2
    rfl
  | k + 1, [], ns, _, _, _ => by simp [mergeRollupLoop, entriesFor]
  | k + 1, c :: cs, [], hc, hn, hk => by
    simp only [List.length_cons, List.length_nil] at hk
    simp only [mergeRollupLoop]
    rw [loop_entries T x k cs [] (List.pairwise_cons.mp hc).2 hn (by simp; omega)]
    simp [entriesFor]
  | k + 1, c :: cs, n :: ns, hc, hn, hk => by
    simp only [List.length_cons] at hk
    obtain ⟨hc1, hc2⟩ := List.pairwise_cons.mp hc
    obtain ⟨hn1, hn2⟩ := List.pairwise_cons.mp hn
    rw [mergeRollupLoop]
    by_cases he : c.id = n.id
    · simp only [if_pos he]
      rw [loop_entries T x k cs ns hc2 hn2 (by omega), entries_cons, entries_cons, he]
      by_cases h : n.id = x <;> simp [h]
      omega
    · rw [if_neg he]
      by_cases hl : bytesLt c.id n.id = true
      · simp only [if_pos hl]
        rw [loop_entries T x k cs (n :: ns) hc2 hn (by simp; omega), entries_cons c cs]
        by_cases h : c.id = x
        · have : entriesFor (n :: ns) x = 0 := by
            apply entries_zero_of_lt
            intro y hy
            rw [← h]
            rcases List.mem_cons.mp hy with rfl | hy
            · exact hl
            · exact lt_of_lt_of_le hl (hn1 y hy)
          omega
        · simp [h]
      · have hl' : bytesLt n.id c.id = true := by
          rcases bytesLt_tri c.id n.id with h | h | h
          · exact absurd h hl
          · exact absurd h he
          · exact h
        simp only [if_neg hl]
        rw [entries_cons, loop_entries T x k (c :: cs) ns hc hn2 (by simp; omega), entries_cons n ns]
        by_cases h : n.id = x
        · have : entriesFor (c :: cs) x = 0 := by
            apply entries_zero_of_lt
            intro y hy
            rw [← h]
            rcases List.mem_cons.mp hy with rfl | hy
            · exact hl'
            · exact lt_of_lt_of_le hl' (hc1 y hy)
          simp [h, this]
        · simp [h]

/-! ### All stages -/

theorem run_said (F : Int → List IDWithMetadatas) (hF : ∀ τ, Single (F τ)) (x : Bytes) : ∀ (cs ts : List Int) (l l' : List IDWithMetadatas),
    MergeRun F cs l l' →
    (∀ k τ, ts.reverse[k]? = some τ → ((saidAt l x k).filter fun m => !m.tombstoned).Perm (madeFor (F τ) x) ∧
      ∀ m ∈ saidAt l x k, m.tombstoned = true → m = tombstoneAt τ) →
    ∀ k τ, (ts ++ cs).reverse[k]? = some τ → ((saidAt l' x k).filter fun m => !m.tombstoned).Perm (madeFor (F τ) x) ∧
      ∀ m ∈ saidAt l' x k, m.tombstoned = true → m = tombstoneAt τ
  | [], ts, l, l', hr, h => by
    cases hr
    simpa using h
  | c :: cs, ts, l, l', ⟨m, hm, _, hr⟩, h => by
    obtain ⟨i1, i2, i3, i4, _⟩ := loop_said c x _ l (F c) (hF c) (Nat.le_refl _)
    have := run_said F hF x cs (ts ++ [c]) m l' hr ?_
    · simpa using this
    · intro k τ hk
      rw [List.reverse_append] at hk
      cases k with
      | zero =>
        have : c = τ := by simpa using hk
        subst this
        refine ⟨((said_perm hm x 0).filter _).trans i3, ?_⟩
        intro a ha hat
        rw [(said_perm hm x 0).mem_iff, said_append, List.mem_append] at ha
        rcases ha with ha | ha
        · exact i4 a ha hat
        · rw [(said_single i2 x).1] at ha
          obtain ⟨y, hy, hay⟩ := List.mem_flatMap.mp ha
          obtain ⟨a', e1, e2⟩ := i2 y (List.mem_filter.mp hy).1
          rw [e1, List.mem_singleton] at hay
          rw [hay, e2] at hat
          cases hat
      | succ k =>
        have hk' : ts.reverse[k]? = some τ := by simpa using hk
        have hp : (saidAt m x (k + 1)).Perm (saidAt l x k) := by
          refine (said_perm hm x _).trans ?_
          rw [said_append, i1, (said_single i2 x).2, List.append_nil]
        obtain ⟨h1, h2⟩ := h k τ hk'
        exact ⟨(hp.filter _).trans h1, fun a ha => h2 a (hp.mem_iff.mp ha)⟩

theorem run_entries (F : Int → List IDWithMetadatas) (hF : ∀ τ, Single (F τ)) (hs : ∀ τ, InOrder (F τ)) (x : Bytes) :
    ∀ (cs : List Int) (l l' : List IDWithMetadatas), InOrder l → MergeRun F cs l l' →
    entriesFor l' x = cs.foldl (fun n τ => max n (entriesFor (F τ) x)) (entriesFor l x)
  | [], l, l', _, hr => by cases hr; rfl
  | c :: cs, l, l', hl, ⟨m, hm, hmo, hr⟩ => by
    rw [run_entries F hF hs x cs m l' hmo hr, List.foldl_cons]
    congr 1
    rw [entries_perm hm, entries_append, (loop_said c x _ l (F c) (hF c) (Nat.le_refl _)).2.2.2.2,
      loop_entries c x _ l (F c) hl (hs c) (Nat.le_refl _)]
    omega

theorem single_match (env : Env) (as : ActiveRuleSet) (id : Bytes) (τ : Int) : Single (forwardMatchAt env as id τ).forNewRollupIDs := by
  intro y hy
  obtain ⟨q, _, hq⟩ := generated_one env as id τ y hy
  exact ⟨_, hq, rfl⟩

theorem made_perm {l l' : List IDWithMetadatas} (h : l.Perm l') (x : Bytes) : (madeFor l x).Perm (madeFor l' x) :=
  (h.filter _).flatMap_right _

/-- C39 without conditions, and for any sort: at the start and at each rule change inside the range, the entries for an identifier
together say what is generated for it there, each once, and else a tombstone of that time. -/
theorem C39_together (env : Env) (as : ActiveRuleSet) (id : Bytes) (frm to : Int) (l : List IDWithMetadatas)
    (hl : RollupsOver env as id frm to l) (x : Bytes) (k : Nat) (τ : Int) (hk : (frm :: stages as frm to).reverse[k]? = some τ) :
    ((saidAt l x k).filter fun m => !m.tombstoned).Perm (madeFor (forwardMatchAt env as id τ).forNewRollupIDs x) ∧
    ∀ m ∈ saidAt l x k, m.tombstoned = true → m = tombstoneAt τ := by
  obtain ⟨F, hF, hr⟩ := hl
  have hsing : ∀ τ, Single (F τ) := fun τ y hy => single_match env as id τ y ((hF τ).1.mem_iff.mp hy)
  obtain ⟨h1, h2⟩ := run_said F hsing x (stages as frm to) [frm] (F frm) l hr
    (by
      intro k τ hk
      cases k with
      | zero =>
        have : frm = τ := by simpa using hk
        subst this
        rw [(said_single (hsing _) x).1]
        have hlive : ∀ m ∈ madeFor (F frm) x, m.tombstoned = false := by
          intro m hm
          obtain ⟨y, hy, hmy⟩ := List.mem_flatMap.mp hm
          obtain ⟨m', e1, e2⟩ := hsing _ y (List.mem_filter.mp hy).1
          rw [e1, List.mem_singleton] at hmy
          rw [hmy, e2]
        refine ⟨?_, fun m hm ht => ?_⟩
        · rw [List.filter_eq_self.mpr]
          intro m hm
          simp [hlive m hm]
        · rw [hlive m hm] at ht
          cases ht
      | succ k => simp at hk) k τ hk
  exact ⟨h1.trans (made_perm (hF τ).1 x), h2⟩

/-- C39, for any sort: an identifier has as many entries as it is generated by targets at the time when it is by most. -/
theorem C39_entries (env : Env) (as : ActiveRuleSet) (id : Bytes) (frm to : Int) (l : List IDWithMetadatas)
    (hl : RollupsOver env as id frm to l) (x : Bytes) :
    entriesFor l x = (frm :: stages as frm to).foldl
      (fun n τ => max n (entriesFor (forwardMatchAt env as id τ).forNewRollupIDs x)) 0 := by
  obtain ⟨F, hF, hr⟩ := hl
  have hsing : ∀ τ, Single (F τ) := fun τ y hy => single_match env as id τ y ((hF τ).1.mem_iff.mp hy)
  rw [run_entries F hsing (fun τ => (hF τ).2) x _ _ _ (hF frm).2 hr, List.foldl_cons, Nat.zero_max, entries_perm (hF frm).1]
  congr 1
  funext n τ
  rw [entries_perm (hF τ).1]

theorem fold_run (F : Int → List IDWithMetadatas) : ∀ (cs : List Int) (l : List IDWithMetadatas),
    MergeRun F cs l (cs.foldl (fun ids c => mergeRollup ids (F c) c) l)
  | [], _ => rfl
  | c :: cs, l => ⟨mergeRollup l (F c) c, sortBy_perm _ _,
      sortByKey_sorted bytesLt_strictTotal (fun y : IDWithMetadatas => y.id) _, fold_run F cs _⟩

/-- The stable sort of the model is one of them. -/
theorem model_rollups (env : Env) (as : ActiveRuleSet) (h : Built as) (id : Bytes) (frm to : Int) :
    RollupsOver env as id frm to (forwardMatch env as id frm to).forNewRollupIDs := by
  rw [forwardMatch_eq env as h]
  exact ⟨fun τ => (forwardMatchAt env as id τ).forNewRollupIDs,
    fun τ => ⟨.refl _, sortByKey_sorted bytesLt_strictTotal (fun y : IDWithMetadatas => y.id) _⟩, fold_run _ _ _⟩

/-- C39 without conditions, for the model's own result. -/
theorem C39_together_model (env : Env) (as : ActiveRuleSet) (h : Built as) (id : Bytes) (frm to : Int) (x : Bytes) (k : Nat) (τ : Int)
    (hk : (frm :: stages as frm to).reverse[k]? = some τ) :
    ((saidAt (forwardMatch env as id frm to).forNewRollupIDs x k).filter fun m => !m.tombstoned).Perm
      (madeFor (forwardMatchAt env as id τ).forNewRollupIDs x) :=
  (C39_together env as id frm to _ (model_rollups env as h id frm to) x k τ hk).1

/-- Two rules generate the same identifier, and one of them is deleted at 10: two entries, of which one says a tombstone from then on. -/
example : let x := bs "m3+r+city=sf,m3_rollup=true"
    (6 :: stages exClash 6 30).reverse = [10, 6] ∧
    (saidAt (forwardMatch m3Env exClash exID 6 30).forNewRollupIDs x 1).map (fun m => (m.tombstoned, m.pipelines.map (·.aggID))) =
      [(false, [0]), (false, [4])] ∧
    (saidAt (forwardMatch m3Env exClash exID 6 30).forNewRollupIDs x 0).map (fun m => (m.tombstoned, m.pipelines.map (·.aggID))) =
      [(false, [4]), (true, [])] ∧
    entriesFor (forwardMatch m3Env exClash exID 6 30).forNewRollupIDs x = 2 := by
  decide +kernel

end Verif.Active
