/-
Shared vocabulary of the model: byte strings, `strings.Split`/`strings.Join` on a one-byte
separator, Go's lexicographic byte-string order, and a structural (hence kernel-computable) sort.
-/
namespace Verif

/-- Go `string` / `[]byte` contents. -/
abbrev Bytes := List UInt8

/-- ASCII literal as bytes. -/
def bs (s : String) : Bytes := s.toList.map (fun c => UInt8.ofNat c.toNat)

/-- `strings.Split(s, sep)` for a one-byte separator (Go standard library). -/
def splitOn (sep : UInt8) : Bytes → List Bytes
  | [] => [[]]
  | c :: cs =>
    if c = sep then [] :: splitOn sep cs
    else match splitOn sep cs with
      | [] => [[c]]
      | h :: t => (c :: h) :: t

/-- `strings.Join(parts, sep)` for a one-byte separator (Go standard library). -/
def joinWith (sep : UInt8) : List Bytes → Bytes
  | [] => []
  | [x] => x
  | x :: y :: ys => x ++ sep :: joinWith sep (y :: ys)

theorem splitOn_ne_nil (sep : UInt8) (s : Bytes) : splitOn sep s ≠ [] := by
  cases s with
  | nil => simp [splitOn]
  | cons c cs =>
    simp only [splitOn]
    split
    · simp
    · split <;> simp

theorem splitOn_of_not_mem (sep : UInt8) : ∀ (s : Bytes), sep ∉ s → splitOn sep s = [s]
  | [], _ => rfl
  | c :: cs, h => by
    have hc : c ≠ sep := fun e => h (by simp [e])
    have := splitOn_of_not_mem sep cs (fun hm => h (by simp [hm]))
    simp [splitOn, hc, this]

theorem splitOn_append (sep : UInt8) : ∀ (a b : Bytes), sep ∉ a →
    splitOn sep (a ++ sep :: b) = a :: splitOn sep b
  | [], b, _ => by simp [splitOn]
  | c :: cs, b, h => by
    have hc : c ≠ sep := fun e => h (by simp [e])
    have ih := splitOn_append sep cs b (fun hm => h (by simp [hm]))
    simp [splitOn, hc, ih]

theorem splitOn_joinWith (sep : UInt8) : ∀ (ps : List Bytes), ps ≠ [] → (∀ p ∈ ps, sep ∉ p) →
    splitOn sep (joinWith sep ps) = ps
  | [], h, _ => absurd rfl h
  | [x], _, h => by simp only [joinWith]; exact splitOn_of_not_mem sep x (h x (by simp))
  | x :: y :: ys, _, h => by
    simp only [joinWith]
    rw [splitOn_append sep x _ (h x (by simp)),
      splitOn_joinWith sep (y :: ys) (by simp) (fun p hp => h p (List.mem_cons_of_mem _ hp))]

theorem joinWith_splitOn (sep : UInt8) : ∀ (s : Bytes), joinWith sep (splitOn sep s) = s
  | [] => rfl
  | c :: cs => by
    have ih := joinWith_splitOn sep cs
    simp only [splitOn]
    split
    · rename_i hc
      subst hc
      cases hs : splitOn c cs with
      | nil => exact absurd hs (splitOn_ne_nil _ _)
      | cons h t => rw [hs] at ih; simp [joinWith, ih]
    · cases hs : splitOn sep cs with
      | nil => exact absurd hs (splitOn_ne_nil _ _)
      | cons h t =>
        rw [hs] at ih
        cases t with
        | nil => simp [joinWith] at ih ⊢; exact ih
        | cons h2 t2 => simp [joinWith] at ih ⊢; exact ih

theorem not_mem_of_mem_splitOn (sep : UInt8) : ∀ (s : Bytes), ∀ p ∈ splitOn sep s, sep ∉ p
  | [], p, hp => by simp [splitOn] at hp; simp [hp]
  | c :: cs, p, hp => by
    have ih := not_mem_of_mem_splitOn sep cs
    simp only [splitOn] at hp
    split at hp
    · rcases List.mem_cons.mp hp with rfl | hp
      · simp
      · exact ih p hp
    · rename_i hc
      cases hs : splitOn sep cs with
      | nil => exact absurd hs (splitOn_ne_nil _ _)
      | cons h t =>
        rw [hs] at hp ih
        rcases List.mem_cons.mp hp with rfl | hp
        · intro hm
          rcases List.mem_cons.mp hm with e | hm
          · exact hc e.symm
          · exact ih h (by simp) hm
        · exact ih p (List.mem_cons_of_mem _ hp)

theorem mem_of_mem_splitOn (sep : UInt8) : ∀ (s : Bytes), ∀ p ∈ splitOn sep s, ∀ c ∈ p, c ∈ s
  | [], p, hp, c, hc => by simp [splitOn] at hp; simp [hp] at hc
  | d :: cs, p, hp, c, hc => by
    have ih := mem_of_mem_splitOn sep cs
    simp only [splitOn] at hp
    split at hp
    · rcases List.mem_cons.mp hp with rfl | hp
      · simp at hc
      · exact List.mem_cons_of_mem _ (ih p hp c hc)
    · cases hs : splitOn sep cs with
      | nil => exact absurd hs (splitOn_ne_nil _ _)
      | cons h t =>
        rw [hs] at hp ih
        rcases List.mem_cons.mp hp with rfl | hp
        · rcases List.mem_cons.mp hc with rfl | hc
          · simp
          · exact List.mem_cons_of_mem _ (ih h (by simp) c hc)
        · exact List.mem_cons_of_mem _ (ih p (List.mem_cons_of_mem _ hp) c hc)

/-! ### Sorting

Go's `sort.Sort` is unstable in general; the model uses insertion sort.  Every use below is either
on a strict total order that agrees with equality (so the sorted result is unique) or is stated
explicitly as a simplification. -/

/-- Insert before the first element that is not smaller. -/
def insertBy (lt : α → α → Bool) (x : α) : List α → List α
  | [] => [x]
  | y :: ys => if lt y x then y :: insertBy lt x ys else x :: y :: ys

/-- Sort by a Go-style `Less` function. -/
def sortBy (lt : α → α → Bool) : List α → List α
  | [] => []
  | x :: xs => insertBy lt x (sortBy lt xs)

/-- A `Less` function that is a strict total order agreeing with equality. -/
structure StrictTotal (lt : α → α → Bool) : Prop where
  irrefl : ∀ a, lt a a = false
  trans : ∀ a b c, lt a b = true → lt b c = true → lt a c = true
  tri : ∀ a b, lt a b = true ∨ a = b ∨ lt b a = true

theorem insertBy_perm (lt : α → α → Bool) (x : α) : ∀ l, (insertBy lt x l).Perm (x :: l)
  | [] => List.Perm.refl _
  | y :: ys => by
    simp only [insertBy]
    split
    · exact ((insertBy_perm lt x ys).cons y).trans (List.Perm.swap x y ys)
    · exact List.Perm.refl _

theorem sortBy_perm (lt : α → α → Bool) : ∀ l, (sortBy lt l).Perm l
  | [] => List.Perm.refl _
  | x :: xs => (insertBy_perm lt x _).trans ((sortBy_perm lt xs).cons x)

theorem mem_sortBy (lt : α → α → Bool) {l : List α} {a : α} : a ∈ sortBy lt l ↔ a ∈ l :=
  (sortBy_perm lt l).mem_iff

theorem length_sortBy (lt : α → α → Bool) (l : List α) : (sortBy lt l).length = l.length :=
  (sortBy_perm lt l).length_eq

theorem StrictTotal.asymm {lt : α → α → Bool} (h : StrictTotal lt) {a b : α}
    (hab : lt a b = true) : lt b a = false := by
  cases hba : lt b a with
  | false => rfl
  | true => have := h.trans a b a hab hba; rw [h.irrefl] at this; cases this

/-- For a strict total order, "not smaller" is transitive. -/
theorem StrictTotal.le_trans {lt : α → α → Bool} (h : StrictTotal lt) {a b c : α}
    (hab : lt b a = false) (hbc : lt c b = false) : lt c a = false := by
  cases hca : lt c a with
  | false => rfl
  | true =>
    rcases h.tri b c with hl | he | hg
    · have := h.trans b c a hl hca; rw [hab] at this; cases this
    · subst he; rw [hab] at hca; cases hca
    · rw [hbc] at hg; cases hg

theorem insertBy_sorted {lt : α → α → Bool} (h : StrictTotal lt) (x : α) :
    ∀ l, l.Pairwise (fun a b => lt b a = false) →
      (insertBy lt x l).Pairwise (fun a b => lt b a = false)
  | [], _ => by simp [insertBy]
  | y :: ys, hl => by
    rw [List.pairwise_cons] at hl
    simp only [insertBy]
    split
    · rename_i hyx
      rw [List.pairwise_cons]
      refine ⟨?_, insertBy_sorted h x ys hl.2⟩
      intro b hb
      rcases List.mem_cons.mp ((insertBy_perm lt x ys).mem_iff.mp hb) with rfl | hb
      · exact h.asymm hyx
      · exact hl.1 b hb
    · rename_i hyx
      have hyx : lt y x = false := by simpa using hyx
      rw [List.pairwise_cons]
      refine ⟨?_, List.pairwise_cons.mpr hl⟩
      intro b hb
      rcases List.mem_cons.mp hb with rfl | hb
      · exact hyx
      · exact h.le_trans hyx (hl.1 b hb)

theorem sortBy_sorted {lt : α → α → Bool} (h : StrictTotal lt) :
    ∀ l, (sortBy lt l).Pairwise (fun a b => lt b a = false)
  | [] => List.Pairwise.nil
  | x :: xs => insertBy_sorted h x _ (sortBy_sorted h xs)

/-- Sorting is canonical: equal results exactly for permutations of each other. -/
theorem sortBy_eq_iff_perm {lt : α → α → Bool} (h : StrictTotal lt) (l₁ l₂ : List α) :
    sortBy lt l₁ = sortBy lt l₂ ↔ l₁.Perm l₂ := by
  constructor
  · intro e
    have := (sortBy_perm lt l₁).symm.trans (e ▸ List.Perm.refl _ : (sortBy lt l₁).Perm (sortBy lt l₂))
    exact this.trans (sortBy_perm lt l₂)
  · intro p
    have hp : (sortBy lt l₁).Perm (sortBy lt l₂) :=
      (sortBy_perm lt l₁).trans (p.trans (sortBy_perm lt l₂).symm)
    refine hp.eq_of_pairwise ?_ (sortBy_sorted h l₁) (sortBy_sorted h l₂)
    intro a b _ _ h1 h2
    rcases h.tri a b with hl | he | hg
    · rw [h2] at hl; cases hl
    · exact he
    · rw [h1] at hg; cases hg

/-- A list already sorted is unchanged by sorting. -/
theorem sortBy_of_sorted {lt : α → α → Bool} :
    ∀ l, l.Pairwise (fun a b => lt b a = false) → sortBy lt l = l
  | [], _ => rfl
  | x :: xs, hl => by
    rw [List.pairwise_cons] at hl
    simp only [sortBy, sortBy_of_sorted xs hl.2]
    cases xs with
    | nil => rfl
    | cons y ys => simp [insertBy, hl.1 y (by simp)]

theorem sortBy_idem {lt : α → α → Bool} (h : StrictTotal lt) (l : List α) :
    sortBy lt (sortBy lt l) = sortBy lt l :=
  sortBy_of_sorted _ (sortBy_sorted h l)

theorem filterMap_congr' {α β : Type} {f g : α → Option β} : ∀ {l : List α}, (∀ a ∈ l, f a = g a) → l.filterMap f = l.filterMap g
  | [], _ => rfl
  | a :: l, h => by
    rw [List.filterMap_cons, List.filterMap_cons, h a (by simp), filterMap_congr' (fun b hb => h b (by simp [hb]))]

theorem inj_of_nodup_map {α β : Type} (f : α → β) : ∀ (l : List α), (l.map f).Nodup → ∀ a b, a ∈ l → b ∈ l → f a = f b → a = b
  | [], _, a, b, ha, _, _ => by simp at ha
  | x :: xs, h, a, b, ha, hb, he => by
    rw [List.map_cons, List.nodup_cons] at h
    rcases List.mem_cons.mp ha with ha' | ha' <;> rcases List.mem_cons.mp hb with hb' | hb'
    · rw [ha', hb']
    · exact absurd (List.mem_map.mpr ⟨b, hb', by rw [← he, ha']⟩) h.1
    · exact absurd (List.mem_map.mpr ⟨a, ha', by rw [he, hb']⟩) h.1
    · exact inj_of_nodup_map f xs h.2 a b ha' hb' he

theorem insertBy_map (lt : β → β → Bool) (f : α → β) (x : α) : ∀ l,
    insertBy lt (f x) (l.map f) = (insertBy (fun a b => lt (f a) (f b)) x l).map f
  | [] => rfl
  | y :: ys => by
    simp only [List.map_cons, insertBy]
    by_cases h : lt (f y) (f x) = true
    · rw [if_pos h, if_pos h, insertBy_map lt f x ys]; rfl
    · rw [if_neg h, if_neg h]; rfl

theorem sortBy_map (lt : β → β → Bool) (f : α → β) : ∀ l,
    sortBy lt (l.map f) = (sortBy (fun a b => lt (f a) (f b)) l).map f
  | [] => rfl
  | x :: xs => by simp only [List.map_cons, sortBy, sortBy_map lt f xs, insertBy_map]

/-- Sorting by a key: the keys of the result are in order. -/
theorem sortByKey_sorted {α β : Type} {lt : β → β → Bool} (h : StrictTotal lt) (k : α → β) (l : List α) :
    (sortBy (fun a b => lt (k a) (k b)) l).Pairwise (fun a b => lt (k b) (k a) = false) := by
  have := sortBy_sorted h (l.map k)
  rw [sortBy_map, List.pairwise_map] at this
  exact this

/-- With distinct keys the order is strict. -/
theorem sortByKey_strict {α β : Type} {lt : β → β → Bool} (h : StrictTotal lt) (k : α → β) (l : List α)
    (hn : (l.map k).Nodup) :
    (sortBy (fun a b => lt (k a) (k b)) l).Pairwise (fun a b => lt (k a) (k b) = true) := by
  have h1 := sortByKey_sorted h k l
  have h2 : ((sortBy (fun a b => lt (k a) (k b)) l).map k).Nodup :=
    (((sortBy_perm _ l).map k).nodup_iff).mpr hn
  rw [List.nodup_iff_pairwise_ne, List.pairwise_map] at h2
  refine (h1.and h2).imp ?_
  rintro a b ⟨ha, hb⟩
  rcases h.tri (k a) (k b) with hl | he | hg
  · exact hl
  · exact absurd he hb
  · rw [ha] at hg; cases hg

/-- With distinct keys the result does not depend on the order of the input. -/
theorem sortByKey_perm {α β : Type} {lt : β → β → Bool} (h : StrictTotal lt) (k : α → β) (l₁ l₂ : List α)
    (hn : (l₁.map k).Nodup) (p : l₁.Perm l₂) :
    sortBy (fun a b => lt (k a) (k b)) l₁ = sortBy (fun a b => lt (k a) (k b)) l₂ := by
  have hp := (sortBy_perm (fun a b => lt (k a) (k b)) l₁).trans
    (p.trans (sortBy_perm (fun a b => lt (k a) (k b)) l₂).symm)
  refine hp.eq_of_pairwise ?_ (sortByKey_strict h k l₁ hn)
    (sortByKey_strict h k l₂ (((p.map k).nodup_iff).mp hn))
  intro a b _ _ h1 h2
  rw [h.asymm h1] at h2
  cases h2

/-! ### Byte-string order (`bytes.Compare(a, b) < 0`, Go string `<`) -/

def bytesLt : Bytes → Bytes → Bool
  | [], [] => false
  | [], _ :: _ => true
  | _ :: _, [] => false
  | a :: as, b :: bs => if a < b then true else if a = b then bytesLt as bs else false

theorem bytesLt_irrefl : ∀ a, bytesLt a a = false
  | [] => rfl
  | a :: as => by simp [bytesLt, bytesLt_irrefl as]

theorem bytesLt_trans : ∀ a b c, bytesLt a b = true → bytesLt b c = true → bytesLt a c = true
  | [], [], _, h1, _ => by simp [bytesLt] at h1
  | [], _ :: _, [], _, h2 => by simp [bytesLt] at h2
  | [], _ :: _, _ :: _, _, _ => rfl
  | _ :: _, [], _, h1, _ => by simp [bytesLt] at h1
  | _ :: _, _ :: _, [], _, h2 => by simp [bytesLt] at h2
  | a :: as, b :: bs, c :: cs, h1, h2 => by
    have ih := bytesLt_trans as bs cs
    simp only [bytesLt] at h1 h2 ⊢
    by_cases hab : a < b
    · by_cases hbc : b < c
      · simp [UInt8.lt_trans hab hbc]
      · simp only [hbc, if_false] at h2
        split at h2
        · rename_i e; subst e; simp [hab]
        · cases h2
    · simp only [hab, if_false] at h1
      split at h1
      · rename_i e; subst e
        by_cases hbc : a < c
        · simp [hbc]
        · simp only [hbc, if_false] at h2 ⊢
          split at h2
          · rename_i e; subst e; simp [ih h1 h2]
          · cases h2
      · cases h1

theorem bytesLt_tri : ∀ a b, bytesLt a b = true ∨ a = b ∨ bytesLt b a = true
  | [], [] => by simp
  | [], _ :: _ => by simp [bytesLt]
  | _ :: _, [] => by simp [bytesLt]
  | a :: as, b :: bs => by
    have ih := bytesLt_tri as bs
    simp only [bytesLt]
    by_cases hab : a < b
    · simp [hab]
    · by_cases hba : b < a
      · simp [hba]
      · have : a = b := UInt8.le_antisymm (UInt8.not_lt.mp hba) (UInt8.not_lt.mp hab)
        subst this
        simpa using ih

theorem bytesLt_strictTotal : StrictTotal bytesLt :=
  ⟨bytesLt_irrefl, bytesLt_trans, bytesLt_tri⟩

end Verif
