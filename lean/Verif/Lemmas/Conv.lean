import Verif.Model.Pipeline
/- Generic lemmas about destination reuse, conversion loops and element-wise equality. -/
namespace Verif

theorem length_reuse (z : α) (b : List α) (n : Nat) : (reuse z b n).length = n := by
  unfold reuse; split <;> simp <;> omega

/-- Reference conversion of a list without any destination. -/
def mapOpt (g : σ → Option τ) : List σ → Option (List τ)
  | [] => some []
  | s :: ss => match g s with
    | none => none
    | some t => match mapOpt g ss with
      | none => none
      | some ts => some (t :: ts)

theorem convLoop_eq_mapOpt (conv : δ → σ → Option δ) (g : σ → Option δ)
    (h : ∀ d s, conv d s = g s) : ∀ (ds : List δ) (ss : List σ), ds.length = ss.length →
    convLoop conv ds ss = mapOpt g ss
  | [], [], _ => rfl
  | [], _ :: _, hl => by simp at hl
  | _ :: _, [], hl => by simp at hl
  | d :: ds, s :: ss, hl => by
    have := convLoop_eq_mapOpt conv g h ds ss (by simpa using hl)
    simp only [convLoop, mapOpt, h, this]
    cases g s with
    | none => rfl
    | some _ => cases mapOpt g ss <;> rfl

theorem convLoop_reuse (conv : δ → σ → Option δ) (g : σ → Option δ) (z : δ)
    (h : ∀ d s, conv d s = g s) (b : List δ) (ss : List σ) :
    convLoop conv (reuse z b ss.length) ss = mapOpt g ss :=
  convLoop_eq_mapOpt conv g h _ _ (length_reuse ..)

theorem mapOpt_eq_some_iff (g : σ → Option τ) : ∀ (ss : List σ) (ts : List τ),
    mapOpt g ss = some ts ↔ ss.map g = ts.map some
  | [], ts => by
    cases ts <;> simp [mapOpt]
  | s :: ss, ts => by
    cases ts with
    | nil => simp only [mapOpt]; cases g s <;> simp; cases mapOpt g ss <;> simp
    | cons t ts =>
      have ih := mapOpt_eq_some_iff g ss ts
      simp only [mapOpt, List.map_cons, List.cons.injEq]
      cases hg : g s with
      | none => simp
      | some t' =>
        cases hm : mapOpt g ss with
        | none =>
          rw [hm] at ih
          simp only [reduceCtorEq, false_iff] at ih
          simp [ih]
        | some ts' =>
          rw [hm] at ih
          simp only [Option.some.injEq, List.cons.injEq]
          simp only [Option.some.injEq] at ih
          rw [ih]

theorem mapOpt_eq_none_iff (g : σ → Option τ) : ∀ (ss : List σ),
    mapOpt g ss = none ↔ ∃ s ∈ ss, g s = none
  | [] => by simp [mapOpt]
  | s :: ss => by
    have ih := mapOpt_eq_none_iff g ss
    simp only [mapOpt, List.mem_cons, exists_eq_or_imp]
    cases hg : g s with
    | none => simp
    | some t =>
      cases hm : mapOpt g ss with
      | none => rw [hm] at ih; simpa using ih
      | some ts => rw [hm] at ih; simpa using ih

theorem mapOpt_congr (g g' : σ → Option τ) (ss : List σ) (h : ∀ s ∈ ss, g s = g' s) :
    mapOpt g ss = mapOpt g' ss := by
  induction ss with
  | nil => rfl
  | cons s ss ih =>
    simp only [mapOpt, h s (by simp), ih (fun t ht => h t (by simp [ht]))]

/-- Round trip of lists from round trip of elements, up to a normal form. -/
theorem mapOpt_roundtrip (g : σ → Option τ) (h : τ → Option σ) (norm : σ → σ) :
    ∀ (ss : List σ) (ts : List τ), (∀ s ∈ ss, ∀ t, g s = some t → h t = some (norm s)) →
    mapOpt g ss = some ts → mapOpt h ts = some (ss.map norm)
  | [], ts, _, hm => by simp [mapOpt] at hm; subst hm; rfl
  | s :: ss, ts, hr, hm => by
    simp only [mapOpt] at hm
    cases hg : g s with
    | none => simp [hg] at hm
    | some t =>
      cases hs : mapOpt g ss with
      | none => simp [hg, hs] at hm
      | some ts' =>
        simp only [hg, hs, Option.some.injEq] at hm
        subst hm
        have h1 := hr s (by simp) t hg
        have h2 := mapOpt_roundtrip g h norm ss ts' (fun s hs => hr s (by simp [hs])) hs
        simp [mapOpt, h1, h2]

theorem listEqualBy_go_map (eq : α → α → Bool) (f : α → α) : ∀ (l : List α),
    (∀ a ∈ l, eq a (f a) = true) → listEqualBy.go eq l (l.map f) = true
  | [], _ => rfl
  | a :: l, h => by
    simp [listEqualBy.go, h a (by simp), listEqualBy_go_map eq f l (fun b hb => h b (by simp [hb]))]

theorem listEqualBy_map (eq : α → α → Bool) (f : α → α) (l : List α)
    (h : ∀ a ∈ l, eq a (f a) = true) : listEqualBy eq l (l.map f) = true := by
  simp [listEqualBy, listEqualBy_go_map eq f l h]

theorem listEqualBy_go_iff (eq : α → α → Bool) : ∀ (a b : List α), a.length = b.length →
    (listEqualBy.go eq a b = true ↔ ∀ i (h₁ : i < a.length) (h₂ : i < b.length), eq a[i] b[i] = true)
  | [], [], _ => by simp [listEqualBy.go]
  | [], _ :: _, h => by simp at h
  | _ :: _, [], h => by simp at h
  | x :: xs, y :: ys, h => by
    have ih := listEqualBy_go_iff eq xs ys (by simpa using h)
    simp only [listEqualBy.go]
    cases hxy : eq x y with
    | false =>
      simp only [Bool.not_false, if_true, Bool.false_eq_true, false_iff]
      intro hc
      have := hc 0 (by simp) (by simp)
      simp [hxy] at this
    | true =>
      simp only [Bool.not_true, Bool.false_eq_true, if_false, ih]
      constructor
      · intro hi i h₁ h₂
        cases i with
        | zero => simpa using hxy
        | succ i => simpa using hi i (by simpa using h₁) (by simpa using h₂)
      · intro hi i h₁ h₂
        have := hi (i + 1) (by simpa using h₁) (by simpa using h₂)
        simpa using this

theorem listEqualBy_iff (eq : α → α → Bool) (a b : List α) :
    listEqualBy eq a b = true ↔ a.length = b.length ∧
      ∀ i (h₁ : i < a.length) (h₂ : i < b.length), eq a[i] b[i] = true := by
  unfold listEqualBy
  by_cases h : a.length = b.length
  · simp [h, listEqualBy_go_iff eq a b h]
  · simp [h]

theorem listEqualBy_refl (eq : α → α → Bool) (h : ∀ a, eq a a = true) (l : List α) :
    listEqualBy eq l l = true := by
  rw [listEqualBy_iff]; exact ⟨rfl, fun _ _ _ => h _⟩

theorem listEqualBy_symm (eq : α → α → Bool) (h : ∀ a b, eq a b = true → eq b a = true)
    (a b : List α) (hab : listEqualBy eq a b = true) : listEqualBy eq b a = true := by
  rw [listEqualBy_iff] at *
  exact ⟨hab.1.symm, fun i h₁ h₂ => h _ _ (hab.2 i h₂ h₁)⟩

theorem listEqualBy_trans (eq : α → α → Bool)
    (h : ∀ a b c, eq a b = true → eq b c = true → eq a c = true)
    (a b c : List α) (hab : listEqualBy eq a b = true) (hbc : listEqualBy eq b c = true) :
    listEqualBy eq a c = true := by
  rw [listEqualBy_iff] at *
  refine ⟨hab.1.trans hbc.1, fun i h₁ h₂ => ?_⟩
  have hb : i < b.length := by omega
  exact h _ _ _ (hab.2 i h₁ hb) (hbc.2 i hb h₂)

end Verif
