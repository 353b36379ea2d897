import Verif.Model.Text
import Verif.Props.Filter
import Verif.Props.PipelineText
/-
C111, filters: filters with the same text match the same values.  It does not hold for bracket sets (`C111_filter_violation`) nor for
patterns and tag names with the punctuation of the text; it holds for all others.
-/
namespace Verif.Text
open Verif.Policy Verif.Flt Verif.TagsFlt Verif.Spec Verif.Spec.Flt

/-! ### Reading the texts of filters -/

/-- What follows a word. -/
def strip : Bytes → Bytes → Option Bytes
  | [], s => some s
  | _ :: _, [] => none
  | w :: ws, c :: cs => if w = c then strip ws cs else none

theorem strip_append : ∀ (w s : Bytes), strip w (w ++ s) = some s
  | [], s => by cases s <;> rfl
  | w :: ws, s => by simp [strip, strip_append ws s]

theorem strip_none {w s : Bytes} (h : ¬ w <+: s) : strip w s = none := by
  induction w generalizing s with
  | nil => exact absurd List.nil_prefix h
  | cons a w ih =>
    cases s with
    | nil => rfl
    | cons c s =>
      unfold strip
      split
      · next e =>
        subst e
        exact ih fun hp => h (List.cons_prefix_cons.mpr ⟨rfl, hp⟩)
      · rfl

/-- A quoted text, up to the quote and the parenthesis. -/
def readQuoted (s : Bytes) : Option (Bytes × Bytes) :=
  (cutAt 34 s).bind fun r => (strip (bs ")") r.2).map fun t => (r.1, t)

theorem cutAt_at {c : UInt8} : ∀ {a b : Bytes}, c ∉ a → cutAt c (a ++ c :: b) = some (a, b)
  | [], b, _ => by simp [cutAt]
  | d :: a, b, h => by
    have h1 : d ≠ c := fun e => h (e ▸ List.mem_cons_self)
    simp [cutAt, h1, cutAt_at (a := a) (b := b) fun m => h (List.mem_cons_of_mem _ m)]

theorem readQuoted_eq {p x : Bytes} (h : (34 : UInt8) ∉ p) : readQuoted (p ++ (bs "\")" ++ x)) = some (p, x) := by
  have e : p ++ (bs "\")" ++ x) = p ++ 34 :: (bs ")" ++ x) := by simp [bs]
  rw [e, readQuoted, cutAt_at h]
  show Option.map _ (strip (bs ")") (bs ")" ++ x)) = _
  rw [strip_append]
  rfl

/-- One part of a chain. -/
def readPart (bw : Bool) (s : Bytes) : Option (ChainFilter × Bytes) :=
  match strip (bs "Equals(\"") s with
  | some r => (readQuoted r).map fun q => (⟨.equality q.1, bw⟩, q.2)
  | none => match strip (bs "AnyChar") s with
    | some r => some (⟨.anyChar, bw⟩, r)
    | none => match strip (bs "Range(\"") s with
      | some r => (readQuoted r).map fun q => (⟨.multiCharSequence (splitOn 44 q.1), bw⟩, q.2)
      | none => none

/-- The parts that can be read. -/
def PlainPart (bw : Bool) (f : ChainFilter) : Prop :=
  f.backwards = bw ∧
  match f.kind with
  | .equality p => p ≠ [] ∧ (34 : UInt8) ∉ p
  | .anyChar => True
  | .multiCharSequence l => l ≠ [] ∧ ∀ a ∈ l, (44 : UInt8) ∉ a ∧ (34 : UInt8) ∉ a
  | _ => False

theorem joinText_comma : ∀ l : List Bytes, joinText [44] l = joinWith 44 l
  | [] => rfl
  | [_] => rfl
  | x :: y :: ys => by simp [joinText, joinWith, joinText_comma (y :: ys)]

theorem readPart_eq {bw : Bool} {f : ChainFilter} (h : PlainPart bw f) (x : Bytes) : readPart bw (f.string ++ x) = some (f, x) := by
  obtain ⟨k, b⟩ := f
  obtain ⟨rfl, h⟩ := h
  cases k with
  | equality p =>
    simp only [ChainFilter.string, List.append_assoc, readPart, strip_append, readQuoted_eq h.2, Option.map_some]
  | anyChar =>
    have : strip (bs "Equals(\"") (bs "AnyChar" ++ x) = none := rfl
    simp only [ChainFilter.string, readPart, strip_append, this]
  | singleRange => exact h.elim
  | singleCharSet => exact h.elim
  | multiCharSequence l =>
    have q : (34 : UInt8) ∉ joinText [44] l := by
      rw [joinText_comma]
      intro m
      rcases mem_joinWith m with e | ⟨a, ha, hb⟩
      · cases e
      · exact (h.2 a ha).2 hb
    have e1 : ∀ y, strip (bs "Equals(\"") (bs "Range(\"" ++ y) = none := fun _ => rfl
    have e2 : ∀ y, strip (bs "AnyChar") (bs "Range(\"" ++ y) = none := fun _ => rfl
    simp only [ChainFilter.string, List.append_assoc, readPart, strip_append, e1, e2]
    rw [readQuoted_eq q, joinText_comma]
    simp [splitOn_joinWith 44 l h.1 fun a ha => (h.2 a ha).1]

/-- The parts of a chain. -/
def readParts (bw : Bool) : Nat → Bytes → Option (List ChainFilter × Bytes)
  | 0, _ => none
  | n + 1, s => match readPart bw s with
    | none => none
    | some (f, r) => match strip (bs " then ") r with
      | none => some ([f], r)
      | some r' => (readParts bw n r').map fun q => (f :: q.1, q.2)

theorem readParts_eq {bw : Bool} : ∀ (fs : List ChainFilter) (n : Nat) (x : Bytes), fs ≠ [] → fs.length ≤ n → (∀ f ∈ fs, PlainPart bw f) →
    ¬ bs " then " <+: x → readParts bw n (joinText (bs " then ") (fs.map ChainFilter.string) ++ x) = some (fs, x)
  | [], _, _, h, _, _, _ => absurd rfl h
  | _ :: _, 0, _, _, h, _, _ => by simp at h
  | [f], n + 1, x, _, _, hp, hx => by
    simp [readParts, joinText, readPart_eq (hp f (by simp)), strip_none hx]
  | f :: g :: fs, n + 1, x, _, hn, hp, hx => by
    have ih := readParts_eq (g :: fs) n x (by simp) (by simpa using hn) (fun a ha => hp a (List.mem_cons_of_mem _ ha)) hx
    simp only [List.map_cons] at ih
    simp only [List.map_cons, joinText, List.append_assoc, readParts, readPart_eq (hp f (by simp)), strip_append]
    rw [ih]
    rfl

/-- The filters that can be read. -/
inductive PlainFilter : Filter → Prop where
  | allow : PlainFilter .allow
  | equality : PlainFilter (.equality [])
  | contains {p : Bytes} : (34 : UInt8) ∉ p → PlainFilter (.contains p)
  | negation {f : Filter} : PlainFilter f → PlainFilter (.negation f)
  | middle {fs : List ChainFilter} : fs ≠ [] → (∀ f ∈ fs, PlainPart false f) → PlainFilter (.chain fs .middle false)
  | start {fs : List ChainFilter} : fs ≠ [] → (∀ f ∈ fs, PlainPart false f) → PlainFilter (.chain fs .start false)
  | stop {fs : List ChainFilter} : fs ≠ [] → (∀ f ∈ fs, PlainPart true f) → PlainFilter (.chain fs .stop true)
  | around {fs gs : List ChainFilter} : fs ≠ [] → (∀ f ∈ fs, PlainPart false f) → gs ≠ [] → (∀ f ∈ gs, PlainPart true f) →
      PlainFilter (.multi [.chain fs .start false, .chain gs .stop true] .conjunction)

/-- A filter. -/
def readFilter : Nat → Bytes → Option (Filter × Bytes)
  | 0, _ => none
  | n + 1, s => match strip (bs "Not(") s with
    | some r => (readFilter n r).bind fun q => (strip (bs ")") q.2).map fun t => (.negation q.1, t)
    | none => match strip (bs "All") s with
      | some r => some (.allow, r)
      | none => match strip (bs "Contains(\"") s with
        | some r => (readQuoted r).map fun q => (.contains q.1, q.2)
        | none => match strip (bs "EndsWith(") s with
          | some r => (readParts true n r).bind fun q => (strip (bs ")") q.2).map fun t => (.chain q.1 .stop true, t)
          | none => match strip (bs "StartsWith(") s with
            | some r => (readParts false n r).bind fun q => (strip (bs ")") q.2).bind fun t => match strip (bs " && EndsWith(") t with
              | none => some (.chain q.1 .start false, t)
              | some t' => (readParts true n t').bind fun q' => (strip (bs ")") q'.2).map fun t'' =>
                  (.multi [.chain q.1 .start false, .chain q'.1 .stop true] .conjunction, t'')
            | none => match strip (bs "Equals(\"\")") s with
              | some r => some (.equality [], r)
              | none => (readParts false n s).map fun q => (.chain q.1 .middle false, q.2)

/-- What may follow a filter. -/
def Ends (x : Bytes) : Prop := ¬ bs " then " <+: x ∧ ¬ bs " && EndsWith(" <+: x

theorem ends_paren (x : Bytes) : Ends (bs ")" ++ x) := by
  constructor <;> rintro ⟨t, h⟩ <;> simp [bs] at h

theorem first_part {f : ChainFilter} (h : PlainPart false f) (x : Bytes) :
    strip (bs "Not(") (f.string ++ x) = none ∧ strip (bs "All") (f.string ++ x) = none ∧ strip (bs "Contains(\"") (f.string ++ x) = none ∧
    strip (bs "EndsWith(") (f.string ++ x) = none ∧ strip (bs "StartsWith(") (f.string ++ x) = none ∧
    strip (bs "Equals(\"\")") (f.string ++ x) = none := by
  obtain ⟨k, b⟩ := f
  obtain ⟨_, h⟩ := h
  cases k with
  | equality p =>
    obtain ⟨h1, h2⟩ := h
    refine ⟨rfl, rfl, rfl, rfl, rfl, ?_⟩
    cases p with
    | nil => exact absurd rfl h1
    | cons c p =>
      refine strip_none ?_
      rintro ⟨t, ht⟩
      have : c = 34 := by simp [ChainFilter.string, bs] at ht; exact ht.1.symm
      exact h2 (this ▸ List.mem_cons_self)
  | anyChar => exact ⟨rfl, rfl, rfl, rfl, rfl, rfl⟩
  | singleRange => exact h.elim
  | singleCharSet => exact h.elim
  | multiCharSequence l => exact ⟨rfl, rfl, rfl, rfl, rfl, rfl⟩

theorem readFilter_eq {f : Filter} (h : PlainFilter f) : ∃ n, ∀ m, n ≤ m → ∀ x, Ends x → readFilter m (f.string ++ x) = some (f, x) := by
  induction h with
  | allow => exact ⟨1, fun m hm x hx => by obtain ⟨m, rfl⟩ : ∃ k, m = k + 1 := ⟨m - 1, by omega⟩; rfl⟩
  | equality => exact ⟨1, fun m hm x hx => by obtain ⟨m, rfl⟩ : ∃ k, m = k + 1 := ⟨m - 1, by omega⟩; rfl⟩
  | @contains p hp =>
    refine ⟨1, fun m hm x hx => ?_⟩
    obtain ⟨m, rfl⟩ : ∃ k, m = k + 1 := ⟨m - 1, by omega⟩
    have e1 : ∀ y, strip (bs "Not(") (bs "Contains(\"" ++ y) = none := fun _ => rfl
    have e2 : ∀ y, strip (bs "All") (bs "Contains(\"" ++ y) = none := fun _ => rfl
    simp only [Filter.string, List.append_assoc, readFilter, e1, e2, strip_append, readQuoted_eq hp, Option.map_some]
  | @negation f _ ih =>
    obtain ⟨n, hn⟩ := ih
    refine ⟨n + 1, fun m hm x hx => ?_⟩
    obtain ⟨m, rfl⟩ : ∃ k, m = k + 1 := ⟨m - 1, by omega⟩
    simp only [Filter.string, List.append_assoc, readFilter, strip_append, hn m (by omega) _ (ends_paren x), Option.bind_some, Option.map_some]
  | @middle fs hne hp =>
    refine ⟨fs.length + 1, fun m hm x hx => ?_⟩
    obtain ⟨m, rfl⟩ : ∃ k, m = k + 1 := ⟨m - 1, by omega⟩
    have r := readParts_eq fs m x hne (by omega) hp hx.1
    obtain ⟨g, gs, rfl⟩ : ∃ g gs, fs = g :: gs := by cases fs with | nil => exact absurd rfl hne | cons g gs => exact ⟨g, gs, rfl⟩
    have e : ∃ y, joinText (bs " then ") ((g :: gs).map ChainFilter.string) ++ x = g.string ++ y := by
      cases gs with
      | nil => exact ⟨x, rfl⟩
      | cons k gs => exact ⟨_, by simp only [List.map_cons, joinText, List.append_assoc]; rfl⟩
    obtain ⟨y, hy⟩ := e
    obtain ⟨a1, a2, a3, a4, a5, a6⟩ := first_part (hp g (by simp)) y
    simp only [Filter.string, chainString, List.nil_append, List.append_nil, readFilter]
    rw [hy] at r ⊢
    simp only [a1, a2, a3, a4, a5, a6, r, Option.map_some]
  | @start fs hne hp =>
    refine ⟨fs.length + 1, fun m hm x hx => ?_⟩
    obtain ⟨m, rfl⟩ : ∃ k, m = k + 1 := ⟨m - 1, by omega⟩
    have r := readParts_eq fs m (bs ")" ++ x) hne (by omega) hp (ends_paren x).1
    have e1 : ∀ y, strip (bs "Not(") (bs "StartsWith(" ++ y) = none := fun _ => rfl
    have e2 : ∀ y, strip (bs "All") (bs "StartsWith(" ++ y) = none := fun _ => rfl
    have e3 : ∀ y, strip (bs "Contains(\"") (bs "StartsWith(" ++ y) = none := fun _ => rfl
    have e4 : ∀ y, strip (bs "EndsWith(") (bs "StartsWith(" ++ y) = none := fun _ => rfl
    simp only [Filter.string, chainString, List.append_assoc, readFilter, e1, e2, e3, e4, strip_append, r, Option.bind_some, strip_none hx.2]
  | @stop fs hne hp =>
    refine ⟨fs.length + 1, fun m hm x hx => ?_⟩
    obtain ⟨m, rfl⟩ : ∃ k, m = k + 1 := ⟨m - 1, by omega⟩
    have r := readParts_eq fs m (bs ")" ++ x) hne (by omega) hp (ends_paren x).1
    have e1 : ∀ y, strip (bs "Not(") (bs "EndsWith(" ++ y) = none := fun _ => rfl
    have e2 : ∀ y, strip (bs "All") (bs "EndsWith(" ++ y) = none := fun _ => rfl
    have e3 : ∀ y, strip (bs "Contains(\"") (bs "EndsWith(" ++ y) = none := fun _ => rfl
    simp only [Filter.string, chainString, List.append_assoc, readFilter, e1, e2, e3, strip_append, r, Option.bind_some, Option.map_some]
  | @around fs gs hne hp hne' hp' =>
    refine ⟨fs.length + gs.length + 1, fun m hm x hx => ?_⟩
    obtain ⟨m, rfl⟩ : ∃ k, m = k + 1 := ⟨m - 1, by omega⟩
    have e1 : ∀ y, strip (bs "Not(") (bs "StartsWith(" ++ y) = none := fun _ => rfl
    have e2 : ∀ y, strip (bs "All") (bs "StartsWith(" ++ y) = none := fun _ => rfl
    have e3 : ∀ y, strip (bs "Contains(\"") (bs "StartsWith(" ++ y) = none := fun _ => rfl
    have e4 : ∀ y, strip (bs "EndsWith(") (bs "StartsWith(" ++ y) = none := fun _ => rfl
    have e5 : ∀ y, bs " " ++ (LogicalOp.conjunction.string ++ (bs " " ++ (bs "EndsWith(" ++ y))) = bs " && EndsWith(" ++ y := fun _ => rfl
    simp only [Filter.string, filterStrings, joinText, chainString, List.append_assoc, e5, readFilter, e1, e2, e3, e4, strip_append]
    rw [readParts_eq fs m _ hne (by omega) hp (ends_paren _).1]
    simp only [Option.bind_some, strip_append]
    rw [readParts_eq gs m _ hne' (by omega) hp' (ends_paren _).1]
    simp only [Option.bind_some, strip_append, Option.map_some]

/-- Filters that can be read are determined by their texts. -/
theorem filter_unique {f g : Filter} (hf : PlainFilter f) (hg : PlainFilter g) {x y : Bytes} (hx : Ends x) (hy : Ends y)
    (h : f.string ++ x = g.string ++ y) : f = g ∧ x = y := by
  obtain ⟨n, hn⟩ := readFilter_eq hf
  obtain ⟨m, hm⟩ := readFilter_eq hg
  have a := hn (n + m) (by omega) x hx
  have b := hm (n + m) (by omega) y hy
  rw [h, b] at a
  simp only [Option.some.injEq, Prod.mk.injEq] at a
  exact ⟨a.1.symm, a.2.symm⟩

/-! ### The filters of plain patterns -/

/-- The pieces of patterns without brackets and quotes. -/
def PlainPiece (p : Piece) : Prop := p.WF ∧ (91 : UInt8) ∉ p.render ∧ (34 : UInt8) ∉ p.render

theorem plain_flush {bw : Bool} {run : Bytes} (h : (34 : UInt8) ∉ run) : ∀ f ∈ flushRun bw run, PlainPart bw f := by
  unfold flushRun
  split
  · simp
  · next hr =>
    intro f hf
    simp only [List.mem_singleton] at hf
    subst hf
    exact ⟨rfl, hr, h⟩

theorem plain_compile {bw : Bool} : ∀ (ps : List Piece) (run : Bytes), (∀ p ∈ ps, PlainPiece p) → (34 : UInt8) ∉ run →
    ∀ f ∈ compileWith bw run ps, PlainPart bw f
  | [], run, _, hr => plain_flush hr
  | .lit c :: ps, run, hp, hr => by
    refine plain_compile ps (run ++ [c]) (fun p h => hp p (List.mem_cons_of_mem _ h)) ?_
    have := (hp (.lit c) (by simp)).2.2
    simp only [List.mem_append, not_or]
    exact ⟨hr, this⟩
  | .any :: ps, run, hp, hr => by
    have ih := plain_compile (bw := bw) ps [] (fun p h => hp p (List.mem_cons_of_mem _ h)) (by simp)
    intro f hf
    simp only [compileWith, List.mem_append, List.mem_cons] at hf
    rcases hf with h | rfl | h
    · exact plain_flush hr f h
    · exact ⟨rfl, trivial⟩
    · exact ih f h
  | .chars neg cs :: ps, run, hp, hr => absurd (by simp [Piece.render]) (hp (.chars neg cs) (by simp)).2.1
  | .ranges neg rs :: ps, run, hp, hr => absurd (by simp [Piece.render]) (hp (.ranges neg rs) (by simp)).2.1
  | .alts l :: ps, run, hp, hr => by
    have ih := plain_compile (bw := bw) ps [] (fun p h => hp p (List.mem_cons_of_mem _ h)) (by simp)
    obtain ⟨w, _, q⟩ := hp (.alts l) (by simp)
    intro f hf
    simp only [compileWith, List.mem_append, List.mem_cons] at hf
    rcases hf with h | rfl | h
    · exact plain_flush hr f h
    · refine ⟨rfl, w.1, fun a ha => ⟨(w.2.2 a ha).2.1, fun m => q ?_⟩⟩
      simp only [Piece.render, List.cons_append, List.mem_cons, List.mem_append]
      refine .inr (.inl ?_)
      have : ∀ (l : List Bytes), a ∈ l → (34 : UInt8) ∈ joinWith 44 l := by
        intro l
        induction l with
        | nil => simp
        | cons b l ih =>
          intro ha
          cases l with
          | nil => simp only [List.mem_singleton] at ha; subst ha; exact m
          | cons c l =>
            simp only [joinWith, List.mem_append, List.mem_cons]
            rcases List.mem_cons.mp ha with rfl | ha
            · exact .inl m
            · exact .inr (.inr (ih ha))
      exact this l ha
    · exact ih f h

theorem compile_ne {bw : Bool} : ∀ (ps : List Piece) (run : Bytes), ps ≠ [] ∨ run ≠ [] → compileWith bw run ps ≠ []
  | [], run, h => by
    have : run ≠ [] := h.resolve_left (by simp)
    simp [compileWith, flushRun, this]
  | .lit c :: ps, run, _ => compile_ne ps (run ++ [c]) (.inr (by simp))
  | .any :: ps, run, _ => by simp [compileWith]
  | .chars .. :: ps, run, _ => by simp [compileWith]
  | .ranges .. :: ps, run, _ => by simp [compileWith]
  | .alts _ :: ps, run, _ => by simp [compileWith]

theorem pieces_plain {ps : List Piece} (hw : ∀ p ∈ ps, p.WF) (h1 : (91 : UInt8) ∉ renderAll ps) (h2 : (34 : UInt8) ∉ renderAll ps) :
    ∀ p ∈ ps, PlainPiece p := by
  intro p hp
  have sub : ∀ c, c ∈ p.render → c ∈ renderAll ps := fun c hc => by
    simp only [renderAll, List.mem_flatten, List.mem_map]
    exact ⟨_, ⟨p, hp, rfl⟩, hc⟩
  exact ⟨hw p hp, fun m => h1 (sub _ m), fun m => h2 (sub _ m)⟩

theorem wildcard_plain {p : Bytes} {f : Filter} (hp : p ≠ []) (h1 : (91 : UInt8) ∉ p) (h2 : (34 : UInt8) ∉ p)
    (h : newWildcardFilter p = .ok f) : PlainFilter f := by
  obtain ⟨b, hw, rfl⟩ := newWildcard_inv p f h
  rw [newWildcard_render b hw] at h
  simp only [Out.ok.injEq] at h
  subst h
  have nil : (34 : UInt8) ∉ ([] : Bytes) := by simp
  cases b with
  | exact ps =>
    have ne : ps ≠ [] := fun e => hp (by simp [e, Body.render, renderAll])
    exact .middle (compile_ne ps [] (.inl ne)) (plain_compile ps [] (pieces_plain hw h1 h2) nil)
  | all => exact .allow
  | startsWith ps =>
    simp only [Body.render, List.mem_append, not_or] at h1 h2
    exact .start (compile_ne ps [] (.inl hw.1)) (plain_compile ps [] (pieces_plain hw.2 h1.1 h2.1) nil)
  | endsWith ps =>
    simp only [Body.render, List.mem_cons, not_or] at h1 h2
    exact .stop (compile_ne ps [] (.inl hw.1)) (plain_compile ps [] (pieces_plain hw.2 h1.2 h2.2) nil)
  | around ps qs =>
    obtain ⟨n1, n2, w1, w2⟩ := hw
    simp only [Body.render, List.mem_append, List.mem_cons, not_or] at h1 h2
    exact .around (compile_ne ps [] (.inl n1)) (plain_compile ps [] (pieces_plain w1 h1.1 h2.1) nil)
      (compile_ne qs [] (.inl n2)) (plain_compile qs [] (pieces_plain w2 h1.2.2 h2.2.2) nil)
  | contains l =>
    simp only [Body.render, List.cons_append, List.mem_cons, List.mem_append, not_or] at h2
    exact .contains h2.2.1

theorem newFilter_plain {p : Bytes} {f : Filter} (h1 : (91 : UInt8) ∉ p) (h2 : (34 : UInt8) ∉ p) (h : newFilter p = .ok f) : PlainFilter f := by
  cases p with
  | nil =>
    simp only [newFilter, List.length_nil, if_true, Out.ok.injEq] at h
    subst h
    exact .equality
  | cons c p =>
    have e0 : goIndex (c :: p) 0 = .ok c := rfl
    simp only [newFilter, List.length_cons, Nat.add_one_ne_zero, if_false, e0, Out.ok_bind] at h
    split at h
    · exact wildcard_plain (by simp) h1 h2 h
    · split at h
      · cases h
      · next hl =>
        have hl' : p ≠ [] := fun e => hl (by simp [e])
        rw [goSlice_of_le _ _ _ (by omega) (by simp)] at h
        simp only [Out.ok_bind] at h
        have e1 : (List.take (p.length + 1) (c :: p)).drop 1 = p := by simp
        rw [e1] at h
        cases hf : newWildcardFilter p with
        | ok g =>
          rw [hf] at h
          simp only [Out.ok_bind, Out.ok.injEq] at h
          subst h
          exact .negation (wildcard_plain hl' (fun m => h1 (List.mem_cons_of_mem _ m)) (fun m => h2 (List.mem_cons_of_mem _ m)) hf)
        | err => rw [hf] at h; cases h
        | panic => rw [hf] at h; cases h

theorem newValue_plain {v : FilterValue} {f : Filter} (h1 : PlainValue v) (h : newFilterFromFilterValue v = .ok f) : PlainFilter f := by
  unfold newFilterFromFilterValue at h
  cases hf : newFilter v.pattern with
  | ok g =>
    rw [hf] at h
    simp only [Out.ok_bind, Out.ok.injEq] at h
    have := newFilter_plain h1.1 h1.2 hf
    subst h
    split
    · exact .negation this
    · exact this
  | err => rw [hf] at h; cases h
  | panic => rw [hf] at h; cases h

/-- C111: filters with the same text match the same values, when their patterns have no brackets and no quotes. -/
theorem C111_filter_partial (a b : FilterValue) (f g : Filter) (ha : PlainValue a) (hb : PlainValue b)
    (hf : newFilterFromFilterValue a = .ok f) (hg : newFilterFromFilterValue b = .ok g) (h : f.string = g.string) :
    ∀ v, f.matchesVal v = g.matchesVal v := by
  have : f = g := (filter_unique (x := []) (y := []) (newValue_plain ha hf) (newValue_plain hb hg)
    (by constructor <;> rintro ⟨t, h⟩ <;> simp [bs] at h) (by constructor <;> rintro ⟨t, h⟩ <;> simp [bs] at h) (by simpa using h)).1
  rw [this]
  exact fun _ => rfl

/-- The text of the filter of a pattern. -/
def textOf (p : String) : Out Bytes := (newFilter (bs p)).bind fun f => .ok f.string

/-- Whether the filter of a pattern matches a value. -/
def hits (p v : String) : Out Bool := (newFilter (bs p)).bind fun f => f.matchesVal (bs v)

/-- C111: what the texts of the patterns of each kind are. -/
theorem C111_texts :
    textOf "" = .ok (bs "Equals(\"\")") ∧ textOf "foo" = .ok (bs "Equals(\"foo\")") ∧ textOf "*" = .ok (bs "All") ∧
    textOf "foo*" = .ok (bs "StartsWith(Equals(\"foo\"))") ∧ textOf "*foo" = .ok (bs "EndsWith(Equals(\"foo\"))") ∧
    textOf "*foo*" = .ok (bs "Contains(\"foo\")") ∧
    textOf "f?o*{b,c}" = .ok (bs "StartsWith(Equals(\"f\") then AnyChar then Equals(\"o\")) && EndsWith(Range(\"b,c\"))") ∧
    textOf "!f[a-zA-Z]" = .ok (bs "Not(Equals(\"f\") then Range(\"a-z || A-Z\"))") ∧
    textOf "[!ab]" = .ok (bs "Not(Range(\"ab\"))") ∧ textOf "[!a-b]" = .ok (bs "Not(Range(\"a-b\"))") := by decide +kernel

/-- C111: a set of characters has the text of a sequence of them, the complement of a set that of a negated pattern, and a pattern with
quotes can have the text of any chain. -/
theorem C111_filter_violation :
    (textOf "[ab]" = textOf "{ab}" ∧ hits "[ab]" "a" = .ok true ∧ hits "{ab}" "a" = .ok false) ∧
    (textOf "[!ab]" = textOf "![ab]" ∧ hits "[!ab]" "ccc" = .ok false ∧ hits "![ab]" "ccc" = .ok true) ∧
    (textOf "a\") then AnyChar then Equals(\"b" = textOf "a?b" ∧ hits "a?b" "axb" = .ok true ∧
      hits "a\") then AnyChar then Equals(\"b" "axb" = .ok false) := by decide +kernel

/-! ### Filters of tags -/

/-- The parts of the text: names with their filters. -/
def entries (key : Bytes) (f : TagsFilter) : List (Bytes × Filter) :=
  (match f.nameFilter with
    | none => []
    | some g => [(key, g)]) ++ f.tagFilters.map fun t => (t.name, t.valueFilter)

def entryText (e : Bytes × Filter) : Bytes := e.1 ++ 58 :: e.2.string

/-- What is written between the parts. -/
def sepText (op : LogicalOp) : Bytes := bs " " ++ op.string ++ bs " "

theorem tags_text (key : Bytes) (f : TagsFilter) : f.string key = joinText (sepText f.op) ((entries key f).map entryText) := by
  obtain ⟨nf, tfs, op⟩ := f
  have e : tfs.map TagFilter.string = (tfs.map fun t => (t.name, t.valueFilter)).map entryText := by
    rw [List.map_map]
    refine List.map_congr_left fun t _ => ?_
    simp [TagFilter.string, entryText, bs]
  cases nf with
  | none => simp [TagsFilter.string, entries, e, sepText]
  | some g =>
    cases tfs with
    | nil => simp [TagsFilter.string, entries, entryText, joinText, bs]
    | cons t tfs =>
      simp only [List.map_cons] at e
      simp [TagsFilter.string, entries, e, joinText, sepText, entryText, bs]

def PlainEntry (e : Bytes × Filter) : Prop := PlainName e.1 ∧ PlainFilter e.2

theorem prefix_name {w n z : Bytes} (h1 : (58 : UInt8) ∉ w) (h : w <+: n ++ 58 :: z) : w <+: n := by
  induction n generalizing w with
  | nil =>
    cases w with
    | nil => exact List.nil_prefix
    | cons a w =>
      have := (List.cons_prefix_cons.mp h).1
      exact absurd (this ▸ List.mem_cons_self) h1
  | cons c n ih =>
    cases w with
    | nil => exact List.nil_prefix
    | cons a w =>
      obtain ⟨h2, h3⟩ := List.cons_prefix_cons.mp h
      exact List.cons_prefix_cons.mpr ⟨h2, ih (fun m => h1 (List.mem_cons_of_mem _ m)) h3⟩

theorem ends_sep (op : LogicalOp) {n z : Bytes} (h : PlainName n) : Ends (sepText op ++ (n ++ 58 :: z)) := by
  cases op with
  | disjunction => constructor <;> rintro ⟨t, h⟩ <;> simp [bs, sepText, LogicalOp.string] at h
  | conjunction =>
    constructor
    · rintro ⟨t, h⟩
      simp [bs, sepText, LogicalOp.string] at h
    · intro hp
      have hp : bs "EndsWith(" <+: n ++ 58 :: z := by
        have e : bs " && EndsWith(" = sepText .conjunction ++ bs "EndsWith(" := rfl
        rw [e] at hp
        exact (List.prefix_append_right_inj _).mp hp
      have := (prefix_name (by decide) hp).subset
      exact h.2 (this (by decide))

theorem ends_nil : Ends [] := by constructor <;> rintro ⟨t, h⟩ <;> simp [bs] at h

theorem entries_unique (op : LogicalOp) : ∀ (l m : List (Bytes × Filter)), (∀ e ∈ l, PlainEntry e) → (∀ e ∈ m, PlainEntry e) →
    joinText (sepText op) (l.map entryText) = joinText (sepText op) (m.map entryText) → l = m := by
  have key : ∀ (a b : Bytes × Filter) (x y : Bytes), PlainEntry a → PlainEntry b → Ends x → Ends y →
      entryText a ++ x = entryText b ++ y → a = b ∧ x = y := by
    intro a b x y ha hb hx hy h
    unfold entryText at h
    simp only [List.append_assoc, List.cons_append] at h
    obtain ⟨h1, h⟩ := cut_unique ha.1.1 hb.1.1 h
    obtain ⟨h2, h⟩ := filter_unique ha.2 hb.2 hx hy h
    exact ⟨Prod.ext h1 h2, h⟩
  have ne : ∀ (a : Bytes × Filter) (x : Bytes), entryText a ++ x ≠ [] := fun a x => by simp [entryText]
  have next : ∀ (a : Bytes × Filter) (l : List (Bytes × Filter)), PlainEntry a →
      Ends (sepText op ++ joinText (sepText op) ((a :: l).map entryText)) := by
    intro a l ha
    cases l with
    | nil => exact ends_sep op ha.1
    | cons b l =>
      simp only [List.map_cons, joinText, entryText, List.append_assoc, List.cons_append]
      exact ends_sep op ha.1
  have sepNe : ∀ x, sepText op ++ x ≠ [] := fun x => by simp [sepText, bs]
  intro l
  induction l with
  | nil =>
    intro m _ _ h
    cases m with
    | nil => rfl
    | cons b m =>
      cases m with
      | nil => exact absurd (by simpa [joinText] using h.symm) (ne b [])
      | cons c m => exact absurd (by simpa only [joinText, List.map_cons, List.map_nil, List.append_assoc] using h.symm) (ne b _)
  | cons a l ih =>
    intro m hl hm h
    have pa := hl a (by simp)
    cases m with
    | nil =>
      cases l with
      | nil => exact absurd (by simpa [joinText] using h) (ne a [])
      | cons c l => exact absurd (by simpa only [joinText, List.map_cons, List.map_nil, List.append_assoc] using h) (ne a _)
    | cons b m =>
      have pb := hm b (by simp)
      cases l with
      | nil =>
        cases m with
        | nil =>
          have := key a b [] [] pa pb ends_nil ends_nil (by simpa [joinText] using h)
          rw [this.1]
        | cons d m =>
          simp only [joinText, List.map_cons, List.map_nil, List.append_assoc] at h
          have := key a b [] _ pa pb ends_nil (next d m (hm d (by simp))) (by simpa using h)
          exact absurd this.2.symm (sepNe _)
      | cons c l =>
        cases m with
        | nil =>
          simp only [joinText, List.map_cons, List.map_nil, List.append_assoc] at h
          have := key a b _ [] pa pb (next c l (hl c (by simp))) ends_nil (by simpa using h)
          exact absurd this.2 (sepNe _)
        | cons d m =>
          simp only [joinText, List.map_cons, List.append_assoc] at h
          have := key a b _ _ pa pb (next c l (hl c (by simp))) (next d m (hm d (by simp))) h
          rw [this.1, ih (d :: m) (fun e he => hl e (List.mem_cons_of_mem _ he)) (fun e he => hm e (List.mem_cons_of_mem _ he))
            (List.append_cancel_left this.2)]

theorem newLoop_plain (key : Bytes) : ∀ (m : TagFilterValueMap) (nf : Option Filter) (tfs : List TagFilter) (r : Option Filter × List TagFilter),
    PlainTags m → (∀ g, nf = some g → PlainFilter g ∧ PlainName key) → (∀ t ∈ tfs, PlainName t.name ∧ PlainFilter t.valueFilter ∧ t.name ≠ key) →
    newLoop key m nf tfs = .ok r →
    (∀ g, r.1 = some g → PlainFilter g ∧ PlainName key) ∧ ∀ t ∈ r.2, PlainName t.name ∧ PlainFilter t.valueFilter ∧ t.name ≠ key
  | [], nf, tfs, r, _, h1, h2, h => by
    simp only [newLoop, Out.ok.injEq] at h
    subst h
    exact ⟨h1, h2⟩
  | e :: es, nf, tfs, r, hp, h1, h2, h => by
    unfold newLoop at h
    cases hf : newFilterFromFilterValue e.2 with
    | err => rw [hf] at h; cases h
    | panic => rw [hf] at h; cases h
    | ok f =>
      rw [hf] at h
      simp only [Out.ok_bind] at h
      have pe := hp e (by simp)
      have pf := newValue_plain pe.2 hf
      have pes : PlainTags es := fun x hx => hp x (List.mem_cons_of_mem _ hx)
      split at h
      · next hk =>
        refine newLoop_plain key es (some f) tfs r pes ?_ h2 h
        intro g hg
        rw [← Option.some.inj hg]
        exact ⟨pf, hk ▸ pe.1⟩
      · next hk =>
        refine newLoop_plain key es nf (tfs ++ [⟨e.1, f⟩]) r pes h1 ?_ h
        intro t ht
        rcases List.mem_append.mp ht with ht | ht
        · exact h2 t ht
        · simp only [List.mem_singleton] at ht
          subst ht
          exact ⟨pe.1, pf, fun e => hk e.symm⟩

theorem newTags_plain {key : Bytes} {m : TagFilterValueMap} {op : LogicalOp} {f : TagsFilter} (hp : PlainTags m)
    (h : newTagsFilter key m op = .ok f) : f.op = op ∧ (∀ e ∈ entries key f, PlainEntry e) ∧ ∀ t ∈ f.tagFilters, t.name ≠ key := by
  unfold newTagsFilter at h
  cases hr : newLoop key m none [] with
  | err => rw [hr] at h; cases h
  | panic => rw [hr] at h; cases h
  | ok r =>
    rw [hr] at h
    simp only [Out.ok_bind, Out.ok.injEq] at h
    subst h
    obtain ⟨h1, h2⟩ := newLoop_plain key m none [] r hp (by simp) (by simp) hr
    refine ⟨rfl, ?_, fun t ht => (h2 t ((mem_sortBy _).mp ht)).2.2⟩
    intro e he
    unfold entries at he
    rcases List.mem_append.mp he with he | he
    · cases hn : r.1 with
      | none => rw [hn] at he; simp at he
      | some g =>
        rw [hn] at he
        simp only [List.mem_singleton] at he
        subst he
        exact ⟨(h1 g hn).2, (h1 g hn).1⟩
    · obtain ⟨t, ht, rfl⟩ := List.mem_map.mp he
      have := h2 t ((mem_sortBy _).mp ht)
      exact ⟨this.1, this.2.1⟩

theorem entries_inj {key : Bytes} {f g : TagsFilter} (ho : f.op = g.op) (hf : ∀ t ∈ f.tagFilters, t.name ≠ key) (hg : ∀ t ∈ g.tagFilters, t.name ≠ key)
    (h : entries key f = entries key g) : f = g := by
  have inj : ∀ {l m : List TagFilter}, l.map (fun t => (t.name, t.valueFilter)) = m.map (fun t => (t.name, t.valueFilter)) → l = m := by
    intro l m h
    refine map_inj_on (P := fun _ => True) (fun a b _ _ e => ?_) (fun _ _ => trivial) (fun _ _ => trivial) h
    cases a; cases b
    simp only [Prod.mk.injEq] at e
    rw [e.1, e.2]
  obtain ⟨nf, tf, op⟩ := f
  obtain ⟨ng, tg, op'⟩ := g
  simp only at ho hf hg
  subst ho
  unfold entries at h
  cases nf with
  | none =>
    cases ng with
    | none => simp only [List.nil_append] at h; rw [inj h]
    | some g =>
      exfalso
      simp only [List.nil_append] at h
      cases tf with
      | nil => simp at h
      | cons t tf =>
        simp only [List.map_cons, List.cons_append, List.cons.injEq, Prod.mk.injEq] at h
        exact hf t (by simp) h.1.1
  | some f =>
    cases ng with
    | none =>
      exfalso
      simp only [List.nil_append] at h
      cases tg with
      | nil => simp at h
      | cons t tg =>
        simp only [List.map_cons, List.cons_append, List.cons.injEq, Prod.mk.injEq] at h
        exact hg t (by simp) h.1.1.symm
    | some g =>
      simp only [List.cons_append, List.nil_append, List.cons.injEq, Prod.mk.injEq] at h
      rw [h.1.2, inj h.2]

/-- C111: two filters of tags, made with the same options and operator, that have the same text match the same identifiers, when their
names have no colon and no parenthesis and their patterns no brackets and no quotes. -/
theorem C111_tags_partial (key : Bytes) (op : LogicalOp) (m m' : TagFilterValueMap) (f g : TagsFilter) (hm : PlainTags m) (hm' : PlainTags m')
    (hf : newTagsFilter key m op = .ok f) (hg : newTagsFilter key m' op = .ok g) (h : f.string key = g.string key) :
    ∀ split iter id, f.matchesVal split iter id = g.matchesVal split iter id := by
  obtain ⟨o1, p1, n1⟩ := newTags_plain hm hf
  obtain ⟨o2, p2, n2⟩ := newTags_plain hm' hg
  rw [tags_text, tags_text, o1, o2] at h
  rw [entries_inj (o1.trans o2.symm) n1 n2 (entries_unique op _ _ p1 p2 h)]
  exact fun _ _ _ => rfl

example : (newTagsFilter (bs "name") [(bs "city", ⟨bs "sf*", true⟩), (bs "name", ⟨bs "foo", false⟩)] .conjunction).bind
      (fun f => .ok (f.string (bs "name"))) = .ok (bs "name:Equals(\"foo\") && city:Not(StartsWith(Equals(\"sf\")))") ∧
    PlainTags [(bs "city", ⟨bs "sf*", true⟩), (bs "name", ⟨bs "foo", false⟩)] := by
  constructor
  · decide +kernel
  · intro e he
    simp only [List.mem_cons, List.not_mem_nil, or_false] at he
    rcases he with rfl | rfl <;> exact ⟨⟨by decide, by decide⟩, ⟨by decide, by decide⟩⟩

/-- The text of the filter of a map of tags, whose name tag is `name`. -/
def tagsText (op : LogicalOp) (m : List (String × String)) : Out Bytes :=
  (newTagsFilter (bs "name") (m.map fun e => (bs e.1, ⟨bs e.2, false⟩)) op).bind fun f => .ok (f.string (bs "name"))

/-- C111: what the texts of filters of tags look like. -/
theorem C111_tags_texts :
    tagsText .conjunction [] = .ok [] ∧ tagsText .disjunction [("name", "foo*")] = .ok (bs "name:StartsWith(Equals(\"foo\"))") ∧
    tagsText .conjunction [("b", "x"), ("a", "*"), ("name", "foo")] = .ok (bs "name:Equals(\"foo\") && a:All && b:Equals(\"x\")") ∧
    tagsText .disjunction [("b", "x"), ("a", "*")] = .ok (bs "a:All || b:Equals(\"x\")") := by decide +kernel

/-- C111: a filter of two tags and one of a single tag with punctuation in its name have the same text, and an identifier with the two
tags matches the first only. -/
theorem C111_tags_violation :
    let make (m : TagFilterValueMap) : Out TagsFilter := newTagsFilter (bs "name") m .conjunction
    let two := make [(bs "a", ⟨bs "*", false⟩), (bs "b", ⟨bs "*", false⟩)]
    let one := make [(bs "a:All && b", ⟨bs "*", false⟩)]
    let tags : Bytes → TagStream := fun _ => ⟨[⟨bs "a", bs "1"⟩, ⟨bs "b", bs "2"⟩], false⟩
    (two.bind fun f => .ok (f.string (bs "name"))) = (one.bind fun f => .ok (f.string (bs "name"))) ∧
    (two.bind fun f => f.matchesVal (fun i => some ([], i)) tags []) = .ok true ∧
    (one.bind fun f => f.matchesVal (fun i => some ([], i)) tags []) = .ok false := by decide +kernel

end Verif.Text
