import Verif.Lemmas.MsgpackDelim
import Verif.Props.Msgpack
import Verif.Props.MsgpackAgg
/- C107: a msgpack stream, whatever its bytes, is decoded to its complete messages. -/
namespace Verif.MP
open Verif.Policy Verif.Meta Verif.Wire Verif.Msg Verif.Spec.MP

instance : St AIter := ⟨(·.base), fun s b => { s with base := b }, (·.closed), (·.ignoreHigherVersion), fun _ _ => rfl, fun _ _ _ => rfl,
  fun _ => rfl, fun _ _ => rfl, fun _ _ => rfl⟩

/-! ### The loop of both iterators -/

section
variable {σ : Type} [St σ]

/-- `Next` of either iterator: what it does first, and how it decodes a message. -/
def loopOf (l : Lib) (pre : σ → σ) (body : D σ Bool) : Nat → D σ Bool
  | 0 => fun s => (false, St.withBase s ⟨(St.base s).data, some .other⟩)
  | f + 1 => fun s =>
    if (St.base s).err.isSome || St.closed s then (false, s)
    else match onS (decodeVarint l) (pre s) with
      | (version, s) =>
        if (St.base s).err.isSome then (false, s)
        else if version > 1 then
          if St.ignore s then
            match onS (decodeArrayLen l) s with
            | (n, s) => match onS (skip l n) s with
              | (_, s) => loopOf l pre body f s
          else (false, St.withBase s ⟨(St.base s).data, some .other⟩)
        else body s

/-- What is known of the two parts. -/
structure Parts (l : Lib) (pre : σ → σ) (body : D σ Bool) : Prop where
  delim : Delim l
  preBase : ∀ s, St.base (pre s) = St.base s
  preWith : ∀ s b, pre (St.withBase s b) = St.withBase (pre s) b
  preClosed : ∀ s, St.closed (pre s) = St.closed s
  cuts : Cuts body
  says : ∀ s, (body s).1 = (St.base (body s).2).err.isNone
  keeps : ∀ s, St.closed (body s).2 = St.closed s

/-- The message of a higher version that is left out, after its version. -/
def leaveOut (l : Lib) : D σ Unit := do
  let n ← onS (decodeArrayLen l)
  onS (skip l n)

/-- The beginning of a message: its version. -/
def start (l : Lib) (pre : σ → σ) : D σ Int := do
  (fun s => ((), pre s))
  onS (decodeVarint l)

theorem loopOf_succ (l : Lib) (pre : σ → σ) (body : D σ Bool) (f : Nat) (s : σ) : loopOf l pre body (f + 1) s =
    if (St.base s).err.isSome || St.closed s then (false, s)
    else if (St.base (start l pre s).2).err.isSome then (false, (start l pre s).2)
    else if (start l pre s).1 > 1 then
      if St.ignore (start l pre s).2 then loopOf l pre body f (leaveOut l (start l pre s).2).2
      else (false, St.withBase (start l pre s).2 ⟨(St.base (start l pre s).2).data, some .other⟩)
    else body (start l pre s).2 := rfl

variable {l : Lib} {pre : σ → σ} {body : D σ Bool}

theorem onS_closed (m : D Base α) (s : σ) : St.closed (onS m s).2 = St.closed s := St.closed_with _ _
theorem onS_ignore (m : D Base α) (s : σ) : St.ignore (onS m s).2 = St.ignore s := St.ignore_with _ _

theorem put_closed (s : σ) (d : Bytes) : St.closed (put s d) = St.closed s := St.closed_with _ _
theorem put_ignore (s : σ) (d : Bytes) : St.ignore (put s d) = St.ignore s := St.ignore_with _ _

theorem Parts.start (P : Parts l pre body) : Cuts (start l pre) :=
  .bind (.set pre P.preBase P.preWith) fun _ => .on (varint_cuts P.delim)

theorem Parts.start_closed (P : Parts l pre body) (s : σ) : St.closed (MP.start l pre s).2 = St.closed s :=
  (onS_closed _ _).trans (P.preClosed s)

theorem leaveOut_closed (s : σ) : St.closed (leaveOut l s).2 = St.closed s :=
  (St.closed_with _ _).trans (St.closed_with _ _)

theorem Parts.leaveOut (P : Parts l pre body) : Cuts (leaveOut l : D σ Unit) :=
  .bind (.on (arrayLenD_cuts P.delim)) fun _ => .on (skip_cuts P.delim _)

/-- Reading the version takes a byte. -/
theorem Parts.start_takes (P : Parts l pre body) (s : σ) (p : Bytes) (he : (St.base (MP.start l pre s).2).err = none)
    (hp : (St.base s).data = p ++ (St.base (MP.start l pre s).2).data) : p ≠ [] := by
  have h1 : (St.base (MP.start l pre s).2) = (decodeVarint l (St.base s)).2 := by
    show St.base (St.withBase (pre s) (decodeVarint l (St.base (pre s))).2) = _
    rw [St.base_with, P.preBase]
  rw [h1] at he hp
  generalize St.base s = b at he hp
  obtain ⟨d, e⟩ := b
  have hi := (varint_cuts P.delim) ⟨d, e⟩ he
  have e0 : e = none := hi.1
  subst e0
  rintro rfl
  cases hg : l.getInt d with
  | error e =>
    have : decodeVarint l ⟨d, none⟩ = (0, ⟨d, some e⟩) := by unfold decodeVarint call; simp only [hg]
    rw [this] at he; cases he
  | ok x =>
    obtain ⟨v, r⟩ := x
    have : decodeVarint l ⟨d, none⟩ = (v, ⟨r, none⟩) := by unfold decodeVarint call; simp only [hg]
    rw [this] at hp
    obtain ⟨q, hq, hq', _⟩ := P.delim.int _ _ _ hg
    simp only [List.nil_append] at hp
    rw [hq'] at hp
    have := congrArg List.length hp
    simp at this
    exact hq this

theorem isSome_false {o : Option α} (h : ¬ o.isSome = true) : o = none := by cases o with | none => rfl | some a => exact absurd rfl h

/-- A call that answers true: there was no error, there is none, and what is decoded is told by the bytes that are taken. -/
theorem Parts.message (P : Parts l pre body) : ∀ (f : Nat) (s : σ), (loopOf l pre body f s).1 = true →
    (St.base s).err = none ∧ St.closed s = false ∧ (St.base (loopOf l pre body f s).2).err = none ∧
      St.closed (loopOf l pre body f s).2 = false ∧
      ∃ p, p ≠ [] ∧ (St.base s).data = p ++ (St.base (loopOf l pre body f s).2).data ∧
        ∀ t f', p.length < f' → loopOf l pre body f' (put s (p ++ t)) = (true, put (loopOf l pre body f s).2 t)
  | 0, s, h => by cases h
  | f + 1, s, h => by
    rw [loopOf_succ] at h ⊢
    by_cases hs : ((St.base s).err.isSome || St.closed s) = true
    · rw [if_pos hs] at h; cases h
    rw [if_neg hs] at h ⊢
    have hs1 : (St.base s).err = none := isSome_false (by intro h; simp [h] at hs)
    have hs2 : St.closed s = false := by cases hc : St.closed s with | false => rfl | true => simp [hc] at hs
    by_cases he : (St.base (MP.start l pre s).2).err.isSome = true
    · rw [if_pos he] at h; cases h
    rw [if_neg he] at h ⊢
    have he1 := isSome_false he
    obtain ⟨_, p, hp, hp'⟩ := P.start s he1
    have hpn := P.start_takes s p he1 hp
    have hpl : 0 < p.length := List.length_pos_iff.mpr hpn
    have hput : ∀ d, ((St.base (put s d)).err.isSome || St.closed (put s d)) = true ↔ False := by
      intro d; rw [put_base, put_closed]; simp [hs1, hs2]
    by_cases hv : (MP.start l pre s).1 > 1
    · rw [if_pos hv] at h ⊢
      by_cases hi : St.ignore (MP.start l pre s).2 = true
      · rw [if_pos hi] at h ⊢
        obtain ⟨a1, a2, a3, a4, q, hq, hq', hq2⟩ := Parts.message P f _ h
        obtain ⟨_, o, ho, ho'⟩ := P.leaveOut _ a1
        refine ⟨hs1, hs2, a3, a4, p ++ (o ++ q), by simp [hpn], by rw [hp, ho, hq']; simp, fun t f' hf => ?_⟩
        cases f' with
        | zero => cases hf
        | succ f' =>
          rw [loopOf_succ, if_neg (fun h => (hput _).mp h), List.append_assoc, hp']
          simp only [put_base, put_ignore]
          rw [if_neg he, if_pos hv, if_pos hi, List.append_assoc, ho']
          exact hq2 t f' (by simp at hf; omega)
      · rw [if_neg hi] at h; cases h
    · rw [if_neg hv] at h ⊢
      have hb : (St.base (body (MP.start l pre s).2).2).err = none := by
        have := P.says (MP.start l pre s).2
        rw [h] at this
        cases h0 : (St.base (body (MP.start l pre s).2).2).err with
        | none => rfl
        | some e => rw [h0] at this; cases this
      obtain ⟨_, o, ho, ho'⟩ := P.cuts _ hb
      refine ⟨hs1, hs2, hb, by rw [P.keeps, P.start_closed, hs2], p ++ o, by simp [hpn], by rw [hp, ho]; simp, fun t f' hf => ?_⟩
      cases f' with
      | zero => cases hf
      | succ f' =>
        rw [loopOf_succ, if_neg (fun h => (hput _).mp h), List.append_assoc, hp']
        simp only [put_base]
        rw [if_neg he, if_neg hv, ho', h]

/-- A call that answers false: the iterator is closed, or there is an error. -/
theorem Parts.stop (P : Parts l pre body) : ∀ (f : Nat) (s : σ), (loopOf l pre body f s).1 = false →
    St.closed (loopOf l pre body f s).2 = St.closed s ∧
      (St.closed s = true ∧ (loopOf l pre body f s).2 = s ∨ (St.base (loopOf l pre body f s).2).err.isSome = true)
  | 0, s, _ => by
    refine ⟨St.closed_with _ _, .inr ?_⟩
    show (St.base (St.withBase s _)).err.isSome = true
    rw [St.base_with]; rfl
  | f + 1, s, h => by
    rw [loopOf_succ] at h ⊢
    by_cases hs : ((St.base s).err.isSome || St.closed s) = true
    · rw [if_pos hs]
      refine ⟨rfl, ?_⟩
      cases hc : St.closed s with
      | true => exact .inl ⟨rfl, rfl⟩
      | false => rw [hc, Bool.or_false] at hs; exact .inr hs
    rw [if_neg hs] at h ⊢
    by_cases he : (St.base (MP.start l pre s).2).err.isSome = true
    · rw [if_pos he]
      exact ⟨P.start_closed s, .inr he⟩
    rw [if_neg he] at h ⊢
    by_cases hv : (MP.start l pre s).1 > 1
    · rw [if_pos hv] at h ⊢
      by_cases hi : St.ignore (MP.start l pre s).2 = true
      · rw [if_pos hi] at h ⊢
        obtain ⟨h1, h2⟩ := Parts.stop P f _ h
        have hc : St.closed (MP.leaveOut l (MP.start l pre s).2).2 = St.closed s := (leaveOut_closed _).trans (P.start_closed s)
        rw [hc] at h1 h2
        refine ⟨h1, h2.imp ?_ id⟩
        rintro ⟨h3, _⟩
        simp [h3] at hs
      · rw [if_neg hi]
        refine ⟨(St.closed_with _ _).trans (P.start_closed s), .inr ?_⟩
        simp only [St.base_with]; rfl
    · rw [if_neg hv] at h ⊢
      refine ⟨(P.keeps _).trans (P.start_closed s), .inr ?_⟩
      have := P.says (MP.start l pre s).2
      rw [h] at this
      cases h0 : (St.base (body (MP.start l pre s).2).2).err with
      | none => rw [h0] at this; cases this
      | some e => rfl

/-- After an error, or closed: nothing happens. -/
theorem loopOf_stopped (f : Nat) (s : σ) (h : (St.base s).err.isSome = true ∨ St.closed s = true) : loopOf l pre body (f + 1) s = (false, s) := by
  rw [loopOf_succ, if_pos (by rcases h with h | h <;> simp [h])]

/-- As much fuel as bytes and two is enough. -/
theorem Parts.fuel (P : Parts l pre body) : ∀ (f f' : Nat) (s : σ), (St.base s).data.length + 1 < f → (St.base s).data.length + 1 < f' →
    loopOf l pre body f s = loopOf l pre body f' s
  | 0, _, _, h, _ => by omega
  | _ + 1, 0, _, _, h => by omega
  | f + 1, f' + 1, s, h, h' => by
    rw [loopOf_succ, loopOf_succ]
    by_cases hs : ((St.base s).err.isSome || St.closed s) = true
    · rw [if_pos hs, if_pos hs]
    rw [if_neg hs, if_neg hs]
    by_cases he : (St.base (MP.start l pre s).2).err.isSome = true
    · rw [if_pos he, if_pos he]
    rw [if_neg he, if_neg he]
    by_cases hv : (MP.start l pre s).1 > 1
    · rw [if_pos hv, if_pos hv]
      by_cases hi : St.ignore (MP.start l pre s).2 = true
      · rw [if_pos hi, if_pos hi]
        by_cases ho : (St.base (MP.leaveOut l (MP.start l pre s).2).2).err.isSome = true
        · obtain ⟨f, rfl⟩ : ∃ g, f = g + 1 := ⟨f - 1, by omega⟩
          obtain ⟨f', rfl⟩ : ∃ g, f' = g + 1 := ⟨f' - 1, by omega⟩
          rw [loopOf_stopped _ _ (.inl ho), loopOf_stopped _ _ (.inl ho)]
        · have ho1 := isSome_false ho
          obtain ⟨he1, o, hoo, _⟩ := P.leaveOut _ ho1
          obtain ⟨_, p, hp, _⟩ := P.start s he1
          have hpn := List.length_pos_iff.mpr (P.start_takes s p he1 hp)
          have hl : (St.base (MP.leaveOut l (MP.start l pre s).2).2).data.length < (St.base s).data.length := by
            rw [hp, hoo]; simp; omega
          exact Parts.fuel P f f' _ (by omega) (by omega)
      · rw [if_neg hi, if_neg hi]
    · rw [if_neg hv, if_neg hv]

/-- `Next` of either iterator. -/
def nextOf (l : Lib) (pre : σ → σ) (body : D σ Bool) : D σ Bool := fun s => loopOf l pre body ((St.base s).data.length + 2) s

/-- `Next` as a recursive function. -/
theorem Parts.recursion (P : Parts l pre body) (s : σ) : nextOf l pre body s =
    if (St.base s).err.isSome || St.closed s then (false, s)
    else if (St.base (MP.start l pre s).2).err.isSome then (false, (MP.start l pre s).2)
    else if (MP.start l pre s).1 > 1 then
      if St.ignore (MP.start l pre s).2 then nextOf l pre body (MP.leaveOut l (MP.start l pre s).2).2
      else (false, St.withBase (MP.start l pre s).2 ⟨(St.base (MP.start l pre s).2).data, some .other⟩)
    else body (MP.start l pre s).2 := by
  unfold nextOf
  rw [loopOf_succ]
  have h : ∀ s', (St.base (MP.leaveOut l (MP.start l pre s).2).2) = s' →
      loopOf l pre body ((St.base s).data.length + 1) (MP.leaveOut l (MP.start l pre s).2).2 =
      loopOf l pre body (s'.data.length + 2) (MP.leaveOut l (MP.start l pre s).2).2 := by
    intro s' hs'
    by_cases ho : (St.base (MP.leaveOut l (MP.start l pre s).2).2).err.isSome = true
    · rw [loopOf_stopped _ _ (.inl ho), loopOf_stopped _ _ (.inl ho)]
    · have ho1 := isSome_false ho
      obtain ⟨he1, o, hoo, _⟩ := P.leaveOut _ ho1
      obtain ⟨_, p, hp, _⟩ := P.start s he1
      have hpn := List.length_pos_iff.mpr (P.start_takes s p he1 hp)
      have hl : (St.base (MP.leaveOut l (MP.start l pre s).2).2).data.length < (St.base s).data.length := by
        rw [hp, hoo]; simp; omega
      exact P.fuel _ _ _ (by omega) (by rw [hs']; omega)
  rw [h _ rfl]

theorem Parts.next_message (P : Parts l pre body) (s : σ) (h : (nextOf l pre body s).1 = true) :
    (St.base s).err = none ∧ St.closed s = false ∧ (St.base (nextOf l pre body s).2).err = none ∧
      St.closed (nextOf l pre body s).2 = false ∧
      ∃ p, p ≠ [] ∧ (St.base s).data = p ++ (St.base (nextOf l pre body s).2).data ∧
        ∀ t, nextOf l pre body (put s (p ++ t)) = (true, put (nextOf l pre body s).2 t) := by
  obtain ⟨h1, h2, h3, h4, p, h5, h6, h7⟩ := P.message _ s h
  refine ⟨h1, h2, h3, h4, p, h5, h6, fun t => ?_⟩
  exact h7 t _ (by rw [put_base]; simp; omega)

theorem Parts.next_stop (P : Parts l pre body) (s : σ) (h : (nextOf l pre body s).1 = false) :
    nextOf l pre body (nextOf l pre body s).2 = (false, (nextOf l pre body s).2) ∧
      (St.closed s = false → (St.base (nextOf l pre body s).2).err.isSome = true) := by
  obtain ⟨h1, h2⟩ := P.stop _ s h
  refine ⟨loopOf_stopped _ _ ?_, fun hc => ?_⟩
  · rcases h2 with ⟨h2, h3⟩ | h2
    · exact .inr (h1.trans h2)
    · exact .inl h2
  · rcases h2 with ⟨h2, _⟩ | h2
    · rw [hc] at h2; cases h2
    · exact h2

/-- Fewer bytes than the message has: no message. -/
theorem Parts.next_short (P : Parts l pre body) (s : σ) (q t r : Bytes) (ht : t ≠ []) (hd : (St.base s).data = q ++ (t ++ r))
    (hr : (St.base (nextOf l pre body s).2).data = r) : (nextOf l pre body (put s q)).1 = false := by
  cases hq : (nextOf l pre body (put s q)).1 with
  | false => rfl
  | true =>
    exfalso
    obtain ⟨_, _, _, _, p, _, h6, h7⟩ := P.next_message _ hq
    rw [put_base] at h6
    simp only at h6
    generalize hm : (St.base (nextOf l pre body (put s q)).2).data = rest at h6
    have := h7 (rest ++ (t ++ r))
    rw [put_put, ← List.append_assoc, ← h6, ← hd, put_self] at this
    rw [this, put_base] at hr
    have hl := congrArg List.length hr
    simp at hl
    have : 0 < t.length := List.length_pos_iff.mpr ht
    omega

/-- What the calls show until one answers false, each with the number of bytes taken by then: at most `n` calls, `o` bytes were
taken before. -/
def ends (next : D σ Bool) (view : σ → β) : Nat → Nat → σ → List (β × Nat)
  | 0, _, _ => []
  | n + 1, o, s => match next s with
    | (false, _) => []
    | (true, s') =>
      let o' := o + ((St.base s).data.length - (St.base s').data.length)
      (view s', o') :: ends next view n o' s'

theorem ends_true {next : D σ Bool} {view : σ → β} (h : (next s).1 = true) : ends next view (n + 1) o s =
    (view (next s).2, o + ((St.base s).data.length - (St.base (next s).2).data.length)) ::
      ends next view n (o + ((St.base s).data.length - (St.base (next s).2).data.length)) (next s).2 := by
  rw [ends]
  cases hn : next s with
  | mk b s' =>
    rw [hn] at h
    simp only at h
    subst h
    rfl

theorem ends_false {next : D σ Bool} {view : σ → β} (h : (next s).1 = false) : ends next view (n + 1) o s = [] := by
  rw [ends]
  cases hn : next s with
  | mk b s' =>
    rw [hn] at h
    simp only at h
    subst h
    rfl

theorem ends_ge (next : D σ Bool) (view : σ → β) : ∀ (n o : Nat) (s : σ), ∀ e ∈ ends next view n o s, o ≤ e.2
  | 0, _, _, e, h => by cases h
  | n + 1, o, s, e, h => by
    cases hn : (next s).1 with
    | false => rw [ends_false hn] at h; cases h
    | true =>
      rw [ends_true hn] at h
      rcases List.mem_cons.mp h with rfl | h
      · simp
      · have := ends_ge next view n _ _ e h; omega

/-- From the first bytes of a stream the messages that end there are decoded. -/
theorem Parts.ends_cut (P : Parts l pre body) {view : σ → β} (hview : ∀ s d, view (put s d) = view s) : ∀ (n o c : Nat) (s : σ),
    ends (nextOf l pre body) view n o (put s ((St.base s).data.take c)) = (ends (nextOf l pre body) view n o s).filter fun e => e.2 ≤ o + c
  | 0, o, c, s => rfl
  | n + 1, o, c, s => by
    have hsplit := List.take_append_drop c (St.base s).data
    cases hn : (nextOf l pre body s).1 with
    | false =>
      rw [ends_false hn]
      have : (nextOf l pre body (put s ((St.base s).data.take c))).1 = false := by
        cases hq : (nextOf l pre body (put s ((St.base s).data.take c))).1 with
        | false => rfl
        | true =>
          obtain ⟨_, _, _, _, p, _, h6, h7⟩ := P.next_message _ hq
          rw [put_base] at h6
          simp only at h6
          generalize hm : (St.base (nextOf l pre body (put s ((St.base s).data.take c))).2).data = rest at h6
          have := h7 (rest ++ (St.base s).data.drop c)
          rw [put_put, ← List.append_assoc, ← h6, hsplit, put_self] at this
          rw [this] at hn
          cases hn
      rw [ends_false this]
      rfl
    | true =>
      obtain ⟨_, _, _, _, p, hp, h6, h7⟩ := P.next_message _ hn
      have hl : (St.base s).data.length - (St.base (nextOf l pre body s).2).data.length = p.length := by rw [h6]; simp
      rw [ends_true hn, hl]
      by_cases hc : c < p.length
      · have h8 : (nextOf l pre body (put s ((St.base s).data.take c))).1 = false := by
          refine P.next_short s _ (p.drop c) (St.base (nextOf l pre body s).2).data ?_ ?_ rfl
          · intro h
            have := congrArg List.length h
            simp at this; omega
          · rw [h6, List.take_append_of_le_length (by omega), ← List.append_assoc, List.take_append_drop]
        rw [ends_false h8]
        symm
        rw [List.filter_eq_nil_iff]
        intro e he
        simp only [decide_eq_true_eq, Nat.not_le]
        rcases List.mem_cons.mp he with rfl | he
        · simp only; omega
        · have := ends_ge _ _ _ _ _ e he; omega
      · have ht : (St.base s).data.take c = p ++ (St.base (nextOf l pre body s).2).data.take (c - p.length) := by
          conv => lhs; rw [h6]
          rw [List.take_append, List.take_of_length_le (by omega)]
        have h9 := h7 ((St.base (nextOf l pre body s).2).data.take (c - p.length))
        rw [← ht] at h9
        rw [ends_true (by rw [h9]), h9, List.filter_cons, if_pos (by simp; omega)]
        simp only [put_base, hview]
        have hl2 : ((St.base s).data.take c).length - ((St.base (nextOf l pre body s).2).data.take (c - p.length)).length = p.length := by
          rw [ht]; simp
        rw [hl2]
        have := Parts.ends_cut P hview n (o + p.length) (c - p.length) (nextOf l pre body s).2
        rw [this]
        congr 1
        have : o + p.length + (c - p.length) = o + c := by omega
        rw [this]

/-- There are no more messages than bytes: the calls come to an end. -/
theorem Parts.ends_few (P : Parts l pre body) {view : σ → β} : ∀ (n o : Nat) (s : σ),
    (ends (nextOf l pre body) view n o s).length ≤ (St.base s).data.length
  | 0, _, _ => Nat.zero_le _
  | n + 1, o, s => by
    cases hn : (nextOf l pre body s).1 with
    | false => rw [ends_false hn]; exact Nat.zero_le _
    | true =>
      obtain ⟨_, _, _, _, p, hp, h6, _⟩ := P.next_message _ hn
      have := List.length_pos_iff.mpr hp
      rw [ends_true hn, h6]
      have := Parts.ends_few P (view := view) n (o + ((St.base s).data.length - (St.base (nextOf l pre body s).2).data.length)) (nextOf l pre body s).2
      rw [h6] at this
      simp at this ⊢
      omega
end

/-! ### The two iterators -/

/-- A `do` block that ends with whether there is an error. -/
def SaysB [St σ] (m : D σ Bool) : Prop := ∀ s, (m s).1 = (St.base (m s).2).err.isNone

theorem SaysB.bind [St σ] {m : D σ α} {f : α → D σ Bool} (h : ∀ a, SaysB (f a)) : SaysB (m >>= f) := fun _ => h _ _

theorem numFields_none {l : Lib} {t : Int} {s s' : Base} (h : checkNumFields l t s = (none, s')) : s'.err.isSome = true := by
  have e : checkNumFields l t s = ((checkExpected t (decodeArrayLen l s).1 (decodeArrayLen l s).2).1.map
      fun e => (decodeArrayLen l s).1 - e, (checkExpected t (decodeArrayLen l s).1 (decodeArrayLen l s).2).2) := rfl
  rw [e] at h
  generalize (decodeArrayLen l s).1 = n at h
  generalize (decodeArrayLen l s).2 = s1 at h
  obtain ⟨d, e⟩ := s1
  cases e with
  | some e => cases h; rfl
  | none =>
    have h1 : checkExpected t n ⟨d, none⟩ = if (numFieldsForType t : Int) > n then (none, ⟨d, some .other⟩)
        else (some (numFieldsForType t : Int), ⟨d, none⟩) := rfl
    rw [h1] at h
    split at h
    · cases h; rfl
    · cases h

/-- A message: the number of its fields, and more if that was read. -/
theorem says_fields [St σ] {l : Lib} {t : Int} {f : Option Int → D σ Bool} (h0 : f none = pure false) (h : ∀ e, SaysB (f (some e))) :
    SaysB (onS (checkNumFields l t) >>= f) := by
  intro s
  have e1 : (onS (checkNumFields l t) >>= f) s = f (checkNumFields l t (St.base s)).1 (St.withBase s (checkNumFields l t (St.base s)).2) := rfl
  rw [e1]
  cases hn : checkNumFields l t (St.base s) with
  | mk o b =>
    cases o with
    | none =>
      simp only [h0]
      show false = (St.base (St.withBase s b)).err.isNone
      rw [St.base_with]
      have := numFields_none hn
      cases hb : b.err with
      | none => rw [hb] at this; cases this
      | some e => rfl
    | some e => exact h e _

theorem says_err [St σ] {f : Option Err → D σ Bool} (h0 : ∀ e, f (some e) = pure false) (h : SaysB (f none)) : SaysB (onS getErr >>= f) := by
  intro s
  have e1 : (onS getErr >>= f) s = f (St.base s).err (St.withBase s (St.base s)) := rfl
  rw [e1, St.with_base]
  cases he : (St.base s).err with
  | none => exact h s
  | some e =>
    rw [h0]
    show false = (St.base s).err.isNone
    rw [he]; rfl

theorem says_last [St σ] : SaysB (onS getErr >>= fun e => pure e.isNone : D σ Bool) := by
  intro s
  show (St.base s).err.isNone = (St.base (St.withBase s (St.base s))).err.isNone
  rw [St.with_base]

theorem body_says (l : Lib) (x : XTime) (u : Units) : SaysB (decodeBody l x u) := by
  refine says_fields rfl fun extra => .bind fun t => says_err (fun _ => rfl) ?_
  have rest : SaysB (do onBase (skip l extra); let e ← onBase getErr; return e.isNone : D Iter Bool) := .bind fun _ => says_last
  show SaysB (if _ then _ else _)
  split
  · exact .bind fun _ => rest
  split
  · exact .bind fun _ => rest
  · exact .bind fun _ => rest

theorem abody_says (l : Lib) (x : XTime) (u : Units) : SaysB (decodeABody l x u) := by
  refine says_fields rfl fun extra => .bind fun t => says_err (fun _ => rfl) ?_
  have rest : SaysB (do onABase (skip l extra); let e ← onABase getErr; return e.isNone : D AIter Bool) := .bind fun _ => says_last
  show SaysB (if _ then _ else _)
  split
  · exact .bind fun _ => rest
  split
  · exact .bind fun _ => rest
  · exact .bind fun _ => rest

/-- Whether the iterator is closed, and what it does with higher versions, does not change. -/
def Keeps [St σ] (m : D σ α) : Prop := ∀ s, St.closed (m s).2 = St.closed s

theorem Keeps.bind [St σ] {m : D σ α} {f : α → D σ β} (h : Keeps m) (h' : ∀ a, Keeps (f a)) : Keeps (m >>= f) :=
  fun s => (h' _ _).trans (h s)
theorem Keeps.pure [St σ] (a : α) : Keeps (Pure.pure a : D σ α) := fun _ => rfl
theorem Keeps.on (m : D Base α) : Keeps (onBase m) := fun _ => rfl
theorem Keeps.onA (m : D Base α) : Keeps (onABase m) := fun _ => rfl
theorem Keeps.metric (g : MetricUnion → MetricUnion) : Keeps (setMetric g) := fun _ => rfl
theorem Keeps.policies (pl : List StagedPolicies) : Keeps (setPolicies pl) := fun _ => rfl
theorem Keeps.ite [St σ] (c : Prop) [Decidable c] {m m' : D σ α} (h : Keeps m) (h' : Keeps m') : Keeps (if c then m else m') := by
  split
  · exact h
  · exact h'
theorem kind_keeps (l : Lib) (t : Int) : Keeps (decodeKind l t) := by
  refine .ite _ ?_ (.ite _ ?_ ?_) <;> refine .bind (.on _) fun o => ?_ <;> cases o <;> first | exact .pure _ | skip
  · exact .bind (.metric _) fun _ => .bind (.on _) fun _ => .bind (.metric _) fun _ => .bind (.on _) fun _ => .bind (.metric _) fun _ => .on _
  · exact .bind (.metric _) fun _ => .bind (.on _) fun _ => .bind (.metric _) fun _ => .bind (.on _) fun _ => .bind (.on _) fun _ =>
      .bind (.metric _) fun _ => .on _
  · exact .bind (.metric _) fun _ => .bind (.on _) fun _ => .bind (.metric _) fun _ => .bind (.on _) fun _ => .bind (.metric _) fun _ => .on _

theorem policiesList_keeps (l : Lib) (x : XTime) (u : Units) : Keeps (decodePoliciesList l x u) := by
  refine .bind (.on _) fun o => ?_
  cases o with
  | none => exact .pure _
  | some p =>
    exact .ite _ (.bind (.policies _) fun _ => .on _)
      (.ite _ (.bind (.on _) fun _ => .bind (.on _) fun _ => .bind (.policies _) fun _ => .on _) (.bind (.on _) fun _ => .on _))

theorem body_keeps (l : Lib) (x : XTime) (u : Units) : Keeps (decodeBody l x u) := by
  refine .bind (.on _) fun o => ?_
  cases o with
  | none => exact .pure _
  | some extra =>
  refine .bind (.on _) fun t => .bind (.on _) fun e => ?_
  cases e with
  | some e => exact .pure _
  | none =>
    have rest : Keeps (do onBase (skip l extra); let e ← onBase getErr; return e.isNone : D Iter Bool) :=
      .bind (.on _) fun _ => .bind (.on _) fun _ => .pure _
    show Keeps (if _ then _ else _)
    split
    · exact .bind (kind_keeps l t) fun _ => rest
    split
    · refine .bind (.bind (.on _) fun o => ?_) fun _ => rest
      cases o with
      | none => exact .pure _
      | some e => exact .bind (kind_keeps l t) fun _ => .bind (policiesList_keeps l x u) fun _ => .on _
    · exact .bind (.on _) fun _ => rest

theorem abody_keeps (l : Lib) (x : XTime) (u : Units) : Keeps (decodeABody l x u) := by
  refine .bind (.onA _) fun o => ?_
  cases o with
  | none => exact .pure _
  | some extra =>
  refine .bind (.onA _) fun t => .bind (.onA _) fun e => ?_
  cases e with
  | some e => exact .pure _
  | none =>
    have hr : ∀ d, Keeps (setRaw d) := fun _ _ => rfl
    have hs : ∀ p, Keeps (setStorage p) := fun _ _ => rfl
    have ha : ∀ t, Keeps (setEncodedAt t) := fun _ _ => rfl
    have rest : Keeps (do onABase (skip l extra); let e ← onABase getErr; return e.isNone : D AIter Bool) :=
      .bind (.onA _) fun _ => .bind (.onA _) fun _ => .pure _
    show Keeps (if _ then _ else _)
    split
    · refine .bind (.bind (.onA _) fun o => ?_) fun _ => rest
      cases o with
      | none => exact .pure _
      | some e => exact .bind (.onA _) fun _ => .bind (hr _) fun _ => .bind (.onA _) fun _ => .bind (hs _) fun _ => .bind (ha _) fun _ => .onA _
    split
    · refine .bind (.bind (.onA _) fun o => ?_) fun _ => rest
      cases o with
      | none => exact .pure _
      | some e =>
        exact .bind (.onA _) fun _ => .bind (hr _) fun _ => .bind (.onA _) fun _ => .bind (hs _) fun _ => .bind (.onA _) fun _ =>
          .bind (ha _) fun _ => .onA _
    · exact .bind (.onA _) fun _ => rest

theorem abody_cuts {l : Lib} (C : Delim l) (x : XTime) (u : Units) : Cuts (decodeABody l x u) := by
  have on : ∀ {α} {m : D Base α}, Cuts m → Cuts (onABase m) := fun h => Cuts.on (σ := AIter) h
  have hr : ∀ d, Cuts (setRaw d) := fun d => Cuts.set (fun it : AIter => { it with metric := it.metric.reset d }) (fun _ => rfl) (fun _ _ => rfl)
  have hs : ∀ p, Cuts (setStorage p) := fun p => Cuts.set (fun it : AIter => { it with storagePolicy := p }) (fun _ => rfl) (fun _ _ => rfl)
  have ha : ∀ t, Cuts (setEncodedAt t) := fun t => Cuts.set (fun it : AIter => { it with encodedAtNanos := t }) (fun _ => rfl) (fun _ _ => rfl)
  refine .bind (on (numFields_cuts C _)) fun o => ?_
  cases o with
  | none => exact .pure _
  | some extra =>
    refine .bind (on (objectType_cuts C)) fun t => .bind (on .getErr) fun e => ?_
    cases e with
    | some e => exact .pure _
    | none =>
      have rest : Cuts (do onABase (skip l extra); let e ← onABase getErr; return e.isNone : D AIter Bool) :=
        .bind (on (skip_cuts C _)) fun _ => .bind (on .getErr) fun _ => .pure _
      show Cuts (if _ then _ else _)
      split
      · refine .bind (.bind (on (numFields_cuts C _)) fun o => ?_) fun _ => rest
        cases o with
        | none => exact .pure _
        | some e =>
          exact .bind (on (bytesD_cuts C)) fun _ => .bind (hr _) fun _ => .bind (on (storagePolicy_cuts C)) fun _ =>
            .bind (hs _) fun _ => .bind (ha _) fun _ => on (skip_cuts C _)
      split
      · refine .bind (.bind (on (numFields_cuts C _)) fun o => ?_) fun _ => rest
        cases o with
        | none => exact .pure _
        | some e =>
          exact .bind (on (bytesD_cuts C)) fun _ => .bind (hr _) fun _ => .bind (on (storagePolicy_cuts C)) fun _ =>
            .bind (hs _) fun _ => .bind (on (varint_cuts C)) fun _ => .bind (ha _) fun _ => on (skip_cuts C _)
      · exact .bind (on .err) fun _ => rest

/-- What `Next` of the unaggregated iterator does first. -/
def clear (it : Iter) : Iter := { it with metric := { it.metric with batchTimerVal := [] } }

theorem nextLoop_of (l : Lib) (x : XTime) (u : Units) : ∀ f, nextLoop l x u f = loopOf l clear (decodeBody l x u) f
  | 0 => rfl
  | f + 1 => by funext it; unfold nextLoop loopOf; rw [nextLoop_of l x u f]; rfl

theorem nextALoop_of (l : Lib) (x : XTime) (u : Units) : ∀ f, nextALoop l x u f = loopOf l (fun s => s) (decodeABody l x u) f
  | 0 => rfl
  | f + 1 => by funext it; unfold nextALoop loopOf; rw [nextALoop_of l x u f]; rfl

theorem next_of (l : Lib) (x : XTime) (u : Units) : next l x u = nextOf l clear (decodeBody l x u) := by
  funext it; unfold next nextOf; rw [nextLoop_of]; rfl

theorem nextAgg_of (l : Lib) (x : XTime) (u : Units) : nextAgg l x u = nextOf l (fun s => s) (decodeABody l x u) := by
  funext it; unfold nextAgg nextOf; rw [nextALoop_of]; rfl

section
variable {l : Lib} (C : Delim l) (x : XTime) (u : Units)
include C

theorem parts : Parts l clear (decodeBody l x u) :=
  ⟨C, fun _ => rfl, fun _ _ => rfl, fun _ => rfl, body_cuts C, body_says l x u, body_keeps l x u⟩

theorem aparts : Parts l (fun s : AIter => s) (decodeABody l x u) :=
  ⟨C, fun _ => rfl, fun _ _ => rfl, fun _ => rfl, abody_cuts C x u, abody_says l x u, abody_keeps l x u⟩

/-- C107: `Next` is the recursive function of the code, whatever the bytes: it comes to an end. -/
theorem C107_recursion (it : Iter) : next l x u it =
    if it.base.err.isSome || it.closed then (false, it)
    else match onBase (decodeVarint l) { it with metric := { it.metric with batchTimerVal := [] } } with
      | (version, it) =>
        if it.base.err.isSome then (false, it)
        else if version > 1 then
          if it.ignoreHigherVersion then
            match onBase (decodeArrayLen l) it with
            | (n, it) => match onBase (skip l n) it with
              | (_, it) => next l x u it
          else (false, { it with base := { it.base with err := some .other } })
        else decodeBody l x u it := by
  rw [next_of]
  exact (parts C x u).recursion it

/-- C107: the same for the aggregated iterator. -/
theorem C107_recursion_aggregated (it : AIter) : nextAgg l x u it =
    if it.base.err.isSome || it.closed then (false, it)
    else match onABase (decodeVarint l) it with
      | (version, it) =>
        if it.base.err.isSome then (false, it)
        else if version > 1 then
          if it.ignoreHigherVersion then
            match onABase (decodeArrayLen l) it with
            | (n, it) => match onABase (skip l n) it with
              | (_, it) => nextAgg l x u it
          else (false, { it with base := { it.base with err := some .other } })
        else decodeABody l x u it := by
  rw [nextAgg_of]
  exact (aparts C x u).recursion it

/-- C107: if `Next` returns true, there was no error and there is none; the message was read from bytes at the front, at least one,
and with any other bytes after those `Next` does the same. -/
theorem C107_message (it : Iter) (h : (next l x u it).1 = true) :
    it.base.err = none ∧ it.closed = false ∧ (next l x u it).2.base.err = none ∧ (next l x u it).2.closed = false ∧
      ∃ p, p ≠ [] ∧ it.base.data = p ++ (next l x u it).2.base.data ∧
        ∀ t, next l x u { it with base := ⟨p ++ t, none⟩ } = (true, { (next l x u it).2 with base := ⟨t, none⟩ }) := by
  rw [next_of] at h ⊢
  obtain ⟨h1, h2, h3, h4, p, h5, h6, h7⟩ := (parts C x u).next_message it h
  refine ⟨h1, h2, h3, h4, p, h5, h6, fun t => ?_⟩
  have := h7 t
  unfold put at this
  rw [h1, h3] at this
  exact this

theorem C107_message_aggregated (it : AIter) (h : (nextAgg l x u it).1 = true) :
    it.base.err = none ∧ it.closed = false ∧ (nextAgg l x u it).2.base.err = none ∧ (nextAgg l x u it).2.closed = false ∧
      ∃ p, p ≠ [] ∧ it.base.data = p ++ (nextAgg l x u it).2.base.data ∧
        ∀ t, nextAgg l x u { it with base := ⟨p ++ t, none⟩ } = (true, { (nextAgg l x u it).2 with base := ⟨t, none⟩ }) := by
  rw [nextAgg_of] at h ⊢
  obtain ⟨h1, h2, h3, h4, p, h5, h6, h7⟩ := (aparts C x u).next_message it h
  refine ⟨h1, h2, h3, h4, p, h5, h6, fun t => ?_⟩
  have := h7 t
  unfold put at this
  rw [h1, h3] at this
  exact this

/-- C107: if `Next` returns false, there is an error unless the iterator is closed, and further calls return false and change
nothing. -/
theorem C107_stopped (it : Iter) (h : (next l x u it).1 = false) :
    next l x u (next l x u it).2 = (false, (next l x u it).2) ∧ (it.closed = false → (next l x u it).2.base.err.isSome = true) := by
  rw [next_of] at h ⊢
  exact (parts C x u).next_stop it h

theorem C107_stopped_aggregated (it : AIter) (h : (nextAgg l x u it).1 = false) :
    nextAgg l x u (nextAgg l x u it).2 = (false, (nextAgg l x u it).2) ∧
      (it.closed = false → (nextAgg l x u it).2.base.err.isSome = true) := by
  rw [nextAgg_of] at h ⊢
  exact (aparts C x u).next_stop it h

/-- What a user sees after `Next`: the metric and the policies list. -/
def seen (it : Iter) : MetricUnion × List StagedPolicies := (it.metric, it.policiesList)

/-- What a user sees of an aggregated message: the bytes of the metric, and what its accessors find there; the storage policy; the
time. -/
def seenAgg (it : AIter) : Raw × StoragePolicy × Int := (it.metric, it.storagePolicy, it.encodedAtNanos)

/-- C107: there are no more messages than bytes. -/
theorem C107_few (it : Iter) (n o : Nat) : (ends (next l x u) seen n o it).length ≤ it.base.data.length := by
  rw [next_of]
  exact (parts C x u).ends_few n o it

theorem C107_few_aggregated (it : AIter) (n o : Nat) : (ends (nextAgg l x u) seenAgg n o it).length ≤ it.base.data.length := by
  rw [nextAgg_of]
  exact (aparts C x u).ends_few n o it

/-- C107: from a stream that is cut off after `c` bytes, wherever that is, exactly the messages are decoded that end by then. -/
theorem C107_cut (it : Iter) (n c : Nat) :
    ends (next l x u) seen n 0 { it with base := { it.base with data := it.base.data.take c } } =
      (ends (next l x u) seen n 0 it).filter fun e => e.2 ≤ c := by
  rw [next_of]
  have := (parts C x u).ends_cut (view := seen) (fun _ _ => rfl) n 0 c it
  simp only [Nat.zero_add] at this
  exact this

theorem C107_cut_aggregated (it : AIter) (n c : Nat) :
    ends (nextAgg l x u) seenAgg n 0 { it with base := { it.base with data := it.base.data.take c } } =
      (ends (nextAgg l x u) seenAgg n 0 it).filter fun e => e.2 ≤ c := by
  rw [nextAgg_of]
  have := (aparts C x u).ends_cut (view := seenAgg) (fun _ _ => rfl) n 0 c it
  simp only [Nat.zero_add] at this
  exact this
end

/-- The example messages, one after the other. -/
def exStream : Bytes := exMessages.flatMap fun m => encodeMetricWithPolicies std exU m.isNil m.policies m.sample

/-- The library is one of those the theorems are about; each example message is there with its end, and one less after a cut. -/
example : Delim std ∧ (ends (next std unitX exU) seen 9 0 (new exStream false)).length = exMessages.length ∧
    (ends (next std unitX exU) seen 9 0 (new exStream false)).getLast?.map (·.2) = some exStream.length ∧
    (ends (next std unitX exU) seen 9 0 (new (exStream.take (exStream.length - 1)) false)).length + 1 = exMessages.length :=
  ⟨std_delim, by decide +kernel, by decide +kernel, by decide +kernel⟩

/-- Bytes that are no message: an error, and no message ever. -/
example : (next std unitX exU (new [0x01, 0xff, 0x00] false)).1 = false ∧
    (next std unitX exU (new [0x01, 0xff, 0x00] false)).2.base.err = some .other := by decide +kernel

end Verif.MP
