import Verif.Spec.Schema
/- Bytes that are an encoding of a message under its declaration have one meaning. -/
namespace Verif.Spec.Schema
open Verif.Spec.WireFormat

theorem varint_prefix : ∀ {n n' : Nat} {d d' r r' : Bytes}, Varint n d → Varint n' d' → d ++ r = d' ++ r' → n = n' ∧ d = d' ∧ r = r' := by
  intro n n' d d' r r' h
  induction h generalizing n' d' with
  | last b hb =>
    intro h' e
    cases h' with
    | last b' hb' => simp only [List.singleton_append, List.cons.injEq] at e; obtain ⟨rfl, e⟩ := e; exact ⟨rfl, rfl, e⟩
    | more b' m s hb' _ => simp only [List.cons_append, List.nil_append, List.cons.injEq] at e; obtain ⟨rfl, _⟩ := e; omega
  | more b m s hb _ ih =>
    intro h' e
    cases h' with
    | last b' hb' => simp only [List.cons_append, List.nil_append, List.cons.injEq] at e; obtain ⟨rfl, _⟩ := e; omega
    | more b' m' s' hb' h' =>
      simp only [List.cons_append, List.cons.injEq] at e
      obtain ⟨rfl, e⟩ := e
      obtain ⟨rfl, rfl, e2⟩ := ih h' e
      exact ⟨rfl, rfl, e2⟩

theorem num_prefix {n n' : Nat} {d d' r r' : Bytes} (h : Num n d) (h' : Num n' d') (e : d ++ r = d' ++ r') : n = n' ∧ d = d' ∧ r = r' :=
  varint_prefix h.1 h'.1 e

theorem num_ne_nil {n : Nat} {d : Bytes} (h : Num n d) : d ≠ [] := by
  intro e
  subst e
  cases h.1

/-- Length and contents. -/
theorem delimited {l l' d d' r r' : Bytes} (h : Num d.length l) (h' : Num d'.length l') (e : l ++ (d ++ r) = l' ++ (d' ++ r')) :
    d = d' ∧ r = r' := by
  obtain ⟨hl, _, e⟩ := num_prefix h h' e
  exact List.append_inj e hl

theorem little_inj : ∀ {d d' : Bytes}, d.length = d'.length → littleEndian d = littleEndian d' → d = d'
  | [], [], _, _ => rfl
  | b :: d, b' :: d', hl, e => by
    simp only [littleEndian] at e
    have h1 := b.toNat_lt
    have h2 := b'.toNat_lt
    have e1 : b.toNat = b'.toNat := by omega
    have e2 : littleEndian d = littleEndian d' := by omega
    rw [little_inj (by simpa using hl) e2, UInt8.toNat_inj.mp e1]

theorem values_nodup (e : Enum) : (e.values.map (·.2)).Nodup := by cases e <;> decide

theorem label_unique {e : Enum} {l l' : String} {n : Nat} (h : (l, n) ∈ e.values) (h' : (l', n) ∈ e.values) : l = l' := by
  have hn := values_nodup e
  generalize e.values = vs at h h' hn
  induction vs with
  | nil => cases h
  | cons v vs ih =>
    simp only [List.map_cons, List.nodup_cons, List.mem_map, not_exists, not_and] at hn
    rcases List.mem_cons.mp h with h1 | h1 <;> rcases List.mem_cons.mp h' with h2 | h2
    · rw [← h1] at h2; cases h2; rfl
    · exact absurd (by rw [← h1]) (hn.1 _ h2)
    · exact absurd (by rw [← h2]) (hn.1 _ h1)
    · exact ih h1 h2 hn.2

/-- A value is read in one way. -/
theorem scalar_prefix {ty : Ty} {v v' : Val} {w w' : Nat} {d d' r r' : Bytes} (h : Scalar ty v w d) (h' : Scalar ty v' w' d')
    (e : d ++ r = d' ++ r') : v = v' ∧ d = d' ∧ r = r' := by
  cases h with
  | int64 v d h1 h2 hn =>
    cases h' with
    | int64 v' _ h1' h2' hn' =>
      obtain ⟨hv, hd, hr⟩ := num_prefix hn hn' e
      have : v = v' := by omega
      exact ⟨by rw [this], hd, hr⟩
  | int32 v d h1 h2 hn =>
    cases h' with
    | int32 v' _ h1' h2' hn' =>
      obtain ⟨hv, hd, hr⟩ := num_prefix hn hn' e
      have : v = v' := by omega
      exact ⟨by rw [this], hd, hr⟩
  | uint64 n d h1 hn =>
    cases h' with
    | uint64 n' _ h1' hn' =>
      obtain ⟨hv, hd, hr⟩ := num_prefix hn hn' e
      exact ⟨by rw [hv], hd, hr⟩
  | uint32 n d h1 hn =>
    cases h' with
    | uint32 n' _ h1' hn' =>
      obtain ⟨hv, hd, hr⟩ := num_prefix hn hn' e
      exact ⟨by rw [hv], hd, hr⟩
  | bool b d hn =>
    cases h' with
    | bool b' _ hn' =>
      obtain ⟨hv, hd, hr⟩ := num_prefix hn hn' e
      have : b = b' := by cases b <;> cases b' <;> simp_all
      exact ⟨by rw [this], hd, hr⟩
  | enum en l n d hm hn =>
    cases h' with
    | enum _ l' n' _ hm' hn' =>
      obtain ⟨hv, hd, hr⟩ := num_prefix hn hn' e
      subst hv
      exact ⟨by rw [label_unique hm hm'], hd, hr⟩
  | double v d hl hv =>
    cases h' with
    | double v' _ hl' hv' =>
      obtain ⟨hd, hr⟩ := List.append_inj e (by omega)
      subst hd
      exact ⟨by rw [BitVec.eq_of_toNat_eq (hv.symm.trans hv')], rfl, hr⟩
  | bytes b l hn =>
    cases h' with
    | bytes b' l' hn' =>
      simp only [List.append_assoc] at e
      obtain ⟨hl, rfl, e2⟩ := num_prefix hn hn' e
      obtain ⟨rfl, rfl⟩ := List.append_inj e2 hl
      exact ⟨rfl, rfl, rfl⟩
  | string b l hn =>
    cases h' with
    | string b' l' hn' =>
      simp only [List.append_assoc] at e
      obtain ⟨hl, rfl, e2⟩ := num_prefix hn hn' e
      obtain ⟨rfl, rfl⟩ := List.append_inj e2 hl
      exact ⟨rfl, rfl, rfl⟩

theorem scalar_ne_nil {ty : Ty} {v : Val} {w : Nat} {d : Bytes} (h : Scalar ty v w d) : d ≠ [] := by
  cases h with
  | int64 _ _ _ _ hn => exact num_ne_nil hn
  | int32 _ _ _ _ hn => exact num_ne_nil hn
  | uint64 _ _ _ hn => exact num_ne_nil hn
  | uint32 _ _ _ hn => exact num_ne_nil hn
  | bool _ _ hn => exact num_ne_nil hn
  | enum _ _ _ _ _ hn => exact num_ne_nil hn
  | double _ _ hl _ => intro e; subst e; cases hl
  | bytes b l hn => intro e; exact num_ne_nil hn (List.append_eq_nil_iff.mp e).1
  | string b l hn => intro e; exact num_ne_nil hn (List.append_eq_nil_iff.mp e).1

theorem default_unique {ty : Ty} {v v' : Val} (h : Default ty v) (h' : Default ty v') : v = v' := by
  cases h <;> cases h' <;> try rfl
  next h _ h' => rw [label_unique h h']

theorem packed_unique {ty : Ty} : ∀ {vs vs' : List Val} {d : Bytes}, Packed ty vs d → Packed ty vs' d → vs = vs' := by
  intro vs vs' d h
  generalize hd : d = d2
  induction h generalizing vs' d2 with
  | nil =>
    intro h'
    subst hd
    generalize hd : ([] : Bytes) = d at h'
    cases h' with
    | nil => rfl
    | cons _ _ _ d' r' hs _ => exact absurd (List.append_eq_nil_iff.mp hd.symm).1 (scalar_ne_nil hs)
  | cons v vs w d r hs _ ih =>
    intro h'
    cases h' with
    | nil => exact absurd (List.append_eq_nil_iff.mp hd).1 (scalar_ne_nil hs)
    | cons v' vs' w' d' r' hs' hp' =>
      obtain ⟨rfl, rfl, rfl⟩ := scalar_prefix hs hs' hd
      rw [ih r rfl hp']

theorem scalar_wire {ty : Ty} {v : Val} {w : Nat} {d : Bytes} (h : Scalar ty v w d) : w < 8 := by cases h <;> omega

/-- Bytes of fields begin with the key of one of them. -/
theorem head_key {fs : List Decl} {c : Contents} {d : Bytes} (h : Fields fs c d) :
    d = [] ∨ ∃ f ∈ fs, ∃ w < 8, ∃ k r, Num (f.num * 8 + w) k ∧ d = k ++ r := by
  induction h with
  | nil => exact .inl rfl
  | scalar ty name num fs v c w k d r hk hs _ _ => exact .inr ⟨_, List.mem_cons_self .., w, scalar_wire hs, k, _, hk, rfl⟩
  | default ty name num fs v c r _ _ ih =>
    exact ih.imp id fun ⟨f, hf, x⟩ => ⟨f, List.mem_cons_of_mem _ hf, x⟩
  | message m name num fs c' c k l d r hk _ _ _ => exact .inr ⟨_, List.mem_cons_self .., 2, by omega, k, _, hk, rfl⟩
  | absent rep ty name num fs c r _ _ ih =>
    exact ih.imp id fun ⟨f, hf, x⟩ => ⟨f, List.mem_cons_of_mem _ hf, x⟩
  | packed ty name num fs vs c k l d r _ hk _ _ _ _ => exact .inr ⟨_, List.mem_cons_self .., 2, by omega, k, _, hk, rfl⟩
  | more ty name num fs v vs c w k d r _ hk hs _ _ => exact .inr ⟨_, List.mem_cons_self .., w, scalar_wire hs, k, _, hk, rfl⟩
  | moreMessages m name num fs c' vs c k l d r hk _ _ _ => exact .inr ⟨_, List.mem_cons_self .., 2, by omega, k, _, hk, rfl⟩

/-- The key of one field is not the beginning of others. -/
theorem no_head {fs : List Decl} {c : Contents} {num w : Nat} {k r : Bytes} (h : Fields fs c (k ++ r)) (hk : Num (num * 8 + w) k) (hw : w < 8)
    (hn : num ∉ fs.map Decl.num) : False := by
  rcases head_key h with e | ⟨f, hf, w', hw', k', r', hk', e⟩
  · exact num_ne_nil hk (List.append_eq_nil_iff.mp e).1
  · obtain ⟨hh, _, _⟩ := num_prefix hk hk' e
    have : num = f.num := by omega
    exact hn (this ▸ List.mem_map_of_mem hf)

theorem numbers_nodup (m : Message) : (m.fields.map Decl.num).Nodup := by cases m <;> decide

/-- Fields have one meaning. -/
theorem fields_unique {fs : List Decl} {c : Contents} {d : Bytes} (h : Fields fs c d) : (fs.map Decl.num).Nodup →
    ∀ {c2 : Contents} {d2 : Bytes}, d = d2 → Fields fs c2 d2 → c = c2 := by
  induction h with
  | nil => intro _ c2 d2 _ h2; cases h2; rfl
  | scalar ty name num fs v c w k d r hk hs hf ih =>
    intro hn c2 d2 e h2
    rw [List.map_cons, List.nodup_cons] at hn
    cases h2 with
    | scalar _ _ _ _ v' c' w' k' d' r' hk' hs' hf' =>
      obtain ⟨_, _, e⟩ := num_prefix hk hk' e
      obtain ⟨rfl, _, e⟩ := scalar_prefix hs hs' e
      rw [ih hn.2 e hf']
    | default _ _ _ _ v' c' r' _ hf' => subst e; exact (no_head hf' hk (scalar_wire hs) hn.1).elim
    | message m _ _ _ c' c k' l d' r' => cases hs
    | absent _ _ _ _ _ c' r' ho hf' => subst e; exact (no_head hf' hk (scalar_wire hs) hn.1).elim
  | default ty name num fs v c r hd hf ih =>
    intro hn c2 d2 e h2
    rw [List.map_cons, List.nodup_cons] at hn
    cases h2 with
    | scalar _ _ _ _ v' c' w' k' d' r' hk' hs' hf' => subst e; exact (no_head hf hk' (scalar_wire hs') hn.1).elim
    | default _ _ _ _ v' c' r' hd' hf' => rw [default_unique hd hd', ih hn.2 e hf']
    | message m _ _ _ c' c k' l d' r' => cases hd
    | absent _ _ _ _ _ c' r' ho hf' =>
      rcases ho with ho | ⟨m, rfl⟩
      · cases ho
      · cases hd
  | message m name num fs c' c k l d r hk hl _ hf ihm ih =>
    intro hn c2 d2 e h2
    rw [List.map_cons, List.nodup_cons] at hn
    cases h2 with
    | scalar _ _ _ _ v' _ w' k' d' r' hk' hs' hf' => cases hs'
    | default _ _ _ _ v' _ r' hd' hf' => cases hd'
    | message _ _ _ _ c2' c2 k' l' d' r' hk' hl' hm' hf' =>
      obtain ⟨_, _, e⟩ := num_prefix hk hk' e
      obtain ⟨ed, er⟩ := delimited hl hl' e
      rw [ihm (numbers_nodup m) ed hm', ih hn.2 er hf']
    | absent _ _ _ _ _ c' r' ho hf' => subst e; exact (no_head hf' hk (by omega) hn.1).elim
  | absent rep ty name num fs c r ho hf ih =>
    intro hn c2 d2 e h2
    rw [List.map_cons, List.nodup_cons] at hn
    cases h2 with
    | scalar _ _ _ _ v' c' w' k' d' r' hk' hs' hf' => subst e; exact (no_head hf hk' (scalar_wire hs') hn.1).elim
    | default _ _ _ _ v' c' r' hd' hf' =>
      rcases ho with ho | ⟨m, rfl⟩
      · cases ho
      · cases hd'
    | message m _ _ _ c' c k' l d' r' hk' => subst e; exact (no_head hf hk' (by omega) hn.1).elim
    | absent _ _ _ _ _ c' r' ho hf' => rw [ih hn.2 e hf']
    | packed _ _ _ _ vs' c' k' l' d' r' _ hk' => subst e; exact (no_head hf hk' (by omega) hn.1).elim
    | more _ _ _ _ v' vs' c' w' k' d' r' _ hk' hs' => subst e; exact (no_head hf hk' (scalar_wire hs') hn.1).elim
    | moreMessages m _ _ _ c' vs' c k' l' d' r' hk' => subst e; exact (no_head hf hk' (by omega) hn.1).elim
  | packed ty name num fs vs c k l d r hty hk hl hp hf ih =>
    intro hn c2 d2 e h2
    rw [List.map_cons, List.nodup_cons] at hn
    cases h2 with
    | absent _ _ _ _ _ c' r' ho hf' => subst e; exact (no_head hf' hk (by omega) hn.1).elim
    | packed _ _ _ _ vs' c' k' l' d' r' _ hk' hl' hp' hf' =>
      obtain ⟨_, _, e⟩ := num_prefix hk hk' e
      obtain ⟨rfl, er⟩ := delimited hl hl' e
      rw [packed_unique hp hp', ih hn.2 er hf']
    | more _ _ _ _ v' vs' c' w' k' d' r' hty' => rw [hty] at hty'; cases hty'
    | moreMessages m => cases hty
  | more ty name num fs v vs c w k d r hty hk hs hf ih =>
    intro hn c2 d2 e h2
    have hn' := hn
    rw [List.map_cons, List.nodup_cons] at hn
    cases h2 with
    | absent _ _ _ _ _ c' r' ho hf' => subst e; exact (no_head hf' hk (scalar_wire hs) hn.1).elim
    | packed _ _ _ _ vs' c' k' l' d' r' hty' => rw [hty] at hty'; cases hty'
    | more _ _ _ _ v' vs' c' w' k' d' r' _ hk' hs' hf' =>
      obtain ⟨_, _, e⟩ := num_prefix hk hk' e
      obtain ⟨rfl, _, er⟩ := scalar_prefix hs hs' e
      have := ih hn' er hf'
      simp only [List.cons.injEq, Prod.mk.injEq, true_and] at this
      rw [this.1, this.2]
    | moreMessages m => cases hs
  | moreMessages m name num fs c' vs c k l d r hk hl _ hf ihm ih =>
    intro hn c2 d2 e h2
    have hn' := hn
    rw [List.map_cons, List.nodup_cons] at hn
    cases h2 with
    | absent _ _ _ _ _ c' r' ho hf' => subst e; exact (no_head hf' hk (by omega) hn.1).elim
    | packed _ _ _ _ vs' c' k' l' d' r' hty' => cases hty'
    | more _ _ _ _ v' vs' c' w' k' d' r' _ hk' hs' hf' => cases hs'
    | moreMessages _ _ _ _ c2' vs' c' k' l' d' r' hk' hl' hm' hf' =>
      obtain ⟨_, _, e⟩ := num_prefix hk hk' e
      obtain ⟨ed, er⟩ := delimited hl hl' e
      have := ih hn' er hf'
      simp only [List.cons.injEq, Prod.mk.injEq, true_and] at this
      rw [ihm (numbers_nodup m) ed hm', this.1, this.2]

end Verif.Spec.Schema
