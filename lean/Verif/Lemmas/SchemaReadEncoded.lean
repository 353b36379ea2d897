import Verif.Lemmas.SchemaUnique
import Verif.Spec.SchemaRead
/- Encodings are read as what they encode. -/
namespace Verif.Spec.Schema
open Verif.Spec.WireFormat

theorem names_nodup (m : Message) : (m.fields.map (·.name)).Nodup := by cases m <;> decide

theorem put_mid {pre : Contents} {name : String} (h : name ∉ pre.map (·.1)) (old vs : List Val) (post : Contents) :
    put (pre ++ (name, old) :: post) name vs = pre ++ (name, vs) :: post := by
  induction pre with
  | nil => simp [put]
  | cons f pre ih =>
    simp only [List.map_cons, List.mem_cons, not_or] at h
    simp only [List.cons_append, put]
    rw [if_neg (fun e => h.1 e.symm), ih h.2]

theorem values_mid {pre : Contents} {name : String} (h : name ∉ pre.map (·.1)) (vs : List Val) (post : Contents) :
    values (pre ++ (name, vs) :: post) name = vs := by
  induction pre with
  | nil => simp [values]
  | cons f pre ih =>
    simp only [List.map_cons, List.mem_cons, not_or] at h
    simp only [List.cons_append, values]
    rw [if_neg (fun e => h.1 e.symm), ih h.2]

theorem absent_default {ty : Ty} {v : Val} (h : Default ty v) (name : String) (num : Nat) : (Decl.mk false ty name num).absent = [v] := by
  cases h with
  | enum e l hm =>
    have : ∀ v ∈ e.values, v.2 = 0 → (e.values.filter (·.2 = 0)).map (·.1) = [v.1] := by cases e <;> decide
    have h1 := this _ hm rfl
    have h2 := congrArg (List.map Val.label) h1
    rw [List.map_map] at h2
    exact h2
  | _ => rfl

/-- Fields not read yet, the first with some values. -/
def startWith (cur : List Val) : List Decl → Contents
  | [] => []
  | d :: ds => (d.name, if d.rep then cur else d.absent) :: ds.map fun d => (d.name, d.absent)

/-- The contents in the end. -/
def endWith (cur : List Val) : List Decl → Contents → Contents
  | d :: _, (n, vs) :: c => (n, if d.rep then cur ++ vs else vs) :: c
  | _, c => c

theorem startWith_nil (ds : List Decl) : startWith [] ds = ds.map fun d => (d.name, d.absent) := by
  cases ds with
  | nil => rfl
  | cons d ds =>
    simp only [startWith, List.map_cons, List.cons.injEq, Prod.mk.injEq, true_and, and_true]
    split
    · next h => simp [Decl.absent, h]
    · rfl

theorem endWith_nil (ds : List Decl) (c : Contents) : endWith [] ds c = c := by
  unfold endWith
  split
  · simp
  · rfl

theorem fields_read {ds : List Decl} {c : Contents} {d : Bytes} (h : Fields ds c d) : ∀ (m : Message) (pre : List Decl) (cp : Contents)
    (cur : List Val), m.fields = pre ++ ds → cp.map (·.1) = pre.map (·.name) →
    Reads m (cp ++ startWith cur ds) d (cp ++ endWith cur ds c) := by
  have fresh : ∀ {m : Message} {pre : List Decl} {x : Decl} {ds : List Decl} {cp : Contents}, m.fields = pre ++ x :: ds →
      cp.map (·.1) = pre.map (·.name) → x.name ∉ cp.map (·.1) := by
    intro m pre x ds cp e ec
    have := names_nodup m
    rw [e, List.map_append, List.map_cons, List.nodup_append] at this
    rw [ec]
    exact fun hm => this.2.2 _ hm _ (by simp) rfl
  have mem : ∀ {m : Message} {pre : List Decl} {x : Decl} {ds : List Decl}, m.fields = pre ++ x :: ds → x ∈ m.fields := by
    intro m pre x ds e; simp [e]
  -- the rest, when the first field has its values
  have rest : ∀ {ds : List Decl} {c : Contents} {d : Bytes} {m : Message} {pre : List Decl} {cp : Contents} {x : Decl}
      (_ : ∀ (m : Message) (pre : List Decl) (cp : Contents) (cur : List Val), m.fields = pre ++ ds → cp.map (·.1) = pre.map (·.name) →
        Reads m (cp ++ startWith cur ds) d (cp ++ endWith cur ds c)) (vs : List Val), m.fields = pre ++ x :: ds →
      cp.map (·.1) = pre.map (·.name) →
      Reads m (cp ++ (x.name, vs) :: ds.map fun d => (d.name, d.absent)) d (cp ++ (x.name, vs) :: c) := by
    intro ds c d m pre cp x ih vs e ec
    have := ih m (pre ++ [x]) (cp ++ [(x.name, vs)]) [] (by simp [e]) (by simp [ec])
    rw [startWith_nil, endWith_nil] at this
    simpa using this
  induction h with
  | nil => intro m pre cp cur e ec; exact .done _ _
  | scalar ty name num fs v c w k d r hk hs _ ih =>
    intro m pre cp cur e ec
    refine .scalar m _ ty name num v w k d r _ (mem e) hk hs ?_
    simp only [startWith, endWith]
    rw [put_mid (fresh e ec)]
    exact rest ih [v] e ec
  | default ty name num fs v c r hd _ ih =>
    intro m pre cp cur e ec
    simp only [startWith, endWith, Bool.false_eq_true, if_false, absent_default hd]
    exact rest ih [v] e ec
  | message sub name num fs c' c k l d r hk hl _ _ ihd ih =>
    intro m pre cp cur e ec
    refine .message m _ sub name num c' k l d r _ (mem e) ?_ hk hl ?_ ?_
    · simp only [startWith]
      rw [values_mid (fresh e ec)]
      rfl
    · have := ihd sub [] [] [] rfl rfl
      rw [startWith_nil, endWith_nil] at this
      exact this
    · simp only [startWith, endWith]
      rw [put_mid (fresh e ec)]
      exact rest ih [.msg c'] e ec
  | absent rep ty name num fs c r hrep _ ih =>
    intro m pre cp cur e ec
    have : Decl.absent ⟨rep, ty, name, num⟩ = [] := by
      rcases hrep with rfl | ⟨sub, rfl⟩
      · rfl
      · cases rep <;> rfl
    simp only [startWith, endWith, this, List.append_nil]
    exact rest ih _ e ec
  | packed ty name num fs vs c k l d r hp hk hl hv _ ih =>
    intro m pre cp cur e ec
    refine .packed m _ ty name num vs k l d r _ (mem e) hp hk hl hv ?_
    simp only [startWith, endWith, if_true]
    rw [values_mid (fresh e ec), put_mid (fresh e ec)]
    exact rest ih _ e ec
  | more ty name num fs v vs c w k d r _ hk hs _ ih =>
    intro m pre cp cur e ec
    refine .one m _ ty name num v w k d r _ (mem e) hk hs ?_
    simp only [startWith, endWith, if_true]
    rw [values_mid (fresh e ec), put_mid (fresh e ec)]
    have := ih m pre cp (cur ++ [v]) e ec
    simpa [startWith, endWith] using this
  | moreMessages sub name num fs c' vs c k l d r hk hl _ _ ihd ih =>
    intro m pre cp cur e ec
    refine .element m _ sub name num c' k l d r _ (mem e) hk hl ?_ ?_
    · have := ihd sub [] [] [] rfl rfl
      rw [startWith_nil, endWith_nil] at this
      exact this
    · simp only [startWith, endWith, if_true]
      rw [values_mid (fresh e ec), put_mid (fresh e ec)]
      have := ih m pre cp (cur ++ [.msg c']) e ec
      simpa [startWith, endWith] using this

/-- An encoding of some contents is read as these contents. -/
theorem Encodes.readAs {m : Message} {c : Contents} {d : Bytes} (h : Encodes m c d) : ReadAs m c d := by
  have := fields_read h m [] [] [] rfl rfl
  rw [startWith_nil, endWith_nil] at this
  exact this

end Verif.Spec.Schema
