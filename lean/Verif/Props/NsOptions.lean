import Verif.Spec.NsOptions
import Mathlib.Data.List.Induction
/-
C120: the default namespaces of options and validators are values, except that the getter gives away the array.
-/
namespace Verif.NsOpts

/-- What the getters of options say. -/
def seeOpts (A : List (List Bytes)) (o : Opts) : IOpts := ⟨o.initWatchTimeout, o.key, names A o.defaults⟩

/-- What a validator works with and the names it accepts. -/
def seeValidator (A : List (List Bytes)) (w : Validator) : IOpts × List Bytes := (seeOpts A w.opts, w.valid)

/-- All that can be seen. -/
def see (s : St) : ISt := ⟨s.held.map (names s.arrays), s.opts.map (seeOpts s.arrays), s.validators.map (seeValidator s.arrays)⟩

def inb (n : Nat) (r : Option Nat) : Prop := ∀ a, r = some a → a < n

structure HInv (s : St) (prov : List Bool) : Prop where
  len : prov.length = s.held.length
  bheld : ∀ r ∈ s.held, inb s.arrays.length r
  bopts : ∀ o ∈ s.opts, inb s.arrays.length o.defaults
  bvals : ∀ w ∈ s.validators, inb s.arrays.length w.opts.defaults
  own : ∀ h : Nat, prov[h]? = some false → ∃ a : Nat, s.held[h]? = some (some a) ∧ (∀ h' : Nat, s.held[h']? = some (some a) → h' = h) ∧
    (∀ o ∈ s.opts, o.defaults ≠ some a) ∧ (∀ w ∈ s.validators, w.opts.defaults ≠ some a)

theorem names_append {A : List (List Bytes)} {l : List Bytes} {r : Option Nat} (h : inb A.length r) :
    names (A ++ [l]) r = names A r := by
  cases r with
  | none => rfl
  | some a => simp only [names, Option.elim]; rw [List.getElem?_append_left (h a rfl)]

theorem names_last (A : List (List Bytes)) (l : List Bytes) : names (A ++ [l]) (some A.length) = l := by
  simp [names]

theorem names_modify_ne {A : List (List Bytes)} {a : Nat} {f : List Bytes → List Bytes} {r : Option Nat} (h : r ≠ some a) :
    names (A.modify a f) r = names A r := by
  cases r with
  | none => rfl
  | some b =>
    have : a ≠ b := fun e => h (by rw [e])
    simp only [names, Option.elim]; rw [List.getElem?_modify]; simp [this]

theorem names_modify_eq {A : List (List Bytes)} {a : Nat} {f : List Bytes → List Bytes} (h : a < A.length) :
    names (A.modify a f) (some a) = f (names A (some a)) := by
  simp only [names, Option.elim]; rw [List.getElem?_modify, List.getElem?_eq_getElem h]; simp

theorem see_append_arrays {s : St} {p : List Bool} (hi : HInv s p) (l : List Bytes) :
    see { s with arrays := s.arrays ++ [l] } = see s := by
  simp only [see]
  congr 1
  · exact List.map_congr_left fun r hr => names_append (hi.bheld r hr)
  · exact List.map_congr_left fun o ho => by simp only [seeOpts]; rw [names_append (hi.bopts o ho)]
  · exact List.map_congr_left fun w hw => by simp only [seeValidator, seeOpts]; rw [names_append (hi.bvals w hw)]

theorem inb_mono {n m : Nat} {r : Option Nat} (h : inb n r) (hm : n ≤ m) : inb m r := fun a e => Nat.lt_of_lt_of_le (h a e) hm

theorem HInv.grow {s : St} {p : List Bool} (hi : HInv s p) (l : List Bytes) : HInv { s with arrays := s.arrays ++ [l] } p where
  len := hi.len
  bheld r hr := inb_mono (hi.bheld r hr) (by simp)
  bopts o ho := inb_mono (hi.bopts o ho) (by simp)
  bvals w hw := inb_mono (hi.bvals w hw) (by simp)
  own := hi.own

/-- The array of a list of the program's own is in bounds and no other's; a reference of options is not to it. -/
theorem HInv.addOpts {s : St} {p : List Bool} (hi : HInv s p) (o : Opts) (hb : inb s.arrays.length o.defaults)
    (hn : ∀ (h a : Nat), p[h]? = some false → s.held[h]? = some (some a) → o.defaults ≠ some a) : HInv { s with opts := s.opts ++ [o] } p where
  len := hi.len
  bheld := hi.bheld
  bopts q hq := by
    rcases List.mem_append.1 hq with hq | hq
    · exact hi.bopts q hq
    · rw [List.mem_singleton.1 hq]; exact hb
  bvals := hi.bvals
  own h hp := by
    obtain ⟨a, h1, h2, h3, h4⟩ := hi.own h hp
    refine ⟨a, h1, h2, fun q hq => ?_, h4⟩
    rcases List.mem_append.1 hq with hq | hq
    · exact h3 q hq
    · rw [List.mem_singleton.1 hq]; exact hn h a hp h1

theorem HInv.addValidator {s : St} {p : List Bool} (hi : HInv s p) (w : Validator) (hb : inb s.arrays.length w.opts.defaults)
    (hn : ∀ (h a : Nat), p[h]? = some false → s.held[h]? = some (some a) → w.opts.defaults ≠ some a) :
    HInv { s with validators := s.validators ++ [w] } p where
  len := hi.len
  bheld := hi.bheld
  bopts := hi.bopts
  bvals q hq := by
    rcases List.mem_append.1 hq with hq | hq
    · exact hi.bvals q hq
    · rw [List.mem_singleton.1 hq]; exact hb
  own h hp := by
    obtain ⟨a, h1, h2, h3, h4⟩ := hi.own h hp
    refine ⟨a, h1, h2, h3, fun q hq => ?_⟩
    rcases List.mem_append.1 hq with hq | hq
    · exact h4 q hq
    · rw [List.mem_singleton.1 hq]; exact hn h a hp h1

theorem HInv.optsNe {s : St} {p : List Bool} (hi : HInv s p) {o : Opts} (ho : o ∈ s.opts) :
    ∀ (h a : Nat), p[h]? = some false → s.held[h]? = some (some a) → o.defaults ≠ some a := by
  intro h a hp ha
  obtain ⟨b, h1, _, h3, _⟩ := hi.own h hp
  rw [h1] at ha
  cases ha
  exact h3 o ho

theorem HInv.newNe {s : St} {p : List Bool} (hi : HInv s p) :
    ∀ (h a : Nat), p[h]? = some false → s.held[h]? = some (some a) → (some s.arrays.length : Option Nat) ≠ some a := by
  intro h a _ ha e
  cases e
  exact Nat.lt_irrefl _ (hi.bheld _ (List.mem_of_getElem? ha) _ rfl)

/-- How the origins grow with a call. -/
def originOf : Act → List Bool
  | .list _ => [false]
  | .getDefaults _ => [true]
  | _ => []

theorem origins_snoc (acts : List Act) (a : Act) : origins (acts ++ [a]) = origins acts ++ originOf a := by
  cases a <;> simp [origins, originOf]

theorem HInv.addHeld {s : St} {p : List Bool} (hi : HInv s p) (r : Option Nat) (b : Bool) (hb : inb s.arrays.length r)
    (hn : ∀ (h a : Nat), p[h]? = some false → s.held[h]? = some (some a) → r ≠ some a)
    (hf : b = false → ∃ a : Nat, r = some a ∧ (∀ q ∈ s.held, q ≠ some a) ∧ (∀ o ∈ s.opts, o.defaults ≠ some a) ∧
      (∀ w ∈ s.validators, w.opts.defaults ≠ some a)) : HInv { s with held := s.held ++ [r] } (p ++ [b]) where
  len := by simp [hi.len]
  bheld q hq := by
    rcases List.mem_append.1 hq with hq | hq
    · exact hi.bheld q hq
    · rw [List.mem_singleton.1 hq]; exact hb
  bopts := hi.bopts
  bvals := hi.bvals
  own h hp := by
    by_cases hl : h < p.length
    · rw [List.getElem?_append_left hl] at hp
      obtain ⟨a, h1, h2, h3, h4⟩ := hi.own h hp
      have hl' : h < s.held.length := hi.len ▸ hl
      refine ⟨a, by rw [List.getElem?_append_left hl', h1], fun h' e => ?_, h3, h4⟩
      by_cases hl2 : h' < s.held.length
      · rw [List.getElem?_append_left hl2] at e; exact h2 h' e
      · rw [List.getElem?_append_right (Nat.le_of_not_lt hl2)] at e
        have := List.mem_of_getElem? e
        exact absurd (List.mem_singleton.1 this).symm (hn h a hp h1)
    · rw [List.getElem?_append_right (Nat.le_of_not_lt hl)] at hp
      have hb' := List.mem_singleton.1 (List.mem_of_getElem? hp)
      obtain ⟨a, h1, h2, h3, h4⟩ := hf hb'.symm
      have hh : h = p.length := by
        have := (List.getElem?_eq_some_iff.1 hp).1
        simp at this; omega
      refine ⟨a, by rw [hh, hi.len]; simp [h1], fun h' e => ?_, h3, h4⟩
      by_cases hl2 : h' < s.held.length
      · rw [List.getElem?_append_left hl2] at e; exact absurd rfl (h2 _ (List.mem_of_getElem? e))
      · have := (List.getElem?_eq_some_iff.1 e).1
        simp at this
        have := hi.len
        omega

theorem inb_configOpts (d : Option Int) (k : Bytes) : (configOpts d k).defaults = none := by cases d <;> rfl

theorem seeOpts_configOpts (A : List (List Bytes)) (d : Option Int) (k : Bytes) (r : Option Nat) :
    seeOpts A { configOpts d k with defaults := r } = ⟨d.getD (10 * 1000000000), k, names A r⟩ := by cases d <;> rfl

theorem HInv.step {s : St} {p : List Bool} (hi : HInv s p) (a : Act) : HInv (step s a) (p ++ originOf a) := by
  cases a with
  | list l =>
    refine (hi.grow l).addHeld (some s.arrays.length) false ?_ hi.newNe ?_
    · intro a e; cases e; simp
    · intro _
      refine ⟨_, rfl, ?_, ?_, ?_⟩
      · intro q hq e; exact Nat.lt_irrefl _ (hi.bheld q hq _ e)
      · intro q hq e; exact Nat.lt_irrefl _ (hi.bopts q hq _ e)
      · intro q hq e; exact Nat.lt_irrefl _ (hi.bvals q hq _ e)
  | assign h i x =>
    simp only [NsOpts.step, originOf, List.append_nil]
    split
    · exact ⟨hi.len, fun r hr => by simpa using hi.bheld r hr, fun r hr => by simpa using hi.bopts r hr,
        fun r hr => by simpa using hi.bvals r hr, hi.own⟩
    · exact hi
  | newOptions =>
    simp only [NsOpts.step, originOf, List.append_nil]
    exact hi.addOpts _ (fun a e => by cases e) (fun _ _ _ _ e => by cases e)
  | setInitWatchTimeout o d =>
    simp only [NsOpts.step, originOf, List.append_nil]
    split
    · next q hq =>
      have hm := List.mem_of_getElem? hq
      exact hi.addOpts _ (hi.bopts q hm) (hi.optsNe (o := q) hm)
    · exact hi
  | setKey o k =>
    simp only [NsOpts.step, originOf, List.append_nil]
    split
    · next q hq =>
      have hm := List.mem_of_getElem? hq
      exact hi.addOpts _ (hi.bopts q hm) (hi.optsNe (o := q) hm)
    · exact hi
  | setDefaults o h =>
    simp only [NsOpts.step, originOf, List.append_nil]
    split
    · exact (hi.grow _).addOpts _ (fun a e => by cases e; simp) hi.newNe
    · exact hi
  | getDefaults o =>
    refine hi.addHeld _ true ?_ ?_ (fun e => Bool.noConfusion e)
    · cases hq : s.opts[o]? with
      | none => intro a e; cases e
      | some q => exact hi.bopts q (List.mem_of_getElem? hq)
    · cases hq : s.opts[o]? with
      | none => intro _ _ _ _ e; cases e
      | some q => exact hi.optsNe (List.mem_of_getElem? hq)
  | newValidator o =>
    simp only [NsOpts.step, originOf, List.append_nil]
    split
    · next q hq =>
      have hm := List.mem_of_getElem? hq
      exact hi.addValidator _ (hi.bopts q hm) (hi.optsNe hm)
    · exact hi
  | configured d k slice =>
    cases slice with
    | none =>
      simp only [NsOpts.step, originOf, List.append_nil]
      refine hi.addValidator _ ?_ ?_
      · intro a e; simp only [mkValidator, inb_configOpts] at e; cases e
      · intro _ a _ _ e; simp only [mkValidator, inb_configOpts] at e; cases e
    | some h =>
      simp only [NsOpts.step, originOf, List.append_nil]
      split
      · exact (hi.grow _).addValidator _ (fun a e => by cases e; simp) hi.newNe
      · exact hi
  | update v value =>
    simp only [NsOpts.step, originOf, List.append_nil]
    have key : ∀ w ∈ s.validators.modify v fun w => { w with valid := value.getD (names s.arrays w.opts.defaults) },
        ∃ u ∈ s.validators, u.opts = w.opts := by
      intro w hw
      obtain ⟨j, hj⟩ := List.mem_iff_getElem?.1 hw
      rw [List.getElem?_modify] at hj
      cases hu : s.validators[j]? with
      | none => rw [hu] at hj; simp at hj
      | some u =>
        refine ⟨u, List.mem_of_getElem? hu, ?_⟩
        rw [hu] at hj
        simp only [Option.map_some, Option.map_eq_map, Option.some.injEq] at hj
        rw [← hj]; split <;> rfl
    refine ⟨hi.len, hi.bheld, hi.bopts, ?_, ?_⟩
    · intro w hw
      obtain ⟨u, hu, e⟩ := key w hw
      rw [← e]; exact hi.bvals u hu
    · intro h hp
      obtain ⟨a, h1, h2, h3, h4⟩ := hi.own h hp
      refine ⟨a, h1, h2, h3, fun w hw => ?_⟩
      obtain ⟨u, hu, e⟩ := key w hw
      rw [← e]; exact h4 u hu

theorem see_step {s : St} {p : List Bool} (hi : HInv s p) (a : Act)
    (hw : ∀ h i x, a = .assign h i x → p[h]? ≠ some true) : see (step s a) = istep (see s) a := by
  cases a with
  | list l =>
    have h := see_append_arrays hi l
    simp only [see, ISt.mk.injEq] at h
    simp only [step, istep, see, List.map_append, List.map_cons, List.map_nil, names_last, h.1, h.2.1, h.2.2]
  | assign h i x =>
    simp only [step, istep]
    cases hp : p[h]? with
    | none =>
      have hl : s.held[h]? = none := by
        rw [List.getElem?_eq_none_iff] at hp ⊢; rw [← hi.len]; exact hp
      rw [hl]
      simp only [see, ISt.mk.injEq, and_true]
      rw [List.modify_eq_self]
      simpa using hl
    | some b =>
      cases b with
      | true => exact absurd hp (hw h i x rfl)
      | false =>
        obtain ⟨a, h1, h2, h3, h4⟩ := hi.own h hp
        rw [h1]
        simp only [see]
        congr 1
        · apply List.ext_getElem?
          intro j
          rw [List.getElem?_modify, List.getElem?_map, List.getElem?_map]
          cases hj : s.held[j]? with
          | none => rfl
          | some r =>
            by_cases e : h = j
            · subst e
              rw [h1] at hj; cases hj
              simp only [Option.map_some, if_true]
              have hb := hi.bheld _ (List.mem_of_getElem? h1) a rfl
              simp [names_modify_eq hb]
            · have : r ≠ some a := fun e' => e (h2 j (by rw [hj, e'])).symm
              simp [names_modify_ne this, e]
        · exact List.map_congr_left fun o ho => by simp only [seeOpts]; rw [names_modify_ne (h3 o ho)]
        · exact List.map_congr_left fun w hw => by simp only [seeValidator, seeOpts]; rw [names_modify_ne (h4 w hw)]
  | newOptions => simp [step, istep, see, seeOpts, names]
  | setInitWatchTimeout o d =>
    simp only [step, istep, ISt.derive]
    cases hq : s.opts[o]? <;> simp [see, hq, seeOpts]
  | setKey o k =>
    simp only [step, istep, ISt.derive]
    cases hq : s.opts[o]? <;> simp [see, hq, seeOpts]
  | setDefaults o h =>
    simp only [step, istep, ISt.derive]
    cases hr : s.held[h]? with
    | none => cases hq : s.opts[o]? <;> simp [see, hr]
    | some r =>
      cases hq : s.opts[o]? with
      | none => simp [see, hq, hr]
      | some q =>
        have h := see_append_arrays hi (names s.arrays r)
        simp only [see, ISt.mk.injEq] at h
        simp only [copyNames, see, List.map_append, h.1, h.2.1, h.2.2, List.getElem?_map, hq, hr, Option.map_some, Option.toList,
          List.map_cons, List.map_nil, seeOpts, names_last]
  | getDefaults o =>
    simp only [step, istep]
    cases hq : s.opts[o]? <;> simp [see, hq, seeOpts, names]
  | newValidator o =>
    simp only [step, istep]
    cases hq : s.opts[o]? <;> simp [see, hq, seeOpts, seeValidator, mkValidator]
  | configured d k slice =>
    cases slice with
    | none =>
      simp only [step, istep, see, List.map_append, List.map_cons, List.map_nil, seeValidator, mkValidator]
      cases d <;> simp [configOpts, seeOpts, names]
    | some h =>
      simp only [step, istep]
      cases hr : s.held[h]? with
      | none => simp [see, hr]
      | some r =>
        have h := see_append_arrays hi (names s.arrays r)
        simp only [see, ISt.mk.injEq] at h
        simp only [copyNames, see, List.map_append, h.1, h.2.1, h.2.2, List.getElem?_map, hr, Option.map_some, Option.toList,
          List.map_cons, List.map_nil, seeValidator, mkValidator, seeOpts_configOpts, names_last]
  | update v value =>
    simp only [step, istep, see, ISt.mk.injEq, true_and]
    apply List.ext_getElem?
    intro j
    rw [List.getElem?_modify, List.getElem?_map, List.getElem?_map, List.getElem?_modify]
    cases hj : s.validators[j]? with
    | none => rfl
    | some w => by_cases e : v = j <;> simp [e, seeValidator, seeOpts]

theorem run_snoc (s : St) (acts : List Act) (a : Act) : run s (acts ++ [a]) = step (run s acts) a := by simp [run]

theorem irun_snoc (acts : List Act) (a : Act) : irun (acts ++ [a]) = istep (irun acts) a := by simp [irun]

theorem inv_empty : HInv {} [] := ⟨rfl, by simp, by simp, by simp, by simp⟩

theorem inv_run (acts : List Act) : HInv (run {} acts) (origins acts) := by
  induction acts using List.reverseRecOn with
  | nil => exact inv_empty
  | append_singleton acts a ih => rw [run_snoc, origins_snoc]; exact ih.step a

/-- **C120** (partial: only for programs that assign to no list that the getter of the default namespaces returned).  Whatever options
and validators a program makes, by setters, constructors or configurations, in whatever order, and whatever it assigns to the lists it
handed in: the options, the validators' options and the names that the validators accept are those of values. -/
theorem C120_values_partial (acts : List Act) (hl : LeavesGotten acts) : see (run {} acts) = irun acts := by
  induction acts using List.reverseRecOn with
  | nil => rfl
  | append_singleton acts a ih =>
    have hl' : LeavesGotten acts := fun b c h i x e => hl b (c ++ [a]) h i x (by rw [e]; simp)
    rw [run_snoc, irun_snoc, ← ih hl']
    exact see_step (inv_run acts) a fun h i x e => hl acts [] h i x (by rw [e])

/-- The hypothesis is met by a program that hands in a list, takes the list of the options, assigns to the list it handed in and builds
validators: they keep the names that were handed in. -/
example :
    let acts : List Act := [.list [bs "a", bs "b"], .newOptions, .setDefaults 0 0, .getDefaults 1, .assign 0 1 (bs "c"), .newValidator 1,
      .configured none (bs "k") (some 0), .assign 0 0 (bs "d"), .update 1 none]
    LeavesGotten acts ∧ (see (run {} acts)).lists = [[bs "d", bs "c"], [bs "a", bs "b"]] ∧
      (see (run {} acts)).validators.map (·.2) = [[bs "a", bs "b"], [bs "a", bs "c"]] := by
  refine ⟨?_, rfl, rfl⟩
  intro before after h i x e
  match before, e with
  | [], e => simp at e
  | [_], e => simp at e
  | [_, _], e => simp at e
  | [_, _, _], e => simp at e
  | [a, b, c, d], e =>
    simp only [List.cons_append, List.nil_append, List.cons.injEq, Act.assign.injEq] at e
    obtain ⟨rfl, rfl, rfl, rfl, ⟨rfl, _⟩, _⟩ := e
    decide
  | [_, _, _, _, _], e => simp at e
  | [_, _, _, _, _, _], e => simp at e
  | [a, b, c, d, f, g, j], e =>
    simp only [List.cons_append, List.nil_append, List.cons.injEq, Act.assign.injEq] at e
    obtain ⟨rfl, rfl, rfl, rfl, rfl, rfl, rfl, ⟨rfl, _⟩, _⟩ := e
    decide
  | [_, _, _, _, _, _, _, _], e => simp at e
  | _ :: _ :: _ :: _ :: _ :: _ :: _ :: _ :: _ :: l, e => simp at e

/-- What an array that only a configured validator has stays. -/
structure Private (a v : Nat) (l cur : List Bytes) (o : Opts) (s : St) : Prop where
  arr : s.arrays[a]? = some l
  held : ∀ r ∈ s.held, r ≠ some a
  opts : ∀ q ∈ s.opts, q.defaults ≠ some a
  val : s.validators[v]? = some ⟨o, cur⟩
  ref : o.defaults = some a

theorem getElem?_snoc {α : Type} {l : List α} {i : Nat} {x y : α} (h : l[i]? = some x) : (l ++ [y])[i]? = some x := by
  rw [List.getElem?_append_left (List.getElem?_eq_some_iff.1 h).1, h]

theorem Private.step {a v : Nat} {l cur : List Bytes} {o : Opts} {s : St} (h : Private a v l cur o s) (act : Act) :
    Private a v l (acceptedStep v l cur act) o (step s act) := by
  have lt : a < s.arrays.length := (List.getElem?_eq_some_iff.1 h.arr).1
  have snoc : ∀ q : Opts, q.defaults ≠ some a → ∀ r ∈ s.opts ++ [q], r.defaults ≠ some a := by
    intro q hq r hr
    rcases List.mem_append.1 hr with hr | hr
    · exact h.opts r hr
    · rw [List.mem_singleton.1 hr]; exact hq
  have snocH : ∀ q : Option Nat, q ≠ some a → ∀ r ∈ s.held ++ [q], r ≠ some a := by
    intro q hq r hr
    rcases List.mem_append.1 hr with hr | hr
    · exact h.held r hr
    · rw [List.mem_singleton.1 hr]; exact hq
  have fresh : (some s.arrays.length : Option Nat) ≠ some a := fun e => by cases e; exact Nat.lt_irrefl _ lt
  cases act with
  | list l' => exact ⟨getElem?_snoc h.arr, snocH _ fresh, h.opts, h.val, h.ref⟩
  | assign k i x =>
    simp only [NsOpts.step]
    split
    · next b hb =>
      have ne : b ≠ a := fun e => h.held _ (List.mem_of_getElem? hb) (by rw [e])
      exact ⟨by simp only; rw [List.getElem?_modify]; simp [ne, h.arr], h.held, h.opts, h.val, h.ref⟩
    · exact h
  | newOptions => exact ⟨h.arr, h.held, snoc _ (fun e => by cases e), h.val, h.ref⟩
  | setInitWatchTimeout p d =>
    simp only [NsOpts.step]
    split
    · next q hq => exact ⟨h.arr, h.held, snoc _ (h.opts q (List.mem_of_getElem? hq)), h.val, h.ref⟩
    · exact h
  | setKey p d =>
    simp only [NsOpts.step]
    split
    · next q hq => exact ⟨h.arr, h.held, snoc _ (h.opts q (List.mem_of_getElem? hq)), h.val, h.ref⟩
    · exact h
  | setDefaults p k =>
    simp only [NsOpts.step]
    split
    · exact ⟨getElem?_snoc h.arr, h.held, snoc _ fresh, h.val, h.ref⟩
    · exact h
  | getDefaults p =>
    refine ⟨h.arr, snocH _ ?_, h.opts, h.val, h.ref⟩
    cases hq : s.opts[p]? with
    | none => exact fun e => by cases e
    | some q => exact h.opts q (List.mem_of_getElem? hq)
  | newValidator p =>
    simp only [NsOpts.step]
    split
    · exact ⟨h.arr, h.held, h.opts, getElem?_snoc h.val, h.ref⟩
    · exact h
  | configured d k slice =>
    cases slice with
    | none => exact ⟨h.arr, h.held, h.opts, getElem?_snoc h.val, h.ref⟩
    | some k' =>
      simp only [NsOpts.step]
      split
      · exact ⟨getElem?_snoc h.arr, h.held, h.opts, getElem?_snoc h.val, h.ref⟩
      · exact h
  | update u value =>
    refine ⟨h.arr, h.held, h.opts, ?_, h.ref⟩
    simp only [NsOpts.step, acceptedStep]
    rw [List.getElem?_modify, h.val]
    by_cases e : u = v
    · simp [e, names, h.ref, h.arr]
    · simp [e]

theorem Private.run {a v : Nat} {l : List Bytes} {o : Opts} (acts : List Act) : ∀ {cur : List Bytes} {s : St},
    Private a v l cur o s → Private a v l (accepted v l cur acts) o (run s acts) := by
  induction acts with
  | nil => exact fun h => h
  | cons act acts ih => exact fun h => ih (h.step act)

/-- **C120**, configurations: a validator made from a configuration has the settings of the configuration, those not given at their
defaults, and a copy of the default namespaces as they were then.  Whatever the program does afterwards, without exception, the validator
accepts the names of the last value of the store, and these default namespaces when there is none. -/
theorem C120_configured (before after : List Act) (d : Option Int) (k : Bytes) (h : Nat) (l : List Bytes)
    (hl : (see (run {} before)).lists[h]? = some l) :
    ∃ w, (run {} (before ++ .configured d k (some h) :: after)).validators[(run {} before).validators.length]? = some w ∧
      seeOpts (run {} (before ++ .configured d k (some h) :: after)).arrays w.opts = ⟨d.getD (10 * 1000000000), k, l⟩ ∧
      ∀ ns, w.accepts ns = true ↔ ns ∈ accepted (run {} before).validators.length l l after := by
  have hi := inv_run before
  have hrun : run {} (before ++ .configured d k (some h) :: after) = run (step (run {} before) (.configured d k (some h))) after := by
    simp [run]
  rw [hrun]
  generalize run {} before = s at hi hl ⊢
  simp only [see, List.getElem?_map] at hl
  cases hr : s.held[h]? with
  | none => rw [hr] at hl; cases hl
  | some r =>
    rw [hr] at hl
    simp only [Option.map_some, Option.some.injEq] at hl
    have hp : Private s.arrays.length s.validators.length l l { configOpts d k with defaults := some s.arrays.length }
        (step s (.configured d k (some h))) := by
      simp only [step, hr, copyNames, hl]
      refine ⟨by simp, ?_, ?_, ?_, rfl⟩
      · intro q hq e; exact Nat.lt_irrefl _ (hi.bheld q hq _ e)
      · intro q hq e; exact Nat.lt_irrefl _ (hi.bopts q hq _ e)
      · simp [mkValidator, names]
    have hq := hp.run after
    refine ⟨_, hq.val, ?_, fun ns => by simp [Validator.accepts]⟩
    rw [seeOpts_configOpts]
    simp [names, hq.arr]

example :
    let before : List Act := [.list [bs "a"]]
    let after : List Act := [.assign 0 0 (bs "b"), .update 0 (some [bs "x"]), .update 0 none]
    (see (run {} before)).lists[0]? = some [bs "a"] ∧
      ((run {} (before ++ .configured none (bs "k") (some 0) :: after)).validators.map fun w => (w.accepts (bs "a"), w.accepts (bs "b")))
        = [(true, false)] := ⟨rfl, rfl⟩

/-- **C120**, what an assignment shows in: exactly the options whose list is the one assigned to. -/
theorem C120_assign (acts : List Act) (h i : Nat) (x : Bytes) (o : Opts) (ho : o ∈ (run {} acts).opts) :
    names (run {} (acts ++ [.assign h i x])).arrays o.defaults =
      if (run {} acts).held[h]? = some o.defaults then (names (run {} acts).arrays o.defaults).set i x
      else names (run {} acts).arrays o.defaults := by
  have hi := inv_run acts
  rw [run_snoc]
  generalize run {} acts = s at hi ho ⊢
  simp only [step]
  cases hr : s.held[h]? with
  | none => simp
  | some r =>
    cases r with
    | none =>
      by_cases e : o.defaults = none
      · simp [e, names]
      · simp [Ne.symm e]
    | some a =>
      by_cases e : o.defaults = some a
      · rw [if_pos (by rw [e]), e]
        exact names_modify_eq (hi.bopts o ho a e)
      · rw [if_neg (fun e' => e (Option.some.inj e').symm)]
        exact names_modify_ne e

/-- **C120**, violated without the restriction: a program that assigns to what the getter of some options returned changes the default
namespaces of those options, of the options derived from them, and of the validator made from these, which then accepts the name assigned
and no longer the one handed in. -/
theorem C120_violated (a b k : Bytes) (h : a ≠ b) :
    let acts : List Act := [.list [a], .newOptions, .setDefaults 0 0, .setKey 1 k, .newValidator 2, .getDefaults 1, .assign 1 0 b,
      .update 0 none]
    (irun acts).validators.map (·.2) = [[a]] ∧ (irun acts).opts.map (·.defaults) = [[], [a], [a]] ∧
      (run {} acts).validators.map (fun w => (w.accepts a, w.accepts b)) = [(false, true)] ∧
      (see (run {} acts)).opts.map (·.defaults) = [[], [b], [b]] := by
  refine ⟨rfl, rfl, ?_, rfl⟩
  simp only [run, List.foldl, step, copyNames, mkValidator, names]
  simp [Validator.accepts, h]

end Verif.NsOpts
