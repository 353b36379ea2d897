import Verif.Model.Lookups
import Verif.Lemmas.Matcher
/-
C112: a lookup that overlaps updates answers what was in force at one moment of the call.
C113: a namespace is dropped only if its rule set was deleted with a cutover before the match window, both at one moment.
-/
namespace Verif.Lookups
open Verif.Matcher Verif.Active Verif.Cache Verif.NS

/-- What a lookup by itself answers at this moment: the one-step lookups of C63, on the namespaces of the last update that has
been completed and on the rule sets as they are. -/
def Sys.answer (env : Env) (s : Sys) (ns : Bytes) : Ask → Ans
  | .version => .version ((NsSt.mk s.shown s.objs).version ns)
  | .forward id frm to => .result ((NsSt.mk s.shown s.objs).forwardMatch env ns id frm to)
  | .reverse id frm to mt at' multi o => .result ((NsSt.mk s.shown s.objs).reverseMatch env ns id frm to mt at' multi o)

theorem answer_none {env : Env} {s : Sys} {ns : Bytes} (h : mget s.shown ns = none) (q : Ask) : s.answer env ns q = q.absent := by
  cases q <;> simp [Sys.answer, NsSt.version, NsSt.forwardMatch, NsSt.reverseMatch, Ask.absent, h]

theorem answer_some {env : Env} {s : Sys} {ns : Bytes} {src : Nat} (h : mget s.shown ns = some src) (q : Ask) :
    s.answer env ns q = (s.objs src).ask env q := by
  cases q <;> simp [Sys.answer, NsSt.version, NsSt.forwardMatch, NsSt.reverseMatch, RS.ask, h]

/-- What is known of the map where the update is. -/
def PcOK (s : Sys) : UPc → Prop
  | .free => s.shown = s.rules
  | .first _ _ => True
  | .have _ src _ _ => src ∈ s.rules.map (·.2)
  | .decided _ src _ _ => src ∈ s.rules.map (·.2)
  | .second todo _ => (∀ e ∈ todo, e ∈ s.rules) ∧ (todo.map (·.1)).Nodup
  | .dead ns src _ todo _ => (ns, src) ∈ s.rules ∧ (∀ e ∈ todo, e ∈ s.rules) ∧ (((ns, src) :: todo).map (·.1)).Nodup
  | .old ns src todo _ => (ns, src) ∈ s.rules ∧ (∀ e ∈ todo, e ∈ s.rules) ∧ (((ns, src) :: todo).map (·.1)).Nodup
  | .removed _ todo _ => (∀ e ∈ todo, e ∈ s.rules) ∧ (todo.map (·.1)).Nodup

/-- The invariant. -/
structure Inv (s : Sys) : Prop where
  keys : (s.rules.map (·.1)).Nodup
  vals : ∀ e ∈ s.rules, ∀ e' ∈ s.rules, e.2 = e'.2 → e.1 = e'.1
  made : ∀ e ∈ s.rules, e.2 < s.next
  madeShown : ∀ ns src, mget s.shown ns = some src → src < s.next
  same : ∀ e ∈ s.rules, ∀ ns, mget s.shown ns = some e.2 → e.1 = ns
  gone : ∀ ns src, mget s.shown ns = some src → (ns, src) ∈ s.rules ∨ (s.objs src).watched = false ∨
    ∃ todo inc, s.upd = .removed src todo inc
  pc : PcOK s s.upd

theorem mem_mset {m : List (Bytes × Nat)} {k : Bytes} {v : Nat} {e : Bytes × Nat} (h : e ∈ mset m k v) : e ∈ m ∨ e = (k, v) := by
  unfold mset mdel at h
  simp only [List.mem_append, List.mem_filter, List.mem_singleton] at h
  exact h.imp (·.1) id

theorem mset_of_none {m : List (Bytes × Nat)} {k : Bytes} {v : Nat} (h : mget m k = none) : mset m k v = m ++ [(k, v)] := by
  unfold mset
  rw [mdel_of_notMem]
  intro hc
  have := mget_isSome_iff.mpr hc
  simp [h] at this

/-- A step that changes neither the map nor what is shown nor what is watched keeps the invariant. -/
theorem Inv.move {s : Sys} (h : Inv s) {u : UPc} (hu : PcOK { s with upd := u } u)
    (hr : ∀ src todo inc, s.upd = .removed src todo inc → ∃ todo inc, u = .removed src todo inc) : Inv { s with upd := u } :=
  ⟨h.keys, h.vals, h.made, h.madeShown, h.same, fun ns src hm => by
    rcases h.gone ns src hm with g | g | ⟨todo, inc, g⟩
    · exact .inl g
    · exact .inr (.inl g)
    · exact .inr (.inr (hr _ _ _ g)), hu⟩

/-- So does a step that changes a rule set that is in the map, or is watched before. -/
theorem Inv.change {s : Sys} (h : Inv s) {src : Nat} {r : RS}
    (hw : r.watched = false ∨ (s.objs src).watched = true ∨ src ∈ s.rules.map (·.2)) : Inv (s.put src r) := by
  refine ⟨h.keys, h.vals, h.made, h.madeShown, h.same, fun ns x hm => ?_, ?_⟩
  · rcases h.gone ns x hm with g | g | g
    · exact .inl g
    · by_cases hx : x = src
      · subst hx
        rcases hw with hw | hw | hw
        · exact .inr (.inl (by simp [Sys.put, hw]))
        · rw [g] at hw
          exact absurd hw (by decide)
        · obtain ⟨e, he, e2⟩ := List.mem_map.mp hw
          have := h.same e he ns (by rw [e2]; exact hm)
          refine .inl ?_
          show (ns, x) ∈ s.rules
          rw [← this, ← e2]
          exact he
      · exact .inr (.inl (by simp [Sys.put, hx, g]))
    · exact .inr (.inr g)
  · have := h.pc
    show PcOK (s.put src r) s.upd
    cases hu : s.upd <;> rw [hu] at this <;> exact this

theorem Inv.at {s : Sys} (h : Inv s) (t : Nat) (p : LPc) : Inv (s.at t p) := by
  refine ⟨h.keys, h.vals, h.made, h.madeShown, h.same, h.gone, ?_⟩
  have := h.pc
  show PcOK (s.at t p) s.upd
  cases hu : s.upd <;> rw [hu] at this <;> exact this

theorem inv_init : Inv {} := by
  refine ⟨by simp, by simp, by simp, ?_, by simp, ?_, rfl⟩ <;> intro ns src h <;> simp [mget] at h

theorem mget_mem_vals {m : List (Bytes × Nat)} {k : Bytes} {v : Nat} (h : mget m k = some v) : v ∈ m.map (·.2) :=
  List.mem_map.mpr ⟨_, mget_mem h, rfl⟩

theorem Inv.step {env : Env} {past : Int} {s s' : Sys} (h : Inv s) (hs : Step env past s s') : Inv s' := by
  have hp := h.pc
  cases hs with
  | call ns q hi => exact h.at _ _
  | look hi hf => exact h.at _ _
  | absent hi => exact h.at _ _
  | ask hi => exact h.at _ _
  | again hi => exact h.at _ _
  | lock nss todo hu ho => exact h.move trivial (by simp [hu])
  | «exists» hu hm => exact h.move (mget_mem_vals hm) (by simp [hu])
  | @make ns elem todo inc hu hm =>
    have hrules : mset s.rules ns s.next = s.rules ++ [(ns, s.next)] := mset_of_none hm
    refine ⟨?_, ?_, ?_, ?_, ?_, ?_, ?_⟩
    · show ((mset s.rules ns s.next).map (·.1)).Nodup
      rw [hrules, List.map_append, List.nodup_append]
      refine ⟨h.keys, by simp, ?_⟩
      intro a ha b hb
      simp only [List.map_cons, List.map_nil, List.mem_singleton] at hb
      subst hb
      rintro rfl
      have := mget_isSome_iff.mpr ha
      simp [hm] at this
    · intro e he e' he' h2
      rcases mem_mset he with a | a <;> rcases mem_mset he' with b | b
      · exact h.vals e a e' b h2
      · have := h.made e a
        rw [b] at h2
        simp only at h2
        omega
      · have := h.made e' b
        rw [a] at h2
        simp only at h2
        omega
      · rw [a, b]
    · intro e he
      show e.2 < s.next + 1
      rcases mem_mset he with a | a
      · have := h.made e a
        omega
      · rw [a]
        simp
    · intro n x hx
      have := h.madeShown n x hx
      show x < s.next + 1
      omega
    · intro e he n hn
      rcases mem_mset he with a | a
      · exact h.same e a n hn
      · rw [a] at hn
        have := h.madeShown n s.next hn
        omega
    · intro n x hx
      have hlt := h.madeShown n x hx
      rcases h.gone n x hx with g | g | ⟨_, _, g⟩
      · refine .inl ?_
        show (n, x) ∈ mset s.rules ns s.next
        rw [hrules]
        exact List.mem_append_left _ g
      · refine .inr (.inl ?_)
        have : x ≠ s.next := by omega
        simp [Sys.put, this, g]
      · rw [hu] at g
        exact absurd g (by simp)
    · show s.next ∈ (mset s.rules ns s.next).map (·.2)
      rw [hrules]
      simp
  | decide hu =>
    rw [hu] at hp
    exact h.move hp (by simp [hu])
  | unwatch hu =>
    rw [hu] at hp
    exact (h.change (.inl rfl)).move trivial (by simp [Sys.put, hu])
  | watch w hu =>
    rw [hu] at hp
    exact (h.change (.inr (.inr hp))).move trivial (by simp [Sys.put, hu])
  | secondLoop todo hu ho =>
    exact h.move ⟨fun e he => ho.mem_iff.mp he, ((ho.map _).nodup_iff).mpr h.keys⟩ (by simp [hu])
  | keep hu hi =>
    rw [hu] at hp
    exact h.move ⟨fun e he => hp.1 e (List.mem_cons_of_mem _ he), hp.2.tail⟩ (by simp [hu])
  | alive hu hi hd =>
    rw [hu] at hp
    exact h.move ⟨fun e he => hp.1 e (List.mem_cons_of_mem _ he), hp.2.tail⟩ (by simp [hu])
  | tombstoned hu hi hd =>
    rw [hu] at hp
    exact h.move ⟨hp.1 _ List.mem_cons_self, fun e he => hp.1 e (List.mem_cons_of_mem _ he), hp.2⟩ (by simp [hu])
  | recent hu hc =>
    rw [hu] at hp
    exact h.move ⟨hp.2.1, hp.2.2.tail⟩ (by simp [hu])
  | past hu hc =>
    rw [hu] at hp
    exact h.move hp (by simp [hu])
  | @delete ns src todo inc hu =>
    rw [hu] at hp
    obtain ⟨hin, htodo, hnd⟩ := hp
    refine ⟨?_, ?_, ?_, h.madeShown, ?_, ?_, ?_⟩
    · exact h.keys.sublist ((List.filter_sublist).map _)
    · intro e he e' he'
      exact h.vals e (mem_mdel.mp he).1 e' (mem_mdel.mp he').1
    · intro e he
      exact h.made e (mem_mdel.mp he).1
    · intro e he
      exact h.same e (mem_mdel.mp he).1
    · intro n x hx
      rcases h.gone n x hx with g | g | ⟨_, _, g⟩
      · by_cases hn : n = ns
        · subst hn
          have e1 := mget_of_mem h.keys g
          have e2 := mget_of_mem h.keys hin
          rw [e1] at e2
          injection e2 with e2
          subst e2
          exact .inr (.inr ⟨todo, inc, rfl⟩)
        · exact .inl (mem_mdel.mpr ⟨g, hn⟩)
      · exact .inr (.inl g)
      · rw [hu] at g
        exact absurd g (by simp)
    · simp only [List.map_cons, List.nodup_cons] at hnd
      refine ⟨fun e he => mem_mdel.mpr ⟨htodo e he, ?_⟩, hnd.2⟩
      intro hc
      exact hnd.1 (List.mem_map.mpr ⟨e, he, hc⟩)
  | @unwatchRemoved src todo inc hu =>
    rw [hu] at hp
    refine ⟨h.keys, h.vals, h.made, h.madeShown, h.same, fun ns x hm => ?_, hp⟩
    rcases h.gone ns x hm with g | g | ⟨_, _, g⟩
    · exact .inl g
    · refine .inr (.inl ?_)
      by_cases hx : x = src <;> simp [Sys.put, hx, RS.unwatch]
      rw [g]
    · rw [hu] at g
      injection g with g
      subst g
      exact .inr (.inl (by simp [Sys.put, RS.unwatch]))
  | unlock hu =>
    refine ⟨h.keys, h.vals, h.made, ?_, ?_, ?_, rfl⟩
    · intro ns src hm
      exact h.made _ (mget_mem hm)
    · intro e he ns hm
      exact h.vals e he _ (mget_mem hm) rfl
    · intro ns src hm
      exact .inl (mget_mem hm)
  | value v now hw => exact h.change (.inr (.inl hw))
  | tick d =>
    refine ⟨h.keys, h.vals, h.made, h.madeShown, h.same, h.gone, ?_⟩
    show PcOK { s with clock := s.clock + d } s.upd
    cases hu : s.upd <;> rw [hu] at hp <;> exact hp
  | close hf hm => exact h.change (.inl rfl)

theorem Run.inv {env : Env} {past : Int} {s : Sys} {l : List Sys} {m : Sys} (h : Run env past s l m) (hi : Inv s) : Inv m := by
  induction h with
  | here => exact hi
  | step _ hs ih => exact ih.step hs

/-- The rule set is out of the map, no longer watched, and the update does not deal with it. -/
structure Dead (s : Sys) (src : Nat) : Prop where
  made : src < s.next
  out : src ∉ s.rules.map (·.2)
  unwatched : (s.objs src).watched = false
  left : ∀ todo inc, s.upd ≠ .removed src todo inc

theorem not_dead {s : Sys} {ns : Bytes} {src x : Nat} (hd : Dead s src) (h : (ns, x) ∈ s.rules) : x ≠ src := by
  rintro rfl
  exact hd.out (List.mem_map.mpr ⟨_, h, rfl⟩)

/-- A rule set that is out of the map is never changed again. -/
theorem Dead.step {env : Env} {past : Int} {s s' : Sys} {src : Nat} (hi : Inv s) (h : Dead s src) (hs : Step env past s s') :
    Dead s' src ∧ s'.objs src = s.objs src := by
  have hp := hi.pc
  have put : ∀ x r, x ≠ src → (s.put x r).objs src = s.objs src := by
    intro x r hx
    simp [Sys.put, Ne.symm hx]
  cases hs with
  | call ns q hi' => exact ⟨⟨h.made, h.out, h.unwatched, h.left⟩, rfl⟩
  | look hi' hf => exact ⟨⟨h.made, h.out, h.unwatched, h.left⟩, rfl⟩
  | absent hi' => exact ⟨⟨h.made, h.out, h.unwatched, h.left⟩, rfl⟩
  | ask hi' => exact ⟨⟨h.made, h.out, h.unwatched, h.left⟩, rfl⟩
  | again hi' => exact ⟨⟨h.made, h.out, h.unwatched, h.left⟩, rfl⟩
  | lock nss todo hu ho => exact ⟨⟨h.made, h.out, h.unwatched, by simp⟩, rfl⟩
  | «exists» hu hm => exact ⟨⟨h.made, h.out, h.unwatched, by simp⟩, rfl⟩
  | @make ns elem todo inc hu hm =>
    have hne : s.next ≠ src := by
      have := h.made
      omega
    have e := put s.next newRuleSet hne
    refine ⟨⟨?_, ?_, ?_, by simp⟩, e⟩
    · have := h.made
      show src < s.next + 1
      omega
    · show src ∉ (mset s.rules ns s.next).map (·.2)
      rw [mset_of_none hm]
      simp only [List.map_append, List.mem_append, not_or]
      exact ⟨h.out, by simpa using Ne.symm hne⟩
    · rw [show (_ : Sys).objs src = _ from e]
      exact h.unwatched
  | decide hu => exact ⟨⟨h.made, h.out, h.unwatched, by simp⟩, rfl⟩
  | @unwatch x todo inc hu =>
    rw [hu] at hp
    have hne : x ≠ src := fun e => h.out (e ▸ hp)
    have e := put x (s.objs x).unwatch hne
    exact ⟨⟨h.made, h.out, (congrArg RS.watched e).trans h.unwatched, by simp⟩, e⟩
  | @watch x todo inc w hu =>
    rw [hu] at hp
    have hne : x ≠ src := fun e => h.out (e ▸ hp)
    have e := put x ((s.objs x).watch past w).1 hne
    exact ⟨⟨h.made, h.out, (congrArg RS.watched e).trans h.unwatched, by simp⟩, e⟩
  | secondLoop todo hu ho => exact ⟨⟨h.made, h.out, h.unwatched, by simp⟩, rfl⟩
  | keep hu hi' => exact ⟨⟨h.made, h.out, h.unwatched, by simp⟩, rfl⟩
  | alive hu hi' hd => exact ⟨⟨h.made, h.out, h.unwatched, by simp⟩, rfl⟩
  | tombstoned hu hi' hd => exact ⟨⟨h.made, h.out, h.unwatched, by simp⟩, rfl⟩
  | recent hu hc => exact ⟨⟨h.made, h.out, h.unwatched, by simp⟩, rfl⟩
  | past hu hc => exact ⟨⟨h.made, h.out, h.unwatched, by simp⟩, rfl⟩
  | @delete ns x todo inc hu =>
    rw [hu] at hp
    have hne := not_dead h hp.1
    refine ⟨⟨h.made, ?_, h.unwatched, ?_⟩, rfl⟩
    · intro hc
      obtain ⟨e, he, e2⟩ := List.mem_map.mp hc
      exact h.out (List.mem_map.mpr ⟨e, (mem_mdel.mp he).1, e2⟩)
    · intro todo' inc' hc
      injection hc with hc
      exact hne hc
  | @unwatchRemoved x todo inc hu =>
    have hne : x ≠ src := fun e => h.left _ _ (e ▸ hu)
    have e := put x (s.objs x).unwatch hne
    exact ⟨⟨h.made, h.out, (congrArg RS.watched e).trans h.unwatched, by simp⟩, e⟩
  | unlock hu => exact ⟨⟨h.made, h.out, h.unwatched, by simp⟩, rfl⟩
  | @value x v now hw =>
    have hne : x ≠ src := by
      rintro rfl
      rw [h.unwatched] at hw
      exact absurd hw (by decide)
    have e := put x ((s.objs x).process past v now) hne
    exact ⟨⟨h.made, h.out, (congrArg RS.watched e).trans h.unwatched, h.left⟩, e⟩
  | tick d => exact ⟨⟨h.made, h.out, h.unwatched, h.left⟩, rfl⟩
  | @close ns x hf hm =>
    have hne : x ≠ src := fun e => h.out (e ▸ mget_mem_vals hm)
    have e := put x (s.objs x).unwatch hne
    exact ⟨⟨h.made, h.out, (congrArg RS.watched e).trans h.unwatched, h.left⟩, e⟩

/-- Only giving back the lock changes what is shown, and what it takes away is dead from then on. -/
theorem shown_step {env : Env} {past : Int} {s s' : Sys} (hi : Inv s) (hs : Step env past s s') {ns : Bytes} {src : Nat}
    (h : mget s.shown ns = some src) : mget s'.shown ns = some src ∨ (Dead s' src ∧ s'.objs src = s.objs src) := by
  cases hs with
  | unlock hu =>
    rcases hi.gone ns src h with g | g | ⟨_, _, g⟩
    · exact .inl (mget_of_mem hi.keys g)
    · by_cases hin : src ∈ s.rules.map (·.2)
      · obtain ⟨e, he, e2⟩ := List.mem_map.mp hin
        have := hi.same e he ns (by rw [e2]; exact h)
        refine .inl (mget_of_mem hi.keys ?_)
        rw [← this, ← e2]
        exact he
      · exact .inr ⟨⟨hi.madeShown _ _ h, hin, g, by simp⟩, rfl⟩
    · rw [hu] at g
      exact absurd g (by simp)
  | _ => exact .inl h

/-- What is known of a lookup under way. -/
def Going (env : Env) (ns : Bytes) (q : Ask) (l : List Sys) (m : Sys) : LPc → Prop
  | .idle => True
  | .called ns' q' => ns' = ns ∧ q' = q
  | .looked ns' q' none => ns' = ns ∧ q' = q ∧ ∃ x ∈ l, mget x.shown ns = none
  | .looked ns' q' (some src) => ns' = ns ∧ q' = q ∧
      (mget m.shown ns = some src ∨ (Dead m src ∧ ∃ x ∈ l, mget x.shown ns = some src ∧ x.objs src = m.objs src))
  | .done ns' q' a => ns' = ns ∧ q' = q ∧ ∃ x ∈ l, a = x.answer env ns q

theorem Going.keep {env : Env} {past : Int} {ns : Bytes} {q : Ask} {l : List Sys} {m m' : Sys} {p : LPc} (hi : Inv m)
    (hs : Step env past m m') (hl : m ∈ l) (h : Going env ns q l m p) : Going env ns q (m' :: l) m' p := by
  cases p with
  | idle => trivial
  | called ns' q' => exact h
  | looked ns' q' o =>
    cases o with
    | none =>
      obtain ⟨a, b, x, hx, e⟩ := h
      exact ⟨a, b, x, List.mem_cons_of_mem _ hx, e⟩
    | some src =>
      obtain ⟨a, b, c⟩ := h
      refine ⟨a, b, ?_⟩
      rcases c with c | ⟨d, x, hx, e1, e2⟩
      · rcases shown_step hi hs c with g | ⟨g, e⟩
        · exact .inl g
        · exact .inr ⟨g, m, List.mem_cons_of_mem _ hl, c, e.symm⟩
      · obtain ⟨d', e⟩ := d.step hi hs
        exact .inr ⟨d', x, List.mem_cons_of_mem _ hx, e1, e2.trans e.symm⟩
  | done ns' q' a =>
    obtain ⟨h1, h2, x, hx, e⟩ := h
    exact ⟨h1, h2, x, List.mem_cons_of_mem _ hx, e⟩

theorem Run.mem {env : Env} {past : Int} {s : Sys} {l : List Sys} {m : Sys} (h : Run env past s l m) : m ∈ l := by
  cases h <;> simp

theorem Run.self {env : Env} {past : Int} {s : Sys} {l : List Sys} {m : Sys} (_ : Run env past s l m) : Run env past m [m] m := .here

theorem at_self (s : Sys) (t : Nat) (p : LPc) : (s.at t p).lookups t = p := by simp [Sys.at]

theorem at_other {s : Sys} {t t' : Nat} {p : LPc} (h : t' ≠ t) : (s.at t p).lookups t' = s.lookups t' := by simp [Sys.at, h]

theorem going {env : Env} {past : Int} {s : Sys} (hi : Inv s) {t : Nat} {ns : Bytes} {q : Ask} (hc : s.lookups t = .called ns q)
    {l : List Sys} {m : Sys} (h : Run env past s l m) (hd : ∀ x ∈ l, x.lookups t ≠ .idle) : Going env ns q l m (m.lookups t) := by
  induction h with
  | here =>
    rw [hc]
    exact ⟨rfl, rfl⟩
  | @step l m m' hr hs ih =>
    have g := ih fun x hx => hd x (List.mem_cons_of_mem _ hx)
    have him := hr.inv hi
    have k := g.keep him hs hr.mem
    have ni := hd m (List.mem_cons_of_mem _ hr.mem)
    have ni' := hd m' List.mem_cons_self
    cases hs with
    | @call t' ns' q' hidle =>
      by_cases ht : t = t'
      · subst ht
        exact absurd hidle ni
      · rw [at_other ht]
        exact k
    | @look t' ns' q' hcall hf =>
      by_cases ht : t = t'
      · subst ht
        rw [at_self]
        rw [hcall] at g
        obtain ⟨rfl, rfl⟩ := g
        have hp := him.pc
        rw [hf] at hp
        have hp : m.shown = m.rules := hp
        cases ho : mget m.rules ns' with
        | none => exact ⟨rfl, rfl, m, List.mem_cons_of_mem _ hr.mem, hp ▸ ho⟩
        | some src =>
          refine ⟨rfl, rfl, .inl ?_⟩
          show mget m.shown ns' = some src
          rw [hp, ho]
      · rw [at_other ht]
        exact k
    | @absent t' ns' q' hl =>
      by_cases ht : t = t'
      · subst ht
        rw [at_self]
        rw [hl] at g
        obtain ⟨rfl, rfl, x, hx, e⟩ := g
        exact ⟨rfl, rfl, x, List.mem_cons_of_mem _ hx, (answer_none e _).symm⟩
      · rw [at_other ht]
        exact k
    | @ask t' ns' q' src hl =>
      by_cases ht : t = t'
      · subst ht
        rw [at_self]
        rw [hl] at g
        obtain ⟨rfl, rfl, g⟩ := g
        refine ⟨rfl, rfl, ?_⟩
        rcases g with g | ⟨_, x, hx, e1, e2⟩
        · exact ⟨m, List.mem_cons_of_mem _ hr.mem, (answer_some g _).symm⟩
        · refine ⟨x, List.mem_cons_of_mem _ hx, ?_⟩
          rw [answer_some e1, e2]
      · rw [at_other ht]
        exact k
    | @again t' ns' q' a hl =>
      by_cases ht : t = t'
      · subst ht
        exact absurd (at_self _ _ _) ni'
      · rw [at_other ht]
        exact k
    | _ => exact k

/-- **C112.** In every execution, a lookup answers what a lookup by itself answers at one moment between its call and its return,
whatever namespaces updates and values of rule sets come in the meantime. -/
theorem C112_one_moment {env : Env} {past : Int} {l₀ : List Sys} {s : Sys} (h₀ : Run env past {} l₀ s) {t : Nat} {ns : Bytes} {q : Ask}
    (hc : s.lookups t = .called ns q) {l : List Sys} {m : Sys} (h : Run env past s l m) (hd : ∀ x ∈ l, x.lookups t ≠ .idle)
    {ns' : Bytes} {q' : Ask} {a : Ans} (hdone : m.lookups t = .done ns' q' a) :
    ns' = ns ∧ q' = q ∧ ∃ x ∈ l, a = x.answer env ns q := by
  have := going (h₀.inv inv_init) hc h hd
  rw [hdone] at this
  exact this

/-- What is known of the rule set that the update is about to remove. -/
def Judged (past : Int) (l : List Sys) : UPc → Prop
  | .dead ns src earliest _ inc => mget inc ns = none ∧ ∃ x ∈ l, mget x.rules ns = some src ∧ (x.objs src).tombstoned = true ∧
      earliest = x.clock - past
  | .old ns src _ inc => mget inc ns = none ∧ ∃ x ∈ l, mget x.rules ns = some src ∧ (x.objs src).tombstoned = true ∧
      ((∀ src, l.Pairwise fun b a => (a.objs src).cutoverNanos ≤ (b.objs src).cutoverNanos) →
        (x.objs src).cutoverNanos ≤ x.clock - past)
  | _ => True

theorem Judged.mono {past : Int} {l : List Sys} {u : UPc} (h : Judged past l u) (m : Sys) : Judged past (m :: l) u := by
  cases u with
  | dead ns src earliest todo inc =>
    obtain ⟨a, x, hx, b⟩ := h
    exact ⟨a, x, List.mem_cons_of_mem _ hx, b⟩
  | old ns src todo inc =>
    obtain ⟨a, x, hx, b, c, d⟩ := h
    exact ⟨a, x, List.mem_cons_of_mem _ hx, b, c, fun hp => d fun src => (hp src).of_cons⟩
  | _ => trivial

theorem judged {env : Env} {past : Int} {s : Sys} (hi : Inv s) (h0 : s.upd = .free) {l : List Sys} {m : Sys} (h : Run env past s l m) :
    Judged past l m.upd := by
  induction h with
  | here =>
    rw [h0]
    trivial
  | @step l m m' hr hs ih =>
    have him := hr.inv hi
    have k := ih.mono m'
    cases hs with
    | @tombstoned ns src todo inc hu hinc hd =>
      have hp := him.pc
      rw [hu] at hp
      exact ⟨hinc, m, List.mem_cons_of_mem _ hr.mem, mget_of_mem him.keys (hp.1 _ List.mem_cons_self), hd, rfl⟩
    | @past ns src earliest todo inc hu hc =>
      rw [hu] at ih
      obtain ⟨a, x, hx, b, c, rfl⟩ := ih
      refine ⟨a, x, List.mem_cons_of_mem _ hx, b, c, fun hp => ?_⟩
      have := (List.pairwise_cons.mp (hp src)).1 x hx
      exact Int.le_trans this hc
    | lock => trivial
    | «exists» => trivial
    | make => trivial
    | decide => trivial
    | unwatch => trivial
    | watch => trivial
    | secondLoop => trivial
    | keep => trivial
    | alive => trivial
    | recent => trivial
    | delete => trivial
    | unwatchRemoved => trivial
    | unlock => trivial
    | _ => exact k

/-- The map loses an entry only in one place. -/
theorem lost {env : Env} {past : Int} {m m' : Sys} (hi : Inv m) (hs : Step env past m m') {ns : Bytes} {src : Nat}
    (h : mget m.rules ns = some src) (h' : mget m'.rules ns ≠ some src) : ∃ todo inc, m.upd = .old ns src todo inc := by
  cases hs with
  | @make ns' elem todo inc hu hm =>
    refine absurd ?_ h'
    show mget (mset m.rules ns' m.next) ns = some src
    rw [mget_mset, if_neg, h]
    rintro rfl
    rw [hm] at h
    exact absurd h (by simp)
  | @delete ns' src' todo inc hu =>
    have hp := hi.pc
    rw [hu] at hp
    by_cases hn : ns = ns'
    · subst hn
      have := mget_of_mem hi.keys hp.1
      rw [h] at this
      injection this with this
      exact ⟨todo, inc, by rw [hu, this]⟩
    · refine absurd ?_ h'
      show mget (mdel m.rules ns') ns = some src
      rw [mget_mdel, if_neg hn, h]
  | _ => exact absurd h h'

/-- **C113.** A namespace leaves the matcher only if it is not part of the update and, at a moment of the update, its rule set
was deleted, and at a moment its cutover was before the window of matching: at the same moment, provided the cutover of a rule
set does not go back. -/
theorem C113_dropped {env : Env} {past : Int} {l : List Sys} {m m' : Sys} (h : Run env past {} l m) (hs : Step env past m m')
    {ns : Bytes} {src : Nat} (hin : mget m.rules ns = some src) (hout : mget m'.rules ns ≠ some src)
    (hc : ∀ src, l.Pairwise fun b a => (a.objs src).cutoverNanos ≤ (b.objs src).cutoverNanos) :
    ∃ todo inc, m.upd = .old ns src todo inc ∧ mget inc ns = none ∧ ∃ x ∈ l, mget x.rules ns = some src ∧
      (x.objs src).tombstoned = true ∧ (x.objs src).cutoverNanos ≤ x.clock - past := by
  obtain ⟨todo, inc, hu⟩ := lost (h.inv inv_init) hs hin hout
  have := judged inv_init rfl h
  rw [hu] at this
  obtain ⟨a, x, hx, b, c, d⟩ := this
  exact ⟨todo, inc, hu, a, x, hx, b, c, d hc⟩

/-! ### Cases -/

/-- A rule set without rules. -/
def plainRules (version cutover : Int) (tombstoned : Bool) : RuleSet.RuleSet :=
  { uuid := [], version, namespace_ := [1], createdAtNanos := 0, lastUpdatedAtNanos := 0, lastUpdatedBy := [], tombstoned,
    cutoverNanos := cutover, mappingRules := [], rollupRules := [] }

/-- Case of C112: a lookup finds the rule set of namespace `[1]`, then the namespace is removed, and the lookup answers the version
that was in force at a moment before (7), though the lookup by itself answers none at the end. -/
theorem C112_case (env : Env) : ∃ l₀ s l m, Run env 10 {} l₀ s ∧ s.lookups 0 = .called [1] .version ∧ Run env 10 s l m ∧
    (∀ x ∈ l, x.lookups 0 ≠ .idle) ∧ m.lookups 0 = .done [1] .version (.version 7) ∧ m.answer env [1] .version = .version 0 := by
  have h1 := Run.here (env := env) (past := 10) (s := {})
  have h2 := h1.step (.lock [⟨[1], none⟩] _ rfl (.refl _))
  have h3 := h2.step (.make rfl rfl)
  have h4 := h3.step (.decide rfl)
  have h5 := h4.step (.watch (.watching (some (plainRules 7 50 true, 0))) rfl)
  have h6 := h5.step (.secondLoop _ rfl (.refl _))
  have h7 := h6.step (.keep rfl rfl)
  have h8 := h7.step (.unlock rfl)
  have h9 := h8.step (.tick 100)
  have h10 := h9.step (.call (t := 0) [1] .version rfl)
  have g1 := h10.self.step (.look (t := 0) rfl rfl)
  have g2 := g1.step (.lock [] _ rfl (.refl _))
  have g3 := g2.step (.secondLoop _ rfl (.refl _))
  have g4 := g3.step (.tombstoned rfl rfl rfl)
  have g5 := g4.step (.past rfl (by decide))
  have g6 := g5.step (.delete rfl)
  have g7 := g6.step (.unwatchRemoved rfl)
  have g8 := g7.step (.unlock rfl)
  have g9 := g8.step (.ask (t := 0) rfl)
  refine ⟨_, _, _, _, h10, rfl, g9, ?_, rfl, rfl⟩
  intro x hx
  simp only [List.mem_cons, List.not_mem_nil, or_false] at hx
  rcases hx with rfl | rfl | rfl | rfl | rfl | rfl | rfl | rfl | rfl | rfl <;> intro hc <;> cases hc

/-- Outside of C113: if the cutover goes back, the namespace may be removed although its rule set was at no moment both deleted and
of a cutover before the window: a value of the rule set comes between the question whether it is deleted and the question for
its cutover. -/
theorem C113_outside (env : Env) : ∃ l m m', Run env 10 {} l m ∧ Step env 10 m m' ∧ mget m.rules [1] = some 0 ∧ mget m'.rules [1] = none ∧
    ∀ x ∈ l, ¬((x.objs 0).tombstoned = true ∧ (x.objs 0).cutoverNanos ≤ x.clock - 10) := by
  have h1 := Run.here (env := env) (past := 10) (s := {})
  have h2 := h1.step (.lock [⟨[1], none⟩] _ rfl (.refl _))
  have h3 := h2.step (.make rfl rfl)
  have h4 := h3.step (.decide rfl)
  have h5 := h4.step (.watch (.watching (some (plainRules 7 95 true, 0))) rfl)
  have h6 := h5.step (.secondLoop _ rfl (.refl _))
  have h7 := h6.step (.keep rfl rfl)
  have h8 := h7.step (.unlock rfl)
  have h9 := h8.step (.tick 100)
  have h10 := h9.step (.lock [] _ rfl (.refl _))
  have h11 := h10.step (.secondLoop _ rfl (.refl _))
  have h12 := h11.step (.tombstoned rfl rfl rfl)
  have h13 := h12.step (.value (src := 0) (plainRules 8 50 false) 100 rfl)
  have h14 := h13.step (.past rfl (by decide))
  refine ⟨_, _, _, h14, .delete rfl, rfl, rfl, ?_⟩
  intro x hx
  simp only [List.mem_cons, List.not_mem_nil, or_false] at hx
  rcases hx with rfl | rfl | rfl | rfl | rfl | rfl | rfl | rfl | rfl | rfl | rfl | rfl | rfl | rfl <;> decide

/-- Case of C113: an update that removes a namespace, with cutovers that do not go back. -/
theorem C113_case (env : Env) : ∃ l m m', Run env 10 {} l m ∧ Step env 10 m m' ∧ mget m.rules [1] = some 0 ∧ mget m'.rules [1] ≠ some 0 ∧
    ∀ src, l.Pairwise fun b a => (a.objs src).cutoverNanos ≤ (b.objs src).cutoverNanos := by
  have h1 := Run.here (env := env) (past := 10) (s := {})
  have h2 := h1.step (.lock [⟨[1], none⟩] _ rfl (.refl _))
  have h3 := h2.step (.make rfl rfl)
  have h4 := h3.step (.decide rfl)
  have h5 := h4.step (.watch (.watching (some (plainRules 7 50 true, 0))) rfl)
  have h6 := h5.step (.secondLoop _ rfl (.refl _))
  have h7 := h6.step (.keep rfl rfl)
  have h8 := h7.step (.unlock rfl)
  have h9 := h8.step (.tick 100)
  have h10 := h9.step (.lock [] _ rfl (.refl _))
  have h11 := h10.step (.secondLoop _ rfl (.refl _))
  have h12 := h11.step (.tombstoned rfl rfl rfl)
  have h13 := h12.step (.past rfl (by decide))
  refine ⟨_, _, _, h13, .delete rfl, rfl, by decide, ?_⟩
  intro src
  by_cases hs : src = 0
  · subst hs
    decide
  · simp [Sys.put, hs, newRuleSet]

end Verif.Lookups
