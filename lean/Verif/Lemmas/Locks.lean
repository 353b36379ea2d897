import Verif.Model.Locks
/-
Threads that take locks in the order of their ranks and touch shared state only under its lock.
-/
namespace Verif.Locks

variable {L F : Type} [DecidableEq L]

/-- What is left to do of a thread that holds `h`: locks are taken in the order of the ranks, given back if held, and all of
them in the end; shared state is read under its lock and written under its lock held alone. -/
def Ok (rank : L → Nat) (guard : F → L) : List (L × Mode) → List (Op L F) → Prop
  | h, [] => h = []
  | h, .lock l :: r => (∀ x ∈ h, rank x.1 < rank l) ∧ Ok rank guard ((l, .excl) :: h) r
  | h, .rlock l :: r => (∀ x ∈ h, rank x.1 < rank l) ∧ Ok rank guard ((l, .shared) :: h) r
  | h, .unlock l :: r => (l, Mode.excl) ∈ h ∧ Ok rank guard (h.erase (l, .excl)) r
  | h, .runlock l :: r => (l, Mode.shared) ∈ h ∧ Ok rank guard (h.erase (l, .shared)) r
  | h, .read f :: r => (∃ m, (guard f, m) ∈ h) ∧ Ok rank guard h r
  | h, .write f :: r => (guard f, Mode.excl) ∈ h ∧ Ok rank guard h r

/-- A program that, started with the locks `h`, keeps to the rules and ends with the locks `h`. -/
def Good (rank : L → Nat) (guard : F → L) (h : List (L × Mode)) (p : Prog L F) : Prop :=
  ∀ a, Runs p a → ∀ k, Ok rank guard h k → Ok rank guard h (a ++ k)

variable {rank : L → Nat} {guard : F → L} {h : List (L × Mode)}

theorem good_skip : Good rank guard h .skip := by
  intro a ha k hk
  cases ha
  exact hk

theorem good_seq {p q : Prog L F} (hp : Good rank guard h p) (hq : Good rank guard h q) : Good rank guard h (.seq p q) := by
  intro a ha k hk
  cases ha with
  | seq h1 h2 =>
    rw [List.append_assoc]
    exact hp _ h1 _ (hq _ h2 _ hk)

theorem good_alt {p q : Prog L F} (hp : Good rank guard h p) (hq : Good rank guard h q) : Good rank guard h (.alt p q) := by
  intro a ha k hk
  cases ha with
  | left h1 => exact hp _ h1 _ hk
  | right h1 => exact hq _ h1 _ hk

theorem good_opt {p : Prog L F} (hp : Good rank guard h p) : Good rank guard h (opt p) := good_alt good_skip hp

theorem good_any {p : Nat → Prog L F} (hp : ∀ i, Good rank guard h (p i)) : Good rank guard h (.any p) := by
  intro a ha k hk
  cases ha with
  | any i h1 => exact hp i _ h1 _ hk

theorem good_star {p : Prog L F} (hp : Good rank guard h p) : Good rank guard h (.star p) := by
  intro a ha
  generalize hq : Prog.star p = q at ha
  induction ha with
  | stop => intro k hk; exact hk
  | again h1 _ _ ih =>
    cases hq
    intro k hk
    rw [List.append_assoc]
    exact hp _ h1 _ (ih rfl k hk)
  | skip => cases hq
  | op => cases hq
  | seq => cases hq
  | left => cases hq
  | right => cases hq
  | any => cases hq

theorem good_read {f : F} {m : Mode} (hm : (guard f, m) ∈ h) : Good rank guard h (.op (.read f)) := by
  intro a ha k hk
  cases ha
  exact ⟨⟨m, hm⟩, hk⟩

theorem good_write {f : F} (hm : (guard f, Mode.excl) ∈ h) : Good rank guard h (.op (.write f)) := by
  intro a ha k hk
  cases ha
  exact ⟨hm, hk⟩

theorem good_locked {l : L} {p : Prog L F} (hl : ∀ x ∈ h, rank x.1 < rank l) (hp : Good rank guard ((l, .excl) :: h) p) :
    Good rank guard h (locked l p) := by
  intro a ha k hk
  cases ha with
  | seq h1 h2 =>
    cases h1
    cases h2 with
    | seq h3 h4 =>
      cases h4
      refine ⟨hl, ?_⟩
      show Ok rank guard ((l, .excl) :: h) ((_ ++ [Op.unlock l]) ++ k)
      rw [List.append_assoc]
      refine hp _ h3 _ ⟨List.mem_cons_self, ?_⟩
      rw [List.erase_cons_head]
      exact hk

theorem good_rlocked {l : L} {p : Prog L F} (hl : ∀ x ∈ h, rank x.1 < rank l) (hp : Good rank guard ((l, .shared) :: h) p) :
    Good rank guard h (rlocked l p) := by
  intro a ha k hk
  cases ha with
  | seq h1 h2 =>
    cases h1
    cases h2 with
    | seq h3 h4 =>
      cases h4
      refine ⟨hl, ?_⟩
      show Ok rank guard ((l, .shared) :: h) ((_ ++ [Op.runlock l]) ++ k)
      rw [List.append_assoc]
      refine hp _ h3 _ ⟨List.mem_cons_self, ?_⟩
      rw [List.erase_cons_head]
      exact hk

/-- Giving the lock back for a while and taking it again. -/
theorem good_yield {l : L} (hl : ∀ x ∈ h, rank x.1 < rank l) :
    Good rank guard ((l, .excl) :: h) (.seq (.op (.unlock l)) (.op (.lock l)) : Prog L F) := by
  intro a ha k hk
  cases ha with
  | seq h1 h2 =>
    cases h1
    cases h2
    refine ⟨List.mem_cons_self, ?_⟩
    rw [List.erase_cons_head]
    exact ⟨hl, hk⟩

/-- What holds of every thread at any time. -/
def TOk (rank : L → Nat) (guard : F → L) (t : Thread L F) : Prop :=
  Ok rank guard t.held t.todo ∧ (t.announced = true → ∃ l r, t.todo = .lock l :: r)

/-- Two threads do not hold the same lock, one of them alone. -/
def Apart (s t : Thread L F) : Prop :=
  ∀ l, ((l, Mode.excl) ∈ s.held → ∀ m, (l, m) ∉ t.held) ∧ ((l, Mode.excl) ∈ t.held → ∀ m, (l, m) ∉ s.held)

omit [DecidableEq L] in
theorem Apart.symm {s t : Thread L F} (hst : Apart s t) : Apart t s := fun l => ⟨(hst l).2, (hst l).1⟩

theorem move_ok {ts : List (Thread L F)} {t t' : Thread L F} (hm : Move ts t t') (ht : TOk rank guard t) : TOk rank guard t' := by
  obtain ⟨h1, h2⟩ := ht
  cases hm with
  | rlock _ => exact ⟨h1.2, fun h => by cases h⟩
  | runlock _ => exact ⟨h1.2, fun h => by cases h⟩
  | announce _ => exact ⟨h1, fun _ => ⟨_, _, rfl⟩⟩
  | lock _ => exact ⟨h1.2, fun h => by cases h⟩
  | unlock _ => exact ⟨h1.2, fun h => by cases h⟩
  | read => exact ⟨h1.2, fun h => by cases h⟩
  | write => exact ⟨h1.2, fun h => by cases h⟩

theorem apart_mono {s t t' : Thread L F} (hsub : ∀ x ∈ t'.held, x ∈ t.held) (h : Apart s t) : Apart s t' :=
  fun l => ⟨fun h1 m h2 => (h l).1 h1 m (hsub _ h2), fun h1 => (h l).2 (hsub _ h1)⟩

theorem move_apart {ts : List (Thread L F)} {t t' : Thread L F} (hm : Move ts t t') {s : Thread L F} (hs : s ∈ ts)
    (h : Apart s t) : Apart s t' := by
  cases hm with
  | rlock ho =>
    intro l
    refine ⟨fun h1 m h2 => ?_, fun h1 m h2 => ?_⟩
    · rcases List.mem_cons.mp h2 with he | he
      · cases he
        exact (ho s hs).1 h1
      · exact (h l).1 h1 m he
    · rcases List.mem_cons.mp h1 with he | he
      · cases he
      · exact (h l).2 he m h2
  | runlock _ => exact apart_mono (fun x hx => List.mem_of_mem_erase hx) h
  | announce _ => exact h
  | lock hf =>
    intro l
    refine ⟨fun h1 m h2 => ?_, fun h1 m h2 => ?_⟩
    · rcases List.mem_cons.mp h2 with he | he
      · cases he
        exact hf s hs _ h1
      · exact (h l).1 h1 m he
    · rcases List.mem_cons.mp h1 with he | he
      · cases he
        exact hf s hs _ h2
      · exact (h l).2 he m h2
  | unlock _ => exact apart_mono (fun x hx => List.mem_of_mem_erase hx) h
  | read => exact h
  | write => exact h

/-- What holds of all threads at any time. -/
structure Inv (rank : L → Nat) (guard : F → L) (ts : List (Thread L F)) : Prop where
  ok : ∀ t ∈ ts, TOk rank guard t
  apart : ts.Pairwise Apart

theorem step_inv {ts ts' : List (Thread L F)} (hs : Step ts ts') (hi : Inv rank guard ts) : Inv rank guard ts' := by
  cases hs with
  | @mk pre t t' post hm =>
    obtain ⟨h1, h2⟩ := hi
    refine ⟨fun u hu => ?_, ?_⟩
    · rcases List.mem_append.mp hu with hu | hu
      · exact h1 u (List.mem_append_left _ hu)
      · rcases List.mem_cons.mp hu with rfl | hu
        · exact move_ok hm (h1 t (List.mem_append_right _ List.mem_cons_self))
        · exact h1 u (List.mem_append_right _ (List.mem_cons_of_mem _ hu))
    · rw [List.pairwise_append, List.pairwise_cons] at h2 ⊢
      obtain ⟨ha, ⟨hb, hc⟩, hd⟩ := h2
      refine ⟨ha, ⟨fun u hu => ?_, hc⟩, fun s hs u hu => ?_⟩
      · exact (move_apart hm (List.mem_append_right _ (List.mem_cons_of_mem _ hu)) (hb u hu).symm).symm
      · rcases List.mem_cons.mp hu with rfl | hu
        · exact move_apart hm (List.mem_append_left _ hs) (hd s hs t List.mem_cons_self)
        · exact hd s hs u (List.mem_cons_of_mem _ hu)

theorem reach_inv {E : Prog L F → Prop} (hE : ∀ p, E p → Good rank guard [] p) {ts : List (Thread L F)} (hr : Reach E ts) :
    Inv rank guard ts := by
  induction hr with
  | init => exact ⟨fun t ht => (nomatch ht), List.Pairwise.nil⟩
  | start _ hp ha ih =>
    refine ⟨fun t ht => ?_, List.pairwise_cons.mpr ⟨fun u _ l => ⟨fun h => (nomatch h), fun _ m h => (nomatch h)⟩, ih.apart⟩⟩
    rcases List.mem_cons.mp ht with rfl | ht
    · refine ⟨?_, fun h => by cases h⟩
      have := hE _ hp _ ha [] rfl
      rwa [List.append_nil] at this
    · exact ih.ok t ht
  | step _ hs ih => exact step_inv hs ih

/-- The rank of the lock the thread wants next, one more; 0 if it wants none. -/
def wants (rank : L → Nat) (t : Thread L F) : Nat :=
  match t.todo with
  | .lock l :: _ => rank l + 1
  | .rlock l :: _ => rank l + 1
  | _ => 0

omit [DecidableEq L] in
theorem max_wants (rank : L → Nat) (ts : List (Thread L F)) (t : Thread L F) (ht : t ∈ ts) :
    ∃ u ∈ ts, ∀ v ∈ ts, wants rank v ≤ wants rank u := by
  induction ts generalizing t with
  | nil => cases ht
  | cons a r ih =>
    cases r with
    | nil => exact ⟨a, List.mem_cons_self, fun v hv => by rcases List.mem_cons.mp hv with rfl | hv; exact Nat.le_refl _; cases hv⟩
    | cons b r' =>
      obtain ⟨u, hu, hmax⟩ := ih b List.mem_cons_self
      by_cases hle : wants rank a ≤ wants rank u
      · refine ⟨u, List.mem_cons_of_mem _ hu, fun v hv => ?_⟩
        rcases List.mem_cons.mp hv with rfl | hv
        · exact hle
        · exact hmax v hv
      · refine ⟨a, List.mem_cons_self, fun v hv => ?_⟩
        rcases List.mem_cons.mp hv with rfl | hv
        · exact Nat.le_refl _
        · exact Nat.le_trans (hmax v hv) (Nat.le_of_not_le hle)

theorem step_of_move {ts : List (Thread L F)} {t t' : Thread L F} (ht : t ∈ ts) (hm : Move ts t t') : ∃ ts', Step ts ts' := by
  obtain ⟨pre, post, rfl⟩ := List.append_of_mem ht
  exact ⟨_, .mk hm⟩

/-- A thread that wants no lock and is not done can go on. -/
theorem moves {ts : List (Thread L F)} {t : Thread L F} (hok : TOk rank guard t) (hne : t.todo ≠ []) (hw : wants rank t = 0) :
    ∃ t', Move ts t t' := by
  obtain ⟨h, b, todo⟩ := t
  obtain ⟨h1, h2⟩ := hok
  cases todo with
  | nil => exact absurd rfl hne
  | cons o r =>
    have hb : b = false ∨ ∃ l, o = .lock l := by
      cases b with
      | false => exact .inl rfl
      | true =>
        obtain ⟨l, r', he⟩ := h2 rfl
        injection he with he1 _
        exact .inr ⟨l, he1⟩
    cases o with
    | lock l => simp [wants] at hw
    | rlock l => simp [wants] at hw
    | unlock l => rcases hb with rfl | ⟨l', hb⟩; exact ⟨_, .unlock h1.1⟩; cases hb
    | runlock l => rcases hb with rfl | ⟨l', hb⟩; exact ⟨_, .runlock h1.1⟩; cases hb
    | read f => rcases hb with rfl | ⟨l', hb⟩; exact ⟨_, .read⟩; cases hb
    | write f => rcases hb with rfl | ⟨l', hb⟩; exact ⟨_, .write⟩; cases hb

/-- A thread that holds a lock and can not go on without another one wants one of higher rank. -/
theorem holder {t : Thread L F} (hok : TOk rank guard t) {l : L} {m : Mode} (hh : (l, m) ∈ t.held) :
    t.todo ≠ [] ∧ (wants rank t = 0 ∨ rank l + 1 < wants rank t) := by
  obtain ⟨h, b, todo⟩ := t
  obtain ⟨h1, h2⟩ := hok
  cases todo with
  | nil => simp only [Ok] at h1; subst h1; cases hh
  | cons o r =>
    refine ⟨fun h => (nomatch h), ?_⟩
    cases o with
    | lock l' => exact .inr (Nat.succ_lt_succ (h1.1 _ hh))
    | rlock l' => exact .inr (Nat.succ_lt_succ (h1.1 _ hh))
    | _ => exact .inl rfl

theorem progress {ts : List (Thread L F)} (hi : Inv rank guard ts) {t : Thread L F} (ht : t ∈ ts) (hne : t.todo ≠ []) :
    ∃ ts', Step ts ts' := by
  classical
  -- the threads that are not done, and one of them that wants the lock of highest rank
  obtain ⟨u, hu, hmax⟩ := max_wants rank (ts.filter fun v => !v.todo.isEmpty) t
    (List.mem_filter.mpr ⟨ht, by cases h : t.todo with | nil => exact absurd h hne | cons => rfl⟩)
  obtain ⟨hu1, hu2⟩ := List.mem_filter.mp hu
  have une : u.todo ≠ [] := by intro h; rw [h] at hu2; cases hu2
  have hmax' : ∀ v ∈ ts, v.todo ≠ [] → wants rank v ≤ wants rank u := fun v hv hvne =>
    hmax v (List.mem_filter.mpr ⟨hv, by cases h : v.todo with | nil => exact absurd h hvne | cons => rfl⟩)
  -- whoever holds that lock can go on
  have hold : ∀ l, rank l + 1 = wants rank u → ∀ v ∈ ts, ∀ m, (l, m) ∈ v.held → ∃ ts', Step ts ts' := by
    intro l hl v hv m hm
    obtain ⟨h1, h2⟩ := holder (hi.ok v hv) hm
    rcases h2 with h2 | h2
    · obtain ⟨v', hmv⟩ := moves (ts := ts) (hi.ok v hv) h1 h2
      exact step_of_move hv hmv
    · exact absurd (hmax' v hv h1) (by omega)
  -- a writer waiting for it can go on, or its holder can
  have wait : ∀ l, rank l + 1 = wants rank u → ∀ v ∈ ts, v.Waits l → ∃ ts', Step ts ts' := by
    intro l hl v hv hw
    obtain ⟨h, b, todo⟩ := v
    obtain ⟨hb, r, hr⟩ := hw
    simp only at hb hr
    subst hb hr
    by_cases hf : Free ts l
    · exact step_of_move hv (.lock hf)
    · simp only [Free, Classical.not_forall, Classical.not_not] at hf
      obtain ⟨w, hw1, m, hw2⟩ := hf
      exact hold l hl w hw1 m hw2
  -- if it is closed, somebody can go on
  have closed : ∀ l, rank l + 1 = wants rank u → ¬ Open ts l → ∃ ts', Step ts ts' := by
    intro l hl ho
    simp only [Open, Classical.not_forall] at ho
    obtain ⟨w, hw1, hw2⟩ := ho
    by_cases h : (l, Mode.excl) ∈ w.held
    · exact hold l hl w hw1 _ h
    · by_cases h' : w.Waits l
      · exact wait l hl w hw1 h'
      · exact absurd ⟨h, h'⟩ hw2
  obtain ⟨hh, b, todo⟩ := u
  cases todo with
  | nil => exact absurd rfl une
  | cons o r =>
    cases o with
    | lock l =>
      cases b with
      | true => exact wait l rfl _ hu1 ⟨rfl, r, rfl⟩
      | false =>
        by_cases ho : Open ts l
        · exact step_of_move hu1 (.announce ho)
        · exact closed l rfl ho
    | rlock l =>
      have hb : b = false := by
        cases b with
        | false => rfl
        | true => obtain ⟨l', r', he⟩ := (hi.ok _ hu1).2 rfl; cases he
      subst hb
      by_cases ho : Open ts l
      · exact step_of_move hu1 (.rlock ho)
      · exact closed l rfl ho
    | unlock l => obtain ⟨v', hmv⟩ := moves (ts := ts) (hi.ok _ hu1) une rfl; exact step_of_move hu1 hmv
    | runlock l => obtain ⟨v', hmv⟩ := moves (ts := ts) (hi.ok _ hu1) une rfl; exact step_of_move hu1 hmv
    | read f => obtain ⟨v', hmv⟩ := moves (ts := ts) (hi.ok _ hu1) une rfl; exact step_of_move hu1 hmv
    | write f => obtain ⟨v', hmv⟩ := moves (ts := ts) (hi.ok _ hu1) une rfl; exact step_of_move hu1 hmv

/-- How many steps a thread has before it. -/
def left (t : Thread L F) : Nat := 2 * t.todo.length - (if t.announced then 1 else 0)

/-- How many steps all threads have before them, at most. -/
def work (ts : List (Thread L F)) : Nat := (ts.map left).sum

theorem move_left {ts : List (Thread L F)} {t t' : Thread L F} (hm : Move ts t t') : left t' < left t := by
  cases hm <;> simp [left] <;> omega

theorem step_work {ts ts' : List (Thread L F)} (hs : Step ts ts') : work ts' < work ts := by
  cases hs with
  | mk hm =>
    have := move_left hm
    simp only [work, List.map_append, List.map_cons, List.sum_append, List.sum_cons]
    omega

theorem steps_work {n : Nat} {ts ts' : List (Thread L F)} (hs : Steps n ts ts') : n + work ts' ≤ work ts := by
  induction hs with
  | done => omega
  | step h1 _ ih => have := step_work h1; omega

theorem steps_inv {n : Nat} {ts ts' : List (Thread L F)} (hs : Steps n ts ts') (hi : Inv rank guard ts) : Inv rank guard ts' := by
  induction hs with
  | done => exact hi
  | step h1 _ ih => exact ih (step_inv h1 hi)

theorem completes (n : Nat) {ts : List (Thread L F)} (hi : Inv rank guard ts) (hn : work ts ≤ n) :
    ∃ k ts', Steps k ts ts' ∧ ∀ t ∈ ts', t.todo = [] := by
  induction n generalizing ts with
  | zero =>
    refine ⟨0, ts, .done ts, fun t ht => ?_⟩
    by_cases hne : t.todo = []
    · exact hne
    · obtain ⟨ts', hs⟩ := progress hi ht hne
      have := step_work hs
      omega
  | succ n ih =>
    by_cases hall : ∀ t ∈ ts, t.todo = []
    · exact ⟨0, ts, .done ts, hall⟩
    · simp only [Classical.not_forall] at hall
      obtain ⟨t, ht, hne⟩ := hall
      obtain ⟨ts', hs⟩ := progress hi ht hne
      have := step_work hs
      obtain ⟨k, ts'', h1, h2⟩ := ih (step_inv hs hi) (by omega)
      exact ⟨k + 1, ts'', .step hs h1, h2⟩

end Verif.Locks
