import Verif.Lemmas.Locks
/-
C89: the calls of users and the goroutines of a matcher never block each other for good.
C90: they never touch the same shared state at the same time, one of them writing.
-/
namespace Verif.Locks

/-- The order in which the locks are taken. -/
def rank : Lock → Nat
  | .nsValue => 0
  | .ns => 1
  | .ruleValue _ => 2
  | .cache => 3
  | .rule _ => 4
  | .list => 5
  | .validator => 0

/-- The lock that guards the shared state. -/
def guard : Field → Lock
  | .nsState => .ns
  | .ruleState i => .rule i
  | .cacheState => .cache
  | .listState => .list
  | .validatorState => .validator

/-- All locks held rank lower than the one of rank `n`. -/
abbrev Below (h : List (Lock × Mode)) (n : Nat) : Prop := ∀ x ∈ h, rank x.1 < n

theorem below_mono {h : List (Lock × Mode)} {m n : Nat} (hmn : m ≤ n) (hb : Below h m) : Below h n :=
  fun x hx => Nat.lt_of_lt_of_le (hb x hx) hmn

theorem below_cons {h : List (Lock × Mode)} {l : Lock} {md : Mode} {m n : Nat} (hl : rank l < n) (hmn : m ≤ n) (hb : Below h m) :
    Below ((l, md) :: h) n := by
  intro x hx
  rcases List.mem_cons.mp hx with rfl | hx
  · exact hl
  · exact below_mono hmn hb x hx

variable {h : List (Lock × Mode)}

theorem ruleRead_good (i : Nat) (hb : Below h 4) : Good rank guard h (ruleRead i) :=
  good_rlocked hb (good_read (m := .shared) List.mem_cons_self)

theorem toRuleSet_good (i : Nat) (hb : Below h 4) : Good rank guard h (toRuleSet i) :=
  good_locked hb (good_opt (good_write List.mem_cons_self))

theorem promote_good (hb : Below h 5) : Good rank guard h promote := good_locked hb (good_opt (good_write List.mem_cons_self))

theorem add_good (hb : Below h 5) : Good rank guard h add :=
  good_locked hb (good_seq (good_write List.mem_cons_self) (good_read (m := .excl) List.mem_cons_self))

/-- Under the lock of the cache, taken when only locks of lower rank were held. -/
theorem setWithLock_good (hb : Below h 3) : Good rank guard ((.cache, .excl) :: h) setWithLock := by
  have hw : Good rank guard ((.cache, .excl) :: h) (.op (.write .cacheState)) := good_write List.mem_cons_self
  have h5 : Below ((Lock.cache, Mode.excl) :: h) 5 := below_cons (by decide) (by decide) hb
  refine good_seq (good_opt (good_alt hw ?_)) (good_seq (good_any fun i => ruleRead_good i (below_cons (by decide) (by decide) hb)) (good_seq hw (add_good h5)))
  exact good_seq (good_read (m := .excl) List.mem_cons_self) (good_seq hw (good_locked h5 (good_write List.mem_cons_self)))

theorem cacheMatch_good (hb : Below h 3) : Good rank guard h cacheMatch := by
  refine good_seq (good_rlocked hb ?_) (good_opt (good_locked hb ?_))
  · exact good_seq (good_read (m := .shared) List.mem_cons_self) (good_opt (promote_good (below_cons (by decide) (by decide) hb)))
  · exact good_seq (good_read (m := .excl) List.mem_cons_self)
      (good_alt (good_opt (promote_good (below_cons (by decide) (by decide) hb))) (setWithLock_good hb))

theorem register_good (hb : Below h 3) : Good rank guard h register :=
  good_locked hb (good_seq (good_read (m := .excl) List.mem_cons_self)
    (good_alt (good_write List.mem_cons_self) (good_write List.mem_cons_self)))

theorem refresh_good (hb : Below h 3) : Good rank guard h refresh :=
  good_locked hb (good_seq (good_read (m := .excl) List.mem_cons_self) (good_opt (good_write List.mem_cons_self)))

theorem unregister_good (hb : Below h 3) : Good rank guard h unregister :=
  good_locked hb (good_seq (good_read (m := .excl) List.mem_cons_self) (good_opt (good_write List.mem_cons_self)))

theorem cacheClose_good (hb : Below h 3) : Good rank guard h cacheClose :=
  good_locked hb (good_seq (good_read (m := .excl) List.mem_cons_self) (good_opt (good_write List.mem_cons_self)))

theorem doEvict_good (hb : Below h 3) : Good rank guard h doEvict := by
  refine good_locked hb (good_locked (below_cons (by decide) (by decide) hb) ?_)
  refine good_seq (good_read (m := .excl) List.mem_cons_self) (good_star (good_seq (good_write List.mem_cons_self) (good_seq ?_ (good_opt ?_))))
  · exact good_read (m := .excl) (List.mem_cons_of_mem _ List.mem_cons_self)
  · exact good_write (List.mem_cons_of_mem _ List.mem_cons_self)

theorem doDelete_good (hb : Below h 3) : Good rank guard h doDelete := by
  refine good_seq (unregister_good hb) (good_opt (good_locked (below_mono (by decide) hb) (good_star ?_)))
  exact good_seq (good_write List.mem_cons_self) (good_opt (good_yield (below_mono (by decide) hb)))

theorem ruleProcess_good (i : Nat) (hb : Below h 3) : Good rank guard h (ruleProcess i) :=
  good_seq (good_locked (below_mono (n := 4) (by decide) hb) (good_write List.mem_cons_self)) (good_opt (refresh_good hb))

theorem ruleUpdate_good (i : Nat) (hb : Below h 2) : Good rank guard h (ruleUpdate i) := by
  have h3 : Below ((Lock.ruleValue i, Mode.excl) :: h) 3 := below_cons (by simp [rank]) (by decide) hb
  exact good_locked hb (good_opt (good_seq (toRuleSet_good i (below_mono (by decide) h3)) (good_opt (ruleProcess_good i h3))))

theorem ruleUnwatch_good (i : Nat) (hb : Below h 2) : Good rank guard h (ruleUnwatch i) := good_locked hb good_skip

theorem nsRuleSet_good (hb : Below h 1) : Good rank guard h nsRuleSet :=
  good_rlocked hb (good_read (m := .shared) List.mem_cons_self)

theorem nsMatch_good (hb : Below h 1) : Good rank guard h nsMatch :=
  good_seq (nsRuleSet_good hb) (good_opt (good_any fun i => ruleRead_good i (below_mono (by decide) hb)))

theorem nsProcess_good (hb : Below h 1) : Good rank guard h nsProcess := by
  have h2 : Below ((Lock.ns, Mode.excl) :: h) 2 := below_cons (by decide) (by decide) hb
  have hr : Good rank guard ((Lock.ns, Mode.excl) :: h) (.op (.read .nsState)) := good_read (m := .excl) List.mem_cons_self
  have hw : Good rank guard ((Lock.ns, Mode.excl) :: h) (.op (.write .nsState)) := good_write List.mem_cons_self
  have hrr : ∀ i, Good rank guard ((Lock.ns, Mode.excl) :: h) (ruleRead i) := fun i => ruleRead_good i (below_mono (by decide) h2)
  refine good_locked hb (good_seq (good_star (good_any fun i => ?_)) (good_star (good_any fun i => ?_)))
  · exact good_seq hr (good_seq (good_opt hw) (good_seq (good_opt (hrr i))
      (good_seq (good_alt (ruleUnwatch_good i h2) (ruleUpdate_good i h2)) (good_opt (register_good (below_mono (by decide) h2))))))
  · exact good_seq hr (good_opt (good_seq (hrr i) (good_opt (good_seq (hrr i) (good_opt
      (good_seq (good_seq (hrr i) (unregister_good (below_mono (by decide) h2))) (good_seq hw (ruleUnwatch_good i h2))))))))

theorem nsUpdate_good : Good rank guard [] nsUpdate := by
  have h1 : Below [(Lock.nsValue, Mode.excl)] 1 := below_cons (m := 0) (by decide) (by decide) (fun _ hx => nomatch hx)
  exact good_locked (fun _ hx => nomatch hx)
    (good_opt (good_seq (good_locked h1 (good_opt (good_write List.mem_cons_self))) (good_opt (nsProcess_good h1))))

theorem nsClose_good : Good rank guard [] nsClose := by
  refine good_seq (good_locked (fun _ hx => nomatch hx) good_skip) (good_rlocked (fun _ hx => nomatch hx) ?_)
  refine good_seq (good_read (m := .shared) List.mem_cons_self) (good_star (good_any fun i => ruleUnwatch_good i ?_))
  exact below_cons (m := 0) (by decide) (by decide) (fun _ hx => nomatch hx)

theorem entries_good (p : P) (hp : Entry p) : Good rank guard [] p := by
  have h0 : ∀ n, Below [] n := fun _ _ hx => nomatch hx
  cases hp with
  | cacheMatch => exact cacheMatch_good (h0 _)
  | close => exact good_seq nsClose_good (cacheClose_good (h0 _))
  | nsUpdate => exact nsUpdate_good
  | ruleUpdate i => exact ruleUpdate_good i (h0 _)
  | ruleUnwatch i => exact ruleUnwatch_good i (h0 _)
  | ruleRead i => exact ruleRead_good i (h0 _)
  | nsMatch => exact nsMatch_good (h0 _)
  | nsClose => exact nsClose_good
  | register => exact register_good (h0 _)
  | refresh => exact refresh_good (h0 _)
  | unregister => exact unregister_good (h0 _)
  | cacheClose => exact cacheClose_good (h0 _)
  | doEvict => exact doEvict_good (h0 _)
  | doDelete => exact doDelete_good (h0 _)
  | validate => exact good_rlocked (h0 _) (good_read (m := .shared) List.mem_cons_self)
  | validatorClose =>
    exact good_locked (h0 _) (good_seq (good_read (m := .excl) List.mem_cons_self) (good_opt (good_write List.mem_cons_self)))
  | validatorUpdate => exact good_opt (good_locked (h0 _) (good_write List.mem_cons_self))

/-- C89: whatever calls and updates are under way, and however they were interleaved, as long as one of them is not done some
thread can make a step. -/
theorem C89_no_deadlock {ts : List (Thread Lock Field)} (hr : Reach Entry ts) {t : Thread Lock Field} (ht : t ∈ ts)
    (hne : t.todo ≠ []) : ∃ ts', Step ts ts' := progress (reach_inv entries_good hr) ht hne

/-- C89: the calls and updates that are under way come to an end: however their steps are interleaved from here on, after so many
steps at most nothing is left to do, and where no step is left to make all of them are done and hold no lock. -/
theorem C89_ends {ts : List (Thread Lock Field)} (hr : Reach Entry ts) :
    ∃ bound, ∀ n ts', Steps n ts ts' → n ≤ bound ∧ ((¬ ∃ ts'', Step ts' ts'') → ∀ t ∈ ts', t.todo = [] ∧ t.held = []) := by
  have hi := reach_inv entries_good hr
  refine ⟨work ts, fun n ts' hs => ⟨by have := steps_work hs; omega, fun hno t ht => ?_⟩⟩
  have hi' := steps_inv hs hi
  by_cases hne : t.todo = []
  · have := (hi'.ok t ht).1
    rw [hne] at this
    exact ⟨hne, this⟩
  · exact absurd (progress hi' ht hne) hno

/-- C89: nobody gives back a lock that is not held, which would be a fatal error. -/
theorem C89_unlocks {ts : List (Thread Lock Field)} (hr : Reach Entry ts) {t : Thread Lock Field} (ht : t ∈ ts) {l : Lock} {r : List (Op Lock Field)} :
    (t.todo = .unlock l :: r → (l, Mode.excl) ∈ t.held) ∧ (t.todo = .runlock l :: r → (l, Mode.shared) ∈ t.held) := by
  have hok := ((reach_inv entries_good hr).ok t ht).1
  constructor <;> intro he <;> rw [he] at hok <;> exact hok.1

omit h in
theorem pairwise_get {α : Type} {R : α → α → Prop} (hsym : ∀ a b, R a b → R b a) {l : List α} (hl : l.Pairwise R) {i j : Nat} (hij : i ≠ j)
    {a b : α} (ha : l[i]? = some a) (hb : l[j]? = some b) : R a b := by
  obtain ⟨hi, rfl⟩ := List.getElem?_eq_some_iff.mp ha
  obtain ⟨hj, rfl⟩ := List.getElem?_eq_some_iff.mp hb
  rw [List.pairwise_iff_getElem] at hl
  rcases Nat.lt_or_gt_of_ne hij with h | h
  · exact hl i j hi hj h
  · exact hsym _ _ (hl j i hj hi h)

/-- C90: no two threads are ever about to touch the same shared state with one of them about to write it. -/
theorem C90_no_race {ts : List (Thread Lock Field)} (hr : Reach Entry ts) {i j : Nat} (hij : i ≠ j) {s t : Thread Lock Field}
    (hs : ts[i]? = some s) (ht : ts[j]? = some t) {f : Field} {r r' : List (Op Lock Field)} (hw : s.todo = .write f :: r) :
    t.todo ≠ .write f :: r' ∧ t.todo ≠ .read f :: r' := by
  have hi := reach_inv entries_good hr
  have h1 := (hi.ok s (List.mem_of_getElem? hs)).1
  have h2 := (hi.ok t (List.mem_of_getElem? ht)).1
  have h3 := pairwise_get (fun _ _ h => Apart.symm h) hi.apart hij hs ht
  rw [hw] at h1
  constructor <;> intro he <;> rw [he] at h2
  · exact (h3 _).1 h1.1 _ h2.1
  · obtain ⟨m, hm⟩ := h2.1
    exact (h3 _).1 h1.1 _ hm

/-- C90: and this is because whoever writes holds the lock of the state alone, and whoever reads holds it. -/
theorem C90_guarded {ts : List (Thread Lock Field)} (hr : Reach Entry ts) {i j : Nat} (hij : i ≠ j) {s t : Thread Lock Field}
    (hs : ts[i]? = some s) (ht : ts[j]? = some t) {f : Field} {r : List (Op Lock Field)} :
    (s.todo = .write f :: r → (guard f, Mode.excl) ∈ s.held ∧ ∀ m, (guard f, m) ∉ t.held) ∧
    (s.todo = .read f :: r → (∃ m, (guard f, m) ∈ s.held) ∧ (guard f, Mode.excl) ∉ t.held) := by
  have hi := reach_inv entries_good hr
  have h1 := (hi.ok s (List.mem_of_getElem? hs)).1
  have h3 := pairwise_get (fun _ _ h => Apart.symm h) hi.apart hij hs ht
  constructor <;> intro he <;> rw [he] at h1
  · exact ⟨h1.1, (h3 _).1 h1.1⟩
  · obtain ⟨m, hm⟩ := h1.1
    exact ⟨⟨m, hm⟩, fun hx => (h3 _).2 hx m hm⟩

/-! ### Concrete runs -/

/-- The thread at a place makes its step, if it can. -/
def fire (ts : List (Thread Lock Field)) (i : Nat) : Option (List (Thread Lock Field)) :=
  let isOpen := fun l => ts.all fun u => !u.held.contains (l, Mode.excl) && !(u.announced && u.todo.head? == some (.lock l))
  let isFree := fun l => ts.all fun u => !u.held.contains (l, Mode.excl) && !u.held.contains (l, Mode.shared)
  match ts[i]? with
  | some ⟨h, false, .rlock l :: r⟩ => if isOpen l then some (ts.set i ⟨(l, .shared) :: h, false, r⟩) else none
  | some ⟨h, false, .runlock l :: r⟩ => if h.contains (l, .shared) then some (ts.set i ⟨h.erase (l, .shared), false, r⟩) else none
  | some ⟨h, false, .lock l :: r⟩ => if isOpen l then some (ts.set i ⟨h, true, .lock l :: r⟩) else none
  | some ⟨h, true, .lock l :: r⟩ => if isFree l then some (ts.set i ⟨(l, .excl) :: h, false, r⟩) else none
  | some ⟨h, false, .unlock l :: r⟩ => if h.contains (l, .excl) then some (ts.set i ⟨h.erase (l, .excl), false, r⟩) else none
  | some ⟨h, false, .read _ :: r⟩ => some (ts.set i ⟨h, false, r⟩)
  | some ⟨h, false, .write _ :: r⟩ => some (ts.set i ⟨h, false, r⟩)
  | _ => none

omit h in
theorem split_set {α : Type} {ts : List α} {i : Nat} {t : α} (ht : ts[i]? = some t) (t' : α) :
    ∃ pre post, ts = pre ++ t :: post ∧ ts.set i t' = pre ++ t' :: post := by
  induction ts generalizing i with
  | nil => cases ht
  | cons a r ih =>
    cases i with
    | zero => cases ht; exact ⟨[], r, rfl, rfl⟩
    | succ n =>
      obtain ⟨pre, post, h1, h2⟩ := ih (i := n) ht
      exact ⟨a :: pre, post, by rw [h1]; rfl, by rw [List.set_cons_succ, h2]; rfl⟩

omit h in
theorem step_set {ts : List (Thread Lock Field)} {i : Nat} {t t' : Thread Lock Field} (ht : ts[i]? = some t) (hm : Move ts t t') :
    Step ts (ts.set i t') := by
  obtain ⟨pre, post, h1, h2⟩ := split_set ht t'
  rw [h2]
  subst h1
  exact .mk hm

omit h in
theorem isOpen_iff {ts : List (Thread Lock Field)} {l : Lock} :
    (ts.all fun u => !u.held.contains (l, Mode.excl) && !(u.announced && u.todo.head? == some (.lock l))) = true ↔ Open ts l := by
  simp only [List.all_eq_true, Open, Thread.Waits]
  refine forall_congr' fun u => forall_congr' fun _ => ?_
  cases hu : u.todo with
  | nil => simp
  | cons o r => cases u.announced <;> simp

omit h in
theorem isFree_iff {ts : List (Thread Lock Field)} {l : Lock} :
    (ts.all fun u => !u.held.contains (l, Mode.excl) && !u.held.contains (l, Mode.shared)) = true ↔ Free ts l := by
  simp only [List.all_eq_true, Free]
  refine forall_congr' fun u => forall_congr' fun _ => ?_
  simp
  exact ⟨fun h m => by cases m; exact h.2; exact h.1, fun h => ⟨h _, h _⟩⟩

omit h in
theorem fire_iff {ts ts' : List (Thread Lock Field)} : Step ts ts' ↔ ∃ i, fire ts i = some ts' := by
  constructor
  · rintro ⟨hm⟩
    rename_i pre t t' post
    refine ⟨pre.length, ?_⟩
    have h1 : (pre ++ t :: post)[pre.length]? = some t := by simp
    have h2 : ∀ x, (pre ++ t :: post).set pre.length x = pre ++ x :: post := by intro x; simp
    cases hm with
    | rlock ho => simp only [fire, h1, h2]; rw [if_pos (isOpen_iff.mpr ho)]
    | runlock hx => simp only [fire, h1, h2]; rw [if_pos (by simpa using hx)]
    | announce ho => simp only [fire, h1, h2]; rw [if_pos (isOpen_iff.mpr ho)]
    | lock hf => simp only [fire, h1, h2]; rw [if_pos (isFree_iff.mpr hf)]
    | unlock hx => simp only [fire, h1, h2]; rw [if_pos (by simpa using hx)]
    | read => simp only [fire, h1, h2]
    | write => simp only [fire, h1, h2]
  · rintro ⟨i, hf⟩
    unfold fire at hf
    simp only at hf
    split at hf
    · rename_i ht
      split at hf
      · rename_i ho; cases hf; exact step_set ht (.rlock (isOpen_iff.mp ho))
      · cases hf
    · rename_i ht
      split at hf
      · rename_i ho; cases hf; exact step_set ht (.runlock (by simpa using ho))
      · cases hf
    · rename_i ht
      split at hf
      · rename_i ho; cases hf; exact step_set ht (.announce (isOpen_iff.mp ho))
      · cases hf
    · rename_i ht
      split at hf
      · rename_i ho; cases hf; exact step_set ht (.lock (isFree_iff.mp ho))
      · cases hf
    · rename_i ht
      split at hf
      · rename_i ho; cases hf; exact step_set ht (.unlock (by simpa using ho))
      · cases hf
    · rename_i ht; cases hf; exact step_set ht .read
    · rename_i ht; cases hf; exact step_set ht .write
    · cases hf

/-- The threads at these places make their steps, one after the other. -/
def fires (ts : List (Thread Lock Field)) : List Nat → Option (List (Thread Lock Field))
  | [] => some ts
  | i :: is => match fire ts i with
    | none => none
    | some ts' => fires ts' is

omit h in
theorem fires_reach {E : P → Prop} {ts ts' : List (Thread Lock Field)} {is : List Nat} (hr : Reach E ts) (hf : fires ts is = some ts') :
    Reach E ts' := by
  induction is generalizing ts with
  | nil => cases hf; exact hr
  | cons i is ih =>
    simp only [fires] at hf
    split at hf
    · cases hf
    · rename_i he; exact ih (.step hr (fire_iff.mpr ⟨i, he⟩)) hf

/-- A metric that is not in the cache is matched by rule set 0. -/
def exMiss : List (Op Lock Field) :=
  [.rlock .cache, .read .cacheState, .runlock .cache, .lock .cache, .read .cacheState, .rlock (.rule 0), .read (.ruleState 0), .runlock (.rule 0),
    .write .cacheState, .lock .list, .write .listState, .read .listState, .unlock .list, .unlock .cache]

omit h in
theorem exMiss_runs : Runs cacheMatch exMiss := by
  have h1 : Runs (rlocked .cache tryGet) _ := .seq (.op _) (.seq (.seq (.op _) (.left .skip)) (.op _))
  have h2 : Runs setWithLock _ := .seq (.left .skip) (.seq (.any 0 (.seq (.op _) (.seq (.op _) (.op _)))) (.seq (.op _) (.seq (.op _) (.seq (.seq (.op _) (.op _)) (.op _)))))
  exact .seq h1 (.right (.seq (.op _) (.seq (.seq (.op _) (.right h2)) (.op _))))

/-- An update of rule set 0. -/
def exUpdate : List (Op Lock Field) :=
  [.lock (.ruleValue 0), .lock (.rule 0), .write (.ruleState 0), .unlock (.rule 0), .lock (.rule 0), .write (.ruleState 0), .unlock (.rule 0),
    .lock .cache, .read .cacheState, .write .cacheState, .unlock .cache, .unlock (.ruleValue 0)]

omit h in
theorem exUpdate_runs : Runs (ruleUpdate 0) exUpdate := by
  have h1 : Runs (toRuleSet 0) _ := .seq (.op _) (.seq (.right (.op _)) (.op _))
  have h2 : Runs refresh _ := .seq (.op _) (.seq (.seq (.op _) (.right (.op _))) (.op _))
  have h3 : Runs (ruleProcess 0) _ := .seq (.seq (.op _) (.seq (.op _) (.op _))) (.right h2)
  exact .seq (.op _) (.seq (.right (.seq h1 (.right h3))) (.op _))

omit h in
theorem stuck_iff {ts : List (Thread Lock Field)} : (¬ ∃ ts', Step ts ts') ↔ ∀ i < ts.length, fire ts i = none := by
  constructor
  · intro hno i _
    cases hf : fire ts i with
    | none => rfl
    | some ts' => exact absurd ⟨ts', fire_iff.mpr ⟨i, hf⟩⟩ hno
  · rintro hall ⟨ts', hs⟩
    obtain ⟨i, hi⟩ := fire_iff.mp hs
    by_cases hlt : i < ts.length
    · rw [hall i hlt] at hi; cases hi
    · have : ts[i]? = none := List.getElem?_eq_none (Nat.le_of_not_lt hlt)
      simp only [fire, this] at hi
      cases hi

/-- A metric is being looked up in the cache; an update of rule set 0 waits for it to leave, and another metric for the update. -/
def exBusy : List (Thread Lock Field) :=
  [⟨[(.cache, .shared)], false, exMiss.drop 1⟩, ⟨[(.ruleValue 0, .excl)], true, exUpdate.drop 7⟩, ⟨[], false, exMiss⟩]

omit h in
theorem exBusy_reach : Reach Entry exBusy :=
  fires_reach (is := [0, 1, 1, 1, 1, 1, 1, 1, 1, 1, 1, 1])
    (.start (.start (.start .init .cacheMatch exMiss_runs) (.ruleUpdate 0) exUpdate_runs) .cacheMatch exMiss_runs) (by decide +kernel)

/-- Here two of the three threads can not go on, and the third one can. -/
example : Reach Entry exBusy ∧ fire exBusy 1 = none ∧ fire exBusy 2 = none ∧ (fire exBusy 0).isSome = true :=
  ⟨exBusy_reach, by decide +kernel, by decide +kernel, by decide +kernel⟩

/-- A metric whose match is being put in the cache, about to write, and another one that wants to look into the cache. -/
example : ∃ ts, Reach Entry ts ∧ ts[0]? = some ⟨[(.cache, .excl)], false, exMiss.drop 8⟩ ∧ ts[1]? = some ⟨[], false, exMiss⟩ :=
  ⟨[⟨[(.cache, .excl)], false, exMiss.drop 8⟩, ⟨[], false, exMiss⟩],
    fires_reach (is := [0, 0, 0, 0, 0, 0, 0, 0, 0]) (.start (.start .init .cacheMatch exMiss_runs) .cacheMatch exMiss_runs) (by decide +kernel), rfl, rfl⟩

/-! ### Why the comments in the code are right -/

/-- `process` of a rule set with the callback inside the lock, against the comment at matcher/ruleset.go:209-210. -/
def badProcess (i : Nat) : P := locked (.rule i) (.seq (.op (.write (.ruleState i))) refresh)

def exBadProcess : List (Op Lock Field) :=
  [.lock (.rule 0), .write (.ruleState 0), .lock .cache, .read .cacheState, .write .cacheState, .unlock .cache, .unlock (.rule 0)]

/-- With the callback inside the lock of the rule set there would be a deadlock: a metric that is matched holds the cache and waits
for the rule set, the update of the rule set holds it and waits for the cache. -/
theorem C89_callback_outside : ∃ ts, Reach (fun p => p = cacheMatch ∨ p = badProcess 0) ts ∧ (∃ t ∈ ts, t.todo ≠ []) ∧ ¬ ∃ ts', Step ts ts' := by
  have hb : Runs (badProcess 0) exBadProcess := by
    have h2 : Runs refresh _ := .seq (.op _) (.seq (.seq (.op _) (.right (.op _))) (.op _))
    exact .seq (.op _) (.seq (.seq (.op _) h2) (.op _))
  refine ⟨[⟨[(.cache, .excl)], false, exMiss.drop 5⟩, ⟨[(.rule 0, .excl)], false, exBadProcess.drop 2⟩],
    fires_reach (is := [0, 0, 0, 0, 0, 0, 1, 1, 1]) (.start (.start .init (.inr rfl) hb) (.inl rfl) exMiss_runs) (by decide +kernel),
    ⟨_, List.mem_cons_self, by simp [exMiss]⟩, stuck_iff.mpr (by decide +kernel)⟩

/-- `Close` of the namespaces with the value stopped inside the lock, against the comment at matcher/namespaces.go:214-217. -/
def badClose : P := rlocked .ns (.seq (locked .nsValue .skip) (.op (.read .nsState)))

def exBadClose : List (Op Lock Field) := [.rlock .ns, .lock .nsValue, .unlock .nsValue, .read .nsState, .runlock .ns]

/-- With the value stopped inside the lock of the namespaces there would be a deadlock with an update of the namespaces. -/
theorem C89_unwatch_outside : ∃ ts, Reach (fun p => p = nsUpdate ∨ p = badClose) ts ∧ (∃ t ∈ ts, t.todo ≠ []) ∧ ¬ ∃ ts', Step ts ts' := by
  have hb : Runs badClose exBadClose := .seq (.op _) (.seq (.seq (.seq (.op _) (.seq .skip (.op _))) (.op _)) (.op _))
  have hu : Runs nsUpdate [.lock .nsValue, .lock .ns, .unlock .ns, .unlock .nsValue] :=
    .seq (.op _) (.seq (.right (.seq (.seq (.op _) (.seq (.left .skip) (.op _))) (.left .skip))) (.op _))
  refine ⟨[⟨[(.ns, .shared)], false, exBadClose.drop 1⟩, ⟨[(.nsValue, .excl)], true, [.lock .ns, .unlock .ns, .unlock .nsValue]⟩],
    fires_reach (is := [0, 1, 1, 1]) (.start (.start .init (.inl rfl) hu) (.inr rfl) hb) (by decide +kernel),
    ⟨_, List.mem_cons_self, by simp [exBadClose]⟩, stuck_iff.mpr (by decide +kernel)⟩

end Verif.Locks
