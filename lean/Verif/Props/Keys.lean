import Verif.Model.Keys
import Verif.Props.Store
/-
C92: with a key format that prints the namespace once, the store writes a namespace's rules under the key the matcher watches,
different namespaces have different keys, and the key of the namespaces is none of them unless it has the format's form.
-/
namespace Verif.Keys
open Verif.Store Verif.RuleSet Verif.Policy

/-! ### Specification -/

/-- Text written in a format: each `%` is doubled. -/
def esc (t : Bytes) : Bytes := t.flatMap fun c => if c = 37 then [37, 37] else [c]

/-- The format that prints `pre`, then the namespace, then `post`. -/
def around (pre post : Bytes) : Bytes := esc pre ++ bs "%s" ++ esc post

/-! ### Lemmas -/

theorem loop_esc (arg extra : Bytes) (used : Bool) (t r : Bytes) :
    sprintfLoop arg extra used (esc t ++ r) = (sprintfLoop arg extra used r).map (t ++ ·) := by
  induction t with
  | nil => simp [esc]
  | cons c t ih =>
    have hs : esc (c :: t) = (if c = 37 then [37, 37] else [c]) ++ esc t := by simp [esc]
    rw [hs, List.append_assoc]
    by_cases h : c = 37
    · subst h
      rw [if_pos rfl]
      simp only [List.cons_append, List.nil_append]
      rw [sprintfLoop]
      simp only [if_true, show ((37 : UInt8) = 115) = False by decide, if_false, ih, Option.map_map]
      congr 1
    · rw [if_neg h]
      simp only [List.cons_append, List.nil_append]
      rw [sprintfLoop.eq_def]
      simp only [if_neg h, ih, Option.map_map]
      congr 1

theorem loop_around (arg extra pre post : Bytes) :
    sprintfLoop arg extra false (around pre post) = some (pre ++ arg ++ post) := by
  have hv : bs "%s" = [37, 115] := by decide
  have hp : sprintfLoop arg extra true (esc post) = some post := by
    have := loop_esc arg extra true post []
    simpa [sprintfLoop] using this
  unfold around
  rw [List.append_assoc, loop_esc, hv]
  simp only [List.cons_append, List.nil_append]
  rw [sprintfLoop.eq_def]
  simp [hp]

/-! ### C92 -/

/-- C92: the key is the format with the namespace in place of `%s`, for the store and for the matcher alike. -/
theorem C92_key (pre post ns : Bytes) :
    storeKey (around pre post) ns = some (pre ++ ns ++ post) ∧ matcherKey (around pre post) ns = some (pre ++ ns ++ post) :=
  ⟨loop_around _ _ _ _, loop_around _ _ _ _⟩

/-- C92: so the matcher watches for one namespace the key under which the store writes for another only if they are the same. -/
theorem C92_same (pre post a b : Bytes) : storeKey (around pre post) a = matcherKey (around pre post) b ↔ a = b := by
  rw [(C92_key pre post a).1, (C92_key pre post b).2]
  simp

/-- C92: the hypothesis of the theorems on the store holds exactly if the key of the namespaces has not the form of a rule set's key. -/
theorem C92_apart_iff (pre post nk : Bytes) (v : Option (RuleSet → Bool)) (x : XTime) (fk : Bytes) :
    KeysOK (storeOptions nk (around pre post) v x fk) ↔ ¬ ∃ ns, nk = pre ++ ns ++ post := by
  have hk : ∀ ns, (storeOptions nk (around pre post) v x fk).ruleSetKey ns = pre ++ ns ++ post := by
    intro ns
    simp [storeOptions, (C92_key pre post ns).1]
  constructor
  · rintro h ⟨ns, hn⟩
    exact h.apart ns ((hk ns).trans hn.symm)
  · intro h
    refine ⟨fun a b hab => ?_, fun a ha => h ⟨a, ?_⟩⟩
    · rw [hk, hk] at hab
      simpa using hab
    · rw [hk] at ha
      exact ha.symm

/-- C92: with the defaults of the matcher the keys are apart. -/
theorem C92_default (v : Option (RuleSet → Bool)) (x : XTime) (fk : Bytes) :
    KeysOK (storeOptions defaultNamespacesKey defaultRuleSetKeyFormat v x fk) := by
  have hf : defaultRuleSetKeyFormat = around (bs "/ruleset/") [] := by decide
  rw [hf, C92_apart_iff]
  rintro ⟨ns, hn⟩
  have h2 := congrArg (List.take 2) hn
  have hb : bs "/ruleset/" = [47, 114, 117, 108, 101, 115, 101, 116, 47] := by decide
  have hd : defaultNamespacesKey = [47, 110, 97, 109, 101, 115, 112, 97, 99, 101, 115] := by decide
  rw [hb, hd] at h2
  simp at h2

/-- C92: a format without a verb makes the store write and the matcher watch different keys, whatever the namespaces: `Sprintf` then
appends the argument together with its type, a string here and a byte slice there. -/
theorem C92_no_verb (t a b : Bytes) : storeKey (esc t) a ≠ matcherKey (esc t) b := by
  have h1 := loop_esc a (bs "%!(EXTRA string=" ++ a ++ bs ")") false t []
  have h2 := loop_esc b (bs "%!(EXTRA []uint8=" ++ showBytes b ++ bs ")") false t []
  rw [List.append_nil] at h1 h2
  unfold storeKey matcherKey sprintfString sprintfBytes
  rw [h1, h2]
  have hs : bs "%!(EXTRA string=" = [37, 33, 40, 69, 88, 84, 82, 65, 32, 115, 116, 114, 105, 110, 103, 61] := by decide
  have hb : bs "%!(EXTRA []uint8=" = [37, 33, 40, 69, 88, 84, 82, 65, 32, 91, 93, 117, 105, 110, 116, 56, 61] := by decide
  rw [hs, hb]
  simp [sprintfLoop]

/-- C92: in a format with two verbs the second one finds no argument, and is filled in alike in both places. -/
theorem C92_twice (pre mid post ns : Bytes) :
    storeKey (around pre mid ++ bs "%s" ++ esc post) ns = some (pre ++ ns ++ mid ++ bs "%!s(MISSING)" ++ post) ∧
      matcherKey (around pre mid ++ bs "%s" ++ esc post) ns = some (pre ++ ns ++ mid ++ bs "%!s(MISSING)" ++ post) := by
  have hv : bs "%s" = [37, 115] := by decide
  have core : ∀ extra, sprintfLoop ns extra false (around pre mid ++ bs "%s" ++ esc post) =
      some (pre ++ ns ++ mid ++ bs "%!s(MISSING)" ++ post) := by
    intro extra
    have hp : sprintfLoop ns extra true (esc post) = some post := by
      have := loop_esc ns extra true post []
      simpa [sprintfLoop] using this
    have h2 : sprintfLoop ns extra true (37 :: 115 :: esc post) = some (bs "%!s(MISSING)" ++ post) := by
      rw [sprintfLoop.eq_def]
      simp [hp]
    unfold around
    simp only [List.append_assoc]
    rw [loop_esc, hv]
    simp only [List.cons_append, List.nil_append]
    rw [sprintfLoop.eq_def]
    simp only [if_true, loop_esc, h2]
    simp
  exact ⟨core _, core _⟩

/-! ### Examples -/

example : around (bs "/100%/") (bs ".rules") = bs "/100%%/%s.rules" := by decide

example : storeKey (bs "/100%%/%s.rules") (bs "prod") = some (bs "/100%/prod.rules") := by decide +kernel

/-- Keys that clash: the rules of the namespace `namespaces` would be stored under the key of the namespaces. -/
example (v : Option (RuleSet → Bool)) (x : XTime) (fk : Bytes) : ¬ KeysOK (storeOptions (bs "/namespaces") (bs "/%s") v x fk) := by
  have hf : bs "/%s" = around (bs "/") [] := by decide
  rw [hf, C92_apart_iff]
  exact fun h => h ⟨bs "namespaces", by decide⟩

/-- Without a verb: `/rules%!(EXTRA string=p)` and `/rules%!(EXTRA []uint8=[112 10])`. -/
example : storeKey (bs "/rules") (bs "p") = some (bs "/rules%!(EXTRA string=p)") := by decide +kernel
example : matcherKey (bs "/rules") [112, 10] = some (bs "/rules%!(EXTRA []uint8=[112 10])") := by decide +kernel

/-- Two verbs: the second one finds no argument. -/
example : storeKey (bs "%s/%s") (bs "p") = some (bs "p/%!s(MISSING)") := by decide +kernel

end Verif.Keys
