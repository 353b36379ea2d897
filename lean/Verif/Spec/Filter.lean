import Verif.Base
/-
The filter pattern language, independent of the code: abstract syntax, its text, and the strings it
denotes.
-/
namespace Verif.Spec.Flt

/-- One position-consuming piece of a pattern. -/
inductive Piece where
  | lit (c : UInt8)                              -- c
  | any                                          -- ?
  | chars (neg : Bool) (cs : Bytes)              -- [abc] [!abc]
  | ranges (neg : Bool) (rs : List (UInt8 × UInt8)) -- [a-z0-9] [!a-z]
  | alts (l : List Bytes)                        -- {foo,bar}
  deriving DecidableEq, Repr

def renderRange (r : UInt8 × UInt8) : Bytes := [r.1, 45, r.2]

def Piece.render : Piece → Bytes
  | .lit c => [c]
  | .any => [63]
  | .chars neg cs => 91 :: (if neg then 33 :: cs else cs) ++ [93]
  | .ranges neg rs => 91 :: (if neg then 33 :: (rs.map renderRange).flatten
      else (rs.map renderRange).flatten) ++ [93]
  | .alts l => 123 :: joinWith 44 l ++ [125]

def renderAll (ps : List Piece) : Bytes := (ps.map Piece.render).flatten

/-- Which pieces can be written down: no wildcard inside, no closing bracket inside a bracket, a bracket
with a dash in second position is a list of ranges. -/
def Piece.WF : Piece → Prop
  | .lit c => c ≠ 42 ∧ c ≠ 63 ∧ c ≠ 91 ∧ c ≠ 123
  | .any => True
  | .chars neg cs => 42 ∉ cs ∧ 93 ∉ cs ∧ cs[1]? ≠ some 45 ∧
      (neg = false → cs ≠ [] ∧ cs.head? ≠ some 33)
  | .ranges neg rs => rs ≠ [] ∧ (∀ r ∈ rs, r.1 ≤ r.2 ∧ r.1 ≠ 42 ∧ r.2 ≠ 42 ∧ r.1 ≠ 93 ∧ r.2 ≠ 93) ∧
      (neg = false → ∀ r, rs.head? = some r → r.1 ≠ 33)
  | .alts l => l ≠ [] ∧ l ≠ [[]] ∧ ∀ a ∈ l, 42 ∉ a ∧ 44 ∉ a ∧ 125 ∉ a

/-- The strings a piece stands for. -/
def Piece.Den : Piece → Bytes → Prop
  | .lit c, s => s = [c]
  | .any, s => ∃ c, s = [c]
  | .chars neg cs, s => ∃ c, s = [c] ∧ (c ∈ cs ↔ neg = false)
  | .ranges neg rs, s => ∃ c, s = [c] ∧ ((∃ r ∈ rs, r.1 ≤ c ∧ c ≤ r.2) ↔ neg = false)
  | .alts l, s => s ∈ l

/-- Concatenation. -/
def DenAll : List Piece → Bytes → Prop
  | [], s => s = []
  | p :: ps, s => ∃ x y, s = x ++ y ∧ p.Den x ∧ DenAll ps y

/-- A pattern body: at most one `*`, or a literal between two. -/
inductive Body where
  | exact (ps : List Piece)                 -- foo
  | all                                     -- *
  | startsWith (ps : List Piece)            -- foo*
  | endsWith (ps : List Piece)              -- *foo
  | around (ps qs : List Piece)             -- foo*bar
  | contains (l : Bytes)                    -- *foo*

structure Pattern where
  neg : Bool
  body : Body

def Body.render : Body → Bytes
  | .exact ps => renderAll ps
  | .all => [42]
  | .startsWith ps => renderAll ps ++ [42]
  | .endsWith ps => 42 :: renderAll ps
  | .around ps qs => renderAll ps ++ 42 :: renderAll qs
  | .contains l => 42 :: l ++ [42]

def Pattern.render (p : Pattern) : Bytes := if p.neg then 33 :: p.body.render else p.body.render

def Body.WF : Body → Prop
  | .exact ps => ∀ p ∈ ps, p.WF
  | .all => True
  | .startsWith ps => ps ≠ [] ∧ ∀ p ∈ ps, p.WF
  | .endsWith ps => ps ≠ [] ∧ ∀ p ∈ ps, p.WF
  | .around ps qs => ps ≠ [] ∧ qs ≠ [] ∧ (∀ p ∈ ps, p.WF) ∧ ∀ p ∈ qs, p.WF
  | .contains l => l ≠ [] ∧ 42 ∉ l ∧ 63 ∉ l ∧ 91 ∉ l ∧ 123 ∉ l

/-- A leading exclamation mark always means negation, and something must follow it. -/
def Pattern.WF (p : Pattern) : Prop :=
  p.body.WF ∧ (p.neg = true → p.body.render ≠ []) ∧ (p.neg = false → p.body.render.head? ≠ some 33)

/-- The strings a body stands for. -/
def Body.Den : Body → Bytes → Prop
  | .exact ps, s => DenAll ps s
  | .all, _ => True
  | .startsWith ps, s => ∃ x y, s = x ++ y ∧ DenAll ps x
  | .endsWith ps, s => ∃ x y, s = x ++ y ∧ DenAll ps y
  | .around ps qs, s => ∃ x y z, s = x ++ y ++ z ∧ DenAll ps x ∧ DenAll qs z
  | .contains l, s => ∃ x y, s = x ++ l ++ y

def Pattern.Den (p : Pattern) (s : Bytes) : Prop := if p.neg then ¬ p.body.Den s else p.body.Den s

/-- Alternatives among which a left-to-right reader can commit to the first hit: none is empty, none is a
proper beginning of another. -/
def Piece.PrefixFree : Piece → Prop
  | .alts l => (∀ a ∈ l, a ≠ []) ∧ ∀ a ∈ l, ∀ b ∈ l, a <+: b → a = b
  | _ => True

/-- The same from right to left. -/
def Piece.SuffixFree : Piece → Prop
  | .alts l => (∀ a ∈ l, a ≠ []) ∧ ∀ a ∈ l, ∀ b ∈ l, a <:+ b → a = b
  | _ => True

def Body.Unambiguous : Body → Prop
  | .exact ps | .startsWith ps => ∀ p ∈ ps, p.PrefixFree
  | .endsWith ps => ∀ p ∈ ps, p.SuffixFree
  | .around ps qs => (∀ p ∈ ps, p.PrefixFree) ∧ ∀ p ∈ qs, p.SuffixFree
  | .all | .contains _ => True

/-- The longest string of a piece list. -/
def Piece.maxLen : Piece → Nat
  | .alts l => (l.map List.length).foldr max 0
  | _ => 1

def maxLenAll (ps : List Piece) : Nat := (ps.map Piece.maxLen).sum

/-! The strings a reader takes who never goes back: it reads a part of the pattern from one side, piece by
piece, and at an alternative list settles for the first entry that fits. -/

/-- `x` stands at the side of `v` the reader comes from (`bw`: from the right). -/
def AtSide (bw : Bool) (x v : Bytes) : Prop := if bw then x <:+ v else x <+: v

/-- The reader takes `x` off `v` for one piece. An alternative list needs something left to read, even for
an empty entry, and entries further down the list are not considered once one fits. -/
def Piece.Takes (bw : Bool) : Piece → Bytes → Bytes → Prop
  | .alts l, x, v => v ≠ [] ∧ AtSide bw x v ∧
      ∃ before after, l = before ++ x :: after ∧ ∀ a ∈ before, ¬ AtSide bw a v
  | p, x, v => p.Den x ∧ AtSide bw x v

/-- Reading pieces from the left leaves `r`. -/
def LeavesRight : List Piece → Bytes → Bytes → Prop
  | [], v, r => r = v
  | p :: ps, v, r => ∃ x w, v = x ++ w ∧ p.Takes false x v ∧ LeavesRight ps w r

/-- Reading pieces from the right, last piece first, leaves `r`. -/
def LeavesLeft : List Piece → Bytes → Bytes → Prop
  | [], v, r => r = v
  | p :: ps, v, r => ∃ w x, LeavesLeft ps v w ∧ w = r ++ x ∧ p.Takes true x w

/-- The two parts around a `*` are read from the two ends independently of each other. -/
def Body.Committed : Body → Bytes → Prop
  | .exact ps, s => LeavesRight ps s []
  | .all, _ => True
  | .startsWith ps, s => ∃ r, LeavesRight ps s r
  | .endsWith ps, s => ∃ r, LeavesLeft ps s r
  | .around ps qs, s => (∃ r, LeavesRight ps s r) ∧ ∃ r, LeavesLeft qs s r
  | .contains l, s => ∃ x y, s = x ++ l ++ y

def Pattern.Committed (p : Pattern) (s : Bytes) : Prop :=
  if p.neg then ¬ p.body.Committed s else p.body.Committed s

end Verif.Spec.Flt
