import Mathlib.Data.List.Infix

/-!
# Tokens of a text (specification)
-/

namespace SplineLib

/-- `ts` are the tokens of `s`: the non-empty maximal runs of characters that are not separators. -/
inductive Tokens (sep : Char → Prop) : List Char → List (List Char) → Prop
  | nil : Tokens sep [] []
  | sep {c s ts} : sep c → Tokens sep s ts → Tokens sep (c :: s) ts
  | last {t} : t ≠ [] → (∀ c ∈ t, ¬ sep c) → Tokens sep t [t]
  | tok {t c s ts} : t ≠ [] → (∀ c ∈ t, ¬ sep c) → sep c → Tokens sep s ts → Tokens sep (t ++ c :: s) (t :: ts)

/-- `m` is `s` without the longest prefix of characters in `left` and the longest suffix of characters in `right`. -/
def Stripped (left right : Char → Prop) (s m : List Char) : Prop :=
  ∃ a b, s = a ++ m ++ b ∧ (∀ c ∈ a, left c) ∧ (∀ c ∈ b, right c) ∧ (∀ c, m.head? = some c → ¬ left c) ∧
    ∀ c, m.getLast? = some c → ¬ right c

/-- A text made of fields that are each followed by a separator. -/
def fieldsText (fs : List (List Char × Char)) : List Char := fs.flatMap fun f => f.1 ++ [f.2]

end SplineLib
