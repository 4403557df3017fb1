import Mathlib.Data.Nat.Digits.Defs

/-!
# Integer literals as C writes them (C99 6.4.4.1 without suffix, with an optional sign and leading blanks)
-/

namespace Takum.Calc

/-- The digits up to base 16. -/
def digitTable : List (Char × ℕ) := [('0', 0), ('1', 1), ('2', 2), ('3', 3), ('4', 4), ('5', 5), ('6', 6), ('7', 7),
  ('8', 8), ('9', 9), ('a', 10), ('b', 11), ('c', 12), ('d', 13), ('e', 14), ('f', 15), ('A', 10), ('B', 11), ('C', 12),
  ('D', 13), ('E', 14), ('F', 15)]

/-- The text is the number `n` written in base `b`. -/
def Reads (b : ℕ) (text : List Char) (n : ℕ) : Prop :=
  ∃ vs : List ℕ, List.Forall₂ (fun c v => (c, v) ∈ digitTable ∧ v < b) text vs ∧ n = Nat.ofDigits b vs.reverse

/-- An integer literal: decimal, octal with the prefix `0`, or hexadecimal with the prefix `0x`. -/
def Numeral (text : List Char) (n : ℕ) : Prop :=
  (∃ c ds, text = c :: ds ∧ c ≠ '0' ∧ Reads 10 text n) ∨
  (∃ ds, text = '0' :: ds ∧ Reads 8 text n) ∨
  ∃ x ds, text = '0' :: x :: ds ∧ (x = 'x' ∨ x = 'X') ∧ ds ≠ [] ∧ Reads 16 ds n

/-- The characters that may precede a number. -/
def blanks : List Char := [' ', '\t', '\n', '\x0b', '\x0c', '\r']

/-- The token is an integer literal for `v`. -/
def IntLit (tok : List Char) (v : ℤ) : Prop :=
  ∃ ws sg body n, tok = ws ++ sg ++ body ∧ (∀ c ∈ ws, c ∈ blanks) ∧ Numeral body n ∧
    ((sg = [] ∨ sg = ['+']) ∧ v = n ∨ sg = ['-'] ∧ v = -n)

end Takum.Calc
