import Verif.Lemmas.InvSig

/-!
# Numbers next to powers of two without a divisor of a given size

The inverse of a 32-bit takum lies next to the middle between two takums, at the distance of half a unit of the `double`,
only if one of the numbers below has a divisor in a short interval.  The intervals are searched by the kernel.
-/

namespace Takum

/-- None of the `2^b` numbers `V = s, s + 2, …` leaves the remainder `j` or `-j` when it divides `N`. -/
def noDivisor (N j : ℕ) : ℕ → ℕ → Bool
  | 0, s => N % s != j && N % s + j != s
  | b + 1, s => noDivisor N j b s && noDivisor N j b (s + 2 ^ (b + 1))

theorem noDivisor_spec {N j : ℕ} {b s : ℕ} (h : noDivisor N j b s = true) {i : ℕ} (hi : i < 2 ^ b) :
    N % (s + 2 * i) ≠ j ∧ N % (s + 2 * i) + j ≠ s + 2 * i := by
  induction b generalizing s i with
  | zero =>
    have : i = 0 := by simpa using hi
    subst this
    simpa [noDivisor] using h
  | succ b ih =>
    rw [noDivisor, Bool.and_eq_true] at h
    by_cases hb : i < 2 ^ b
    · exact ih h.1 hb
    · have h2 : i - 2 ^ b < 2 ^ b := by rw [pow_succ] at hi; omega
      have := ih h.2 h2
      have e : s + 2 ^ (b + 1) + 2 * (i - 2 ^ b) = s + 2 * i := by rw [pow_succ]; omega
      rwa [e] at this

set_option maxRecDepth 4000 in
theorem chk4 : noDivisor (2 ^ 54) 1 14 (2 ^ 25 + 1) = true := by decide +kernel
set_option maxRecDepth 4000 in
theorem chk5 : noDivisor (2 ^ 56) 5 17 (5 * 2 ^ 25 - 2 ^ 17 + 1) = true := by decide +kernel
theorem chk6 : noDivisor (2 ^ 55) 3 16 (3 * 2 ^ 25 - 2 ^ 16 + 1) = true := by decide +kernel
theorem chk7 : noDivisor (2 ^ 56) 7 17 (7 * 2 ^ 25 - 2 ^ 17 + 1) = true := by decide +kernel
theorem chk8 : noDivisor (2 ^ 53) 1 13 (2 ^ 25 - 2 ^ 14 + 1) = true := by decide +kernel
theorem chk1 : noDivisor (2 ^ 54) 1 15 (2 ^ 26 + 1) = true := by decide +kernel
theorem chk2 : noDivisor (2 ^ 53) 1 14 (2 ^ 26 - 2 ^ 15 + 1) = true := by decide +kernel

end Takum
