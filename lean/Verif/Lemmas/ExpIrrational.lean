import Mathlib.NumberTheory.Transcendental.Lindemann.AnalyticalPart
import Mathlib.NumberTheory.Real.Irrational
import Mathlib.Topology.Algebra.Order.Floor
import Mathlib.Data.Nat.Prime.Infinite

/-! # Powers of e with a non-zero rational exponent are irrational

The analytical part of the Lindemann-Weierstrass theorem is in Mathlib; with the polynomial `X - k` it says that
`n e^k` is close to a multiple of `p` for an `n` that is not one. -/

namespace Takum

open Polynomial

theorem exp_nat_irrational {k : ℕ} (hk : k ≠ 0) : Irrational (Real.exp k) := by
  rintro ⟨q, hq⟩
  have hq0 : (0 : ℝ) < q := by rw [hq]; exact Real.exp_pos _
  have hqp : 0 < q := by exact_mod_cast hq0
  have hf : (X - C (k : ℤ) : ℤ[X]).eval 0 ≠ 0 := by simp [hk]
  obtain ⟨c, hc⟩ := LindemannWeierstrass.exp_polynomial_approx (X - C (k : ℤ)) hf
  have hroot : (k : ℂ) ∈ (X - C (k : ℤ) : ℤ[X]).aroots ℂ := by
    rw [mem_aroots]
    exact ⟨X_sub_C_ne_zero _, by simp⟩
  -- the error bound times the denominator tends to zero
  have hlim : Filter.Tendsto (fun p : ℕ => (q.den : ℝ) * c * (c ^ p / (p.factorial : ℝ))) Filter.atTop (nhds 0) := by
    simpa using (FloorSemiring.tendsto_pow_div_factorial_atTop c).const_mul ((q.den : ℝ) * c)
  obtain ⟨N, hN⟩ := Filter.eventually_atTop.mp (hlim.eventually (gt_mem_nhds (one_pos)))
  obtain ⟨p, hp1, hp⟩ := Nat.exists_infinite_primes (N + 1 + k + q.num.natAbs + 1)
  have hpk : p > ((X - C (k : ℤ) : ℤ[X]).eval 0).natAbs := by simp; omega
  obtain ⟨n, hn, g, -, hg⟩ := hc p hpk hp
  have h := hg hroot
  set m : ℤ := g.eval (k : ℤ) with hm
  have e1 : aeval (k : ℂ) g = (m : ℂ) := by
    have := aeval_algebraMap_apply ℂ (k : ℤ) g
    simpa [hm] using this
  have e2 : Complex.exp (k : ℂ) = ((q : ℝ) : ℂ) := by rw [hq]; simp
  have e3 : (n • Complex.exp (k : ℂ) - p • aeval (k : ℂ) g) = (((n : ℝ) * q - p * m : ℝ) : ℂ) := by
    rw [e1, e2]; simp
  rw [e3, Complex.norm_real, Real.norm_eq_abs] at h
  have hden : (0 : ℝ) < q.den := by exact_mod_cast q.pos
  have hqd : (q : ℝ) * q.den = q.num := by
    have := Rat.mul_den_eq_num q
    exact_mod_cast this
  have h2 : |((n * q.num - p * m * q.den : ℤ) : ℝ)| < 1 := by
    have e4 : ((n * q.num - p * m * q.den : ℤ) : ℝ) = ((n : ℝ) * q - p * m) * q.den := by
      push_cast; rw [← hqd]; ring
    rw [e4, abs_mul, abs_of_pos hden]
    have h5 := hN (p - 1) (by omega)
    calc |(n : ℝ) * q - p * m| * q.den ≤ c ^ p / ((p - 1).factorial : ℝ) * q.den := by gcongr
      _ = q.den * c * (c ^ (p - 1) / ((p - 1).factorial : ℝ)) := by
          rw [show c ^ p = c ^ (p - 1) * c by rw [← pow_succ]; congr 1; have := hp.pos; omega]; ring
      _ < 1 := h5
  have h3 : n * q.num - p * m * q.den = 0 := by
    have : |n * q.num - p * m * q.den| < 1 := by exact_mod_cast h2
    rwa [Int.abs_lt_one_iff] at this
  have h4 : (p : ℤ) ∣ n * q.num := ⟨m * q.den, by linarith⟩
  rcases (Nat.prime_iff_prime_int.mp hp).dvd_or_dvd h4 with h5 | h5
  · exact hn h5
  · have h6 : p ≤ q.num.natAbs := by
      have := Int.natAbs_dvd_natAbs.mpr h5
      simp only [Int.natAbs_natCast] at this
      exact Nat.le_of_dvd (by have := Rat.num_pos.mpr hqp; omega) this
    omega

theorem exp_rat_irrational {x : ℚ} (hx : x ≠ 0) : Irrational (Real.exp x) := by
  have key : ∀ y : ℚ, 0 < y → Irrational (Real.exp y) := by
    intro y hy
    have h1 : Irrational (Real.exp y ^ y.den) := by
      have hd : ((y.den : ℝ)) * y = (y.num.toNat : ℕ) := by
        have h := Rat.mul_den_eq_num y
        have h' : (y.num.toNat : ℤ) = y.num := Int.toNat_of_nonneg (Rat.num_nonneg.mpr hy.le)
        have : (y : ℝ) * y.den = (y.num : ℝ) := by exact_mod_cast h
        rw [mul_comm, this]; exact_mod_cast h'.symm
      rw [← Real.exp_nat_mul, hd]
      exact exp_nat_irrational (by have := Rat.num_pos.mpr hy; omega)
    exact Irrational.of_pow _ h1
  rcases lt_or_gt_of_ne hx with h | h
  · have := key (-x) (by linarith)
    rw [Rat.cast_neg, Real.exp_neg] at this
    exact irrational_inv_iff.mp this
  · exact key x h

end Takum
