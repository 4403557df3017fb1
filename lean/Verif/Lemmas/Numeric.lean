import Verif.ConstSpec
import Verif.Lemmas.Order
import Mathlib.Analysis.Complex.Exponential
import Mathlib.Analysis.SpecialFunctions.Log.Deriv

/-!
# Rational bounds of the named numbers
-/

namespace Takum
open Spec

/-- Partial sum of the exponential series. -/
def tsum (x : ℚ) : ℕ → ℚ
  | 0 => 0
  | n + 1 => tsum x n + x ^ n / n.factorial

theorem tsum_cast (x : ℚ) (n : ℕ) : ((tsum x n : ℚ) : ℝ) = ∑ m ∈ Finset.range n, (x : ℝ) ^ m / m.factorial := by
  induction n with
  | zero => simp [tsum]
  | succ n ih => rw [Finset.sum_range_succ, ← ih, tsum]; push_cast; rfl

def tErr : ℚ := 2 / (2 ^ 24 * Nat.factorial 24)

/-- Lower and upper bound of `exp x`. -/
def eLo (x : ℚ) : ℚ := (tsum (x / 8) 24 - tErr) ^ 8
def eHi (x : ℚ) : ℚ := (tsum (x / 8) 24 + tErr) ^ 8

theorem exp_iv {x : ℚ} (h : |x| ≤ 4) : (eLo x : ℝ) ≤ Real.exp x ∧ Real.exp x ≤ eHi x := by
  have hr : |(x : ℝ)| ≤ 4 := by exact_mod_cast h
  have h8 : |((x / 8 : ℚ) : ℝ)| ≤ 1 / 2 := by
    push_cast; rw [abs_div, abs_of_pos (by norm_num : (0 : ℝ) < 8)]; linarith
  have b := Real.exp_bound (x := ((x / 8 : ℚ) : ℝ)) (by linarith) (n := 24) (by norm_num)
  rw [← tsum_cast] at b
  have hp : |((x / 8 : ℚ) : ℝ)| ^ 24 ≤ (1 / 2) ^ 24 := pow_le_pow_left₀ (abs_nonneg _) h8 24
  have he : |((x / 8 : ℚ) : ℝ)| ^ 24 * ((Nat.succ 24 : ℕ) / ((Nat.factorial 24 : ℕ) * (24 : ℕ)) : ℝ) ≤ (tErr : ℝ) := by
    calc _ ≤ (1 / 2 : ℝ) ^ 24 * ((Nat.succ 24 : ℕ) / ((Nat.factorial 24 : ℕ) * (24 : ℕ)) : ℝ) :=
          mul_le_mul_of_nonneg_right hp (by positivity)
      _ ≤ _ := by unfold tErr; push_cast; norm_num [Nat.factorial]
  have b' := b.trans he
  have tpos : (tErr : ℝ) ≤ 1 / 8 := by unfold tErr; push_cast; norm_num [Nat.factorial]
  rw [abs_le] at b'
  have h1 : (1 / 2 : ℝ) ≤ Real.exp ((x / 8 : ℚ) : ℝ) := by
    have := Real.add_one_le_exp ((x / 8 : ℚ) : ℝ)
    rw [abs_le] at h8; linarith
  have e8 : Real.exp x = Real.exp ((x / 8 : ℚ) : ℝ) ^ 8 := by
    rw [← Real.exp_nat_mul]; push_cast; congr 1; ring
  rw [e8]
  unfold eLo eHi
  constructor
  · push_cast
    push_cast at b' h1
    exact pow_le_pow_left₀ (by linarith) (by linarith) 8
  · push_cast
    push_cast at b' h1
    exact pow_le_pow_left₀ (by linarith) (by linarith) 8

theorem log_iv {x a b : ℚ} (ha : |a| ≤ 4) (hb : |b| ≤ 4) (h1 : eHi a ≤ x) (h2 : x ≤ eLo b) :
    (a : ℝ) ≤ Real.log x ∧ Real.log x ≤ b := by
  have e1 := (exp_iv ha).2
  have e2 := (exp_iv hb).1
  have h1' : ((eHi a : ℚ) : ℝ) ≤ x := by exact_mod_cast h1
  have h2' : (x : ℝ) ≤ (eLo b : ℚ) := by exact_mod_cast h2
  have hx : (0 : ℝ) < x := lt_of_lt_of_le (Real.exp_pos a) (e1.trans h1')
  exact ⟨(Real.le_log_iff_exp_le hx).mpr (e1.trans h1'), (Real.log_le_iff_le_exp hx).mpr (h2'.trans e2)⟩

/-! ## Euler's constant -/

/-- Bounds of `log (1 + 1/x)`; `y = 1/(2x+1)`. -/
theorem log_step {x y : ℝ} (hx : 0 < x) (hy : y = 1 / (2 * x + 1)) :
    2 * (y + y ^ 3 / 3) ≤ Real.log (1 + x⁻¹) ∧
      Real.log (1 + x⁻¹) ≤ 2 * (y + y ^ 3 / 3 + y ^ 5 / 5) + 2 / 7 * y ^ 7 * (1 - y ^ 2)⁻¹ := by
  have h := Real.hasSum_log_one_add_inv hx
  rw [← hy] at h
  have y0 : 0 < y := by rw [hy]; positivity
  have y1 : y < 1 := by rw [hy, div_lt_one (by positivity)]; linarith
  constructor
  · have := sum_le_hasSum (Finset.range 2) (fun i _ => by positivity) h
    refine le_trans (le_of_eq ?_) this
    rw [Finset.sum_range_succ, Finset.sum_range_one]; norm_num; ring
  · have h3 := (hasSum_nat_add_iff' (f := fun k : ℕ => (2 : ℝ) * (1 / (2 * k + 1)) * y ^ (2 * k + 1)) 3).mpr h
    have g := (hasSum_geometric_of_lt_one (r := y ^ 2) (by positivity) (by nlinarith)).mul_left (2 / 7 * y ^ 7)
    have := hasSum_le (fun k => ?_) h3 g
    · rw [Finset.sum_range_succ, Finset.sum_range_succ, Finset.sum_range_one] at this
      norm_num at this ⊢
      linarith
    · push_cast
      rw [← pow_mul, show 2 * (k + 3) + 1 = 7 + 2 * k by ring, pow_add, ← mul_assoc]
      refine mul_le_mul_of_nonneg_right (mul_le_mul_of_nonneg_right ?_ (by positivity)) (by positivity)
      have : (1 : ℝ) / (2 * (k + 3) + 1) ≤ 1 / 7 := one_div_le_one_div_of_le (by norm_num) (by
        have : (0 : ℝ) ≤ k := Nat.cast_nonneg k
        linarith)
      linarith

/-- The first terms of the asymptotic expansion of `H_n - log n - γ`. -/
noncomputable def gUp (n : ℕ) : ℝ := (harmonic n : ℝ) - Real.log n - 1 / (2 * n) + 1 / (12 * n ^ 2)
noncomputable def gLo (n : ℕ) : ℝ := gUp n - 1 / (120 * n ^ 4)

theorem g_step (n : ℕ) (hn : 0 < n) : gUp (n + 1) ≤ gUp n ∧ gLo n ≤ gLo (n + 1) := by
  have hx : (0 : ℝ) < n := by exact_mod_cast hn
  set y : ℝ := 1 / (2 * n + 1) with hy
  obtain ⟨h1, h2⟩ := log_step hx hy
  have y0 : 0 < y := by rw [hy]; positivity
  have y1 : y < 1 := by rw [hy, div_lt_one (by positivity)]; linarith
  have el : Real.log (1 + (n : ℝ)⁻¹) = Real.log ((n : ℝ) + 1) - Real.log n := by
    rw [← Real.log_div (by positivity) (by positivity)]; congr 1; field_simp
  rw [el] at h1 h2
  have hn' : (n : ℝ) = (1 - y) / (2 * y) := by rw [hy]; field_simp; ring
  have hn1 : (n : ℝ) + 1 = (1 + y) / (2 * y) := by rw [hy]; field_simp; ring
  have hh : ((harmonic (n + 1) : ℚ) : ℝ) = harmonic n + 1 / ((n : ℝ) + 1) := by
    rw [harmonic_succ]; push_cast; rw [one_div]
  have z0 : 0 < 1 - y := by linarith
  have z1 : 0 < 1 + y := by linarith
  have z2 : 0 < 1 - y ^ 2 := by nlinarith
  -- the rational parts
  have r1 : 1 / ((n : ℝ) + 1) + 1 / (2 * n) - 1 / (2 * ((n : ℝ) + 1)) - (1 / (12 * (n : ℝ) ^ 2) - 1 / (12 * ((n : ℝ) + 1) ^ 2)) =
      2 * y / (1 - y ^ 2) - 4 / 3 * y ^ 3 / (1 - y ^ 2) ^ 2 := by
    rw [hn1, hn', show 1 - y ^ 2 = (1 - y) * (1 + y) by ring]
    field_simp
    ring
  have r2 : 1 / (120 * (n : ℝ) ^ 4) - 1 / (120 * ((n : ℝ) + 1) ^ 4) = 16 / 15 * y ^ 5 * (1 + y ^ 2) / (1 - y ^ 2) ^ 4 := by
    rw [hn1, hn', show 1 - y ^ 2 = (1 - y) * (1 + y) by ring]
    field_simp
    ring
  have k1 : 2 * y / (1 - y ^ 2) - 4 / 3 * y ^ 3 / (1 - y ^ 2) ^ 2 ≤ 2 * (y + y ^ 3 / 3) := by
    rw [← sub_nonneg, show 2 * (y + y ^ 3 / 3) - (2 * y / (1 - y ^ 2) - 4 / 3 * y ^ 3 / (1 - y ^ 2) ^ 2) =
      (2 / 3 * y ^ 5 + 2 / 3 * y ^ 7) / (1 - y ^ 2) ^ 2 by field_simp; ring]
    positivity
  have k2 : 2 * (y + y ^ 3 / 3 + y ^ 5 / 5) + 2 / 7 * y ^ 7 * (1 - y ^ 2)⁻¹ ≤
      2 * y / (1 - y ^ 2) - 4 / 3 * y ^ 3 / (1 - y ^ 2) ^ 2 + 16 / 15 * y ^ 5 * (1 + y ^ 2) / (1 - y ^ 2) ^ 4 := by
    have u1 : y ^ 2 < 1 := by linarith
    have u2 : y ^ 6 ≤ 1 := pow_le_one₀ y0.le y1.le
    have hp : 0 ≤ 64 / 21 - 92 / 105 * y ^ 2 + 8 / 105 * y ^ 4 - 4 / 35 * y ^ 6 := by
      have : 0 ≤ y ^ 4 := by positivity
      linarith
    rw [← sub_nonneg, show 2 * y / (1 - y ^ 2) - 4 / 3 * y ^ 3 / (1 - y ^ 2) ^ 2 + 16 / 15 * y ^ 5 * (1 + y ^ 2) / (1 - y ^ 2) ^ 4 -
      (2 * (y + y ^ 3 / 3 + y ^ 5 / 5) + 2 / 7 * y ^ 7 * (1 - y ^ 2)⁻¹) =
      y ^ 7 * (64 / 21 - 92 / 105 * y ^ 2 + 8 / 105 * y ^ 4 - 4 / 35 * y ^ 6) / (1 - y ^ 2) ^ 4 by field_simp; ring]
    positivity
  unfold gLo gUp
  push_cast
  rw [hh]
  constructor <;> linarith

theorem gUp_tendsto : Filter.Tendsto gUp Filter.atTop (nhds Real.eulerMascheroniConstant) := by
  have h := Real.tendsto_harmonic_sub_log
  have c : Filter.Tendsto (fun n : ℕ => (n : ℝ)⁻¹) Filter.atTop (nhds 0) := tendsto_inv_atTop_nhds_zero_nat
  have := (h.sub (c.const_mul (1 / 2))).add ((c.pow 2).const_mul (1 / 12))
  simp only [mul_zero, sub_zero, zero_pow (two_ne_zero), add_zero] at this
  refine this.congr (fun n => ?_)
  unfold gUp
  rw [one_div (2 * (n : ℝ)), one_div (12 * (n : ℝ) ^ 2), mul_inv, mul_inv, inv_pow]
  norm_num

theorem gLo_tendsto : Filter.Tendsto gLo Filter.atTop (nhds Real.eulerMascheroniConstant) := by
  have c : Filter.Tendsto (fun n : ℕ => (n : ℝ)⁻¹) Filter.atTop (nhds 0) := tendsto_inv_atTop_nhds_zero_nat
  have := gUp_tendsto.sub ((c.pow 4).const_mul (1 / 120))
  simp only [mul_zero, sub_zero, zero_pow (four_ne_zero)] at this
  refine this.congr (fun n => ?_)
  unfold gLo
  rw [one_div (120 * (n : ℝ) ^ 4), mul_inv, inv_pow]
  norm_num

theorem gamma_between (n : ℕ) (hn : 0 < n) : gLo n ≤ Real.eulerMascheroniConstant ∧ Real.eulerMascheroniConstant ≤ gUp n := by
  have a : ∀ m, gUp (n + m) ≤ gUp n ∧ gLo n ≤ gLo (n + m) := by
    intro m
    induction m with
    | zero => simp
    | succ m ih =>
      have := g_step (n + m) (by omega)
      exact ⟨this.1.trans ih.1, ih.2.trans this.2⟩
  have e : ∀ᶠ m : ℕ in Filter.atTop, n ≤ m := Filter.eventually_ge_atTop n
  constructor
  · refine ge_of_tendsto gLo_tendsto (e.mono fun m hm => ?_)
    have := (a (m - n)).2; rwa [Nat.add_sub_cancel' hm] at this
  · refine le_of_tendsto gUp_tendsto (e.mono fun m hm => ?_)
    have := (a (m - n)).1; rwa [Nat.add_sub_cancel' hm] at this

/-- Fixed-point sum of `1/i` over `2^k` consecutive `i` from `a`. -/
def hs : ℕ → ℕ → ℕ
  | 0, a => 2 ^ 100 / a
  | k + 1, a => hs k a + hs k (a + 2 ^ k)

theorem hs_bounds (k a : ℕ) (ha : 0 < a) :
    (hs k a : ℝ) / 2 ^ 100 ≤ ∑ i ∈ Finset.range (2 ^ k), 1 / ((a + i : ℕ) : ℝ) ∧
      ∑ i ∈ Finset.range (2 ^ k), 1 / ((a + i : ℕ) : ℝ) ≤ ((hs k a : ℝ) + 2 ^ k) / 2 ^ 100 := by
  induction k generalizing a with
  | zero =>
    have ha' : (0 : ℝ) < a := by exact_mod_cast ha
    have h1 : 2 ^ 100 / a * a ≤ 2 ^ 100 := Nat.div_mul_le_self _ _
    have h2 : 2 ^ 100 < (2 ^ 100 / a + 1) * a := by
      have := Nat.lt_div_mul_add (a := 2 ^ 100) ha
      rw [Nat.add_mul, one_mul]; exact this
    have h1' : ((2 ^ 100 / a : ℕ) : ℝ) * a ≤ 2 ^ 100 := by exact_mod_cast h1
    have h2' : (2 : ℝ) ^ 100 < (((2 ^ 100 / a : ℕ) : ℝ) + 1) * a := by exact_mod_cast h2
    simp only [hs, pow_zero, Finset.sum_range_one, add_zero]
    constructor
    · rw [div_le_div_iff₀ (by positivity) ha']; linarith
    · rw [div_le_div_iff₀ ha' (by positivity)]; linarith
  | succ k ih =>
    obtain ⟨a1, a2⟩ := ih a ha
    obtain ⟨b1, b2⟩ := ih (a + 2 ^ k) (by positivity)
    have e : ∑ i ∈ Finset.range (2 ^ (k + 1)), 1 / ((a + i : ℕ) : ℝ) =
        ∑ i ∈ Finset.range (2 ^ k), 1 / ((a + i : ℕ) : ℝ) + ∑ i ∈ Finset.range (2 ^ k), 1 / ((a + 2 ^ k + i : ℕ) : ℝ) := by
      rw [pow_succ, mul_two, Finset.sum_range_add]
      simp only [add_assoc]
    rw [e]
    simp only [hs]
    push_cast at *
    constructor
    · have : ((hs k a : ℝ) + hs k (a + 2 ^ k)) / 2 ^ 100 = (hs k a : ℝ) / 2 ^ 100 + (hs k (a + 2 ^ k) : ℝ) / 2 ^ 100 := by ring
      rw [this]; exact add_le_add a1 b1
    · have : ((hs k a : ℝ) + hs k (a + 2 ^ k) + 2 ^ (k + 1)) / 2 ^ 100 =
          ((hs k a : ℝ) + 2 ^ k) / 2 ^ 100 + ((hs k (a + 2 ^ k) : ℝ) + 2 ^ k) / 2 ^ 100 := by ring
      rw [this]; exact add_le_add a2 b2

theorem harmonic_hs (k : ℕ) : (hs k 1 : ℝ) / 2 ^ 100 ≤ (harmonic (2 ^ k) : ℝ) ∧
    (harmonic (2 ^ k) : ℝ) ≤ ((hs k 1 : ℝ) + 2 ^ k) / 2 ^ 100 := by
  have := hs_bounds k 1 (by norm_num)
  have e : ((harmonic (2 ^ k) : ℚ) : ℝ) = ∑ i ∈ Finset.range (2 ^ k), 1 / ((1 + i : ℕ) : ℝ) := by
    unfold harmonic; push_cast
    refine Finset.sum_congr rfl (fun i _ => ?_)
    rw [one_div, add_comm]
  rw [e]; exact this

/-! ## The bounds -/

/-- Bounds of `log 2`, `log 10`. -/
theorem log2_iv : ((69314718055994530941723212 / 10 ^ 26 : ℚ) : ℝ) ≤ Real.log 2 ∧ Real.log 2 ≤ ((69314718055994530941723213 / 10 ^ 26 : ℚ) : ℝ) := by
  have := log_iv (x := 2) (a := 69314718055994530941723212 / 10 ^ 26) (b := 69314718055994530941723213 / 10 ^ 26)
    (by decide +kernel) (by decide +kernel) (by decide +kernel) (by decide +kernel)
  exact_mod_cast this

theorem log10_iv : ((230258509299404568401799145 / 10 ^ 26 : ℚ) : ℝ) ≤ Real.log 10 ∧ Real.log 10 ≤ ((230258509299404568401799146 / 10 ^ 26 : ℚ) : ℝ) := by
  have := log_iv (x := 10) (a := 230258509299404568401799145 / 10 ^ 26) (b := 230258509299404568401799146 / 10 ^ 26)
    (by decide +kernel) (by decide +kernel) (by decide +kernel) (by decide +kernel)
  exact_mod_cast this

theorem gamma_iv : ((57721566490153286060 / 10 ^ 20 : ℚ) : ℝ) ≤ Real.eulerMascheroniConstant ∧
    Real.eulerMascheroniConstant ≤ ((57721566490153286061 / 10 ^ 20 : ℚ) : ℝ) := by
  have hk : hs 16 1 = 14790412487188639093563800674202 := by decide +kernel
  obtain ⟨h1, h2⟩ := harmonic_hs 16
  rw [hk] at h1 h2
  obtain ⟨g1, g2⟩ := gamma_between (2 ^ 16) (by norm_num)
  obtain ⟨l1, l2⟩ := log2_iv
  have e : Real.log ((2 ^ 16 : ℕ) : ℝ) = 16 * Real.log 2 := by
    rw [show ((2 ^ 16 : ℕ) : ℝ) = (2 : ℝ) ^ 16 by norm_num, Real.log_pow]; norm_num
  unfold gLo gUp at g1
  unfold gUp at g2
  rw [e] at g1 g2
  generalize harmonic (2 ^ 16) = H at *
  clear hk e
  constructor
  · norm_num at *; linarith
  · norm_num at *; linarith

end Takum
