import Verif.Props.Squares
import Verif.Props.Iterate
import Verif.Props.AbsSign
import Verif.Lemmas.ConstIv

/-!
# C150: the geometric mean of two logarithmic takums
-/

namespace Takum
open Spec

/-- `sqrt(a * b)`. -/
def geoMean (w : W) (a b : T w) : C (T w) := do squareRoot w (← multiplication w a b)

theorem log_mul_le {w : W} {a b a' b' : T w} {x y x' y' : ℝ} (h1 : value .log a = some x) (h2 : value .log b = some y) (h3 : value .log a' = some x')
    (h4 : value .log b' = some y') (h : x * y ≤ x' * y') :
    ∃ u v : T w, multiplication w a b = .ok u ∧ multiplication w a' b' = .ok v ∧ u.toInt ≤ v.toInt :=
  log_operations_ordered ideal w (.mul a b) (.mul a' b') _ _ (.mul h1 h2) (.mul h3 h4) h

theorem absolute_pos {w : W} {a : T w} (h : 0 < a.toInt) : absolute w a = .ok a := by
  rcases absolute_cases (not_nar h.le) with h' | h'
  · exact h'.1
  · have := (isNeg_iff (t := a)).mpr h'.2
    omega

/-- C150, for 16, 32 and 64 bits: the geometric mean lies between the numbers if their squares are in the range. -/
theorem geoMean_between_partial (w : W) (hw : w ≠ .w8) (a b : T w) (x y : ℝ) (hx : logVal a = some x) (hy : logVal b = some y) (h0 : 0 < x) (h : x ≤ y)
    (h1 : Real.exp (-255 / 2) < x ^ 2) (h2 : y ^ 2 < Real.exp (255 / 2)) :
    ∃ m : T w, geoMean w a b = .ok m ∧ a.toInt ≤ m.toInt ∧ m.toInt ≤ b.toInt := by
  have h8 := w.n_pos
  have hx' : value .log a = some x := hx
  have hy' : value .log b = some y := hy
  have z : value .log (0#w.n : T w) = some 0 := value_zero .log
  have pa : 0 < a.toInt := by
    have := (value_order .log hx' z).not.mpr (not_le.mpr h0)
    rw [(ends_toInt w).2.2.1] at this
    omega
  have ab := (value_order .log hx' hy').mpr h
  have pos : ∀ t : T w, 0 < t.toInt → Regular t := fun t ht =>
    ⟨by rintro rfl; rw [(ends_toInt w).2.2.1] at ht; omega, not_nar ht.le⟩
  obtain ⟨u, e1, f1, -⟩ := square_exact_partial w hw a (pos a pa) x hx
  obtain ⟨v, e2, f2, -⟩ := square_exact_partial w hw b (pos b (by omega)) y hy
  have xy : x ^ 2 ≤ y ^ 2 := by gcongr
  obtain ⟨-, r1⟩ := f1 h1 (xy.trans_lt h2)
  obtain ⟨-, r2⟩ := f2 (h1.trans_le xy) h2
  rw [absolute_pos pa] at r1
  rw [absolute_pos (by omega)] at r2
  obtain ⟨u', p, i1, i2, o1⟩ := log_mul_le hx' hx' hx' hy' (by nlinarith)
  obtain ⟨p', v', i3, i4, o2⟩ := log_mul_le hx' hy' hy' hy' (by nlinarith)
  rw [e1] at i1
  rw [e2] at i4
  rw [i2] at i3
  cases i1
  cases i3
  cases i4
  have u0 : 0 ≤ u.toInt := by
    by_contra hc
    rw [(squareRoot_special w u).1.mpr (by omega)] at r1
    cases r1
    exact not_nar pa.le rfl
  obtain ⟨s, m, j1, j2, o3⟩ := squareRoot_monotone w u p u0 o1
  obtain ⟨m', t, j3, j4, o4⟩ := squareRoot_monotone w p v (u0.trans o1) o2
  rw [r1] at j1
  rw [j2] at j3
  rw [r2] at j4
  cases j1
  cases j3
  cases j4
  exact ⟨m, by rw [geoMean, i2]; exact j2, o3, o4⟩

/-- Non-vacuity: √e^(1/2) and √e^3 with 16 bits. -/
example : ∃ m : T .w16, geoMean .w16 0x4400#16 0x5000#16 = .ok m ∧ (0x4400#16 : T .w16).toInt ≤ m.toInt ∧ m.toInt ≤ (0x5000#16 : T .w16).toInt := by
  have e1 : ell (0x4400#16 : T .w16) = 1 / 2 := by decide +kernel
  have e2 : ell (0x5000#16 : T .w16) = 3 := by decide +kernel
  have v1 := logVal_pos (w := .w16) (t := 0x4400#16) (by decide)
  have v2 := logVal_pos (w := .w16) (t := 0x5000#16) (by decide)
  rw [e1] at v1
  rw [e2] at v2
  refine geoMean_between_partial .w16 (by decide) _ _ _ _ v1 v2 (Real.exp_pos _) (Real.exp_le_exp.mpr (by norm_num)) ?_ ?_ <;>
    rw [← Real.exp_nat_mul, Real.exp_lt_exp] <;> norm_num

/-- C150 fails beyond: the mean of the largest number with itself is smaller. It fails with 8 bits for √e^8. -/
theorem geoMean_refuted : geoMean .w64 (POSITIVE_MAXIMUM .w64) (POSITIVE_MAXIMUM .w64) ≠ .ok (POSITIVE_MAXIMUM .w64) ∧
    geoMean .w8 0x59#8 0x59#8 = .ok 0x58#8 := by
  decide +kernel

end Takum
