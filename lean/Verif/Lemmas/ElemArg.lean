import Verif.Lemmas.Faithful

/-! # Accuracy of the conversion of the argument -/

namespace Takum
open Spec

noncomputable def inTol : Kind → ℝ
  | .log => 0.72 / 2 ^ 56
  | .lin => 0

/-- What is known of the converted argument. -/
structure Arg' (k : Kind) (w : W) (r : Fl) (v : ℚ) (x : ℝ) : Prop extends Arg (kF k w) w r v x where
  close : |(v : ℝ) - x| ≤ inTol k * |x|
  le' : |v| ≤ (2 : ℚ) ^ (258 : ℤ)
  zpos : v = 0 → r = .zero false

theorem linTo_zero (w : W) : linTo w.src w 0#w.n = .ok (.zero false) := by
  cases w <;> decide +kernel

theorem logTo_close {L : Libm} (hL : L.Powers) (hA : L.Accurate) (w : W) {t : T w} {r : Fl} {v : ℚ} {x : ℝ} (ht : Regular t)
    (e : logTo L .ext w t = .ok r) (hv : r.Is v) (hx : value .log t = some x) : |(v : ℝ) - x| ≤ 0.72 / 2 ^ 56 * |x| := by
  have h8 := w.n_pos
  have hx' : x = (sg t.msb : ℚ) * logG (ell t) := by
    have := logVal_regular (by omega : 1 ≤ w.n) ht
    change logVal _ = _ at hx; rw [this] at hx; simpa using hx.symm
  obtain ⟨f', u, e3, i', n', pv, lg⟩ := logTo_log hL hA .ext (by decide) w (by simp) ht
  rw [e] at e3
  have : r = f' := by injection e3
  subst this
  have hu := hv.unique i'
  have pw : powF .ext w = x80 := by cases w <;> rfl
  have hlam : ((lamOf .ext w : ℚ) : ℝ) = 4.01 / 2 ^ 64 := by
    have : lamOf .ext w = 4.01 / 2 ^ 64 := by cases w <;> rfl
    rw [this]; push_cast; norm_num
  rw [hlam, pw] at lg
  have hκ := sqe_log (F := x80) (Or.inr rfl)
  have hk : ((kap x80 : ℚ) : ℝ) = 1.4 / 2 ^ 64 := by
    have : kap x80 = 1.4 / 2 ^ 64 := rfl
    rw [this]; push_cast; norm_num
  rw [hk] at hκ
  generalize Real.log ((sqe x80 : ℚ) : ℝ) = B at *
  have hb : |((ell t : ℚ) : ℝ)| ≤ 255 := by exact_mod_cast abs_ell_le t
  set l : ℝ := ((ell t : ℚ) : ℝ) with hl
  have d1 : |Real.log u - l / 2| ≤ 182.7 / 2 ^ 64 := by
    have e1 : Real.log u - l / 2 = (Real.log u - l * B) + l * (2 * B - 1) / 2 := by ring
    have e2 : |l * (2 * B - 1) / 2| ≤ 255 * (1.4 / 2 ^ 64 * (1 + 1 / 2 ^ 49)) / 2 := by
      rw [abs_div, abs_mul, abs_two]; gcongr
    rw [e1]
    have := abs_add_le (Real.log u - l * B) (l * (2 * B - 1) / 2)
    norm_num at *; linarith
  have pu : (0 : ℝ) < u := by exact_mod_cast pv
  have eu : (u : ℝ) = logG (ell t) * Real.exp (Real.log u - l / 2) := by
    rw [logG_exp, ← Real.exp_add, add_sub_cancel, Real.exp_log pu]
  have h2 := Real.abs_exp_sub_one_sub_id_le (x := Real.log u - l / 2) (d1.trans (by norm_num))
  have h3 : |Real.exp (Real.log u - l / 2) - 1| ≤ 0.72 / 2 ^ 56 := by
    have := abs_add_le (Real.exp (Real.log u - l / 2) - 1 - (Real.log u - l / 2)) (Real.log u - l / 2)
    rw [sub_add_cancel] at this
    have h4 : (Real.log u - l / 2) ^ 2 ≤ (182.7 / 2 ^ 64) ^ 2 := by rw [← sq_abs]; gcongr
    norm_num at *; linarith
  have hg := logG_pos (ell t)
  have sgn : |((sg t.msb : ℚ) : ℝ)| = 1 := by cases t.msb <;> simp [sg]
  have e5 : (v : ℝ) - x = (sg t.msb : ℚ) * (logG (ell t) * (Real.exp (Real.log u - l / 2) - 1)) := by
    rw [hu, hx']; push_cast
    conv_lhs => rw [eu]
    ring
  rw [e5, hx', abs_mul, abs_mul, abs_mul, sgn, one_mul, one_mul, abs_of_pos hg, mul_comm]
  exact mul_le_mul_of_nonneg_right h3 hg.le

theorem kTo_acc {L : Libm} (hL : L.Conforming) (k : Kind) (w : W) {t : T w} {x : ℝ} (hx : value k t = some x) :
    ∃ r v, kTo L k w t = .ok r ∧ Arg' k w r v x := by
  obtain ⟨r, v, e, ha⟩ := kTo_arg hL.powers hL.accurate hL.specials k w hx
  have ht : t ≠ nar w.n := by rw [Ne, ← value_none (k := k), hx]; simp
  have close : |(v : ℝ) - x| ≤ inTol k * |x| := by
    by_cases h0 : x = 0
    · rw [h0, ha.zero.mp h0]; simp
    have hz : t ≠ 0#w.n := by
      rintro rfl
      rw [value_zero] at hx; exact h0 (by simpa using hx.symm)
    cases k
    · exact logTo_close hL.powers hL.accurate w ⟨hz, ht⟩ e ha.is hx
    · obtain ⟨r', e', i'⟩ := linTo_src w ht
      have : r = r' := by
        change linTo w.src w t = .ok r at e
        rw [e] at e'; injection e'
      subst this
      have := ha.is.unique i'
      rw [value_lin (linVal_qv ht)] at hx
      have := Option.some.inj hx
      simp [inTol, ‹v = _›, this]
  refine ⟨r, v, e, ⟨ha, close, ?_, ?_⟩⟩
  · have h1 : |x| ≤ (2 : ℝ) ^ (256 : ℤ) := by
      have p1 : (0 : ℝ) < 2 ^ (256 : ℤ) := by positivity
      have p2 : (0 : ℝ) < 2 ^ (-256 : ℤ) := by positivity
      rcases value_range t x hx with h | h | h
      · rw [h, abs_zero]; exact p1.le
      · rw [abs_of_pos (by linarith [h.1])]; exact h.2
      · rw [abs_of_neg (by linarith [h.1])]; linarith [h.2]
    have h2 : inTol k ≤ 1 := by cases k <;> norm_num [inTol]
    have h3 := abs_add_le ((v : ℝ) - x) x
    rw [sub_add_cancel] at h3
    have h4 : |(v : ℝ)| ≤ (2 : ℝ) ^ (258 : ℤ) := by
      have e4 : (2 : ℝ) ^ (258 : ℤ) = 4 * (2 : ℝ) ^ (256 : ℤ) := by
        rw [show (258 : ℤ) = 2 + 256 by norm_num, zpow_add₀ (by norm_num)]; norm_num
      rw [e4]
      have p1 : (0 : ℝ) < 2 ^ (256 : ℤ) := by positivity
      have := mul_le_mul_of_nonneg_right h2 (abs_nonneg x)
      linarith
    apply (Rat.cast_le (K := ℝ)).mp
    rw [Rat.cast_zpow, Rat.cast_abs]; exact h4
  · intro hv
    have hx0 := ha.zero.mpr hv
    have hz : t = 0#w.n := by
      subst hx0
      rcases value_cases hx with h | ⟨-, -, -, h, -⟩ | ⟨-, -, -, h, -⟩
      · exact h.1
      · have : (0 : ℝ) < 2 ^ (-256 : ℤ) := by positivity
        linarith
      · have : (0 : ℝ) < 2 ^ (-256 : ℤ) := by positivity
        linarith
    subst hz
    cases k
    · change logTo L .ext w _ = _ at e
      rw [logTo_zero hL.powers] at e; injection e with e; exact e.symm
    · change linTo w.src w _ = _ at e
      rw [linTo_zero] at e; injection e with e; exact e.symm

end Takum
