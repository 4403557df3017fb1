import Verif.Lemmas.BinAcc
import Verif.Props.Powers

/-! # Accuracy of logarithmic addition and subtraction, of integral powers and of linear roots -/

namespace Takum
open Spec

/-! ## Sums of converted takums -/

theorem rep_multiple {v : ℚ} (h : x80.In v) (hv : v ≠ 0 → (2 : ℚ) ^ (-300 : ℤ) ≤ |v|) : ∃ j : ℤ, v = j * (2 : ℚ) ^ (-364 : ℤ) := by
  by_cases v0 : v = 0
  · exact ⟨0, by simp [v0]⟩
  obtain ⟨m, e, rfl, hm, -⟩ := h.1
  have h1 := hv v0
  have he : -364 ≤ e := by
    by_contra hc
    rw [abs_mul, abs_of_pos (by positivity : (0 : ℚ) < 2 ^ e)] at h1
    have h2 : |(m : ℚ)| ≤ 2 ^ (64 : ℤ) := by
      have : |m| < 2 ^ 64 := by exact_mod_cast hm
      exact_mod_cast this.le
    have h3 : (2 : ℚ) ^ e ≤ (2 : ℚ) ^ (-365 : ℤ) := zpow_le_zpow_right₀ (by norm_num) (by omega)
    have h4 := mul_le_mul h2 h3 (by positivity) (by positivity)
    rw [← zpow_add₀ (by norm_num)] at h4
    have h5 : (2 : ℚ) ^ (64 + -365 : ℤ) < (2 : ℚ) ^ (-300 : ℤ) := zpow_lt_zpow_right₀ (by norm_num) (by norm_num)
    linarith
  refine ⟨m * 2 ^ (e + 364).toNat, ?_⟩
  have e1 : ((2 : ℚ) ^ (e + 364).toNat) = (2 : ℚ) ^ (e + 364) := by
    rw [← zpow_natCast, Int.toNat_of_nonneg (by omega)]
  push_cast
  rw [e1, mul_assoc, ← zpow_add₀ (by norm_num)]
  congr 2; ring

theorem sum_near {p q : ℚ} (ip : x80.In p) (iq : x80.In q) (hp : p ≠ 0 → (2 : ℚ) ^ (-300 : ℤ) ≤ |p|) (hq : q ≠ 0 → (2 : ℚ) ^ (-300 : ℤ) ≤ |q|)
    (lp : |p| ≤ (2 : ℚ) ^ (300 : ℤ)) (lq : |q| ≤ (2 : ℚ) ^ (300 : ℤ)) (s : Bool) :
    Near x80 (1.25 / 2 ^ 64) ((p + q : ℚ) : ℝ) (Fl.round x80 s (p + q)) := by
  have hm : Mod ((p + q : ℚ) : ℝ) := by
    refine mod_of (fun h0 => ?_) ?_
    · obtain ⟨i, hi⟩ := rep_multiple ip hp
      obtain ⟨j, hj⟩ := rep_multiple iq hq
      have h1 : p + q = (i + j : ℤ) * (2 : ℚ) ^ (-364 : ℤ) := by rw [hi, hj]; push_cast; ring
      have hne : (i + j : ℤ) ≠ 0 := by
        intro h; rw [h] at h1; apply h0; rw [h1]; simp
      have h2 : (1 : ℝ) ≤ |((i + j : ℤ) : ℝ)| := by exact_mod_cast Int.one_le_abs hne
      rw [h1]
      rw [Rat.cast_mul, Rat.cast_zpow, Rat.cast_intCast, Rat.cast_ofNat, abs_mul, abs_of_pos (by positivity : (0 : ℝ) < 2 ^ (-364 : ℤ))]
      calc (2 : ℝ) ^ (-900 : ℤ) ≤ 1 * (2 : ℝ) ^ (-364 : ℤ) := by rw [one_mul]; exact z_le (by norm_num)
        _ ≤ _ := mul_le_mul_of_nonneg_right h2 (by positivity)
    · have h1 : |p + q| ≤ (2 : ℚ) ^ (301 : ℤ) := by
        have e : (2 : ℚ) ^ (301 : ℤ) = 2 * (2 : ℚ) ^ (300 : ℤ) := by
          rw [show (301 : ℤ) = 1 + 300 by norm_num, zpow_add₀ (by norm_num)]; norm_num
        rw [e]; have := abs_add_le p q; linarith
      have := (Rat.cast_le (K := ℝ)).mpr h1
      rw [Rat.cast_zpow, Rat.cast_abs, Rat.cast_ofNat] at this
      exact this.trans (z_le (by norm_num))
  have := round_near (F := x80) (q := p + q) (ε := 0) (Or.inr rfl) hm (by simp) (by norm_num) s
  rw [zero_add, prec80] at this
  exact this

/-! ## The fixer of the integral powers -/

theorem intPowFix_ext {w : W} {t : T w} (ht : t ≠ 0#w.n) {k : ℤ} {ε y : ℝ} {x : Fl} (h : Ext x80 ε y x) (he : ε < 1) (hy : y ≠ 0)
    (hs : (isNeg t && odd k) = true ↔ y < 0) : Res x80 (ε * |y|) y (intPowFix t k x) := by
  have hF : x80 = b64 ∨ x80 = x80 := Or.inr rfl
  have hid : ∀ z : ℚ, x.Is z → z ≠ 0 → intPowFix t k x = x := by
    intro z i z0
    unfold intPowFix
    rw [i.isinf, if_neg (by simp), if_neg]
    rw [Bool.and_eq_true, Fl.eq_iff i (Fl.Is.zero false)]
    exact fun h => z0 h.1
  rcases h with ⟨-, h2⟩ | ⟨-, h1, z, i, j, c, d⟩ | ⟨h1, h2⟩
  · obtain ⟨z, i, z0⟩ := near_ne h2 he hy
    rw [hid z i z0]; exact h2.res
  · by_cases z0 : z = 0
    · obtain ⟨m, e, p1, p2, p3⟩ := dbl_min' hF
      have : intPowFix t k x = if isNeg t && odd k then DBL_MIN.neg else DBL_MIN := by
        unfold intPowFix
        have e1 : (Fl.eq x (.zero false) && t != 0#w.n) = true := by
          rw [(Fl.eq_iff i (Fl.Is.zero false)).mpr z0]; simp [ht]
        rw [i.isinf, if_neg (by simp), if_pos e1]
      rw [this, e]
      rcases lt_or_gt_of_ne hy with hn | hn
      · rw [if_pos (hs.mpr hn)]
        rw [abs_of_neg hn] at h1
        refine ⟨-m, (Fl.Is.num p1.ne').neg, In_neg p3, Or.inr (beyond_neg ?_)⟩
        push_cast; rw [neg_neg]; exact beyond_small p1 p2 (by linarith) h1
      · rw [if_neg (fun h => absurd (hs.mp h) (not_lt.mpr hn.le))]
        rw [abs_of_pos hn] at h1
        exact ⟨m, Fl.Is.num p1.ne', p3, Or.inr (beyond_small p1 p2 hn h1)⟩
    · rw [hid z i z0]
      refine ⟨z, i, j, Or.inr ?_⟩
      have zr : (z : ℝ) ≠ 0 := by exact_mod_cast z0
      have d' : 0 < (z : ℝ) * y := lt_of_le_of_ne d (Ne.symm (mul_ne_zero zr hy))
      rcases mul_pos_iff.mp d' with ⟨u1, u2⟩ | ⟨u1, u2⟩
      · have u1 : 0 < z := by exact_mod_cast u1
        rw [abs_of_pos u1] at c; rw [abs_of_pos u2] at h1
        exact beyond_small u1 c u2 h1
      · have u1 : z < 0 := by exact_mod_cast u1
        rw [abs_of_neg u1] at c; rw [abs_of_neg u2] at h1
        have := beyond_small (z := -z) (by linarith) c (by linarith : 0 < -y) h1
        push_cast at this
        exact beyond_neg this
  · rcases h2 with rfl | ⟨z, rfl, j, c, d⟩
    · obtain ⟨m, e, p1, p2⟩ := dbl_max' hF
      have m0 : m ≠ 0 := (lt_of_lt_of_le (by positivity) p1).ne'
      have : intPowFix t k (.inf (decide (y < 0))) = if decide (y < 0) then DBL_MAX.neg else DBL_MAX := by
        unfold intPowFix
        rw [if_pos (by simp [Fl.isinf])]
        by_cases hn : y < 0
        · simp [hn, Fl.lt]
        · simp [hn, Fl.lt]
      rw [this, e]
      rcases lt_or_gt_of_ne hy with hn | hn
      · rw [if_pos (by simp [hn])]
        rw [abs_of_neg hn] at h1
        refine ⟨-m, (Fl.Is.num m0).neg, In_neg p2, Or.inr (beyond_neg ?_)⟩
        push_cast; rw [neg_neg]; exact beyond_big p1 h1
      · rw [if_neg (by simp [hn.le])]
        rw [abs_of_pos hn] at h1
        exact ⟨m, Fl.Is.num m0, p2, Or.inr (beyond_big p1 h1)⟩
    · have z0 : z ≠ 0 := by rintro rfl; rw [abs_zero] at c; exact absurd c (not_le.mpr (by positivity))
      rw [hid z (Fl.Is.num z0) z0]
      refine ⟨z, Fl.Is.num z0, j, Or.inr ?_⟩
      have zr : (z : ℝ) ≠ 0 := by exact_mod_cast z0
      have d' : 0 < (z : ℝ) * y := lt_of_le_of_ne d (Ne.symm (mul_ne_zero zr hy))
      rcases mul_pos_iff.mp d' with ⟨u1, u2⟩ | ⟨u1, u2⟩
      · have u1 : 0 < z := by exact_mod_cast u1
        rw [abs_of_pos u1] at c; rw [abs_of_pos u2] at h1
        exact beyond_big c h1
      · have u1 : z < 0 := by exact_mod_cast u1
        rw [abs_of_neg u1] at c; rw [abs_of_neg u2] at h1
        have := beyond_big c h1
        push_cast at this
        exact beyond_neg this

/-- The `long double` that a takum is converted to. -/
theorem eTo_acc {L : Libm} (hL : L.Conforming) (k : Kind) (w : W) {t : T w} {x : ℝ} (hx : value k t = some x) :
    ∃ (r : Fl) (v : ℚ), eTo L k w t = .ok r ∧ r.Is v ∧ x80.In v ∧ (v = 0 ↔ t = 0#w.n) ∧ (v < 0 ↔ t.toInt < 0) ∧
      |v| ≤ (2 : ℚ) ^ (300 : ℤ) ∧ (t ≠ 0#w.n → (2 : ℚ) ^ (-300 : ℤ) ≤ |v|) ∧ |(v : ℝ) - x| ≤ inTol k * |x| ∧ (k = .lin → (v : ℝ) = x) := by
  have ht : t ≠ nar w.n := by rw [Ne, ← value_none (k := k), hx]; simp
  obtain ⟨f, v, e, i, n, a, b, c, d, hl⟩ := eTo_fin hL.powers k w ht
  have close : |(v : ℝ) - x| ≤ inTol k * |x| ∧ (k = .lin → (v : ℝ) = x) := by
    cases k
    · obtain ⟨r', v', e', ha⟩ := kTo_acc hL .log w hx
      have : f = r' := by
        change logTo L .ext w t = _ at e e'
        rw [e] at e'; injection e'
      subst this
      rw [i.unique ha.is]
      exact ⟨ha.close, by simp⟩
    · have := hl rfl
      rw [value_lin (linVal_qv ht)] at hx
      have hx := Option.some.inj hx
      rw [this, hx]; simp [inTol]
  exact ⟨f, v, e, i, n, a, b, c, d, close.1, close.2⟩

end Takum
