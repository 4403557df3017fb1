import Verif.Lemmas.ElemExp
import Verif.Lemmas.ElemInv
import Verif.Lemmas.ElemPi

/-! # Accuracy of all elementary functions on floats -/

namespace Takum
open Spec

theorem good_all {L : Libm} (hL : L.Conforming) (hA : L.Approximates) (u : UFun) {k : Kind} {w : W} {r : Fl} {v : ℚ} {x : ℝ}
    (h : Arg' k w r v x) : Good L u (kF k w) r v := by
  have hF := kF_std k w
  have a := h.toArg
  cases u
  case ten_raised => exact good_ten_raised hA hF a
  case ten_raised_minus_1 => exact good_ten_raised_minus_1 hA hF a
  case two_raised => exact good_two_raised hA hF a
  case two_raised_minus_1 => exact good_two_raised_minus_1 hA hF a
  case exp => exact good_exp hA hF a
  case exp_minus_1 => exact good_exp_minus_1 hA hF a
  case ln => exact good_ln hL hA hF a
  case ln_1_plus => exact good_ln_1_plus hL hA hF a
  case lb => exact good_lb hL hA hF a
  case lb_1_plus => exact good_lb_1_plus hL hA hF a
  case lg => exact good_lg hL hA hF a
  case lg_1_plus => exact good_lg_1_plus hL hA hF a
  case sin => exact good_sin hL hA hF a
  case cos => exact good_cos hL hA hF a
  case tan => exact good_tan hA hF a
  case csc => exact good_csc hA hF a
  case sec => exact good_sec hA hF a
  case cot => exact good_cot hA hF a
  case sin_pi_times => exact good_sin_pi_times hA hF a h.le'
  case cos_pi_times => exact good_cos_pi_times hA hF a h.le'
  case tan_pi_times => exact good_tan_pi_times hA hF a h.le'
  case csc_pi_times => exact good_csc_pi_times hA hF a h.le'
  case sec_pi_times => exact good_sec_pi_times hA hF a h.le'
  case cot_pi_times => exact good_cot_pi_times hA hF a h.le'
  case arcsin => exact good_arcsin hL hA hF a
  case arccos => exact good_arccos hL hA hF a
  case arctan => exact good_arctan hL hA hF a
  case arccsc => exact good_arccsc hL hA hF a
  case arcsec => exact good_arcsec hL hA hF a
  case arccot => exact good_arccot hA hF a h.zpos
  case arcsin_over_pi => exact good_arcsin_over_pi hL hA hF a
  case arccos_over_pi => exact good_arccos_over_pi hL hA hF a
  case arctan_over_pi => exact good_arctan_over_pi hL hA hF a
  case arccsc_over_pi => exact good_arccsc_over_pi hL hA hF a
  case arcsec_over_pi => exact good_arcsec_over_pi hL hA hF a
  case arccot_over_pi => exact good_arccot_over_pi hA hF a h.zpos
  case sinh => exact good_sinh hA hF a
  case cosh => exact good_cosh hA hF a
  case tanh => exact good_tanh hL hA hF a
  case csch => exact good_csch hA hF a hL
  case sech => exact good_sech hA hF a
  case coth => exact good_coth hL hA hF a
  case arsinh => exact good_arsinh hL hA hF a
  case arcosh => exact good_arcosh hL hA hF a
  case artanh => exact good_artanh hL hA hF a
  case arcsch => exact good_arcsch hL hA hF a
  case arsech => exact good_arsech hL hA hF a
  case arcoth => exact good_arcoth hL hA hF a

theorem abs_le_errScale (u : UFun) (y : ℝ) : |y| ≤ errScale u y := by
  cases u <;> simp [errScale]

theorem resPert_range {F : Fmt} (hF : F = b64 ∨ F = x80) (u : UFun) : 0 ≤ resPert F u ∧ resPert F u ≤ 1 / 100 := by
  rcases hF with rfl | rfl
  · have : b64.prec = 53 := rfl
    unfold resPert; split <;> (try rw [this]) <;> norm_num
  · unfold resPert; split <;> (try rw [prec80]) <;> norm_num

theorem resTol_ge (k : Kind) (w : W) (u : UFun) : resPert (kF k w) u + 1.1 * outTol k ≤ resTol k w u := by
  have p53 : b64.prec = 53 := rfl
  cases k
  · have e : kF .log w = x80 := rfl
    rw [e]
    cases u <;> simp only [resPert, resTol, outTol, prec80] <;> norm_num
  · cases w
    case w64 =>
      have e : kF .lin .w64 = x80 := rfl
      rw [e]
      cases u <;> simp only [resPert, resTol, outTol, prec80] <;> norm_num
    all_goals
      first
        | (have e : kF .lin .w8 = b64 := rfl; rw [e]; cases u <;> simp only [resPert, resTol, outTol, p53] <;> norm_num)
        | (have e : kF .lin .w16 = b64 := rfl; rw [e]; cases u <;> simp only [resPert, resTol, outTol, p53] <;> norm_num)
        | (have e : kF .lin .w32 = b64 := rfl; rw [e]; cases u <;> simp only [resPert, resTol, outTol, p53] <;> norm_num)

theorem argTol_ge (k : Kind) (u : UFun) {x' v x : ℝ} (h1 : |x' - v| ≤ argPert u * |v|) (h2 : |v - x| ≤ inTol k * |x|) : |x' - x| ≤ argTol k u * |x| := by
  have x0 := abs_nonneg x
  have h3 : |v| ≤ (1 + inTol k) * |x| := by
    have := abs_add_le (v - x) x; rw [sub_add_cancel] at this; linarith
  have p0 : 0 ≤ argPert u := by unfold argPert; split <;> norm_num
  have h4 := abs_add_le (x' - v) (v - x)
  rw [sub_add_sub_cancel] at h4
  have h5 := mul_le_mul_of_nonneg_left h3 p0
  have key : argPert u * (1 + inTol k) + inTol k ≤ argTol k u := by
    cases k <;> cases u <;> simp only [argPert, inTol, argTol] <;> norm_num
  have := mul_le_mul_of_nonneg_right key x0
  rw [add_mul] at this
  linarith

end Takum
