import Verif.Lemmas.ConstIv
import Verif.Props.LogArith

/-!
# The constants of takum.h (C55, C63)
-/

namespace Takum
open Spec

/-- C55: the constants of the linear types are the takums closest to the named numbers. -/
theorem constants_linear (c : Const) (w : W) : Closest .lin (c.takum .lin w) c.real := by
  have h : ∀ w, Const.all.all (fun c => chkLin (c.takum .lin w) c.iv) = true := by
    intro w; cases w <;> decide +kernel
  exact closest_lin (List.all_eq_true.mp (h w) c (by cases c <;> decide)) c.iv_real

/-- C63 for all constants of the logarithmic types but `TAKUM64_6_PI` and `TAKUM64_6_PI_OVER_5`. -/
theorem constants_log_partial (c : Const) (w : W) (h : ¬ (w = .w64 ∧ (c = .pi6 ∨ c = .pi6_5))) :
    Closest .log (c.takum .log w) c.real := by
  have k : ∀ w, Const.all.all (fun c => decide (w = .w64 ∧ (c = .pi6 ∨ c = .pi6_5)) || chkLog (c.takum .log w) c.iv) = true := by
    intro w; cases w <;> decide +kernel
  have := List.all_eq_true.mp (k w) c (by cases c <;> decide)
  rw [Bool.or_eq_true] at this
  rcases this with h' | h'
  · exact absurd (of_decide_eq_true h') h
  · exact closest_log h' c.iv_real

example : ¬ ((W.w64 : W) = .w64 ∧ (Const.gamma = .pi6 ∨ Const.gamma = .pi6_5)) := by decide

/-- C63 is false for two constants: the takum below `TAKUM64_6_PI` is closer to 6π, the takum below
`TAKUM64_6_PI_OVER_5` closer to 6π/5. -/
theorem constants_log_refuted :
    (∃ v u, value .log (Const.pi6.takum .log .w64) = some v ∧ value .log (Const.pi6.takum .log .w64 - 1) = some u ∧
      |u - Const.pi6.real| < |v - Const.pi6.real|) ∧
    (∃ v u, value .log (Const.pi6_5.takum .log .w64) = some v ∧ value .log (Const.pi6_5.takum .log .w64 - 1) = some u ∧
      |u - Const.pi6_5.real| < |v - Const.pi6_5.real|) := by
  have main : ∀ c : Const, 1 < (c.takum .log .w64).toInt → (c.takum .log .w64 - 1).toInt = (c.takum .log .w64).toInt - 1 →
      |ell (c.takum .log .w64)| ≤ 8 → |ell (c.takum .log .w64 - 1)| ≤ 8 →
      2 * c.iv.2 < eLo (ell (c.takum .log .w64 - 1) / 2) + eLo (ell (c.takum .log .w64) / 2) →
      ∃ v u, value .log (c.takum .log .w64) = some v ∧ value .log (c.takum .log .w64 - 1) = some u ∧
        |u - c.real| < |v - c.real| := by
    intro c h1 h2 b1 b2 h
    have half : ∀ q : ℚ, |q| ≤ 8 → |q / 2| ≤ 4 := fun q hq => by rw [abs_div]; norm_num; linarith
    have e1 := (exp_iv (half _ b1)).1
    have e2 := (exp_iv (half _ b2)).1
    have hv := logVal_pos (t := c.takum .log .w64) (by omega)
    have hu := logVal_pos (t := c.takum .log .w64 - 1) (by omega)
    have o := (value_order .log hv hu).not.mp (by omega)
    refine ⟨_, _, hv, hu, ?_⟩
    have h' : 2 * (c.iv.2 : ℝ) < (eLo (ell (c.takum .log .w64 - 1) / 2) : ℝ) + eLo (ell (c.takum .log .w64) / 2) := by
      exact_mod_cast h
    have hx := c.iv_real.2
    rw [not_le] at o
    rw [abs_lt]
    have := le_abs_self (Real.exp ((ell (c.takum .log .w64) / 2 : ℚ) : ℝ) - c.real)
    constructor <;> linarith
  exact ⟨main .pi6 (by decide) (by decide) (by decide +kernel) (by decide +kernel) (by decide +kernel),
    main .pi6_5 (by decide) (by decide) (by decide +kernel) (by decide +kernel) (by decide +kernel)⟩

/-- C55: `ONE` is 1, `POSITIVE_MINIMUM` and `POSITIVE_MAXIMUM` are the smallest and largest positive takums,
`NAR` is not a real. -/
theorem constants_special (k : Kind) (w : W) :
    value k (ONE w) = some 1 ∧ value k (NAR w.n) = none ∧
    (∃ x, value k (POSITIVE_MINIMUM w) = some x ∧ 0 < x ∧ ∀ (t : T w) y, value k t = some y → 0 < y → x ≤ y) ∧
    (∃ x, value k (POSITIVE_MAXIMUM w) = some x ∧ ∀ (t : T w) y, value k t = some y → y ≤ x) := by
  have h8 := w.n_pos
  have z0 : ∀ k : Kind, value k (0#w.n) = some 0 := by
    intro k
    cases k
    · show logVal _ = _; unfold logVal; rw [if_neg (zero_ne_nar w), if_pos rfl]
    · have : linVal (0#w.n) = some 0 := by unfold linVal; rw [if_neg (zero_ne_nar w), if_pos rfl]
      rw [value_lin this]; norm_num
  refine ⟨?_, by rw [NAR_eq (by omega)]; exact value_none.mpr rfl, ?_, ?_⟩
  · cases k
    · have e : ell (ONE w) = 0 := by cases w <;> decide +kernel
      rw [logVal_pos (by cases w <;> decide), e]; norm_num
    · have : linVal (ONE w) = some 1 := by cases w <;> decide +kernel
      rw [value_lin this]; norm_num
  · have n1 : POSITIVE_MINIMUM w ≠ nar w.n := by cases w <;> decide
    have t1 : (POSITIVE_MINIMUM w).toInt = 1 := by cases w <;> decide
    obtain ⟨x, hx⟩ := value_val k n1
    refine ⟨x, hx, ?_, fun t y ht hy => ?_⟩
    · have := (value_order k hx (z0 k)).not.mp (by rw [t1]; simp)
      linarith
    · rw [← value_order k hx ht, t1]
      have := (value_order k ht (z0 k)).not.mpr (by linarith)
      simp at this; omega
  · have n1 : POSITIVE_MAXIMUM w ≠ nar w.n := by cases w <;> decide
    obtain ⟨x, hx⟩ := value_val k n1
    refine ⟨x, hx, fun t y ht => ?_⟩
    rw [← value_order k ht hx]
    have h1 := t.toInt_lt
    have h2 : (POSITIVE_MAXIMUM w).toInt = 2 ^ (w.n - 1) - 1 := by cases w <;> decide
    rw [h2]; omega

example : ∃ y, value .lin (0x35#8 : T .w8) = some y ∧ 0 < y := ⟨_, value_lin (q := 5 / 16) (by decide +kernel), by norm_num⟩

end Takum
