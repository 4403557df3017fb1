import Verif.ManualPages
import Verif.Props.Domains
import Verif.Props.Accuracy
import Verif.Props.PiTimes
import Verif.Props.Irrational
import Verif.Props.LogArith
import Verif.Props.Powers

/-!
# C106: the manual pages state when a function returns NaR

Right for 41 of the 48 unary elementary functions and all types.  The pages of the other seven are wrong, for the reasons given
at the theorems, and so is that of `root`.
-/

namespace Takum
open Spec

/-- C106 for the functions whose page is right.  Missing: the seven functions for which it is false, see `manual_refuted`. -/
theorem manual_partial {L : Libm} (hL : L.Conforming) (hA : L.Approximates) (u : UFun) (hu : PageRight u = true) (k : Kind) (w : W) (t : T w) :
    ∃ y, u.call L k w t = .ok y ∧ (y = nar w.n ↔ value k t = none ∨ ∃ x, value k t = some x ∧ ManualNaR u x) := by
  by_cases hc : Covered u = true
  · obtain ⟨y, e, h⟩ := documented_domain hL u hc k w (by rintro rfl; simp [PageRight] at hu) t
    refine ⟨y, e, h.trans (or_congr Iff.rfl (exists_congr fun x => and_congr Iff.rfl ?_))⟩
    revert hu hc
    cases u <;> simp [PageRight, Covered, ManualNaR, Excluded]
  · cases hx : value k t with
    | none =>
      rw [value_none] at hx
      subst hx
      refine ⟨nar w.n, ?_, by simp⟩
      cases k
      · exact (nar_unary L hL.nans u w).1
      · exact (nar_unary L hL.nans u w).2
    | some x =>
      have ht : t ≠ nar w.n := by rw [Ne, ← value_none (k := k), hx]; simp
      have tz : t = 0#w.n ↔ x = 0 := by
        constructor
        · rintro rfl
          rw [value_zero] at hx; exact (Option.some.inj hx).symm
        · intro h0
          rcases value_cases hx with h | ⟨-, -, -, h, -⟩ | ⟨-, -, -, h, -⟩
          · exact h.1
          · rw [h0] at h; exact absurd h (not_le.mpr (by positivity))
          · have : (0 : ℝ) < 2 ^ (-256 : ℤ) := by positivity
            linarith
      obtain ⟨h1, h2⟩ := trig_nar hL hA k w t ht
      have hu' : u = .tan ∨ u = .sec ∨ u = .cot := by
        revert hu hc
        cases u <;> simp [PageRight, Covered]
      rcases hu' with rfl | rfl | rfl
      · obtain ⟨y, e, h⟩ := h1 .tan (Or.inl rfl)
        exact ⟨y, e, by simp [h, ManualNaR]⟩
      · obtain ⟨y, e, h⟩ := h1 .sec (Or.inr rfl)
        exact ⟨y, e, by simp [h, ManualNaR]⟩
      · obtain ⟨y, e, h⟩ := h2 .cot (Or.inr rfl)
        exact ⟨y, e, by simp [h, tz, ManualNaR]⟩

/-- A `long double` of magnitude at least `2^65` is an even integer. -/
theorem x80_even {v : ℚ} (h : x80.In v) (hv : (2 : ℚ) ^ (65 : ℕ) ≤ |v|) : ∃ i : ℤ, v = 2 * i := by
  obtain ⟨m, e, h1, h2, -⟩ := h.1
  have he : 1 ≤ e := by
    by_contra hc
    have : (2 : ℚ) ^ e ≤ 1 := by
      rw [← zpow_zero (2 : ℚ)]; exact zpow_le_zpow_right₀ (by norm_num) (by omega)
    have hm : |(m : ℚ)| < 2 ^ 64 := by exact_mod_cast h2
    rw [h1, abs_mul, abs_of_pos (by positivity : (0 : ℚ) < 2 ^ e)] at hv
    have := mul_le_mul_of_nonneg_left this (abs_nonneg (m : ℚ))
    have p : (2 : ℚ) ^ 64 < 2 ^ 65 := by norm_num
    linarith
  obtain ⟨n, hn⟩ := Int.eq_ofNat_of_zero_le (by omega : 0 ≤ e - 1)
  refine ⟨m * 2 ^ n, ?_⟩
  rw [h1, show e = n + 1 by omega, zpow_add_one₀ (by norm_num)]
  push_cast
  rw [zpow_natCast]; ring

/-- A logarithmic takum of magnitude at least `2^66` becomes an even integer when converted to `long double`, and the
functions that multiply by `π` return what they return for an even integer: `csc_pi_times` and `cot_pi_times` NaR, although the
number is irrational. -/
theorem pi_times_log_huge {L : Libm} (hL : L.Conforming) (w : W) (t : T w) (x : ℝ) (hx : logVal t = some x) (h : (2 : ℝ) ^ 66 ≤ |x|) :
    Irrational x ∧
    UFun.sin_pi_times.call L .log w t = .ok 0#w.n ∧ UFun.cos_pi_times.call L .log w t = .ok (ONE w) ∧
    UFun.tan_pi_times.call L .log w t = .ok 0#w.n ∧ UFun.csc_pi_times.call L .log w t = .ok (nar w.n) ∧
    UFun.sec_pi_times.call L .log w t = .ok (ONE w) ∧ UFun.cot_pi_times.call L .log w t = .ok (nar w.n) := by
  have big : (2 : ℝ) < 2 ^ 66 := by norm_num
  refine ⟨log_number_irrational w t x hx ?_ ?_ ?_, ?_⟩
  · rintro rfl; rw [abs_zero] at h; linarith
  · rintro rfl; rw [abs_one] at h; linarith
  · rintro rfl; rw [abs_neg, abs_one] at h; linarith
  have hx' : value .log t = some x := hx
  obtain ⟨r, v, e, a⟩ := kTo_acc hL .log w hx'
  have hv : (2 : ℚ) ^ (65 : ℕ) ≤ |v| := by
    have c := a.close
    have tl : inTol .log ≤ 1 / 2 := by norm_num [inTol]
    have := abs_sub_abs_le_abs_sub x (v : ℝ)
    rw [abs_sub_comm] at this
    have c2 := mul_le_mul_of_nonneg_right tl (abs_nonneg x)
    have : (2 : ℝ) ^ 65 ≤ |(v : ℝ)| := by
      have p : (2 : ℝ) ^ 66 = 2 * 2 ^ 65 := by norm_num
      linarith
    apply (Rat.cast_le (K := ℝ)).mp; push_cast; exact this
  obtain ⟨i, rfl⟩ := x80_even a.isIn hv
  obtain ⟨p1, p2⟩ := pi_table L (f := r) (k := 4 * i) (a.is.congr (by push_cast; ring))
  obtain ⟨s1, s2, s3, s4⟩ := p1 (Or.inr ⟨i, rfl⟩)
  obtain ⟨s5, s6⟩ := p2 (Or.inr ⟨2 * i, by ring⟩)
  have m4 : 4 * i % 4 = 0 := by omega
  have m2 : 4 * i % 2 = 0 := by omega
  rw [m4] at s1 s2 s3 s4
  rw [m2] at s5 s6
  have ev : ∀ u : UFun, u.fix = noFix → u.call L .log w t = logFrom L .ext w (u.evl L r) := by
    intro u hu
    rw [call_eq e, hu]
    show logFrom L .ext w (noFix r (u.ev L x80 r)) = _
    rw [ev_x80]; rfl
  rw [ev _ rfl, ev _ rfl, ev _ rfl, ev _ rfl, ev _ rfl, ev _ rfl]
  refine ⟨?_, ?_, ?_, ?_, ?_, ?_⟩
  · show logFrom L .ext w (sinpil L r) = _; rw [s1]; exact logFrom_zero L .ext w false
  · show logFrom L .ext w (cospil L r) = _; rw [s2]; exact logFrom_one hL.specials w
  · show logFrom L .ext w (tanpil L r) = _; rw [s5]; exact logFrom_zero L .ext w false
  · show logFrom L .ext w (cscPiTimesl L r) = _; rw [s3]; exact logFrom_nonfinite L .ext w rfl
  · show logFrom L .ext w (secPiTimesl L r) = _; rw [s4]; exact logFrom_one hL.specials w
  · show logFrom L .ext w (cotPiTimesl L r) = _; rw [s6]; exact logFrom_nonfinite L .ext w rfl

/-- There are such takums in every width: the largest one. -/
theorem huge_exists (w : W) : ∃ (t : T w) (x : ℝ), logVal t = some x ∧ (2 : ℝ) ^ 66 ≤ |x| := by
  have h8 := w.n_pos
  obtain ⟨t, rt, h⟩ : ∃ t : T w, Regular t ∧ 200 ≤ ell t := by
    refine ⟨BitVec.ofNat w.n (2 ^ (w.n - 1) - 1), ?_⟩
    unfold Regular; cases w <;> decide +kernel
  refine ⟨t, _, logVal_regular (by omega) rt, ?_⟩
  have s1 : |((sg t.msb : ℚ) : ℝ)| = 1 := by cases t.msb <;> simp [sg]
  rw [abs_mul, s1, one_mul, logG_exp, abs_of_pos (Real.exp_pos _)]
  have h' : (200 : ℝ) ≤ ell t := by exact_mod_cast h
  have e1 : (2 : ℝ) ≤ Real.exp 1 := by have := Real.add_one_le_exp (1 : ℝ); linarith
  calc (2 : ℝ) ^ 66 ≤ Real.exp 1 ^ 66 := pow_le_pow_left₀ (by norm_num) e1 _
    _ = Real.exp 66 := by rw [← Real.exp_nat_mul]; norm_num
    _ ≤ _ := Real.exp_le_exp.mpr (by linarith)

/-- The pages that are wrong.  `arcsec_over_pi`: the domain is given in place of its complement.  `csc`: 0 is a takum.
`tan_pi_times`, `sec_pi_times`: the half-integers are linear takums.  `csc_pi_times`, `cot_pi_times`: NaR for huge logarithmic
takums.  (`arcoth`: `arcoth_refuted`.) -/
theorem manual_refuted {L : Libm} (hL : L.Conforming) (hA : L.Approximates) (w : W) :
    (∀ (k : Kind) (t : T w) (x : ℝ), value k t = some x → x ≠ 1 → x ≠ -1 → ∃ y, UFun.arcsec_over_pi.call L k w t = .ok y ∧
      (y = nar w.n ↔ ¬ManualNaR .arcsec_over_pi x)) ∧
    (∀ k : Kind, value k 0#w.n = some 0 ∧ ¬ManualNaR .csc 0 ∧ UFun.csc.call L k w 0#w.n = .ok (nar w.n)) ∧
    (∃ t : T w, linVal t = some (1 / 2) ∧ ¬ManualNaR .tan_pi_times (1 / 2) ∧ ¬ManualNaR .sec_pi_times (1 / 2) ∧
      UFun.tan_pi_times.call L .lin w t = .ok (nar w.n) ∧ UFun.sec_pi_times.call L .lin w t = .ok (nar w.n)) ∧
    (∃ (t : T w) (x : ℝ), logVal t = some x ∧ ¬ManualNaR .csc_pi_times x ∧ ¬ManualNaR .cot_pi_times x ∧
      UFun.csc_pi_times.call L .log w t = .ok (nar w.n) ∧ UFun.cot_pi_times.call L .log w t = .ok (nar w.n)) := by
  have h8 := w.n_pos
  refine ⟨?_, ?_, ?_, ?_⟩
  · intro k t x hx h1 h2
    obtain ⟨y, e, h⟩ := documented_domain hL .arcsec_over_pi rfl k w (by simp) t
    refine ⟨y, e, h.trans ?_⟩
    have hne : |x| ≠ 1 := by
      intro h'
      rcases abs_eq (by norm_num : (0 : ℝ) ≤ 1) |>.mp h' with h' | h'
      · exact h1 h'
      · exact h2 h'
    simp only [hx, ManualNaR, Excluded, not_lt]
    constructor
    · rintro (h' | ⟨x', e', h'⟩)
      · cases h'
      · cases e'; exact h'.le
    · intro h'
      exact Or.inr ⟨x, rfl, lt_of_le_of_ne h' hne⟩
  · intro k
    refine ⟨value_zero k, by simp [ManualNaR], ?_⟩
    obtain ⟨y, e, h⟩ := (trig_nar hL hA k w 0#w.n (zero_ne_nar w)).2 .csc (Or.inl rfl)
    rw [e, h.mpr rfl]
  · obtain ⟨t, ht⟩ : ∃ t : T w, linVal t = some (1 / 2) := by
      refine ⟨BitVec.ofNat w.n (7 * 2 ^ (w.n - 5)), ?_⟩
      cases w <;> decide +kernel
    refine ⟨t, ht, by simp [ManualNaR], by simp [ManualNaR], ?_⟩
    have tn : t ≠ nar w.n := by rintro rfl; simp [linVal] at ht
    obtain ⟨r, e, i⟩ := linTo_src w tn
    have hq : qv t = ((1 : ℤ) / 2 : ℚ) := by
      rw [linVal_qv tn] at ht; rw [Option.some.inj ht]; norm_num
    rw [hq] at i
    obtain ⟨p1, p2⟩ := pi_table L i
    have q1 := (p1 (by decide)).2.2.2
    have q2 := (p2 (by decide)).1
    exact ⟨(pi_result (u := .tan_pi_times) (by simp [PiFun]) e).2.2.2 (q2.trans (by decide)),
      (pi_result (u := .sec_pi_times) (by simp [PiFun]) e).2.2.2 (q1.trans (by decide))⟩
  · obtain ⟨t, x, hx, h⟩ := huge_exists w
    obtain ⟨hi, -, -, -, h1, -, h2⟩ := pi_times_log_huge hL w t x hx h
    have : ¬∃ n : ℤ, x = n := by
      rintro ⟨n, rfl⟩
      exact (Int.not_irrational n) hi
    exact ⟨t, x, hx, this, this, h1, h2⟩

/-- The page of `root` is wrong in both families: the 0th root of 1 is NaR, and so is the -1st root of 0. -/
theorem manual_root_refuted {L : Libm} (hL : L.Conforming) (w : W) :
    ¬ManualRootNaR 1 0 ∧ ¬ManualRootNaR 0 (-1) ∧
    root w (ONE w) 0#64 = .ok (nar w.n) ∧ root w 0#w.n (-1#64) = .ok (nar w.n) ∧
    linRoot L w (ONE w) 0#64 = .ok (nar w.n) ∧ linRoot L w 0#w.n (-1#64) = .ok (nar w.n) := by
  refine ⟨by simp [ManualRootNaR], by simp [ManualRootNaR], (root_special w _ _).1.mpr (by simp),
    (root_special w _ _).1.mpr (Or.inr (Or.inr (Or.inr ⟨rfl, by decide⟩))), ?_, ?_⟩
  · obtain ⟨v, e, h, -⟩ := lin_root_sign L hL.nans hL.powers hL.specials hL.powSigns w (ONE w) 0#64
    rw [e, h.mpr (Or.inr (Or.inl rfl))]
  · obtain ⟨v, e, h, -⟩ := lin_root_sign L hL.nans hL.powers hL.specials hL.powSigns w 0#w.n (-1#64)
    rw [e, h.mpr (Or.inr (Or.inr (Or.inr ⟨rfl, by decide⟩)))]

/-- An argument that the page of `arccos` excludes. -/
example : PageRight .arccos = true ∧ value .lin (0x48#8) = some 2 ∧ ManualNaR .arccos 2 := by
  have h2 : linVal (0x48#8) = some 2 := by decide +kernel
  refine ⟨rfl, by rw [value_lin h2]; push_cast; rfl, ?_⟩
  show (1 : ℝ) < |2|
  norm_num
example : ideal.Conforming := ideal_conforming

end Takum
