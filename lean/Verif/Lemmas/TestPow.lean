import Verif.Props.TestLog
import Verif.Props.TestInt
import Verif.Props.BinAccuracy
import Verif.Props.Irrational

/-!
# Tests of the integer power and the root of logarithmic takums: lemmas
-/

namespace Takum.Test
open Takum Spec

/-! ## The reference `powl` -/

theorem log_two_bounds : (0.69 : ℝ) < Real.log 2 ∧ Real.log 2 < 0.7 :=
  ⟨by linarith [Real.log_two_gt_d9], by linarith [Real.log_two_lt_d9]⟩

theorem sqe_log_bounds : (0.4999 : ℝ) ≤ Real.log (sqe x80) ∧ Real.log (sqe x80) ≤ 0.5001 := by
  have h := abs_le.mp (sqe_log (F := x80) (.inr rfl))
  have hk : (kap x80 : ℝ) * (1 + 1 / 2 ^ 49) ≤ 1 / 2 ^ 60 := by norm_num [kap, x80]
  constructor <;> norm_num at * <;> linarith [h.1, h.2]

/-- From the logarithm to powers of two. -/
theorem log_le_pow {y : ℝ} (hy : 0 < y) (n : ℤ) (h : Real.log y ≤ n * Real.log 2) : y ≤ (2 : ℝ) ^ n := by
  rw [← Real.log_le_log_iff hy (by positivity), Real.log_zpow]; exact h

theorem pow_le_log {y : ℝ} (hy : 0 < y) (n : ℤ) (h : n * Real.log 2 ≤ Real.log y) : (2 : ℝ) ^ n ≤ y := by
  rw [← Real.log_le_log_iff (by positivity) hy, Real.log_zpow]; exact h

/-- A number with a small relative error. -/
theorem approx_sign {Y : ℝ} (hY : Y ≠ 0) {z : ℚ} (e : |(z : ℝ) - Y| ≤ 4 / 2 ^ x80.prec * |Y|) :
    z ≠ 0 ∧ (z < 0 ↔ Y < 0) ∧ |Real.log |(z : ℝ)| - Real.log (|Y|)| ≤ ((4.0001 / 2 ^ 64 : ℚ) : ℝ) := by
  have hp := abs_pos.mpr hY
  have e'' : (4 : ℝ) / 2 ^ x80.prec = 4 / 2 ^ 64 := rfl
  rw [e''] at e
  have ea : |(|(z : ℝ)|) - (|Y|)| ≤ 4 / 2 ^ 64 * |Y| := (abs_abs_sub_abs_le _ _).trans e
  obtain ⟨p, q⟩ := log_rel hp ea (by norm_num)
  have z0 : z ≠ 0 := by
    rintro rfl; simp at p
  refine ⟨z0, ?_, q.trans (by norm_num)⟩
  have e' := abs_le.mp e
  rw [← Rat.cast_lt (K := ℝ), Rat.cast_zero]
  constructor <;> intro hs
  · by_contra hc
    rw [abs_of_nonneg (not_lt.mp hc)] at e' hp
    norm_num at e'
    linarith [e'.1]
  · rw [abs_of_neg hs] at e' hp
    norm_num at e'
    linarith [e'.2]

/-- An approximation of a number of moderate size. -/
theorem approx_mid {Y : ℝ} {x : Fl} (h : Approx x80 Y x) (hY : Y ≠ 0) (hl : |Real.log (|Y|)| ≤ 600) :
    ∃ z : ℚ, x.Is z ∧ z ≠ 0 ∧ x80.In z ∧ (z < 0 ↔ Y < 0) ∧
      |Real.log |(z : ℝ)| - Real.log (|Y|)| ≤ ((4.0001 / 2 ^ 64 : ℚ) : ℝ) := by
  have hp := abs_pos.mpr hY
  obtain ⟨l1, l2⟩ := abs_le.mp hl
  obtain ⟨g1, g2⟩ := log_two_bounds
  obtain ⟨z, hz, e⟩ := h.mid (pow_le_log hp _ (by push_cast; linarith)) (log_le_pow hp _ (by push_cast; linarith))
  obtain ⟨z0, zs, zl⟩ := approx_sign hY e
  have hi := h.isIn
  rw [hz.eq_num z0] at hi
  exact ⟨z, hz, z0, hi.2, zs, zl⟩

/-- The conversion of such an approximation. -/
theorem approx_conv {L : Libm} (hA : L.Accurate) (w : W) {Y : ℝ} {x : Fl} (h : Approx x80 Y x) (hY : Y ≠ 0) {l lam : ℚ}
    (hv : |Real.log (|Y|) - (l : ℝ) * Real.log (sqe x80)| ≤ lam) (hl : |l| ≤ 700) (h1 : lam ≤ 1 / 2) :
    (x.isinf = false ∧ ¬ (x.isfinite = true ∧ x.toQ = 0)) ∧
    ∃ (p : ℚ) (v : T w), fromExt L .log w x = .ok v ∧ Conv (decide (Y < 0)) p v ∧
      |p - l| ≤ 2.0001 * (lam + 4.0001 / 2 ^ 64) + 5.4001 * |l| / 2 ^ 64 := by
  obtain ⟨s1, s2⟩ := sqe_log_bounds
  have hlR : |(l : ℝ)| ≤ 700 := by exact_mod_cast hl
  have h1R : (lam : ℝ) ≤ 1 / 2 := by
    have := (Rat.cast_le (K := ℝ)).mpr h1; push_cast at this; exact this
  have hb : |Real.log (|Y|)| ≤ 600 := by
    have := abs_add_le (Real.log (|Y|) - (l : ℝ) * Real.log (sqe x80)) ((l : ℝ) * Real.log (sqe x80))
    rw [sub_add_cancel, abs_mul, abs_of_nonneg (by linarith : 0 ≤ Real.log (sqe x80))] at this
    have h2 : |(l : ℝ)| * Real.log (sqe x80) ≤ 700 * 0.5001 := mul_le_mul hlR s2 (by linarith) (by norm_num)
    linarith
  obtain ⟨z, hz, z0, iz, sz, ez⟩ := approx_mid h hY hb
  have hx := hz.eq_num z0
  refine ⟨by rw [hx]; exact ⟨rfl, by simp [Fl.toQ, z0]⟩, ?_⟩
  have hv' : |Real.log |(z : ℝ)| - (l : ℝ) * Real.log (sqe x80)| ≤ ((lam + 4.0001 / 2 ^ 64 : ℚ) : ℝ) := by
    have := abs_sub_le (Real.log |(z : ℝ)|) (Real.log (|Y|)) ((l : ℝ) * Real.log (sqe x80))
    rw [Rat.cast_add]; linarith
  obtain ⟨p, v, e, c, d⟩ := ref_conv hA w hz z0 iz hv' hl (by norm_num at h1 ⊢; linarith)
  rw [decide_eq_decide.mpr sz] at c
  exact ⟨p, v, e, c, d⟩

/-- A conversion of a large or small number. -/
theorem from_sat {L : Libm} (hL : L.Conforming) (w : W) {f : Fl} {v : ℚ} (hf : f.Is v) (hi : x80.In v) :
    ∃ u : T w, fromExt L .log w f = .ok u ∧
      ((2 : ℝ) ^ (300 : ℤ) ≤ v → u.toInt = 2 ^ (w.n - 1) - 1) ∧
      (v ≤ -(2 : ℝ) ^ (300 : ℤ) → u.toInt = -(2 ^ (w.n - 1) - 1)) ∧
      (0 < v → v ≤ (2 : ℝ) ^ (-300 : ℤ) → u.toInt = 1) ∧ (v < 0 → -(2 : ℝ) ^ (-300 : ℤ) ≤ v → u.toInt = -1) := by
  obtain ⟨u, y, e, h1, h2⟩ := from_order hL .log w hf hi
  obtain ⟨a, b, c, d⟩ := faithful_saturates h2
  have p1 : (2 : ℝ) ^ (256 : ℤ) * 2 ≤ (2 : ℝ) ^ (300 : ℤ) := by
    rw [show (2 : ℝ) ^ (256 : ℤ) * 2 = (2 : ℝ) ^ (257 : ℤ) by rw [show (257 : ℤ) = 256 + 1 by norm_num, zpow_add₀ (by norm_num)]; norm_num]
    exact zpow_le_zpow_right₀ (by norm_num) (by norm_num)
  have p2 : (2 : ℝ) ^ (-300 : ℤ) * 2 ≤ (2 : ℝ) ^ (-256 : ℤ) := by
    rw [show (2 : ℝ) ^ (-300 : ℤ) * 2 = (2 : ℝ) ^ (-299 : ℤ) by rw [show (-299 : ℤ) = -300 + 1 by norm_num, zpow_add₀ (by norm_num)]; norm_num]
    exact zpow_le_zpow_right₀ (by norm_num) (by norm_num)
  have p3 : (0 : ℝ) < (2 : ℝ) ^ (300 : ℤ) := by positivity
  have p4 : (0 : ℝ) < (2 : ℝ) ^ (-300 : ℤ) := by positivity
  generalize (2 : ℝ) ^ (256 : ℤ) = A at *
  generalize (2 : ℝ) ^ (300 : ℤ) = B at *
  generalize (2 : ℝ) ^ (-256 : ℤ) = A' at *
  generalize (2 : ℝ) ^ (-300 : ℤ) = B' at *
  rw [abs_le] at h1
  refine ⟨u, e, fun h => a ?_, fun h => b ?_, fun h h' => c ?_ ?_, fun h h' => d ?_ ?_⟩
  · rw [abs_of_nonneg (by linarith : (0 : ℝ) ≤ v)] at h1; linarith [h1.1]
  · rw [abs_of_nonpos (by linarith : (v : ℝ) ≤ 0)] at h1; linarith [h1.2]
  · have : (0 : ℝ) < v := by exact_mod_cast h
    rw [abs_of_pos this] at h1; linarith [h1.1]
  · have : (0 : ℝ) < v := by exact_mod_cast h
    rw [abs_of_pos this] at h1; linarith [h1.2]
  · have : (v : ℝ) < 0 := by exact_mod_cast h
    rw [abs_of_neg this] at h1; linarith [h1.2]
  · have : (v : ℝ) < 0 := by exact_mod_cast h
    rw [abs_of_neg this] at h1; linarith [h1.1]

/-- What a case expects whose reference is beyond the range of the takums: the largest or smallest takum of
the sign. -/
theorem expected_sat {L : Libm} (hL : L.Conforming) (w : W) {Y : ℝ} {x : Fl} (h : Approx x80 Y x) (hY : Y ≠ 0)
    (hs : x.isfinite = true ∧ x.toQ = 0 → (x.sgn = true ↔ Y < 0)) {fl : Bool × Bool}
    (f1 : fl.2 = true ↔ x.isinf = true) (f2 : x.isfinite = true ∧ x.toQ = 0 → fl.1 = true) :
    ((220 : ℝ) ≤ Real.log (|Y|) → Expected L .log w x fl (if Y < 0 then -(2 ^ (w.n - 1) - 1) else 2 ^ (w.n - 1) - 1)) ∧
      (Real.log (|Y|) ≤ -220 → Expected L .log w x fl (if Y < 0 then -1 else 1)) := by
  have hp := abs_pos.mpr hY
  obtain ⟨g1, g2⟩ := log_two_bounds
  have efl : fl = (fl.1, fl.2) := rfl
  -- a finite result
  have fin : ∀ z : ℚ, x = .num z → z ≠ 0 → (z < 0 ↔ Y < 0) → ∃ u : T w, Expected L .log w x fl u.toInt ∧
      ((2 : ℝ) ^ (300 : ℤ) ≤ |(z : ℝ)| → u.toInt = if Y < 0 then -(2 ^ (w.n - 1) - 1) else 2 ^ (w.n - 1) - 1) ∧
      (|(z : ℝ)| ≤ (2 : ℝ) ^ (-300 : ℤ) → u.toInt = if Y < 0 then -1 else 1) := by
    intro z hz z0 hzs
    have hi := h.isIn
    rw [hz] at hi
    obtain ⟨u, eu, a, b, c, d⟩ := from_sat hL w (Fl.Is.num z0) hi.2
    have o : fl.2 = false := by
      rw [← Bool.not_eq_true, f1, hz]; simp [Fl.isinf]
    refine ⟨u, ?_, fun hb => ?_, fun hb => ?_⟩
    · rw [efl, o]; exact .regular _ _ _ (.inr (by rw [hz]; simp [Fl.toQ, z0])) (by rw [hz]; exact eu)
    · by_cases hn : Y < 0
      · rw [if_pos hn]
        have : (z : ℝ) < 0 := by exact_mod_cast hzs.mpr hn
        rw [abs_of_neg this] at hb
        exact b (by linarith)
      · rw [if_neg hn]
        have : (0 : ℝ) ≤ z := by exact_mod_cast not_lt.mp fun h => hn (hzs.mp h)
        rw [abs_of_nonneg this] at hb
        exact a hb
    · by_cases hn : Y < 0
      · rw [if_pos hn]
        have hz' := hzs.mpr hn
        have : (z : ℝ) < 0 := by exact_mod_cast hz'
        rw [abs_of_neg this] at hb
        exact d hz' (by linarith)
      · rw [if_neg hn]
        have hz' : 0 < z := lt_of_le_of_ne (not_lt.mp fun h => hn (hzs.mp h)) (Ne.symm z0)
        have : (0 : ℝ) < z := by exact_mod_cast hz'
        rw [abs_of_pos this] at hb
        exact c hz' hb
  -- the sign from the sign of the product
  have sgn : ∀ z : ℚ, z ≠ 0 → 0 ≤ (z : ℝ) * Y → (z < 0 ↔ Y < 0) := by
    intro z z0 hm
    have z0' : (z : ℝ) ≠ 0 := by exact_mod_cast z0
    rw [← Rat.cast_lt (K := ℝ), Rat.cast_zero]
    constructor <;> intro hn
    · by_contra hc
      have := mul_neg_of_neg_of_pos hn (lt_of_le_of_ne (not_lt.mp hc) (Ne.symm hY))
      linarith
    · by_contra hc
      have := mul_neg_of_pos_of_neg (lt_of_le_of_ne (not_lt.mp hc) (Ne.symm z0')) hn
      linarith
  constructor
  · intro hl
    by_cases hh : (2 : ℝ) ^ (1000 : ℤ) < |Y|
    · rcases h.huge hh with hx | ⟨z, hx, hz1, hz2⟩
      · have o : fl.2 = true := f1.mpr (by rw [hx]; rfl)
        rw [efl, o]
        by_cases hn : Y < 0
        · rw [if_pos hn]; exact .negHuge _ _ (.inr (.inl (by rw [hx]; simp [hn])))
        · rw [if_neg hn]; exact .huge _ _ (.inl (by rw [hx]; simp [hn]))
      · have z0 : z ≠ 0 := by
          rintro rfl
          rw [abs_zero] at hz1
          exact absurd hz1 (not_le.mpr (by positivity))
        obtain ⟨u, hu, hu1, -⟩ := fin z hx z0 (sgn z z0 hz2)
        rw [← hu1 ?_]
        · exact hu
        · have := (Rat.cast_le (K := ℝ)).mpr hz1
          rw [Rat.cast_zpow, Rat.cast_ofNat, Rat.cast_abs] at this
          exact le_trans (zpow_le_zpow_right₀ (by norm_num) (by norm_num)) this
    · have h2 : Real.log (|Y|) ≤ 1000 * Real.log 2 := by
        have := (Real.log_le_log_iff hp (by positivity)).mpr (not_lt.mp hh)
        rw [Real.log_zpow] at this; push_cast at this; exact this
      obtain ⟨z, hz, e⟩ := h.mid (pow_le_log hp _ (by push_cast; linarith)) (not_lt.mp hh)
      obtain ⟨z0, zs, zl⟩ := approx_sign hY e
      obtain ⟨u, hu, hu1, -⟩ := fin z (hz.eq_num z0) z0 zs
      rw [← hu1 (pow_le_log (abs_pos.mpr (by exact_mod_cast z0)) _ ?_)]
      · exact hu
      · have := (abs_le.mp zl).1
        have : ((4.0001 / 2 ^ 64 : ℚ) : ℝ) ≤ 1 := by norm_num
        push_cast; linarith
  · intro hl
    by_cases hh : |Y| < (2 : ℝ) ^ (-1000 : ℤ)
    · obtain ⟨z, hz, hz1, hz2⟩ := h.tiny hY hh
      by_cases z0 : z = 0
      · subst z0
        have hx : x.isfinite = true ∧ x.toQ = 0 := by
          rcases hz.cases with ⟨h0, -⟩ | ⟨-, s, rfl⟩
          · exact absurd rfl h0
          · exact ⟨rfl, rfl⟩
        have uu := f2 hx
        have : (if Y < 0 then (-1 : ℤ) else 1) = if x.sgn then -1 else 1 := by
          by_cases hn : Y < 0
          · rw [if_pos hn, if_pos ((hs hx).mpr hn)]
          · rw [if_neg hn, if_neg (fun h => hn ((hs hx).mp h))]
        rw [this, efl]
        exact .tiny _ _ _ (.inl uu) hx
      · obtain ⟨u, hu, -, hu1⟩ := fin z (hz.eq_num z0) z0 (sgn z z0 hz2)
        rw [← hu1 ?_]
        · exact hu
        · have := (Rat.cast_le (K := ℝ)).mpr hz1
          rw [Rat.cast_zpow, Rat.cast_ofNat, Rat.cast_abs] at this
          exact le_trans this (zpow_le_zpow_right₀ (by norm_num) (by norm_num))
    · obtain ⟨z, hz, e⟩ := h.mid (not_lt.mp hh) (log_le_pow hp _ (by push_cast; linarith))
      obtain ⟨z0, zs, zl⟩ := approx_sign hY e
      obtain ⟨u, hu, -, hu1⟩ := fin z (hz.eq_num z0) z0 zs
      rw [← hu1 (log_le_pow (abs_pos.mpr (by exact_mod_cast z0)) _ ?_)]
      · exact hu
      · have := (abs_le.mp zl).2
        have : ((4.0001 / 2 ^ 64 : ℚ) : ℝ) ≤ 1 := by norm_num
        push_cast; linarith

end Takum.Test
