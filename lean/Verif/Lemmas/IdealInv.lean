import Verif.Lemmas.Ideal

/-! # The ideal library: inverse and circular functions -/

namespace Takum

theorem rnd_within {F : Fmt} (hF : F = b64 ∨ F = x80) {r : ℝ} {k : ℕ} (hk : k ≤ 100) (h : |r| ≤ 2 ^ k) :
    (rnd F r).Within F (2 ^ k) := by
  have hp : 1 ≤ F.prec ∧ F.emin ≤ 0 ∧ 100 < F.emax := by rcases hF with rfl | rfl <;> decide
  obtain ⟨a, b, -⟩ := rnd_bounded hF (h.trans (pow_le_pow_right₀ (by norm_num) hk))
  refine ⟨_, a, b, ?_⟩
  rw [abs_rq_real F hp.1]
  have := F.rq_real_le hp.1 (x := |r|) (b := (2 : ℚ) ^ (k : ℤ)) (Fmt.Rep.zpow hp.1 (by omega)) (by push_cast; exact_mod_cast h)
  exact_mod_cast this

theorem Fl.Within.mono {F : Fmt} {a b : ℚ} {x : Fl} (h : x.Within F a) (hab : a ≤ b) : x.Within F b := by
  obtain ⟨r, h1, h2, h3⟩ := h; exact ⟨r, h1, h2, h3.trans hab⟩

theorem zero_within {F : Fmt} {b : ℚ} (hb : 0 ≤ b) (s : Bool) : (Fl.zero s).Within F b :=
  ⟨0, Fl.Is.zero s, ⟨Fmt.Rep.zero F, by rw [abs_zero]; positivity⟩, by rwa [abs_zero]⟩

theorem log_range {x : ℝ} {k : ℕ} (h1 : 1 ≤ x) (h2 : x ≤ 2 ^ k) : |Real.log x| ≤ k := by
  rw [abs_of_nonneg (Real.log_nonneg h1)]
  have h := Real.log_le_log (by linarith) h2
  rw [Real.log_pow] at h
  have := Real.log_two_lt_d9
  nlinarith [Nat.cast_nonneg (α := ℝ) k]

theorem in_real {F : Fmt} (hF : F = b64 ∨ F = x80) {q : ℚ} (h : F.In q) : |(q : ℝ)| ≤ 2 ^ 16384 := by
  have h2 : |q| ≤ (2 : ℚ) ^ (16384 : ℤ) := by
    refine h.2.le.trans (zpow_le_zpow_right₀ (by norm_num) ?_)
    rcases hF with rfl | rfl <;> decide
  have := (Rat.cast_le (K := ℝ)).mpr h2
  rw [Rat.cast_zpow, Rat.cast_abs] at this
  rw [← zpow_natCast]; exact this

theorem big_pow_le {k : ℕ} (hk : k ≤ 20000) : (k : ℝ) ≤ 2 ^ 100 := by
  have : (k : ℝ) ≤ 20000 := by exact_mod_cast hk
  exact this.trans (by norm_num)

theorem arsinh_bound {x : ℝ} (h : |x| ≤ 2 ^ 16384) : |Real.arsinh x| ≤ 2 ^ 100 := by
  wlog hx : 0 ≤ x generalizing x
  · have := this (x := -x) (by rwa [abs_neg]) (by linarith)
    rwa [Real.arsinh_neg, abs_neg] at this
  rw [abs_of_nonneg hx] at h
  have hs : Real.sqrt (1 + x ^ 2) ≤ 1 + x := by
    rw [Real.sqrt_le_left (by linarith)]; nlinarith
  have hs1 : 1 ≤ Real.sqrt (1 + x ^ 2) := by
    rw [Real.one_le_sqrt]; nlinarith
  have : |Real.log (x + Real.sqrt (1 + x ^ 2))| ≤ ((16386 : ℕ) : ℝ) := by
    apply log_range (by linarith)
    have h1 : (1 : ℝ) ≤ 2 ^ 16384 := one_le_pow₀ (by norm_num)
    have e : (2 : ℝ) ^ 16386 = 4 * 2 ^ 16384 := by rw [show 16386 = 2 + 16384 by norm_num, pow_add]; norm_num
    rw [e]
    clear e
    generalize (2 : ℝ) ^ 16384 = B at *
    linarith
  exact this.trans (big_pow_le (by norm_num))

theorem ideal_circular : ideal.Circular where
  sin F hF x q hx _ := by
    rcases hx.cases with ⟨-, rfl⟩ | ⟨-, s, rfl⟩
    · have := rnd_within hF (k := 0) (r := Real.sin q) (by norm_num) (by rw [pow_zero]; exact Real.abs_sin_le_one _)
      rw [pow_zero] at this; exact this
    · exact zero_within (by norm_num) s
  cos F hF x q hx _ := by
    have key : ∀ r : ℝ, (rnd F (Real.cos r)).Within F 1 := by
      intro r
      have := rnd_within hF (k := 0) (r := Real.cos r) (by norm_num) (by rw [pow_zero]; exact Real.abs_cos_le_one _)
      rw [pow_zero] at this; exact this
    rcases hx.cases with ⟨-, rfl⟩ | ⟨-, s, rfl⟩
    · exact key q
    · exact key 0

theorem pi_bound {x : ℝ} (h1 : -Real.pi ≤ x) (h2 : x ≤ Real.pi) : |x| ≤ 2 ^ 2 := by
  have := Real.pi_le_four
  rw [abs_le]; constructor <;> linarith

theorem ideal_inverses : ideal.Inverses where
  asin F hF x q hx _ h := by
    rcases hx.cases with ⟨-, rfl⟩ | ⟨-, s, rfl⟩
    · show Fl.Within F 4 (if |q| ≤ 1 then rnd F (Real.arcsin q) else .nan)
      rw [if_pos h]
      have p := Real.pi_pos
      exact (rnd_within hF (k := 2) (by norm_num) (pi_bound (by linarith [Real.neg_pi_div_two_le_arcsin (q : ℝ)])
        (by linarith [Real.arcsin_le_pi_div_two (q : ℝ)]))).mono (by norm_num)
    · exact zero_within (by norm_num) s
  asin_out F hF x q hx h := by
    have hq : q ≠ 0 := by rintro rfl; norm_num at h
    rw [hx.eq_num hq]
    show (if |q| ≤ 1 then rnd F (Real.arcsin q) else .nan) = _
    rw [if_neg (not_le.mpr h)]
  asin_inf F s := rfl
  acos F hF x q hx _ h := by
    have p := Real.pi_pos
    rcases hx.cases with ⟨-, rfl⟩ | ⟨-, s, rfl⟩
    · show Fl.Within F 4 (if |q| ≤ 1 then rnd F (Real.arccos q) else .nan)
      rw [if_pos h]
      exact (rnd_within hF (k := 2) (by norm_num) (pi_bound (by linarith [Real.arccos_nonneg (q : ℝ)])
        (Real.arccos_le_pi _))).mono (by norm_num)
    · exact (rnd_within hF (k := 2) (r := Real.pi / 2) (by norm_num) (pi_bound (by linarith) (by linarith))).mono (by norm_num)
  acos_out F hF x q hx h := by
    have hq : q ≠ 0 := by rintro rfl; norm_num at h
    rw [hx.eq_num hq]
    show (if |q| ≤ 1 then rnd F (Real.arccos q) else .nan) = _
    rw [if_neg (not_le.mpr h)]
  acos_inf F s := rfl
  atan F hF x q hx _ := by
    have p := Real.pi_pos
    rcases hx.cases with ⟨-, rfl⟩ | ⟨-, s, rfl⟩
    · exact (rnd_within hF (k := 2) (r := Real.arctan q) (by norm_num) (pi_bound (by linarith [Real.neg_pi_div_two_lt_arctan (q : ℝ)])
        (by linarith [Real.arctan_lt_pi_div_two (q : ℝ)]))).mono (by norm_num)
    · exact zero_within (by norm_num) s
  atan_inf F hF s := by
    have p := Real.pi_pos
    cases s
    · exact (rnd_within hF (k := 2) (r := Real.pi / 2) (by norm_num) (pi_bound (by linarith) (by linarith))).mono (by norm_num)
    · exact (rnd_within hF (k := 2) (r := -(Real.pi / 2)) (by norm_num) (pi_bound (by linarith) (by linarith))).mono (by norm_num)
  asinh F hF x q hx hi := by
    rcases hx.cases with ⟨-, rfl⟩ | ⟨-, s, rfl⟩
    · exact rnd_within hF (k := 100) (r := Real.arsinh q) (le_refl _) (arsinh_bound (in_real hF hi))
    · exact zero_within (by norm_num) s
  asinh_inf F s := by cases s <;> rfl
  acosh F hF x q hx hi h := by
    rw [hx.eq_num (by linarith : 0 < q).ne']
    show Fl.Within F _ (if q < 1 then .nan else rnd F (Real.log (q + Real.sqrt ((q : ℝ) ^ 2 - 1))))
    rw [if_neg (not_lt.mpr h)]
    apply rnd_within hF (k := 100) (le_refl _)
    have h1 : (1 : ℝ) ≤ q := by exact_mod_cast h
    have h2 := in_real hF hi
    rw [abs_of_pos (by linarith : (0 : ℝ) < q)] at h2
    have hs : Real.sqrt ((q : ℝ) ^ 2 - 1) ≤ q := by
      rw [Real.sqrt_le_left (by linarith)]; nlinarith
    have hs0 := Real.sqrt_nonneg ((q : ℝ) ^ 2 - 1)
    have : |Real.log (q + Real.sqrt ((q : ℝ) ^ 2 - 1))| ≤ ((16385 : ℕ) : ℝ) := by
      apply log_range (by linarith)
      have e : (2 : ℝ) ^ 16385 = 2 * 2 ^ 16384 := by rw [show 16385 = 1 + 16384 by norm_num, pow_add]; norm_num
      rw [e]
      clear e
      generalize (2 : ℝ) ^ 16384 = B at *
      linarith
    exact this.trans (big_pow_le (by norm_num))
  acosh_out F hF x q hx h := by
    rcases hx.cases with ⟨-, rfl⟩ | ⟨-, s, rfl⟩
    · show (if q < 1 then Fl.nan else rnd F (Real.log (q + Real.sqrt ((q : ℝ) ^ 2 - 1)))) = _
      rw [if_pos h]
    · rfl
  acosh_inf F s := by cases s <;> rfl
  atanh F hF x q hx hi h := by
    rcases hx.cases with ⟨-, rfl⟩ | ⟨-, s, rfl⟩
    · show Fl.Within F _ (if 1 < |q| then .nan else if |q| = 1 then .inf (decide (q < 0))
        else rnd F (1 / 2 * Real.log ((1 + q) / (1 - q))))
      rw [if_neg (not_lt.mpr h.le), if_neg h.ne]
      apply rnd_within hF (k := 100) (le_refl _)
      have hq := abs_lt.mp h
      have g1 := rep_gap hF hi.1 (by linarith)
      have g2 := rep_gap hF hi.1.neg (by linarith)
      rw [abs_of_neg (by linarith)] at g1 g2
      have r1 : (1 : ℝ) / 2 ^ 64 ≤ 1 - q := by
        have := (Rat.cast_le (K := ℝ)).mpr g1; push_cast at this; norm_num at this ⊢; linarith
      have r2 : (1 : ℝ) / 2 ^ 64 ≤ 1 + q := by
        have := (Rat.cast_le (K := ℝ)).mpr g2; push_cast at this; norm_num at this ⊢; linarith
      have p1 : (0 : ℝ) < 1 - q := lt_of_lt_of_le (by positivity) r1
      have p2 : (0 : ℝ) < 1 + q := lt_of_lt_of_le (by positivity) r2
      have b1 : (1 : ℝ) - q ≤ 2 := by linarith
      have b2 : (1 : ℝ) + q ≤ 2 := by linarith
      have l1 : (1 + q : ℝ) / (1 - q) ≤ 2 ^ 65 := by
        rw [div_le_iff₀ p1]; norm_num at r1 ⊢; linarith
      have l2 : (1 : ℝ) / 2 ^ 65 ≤ (1 + q : ℝ) / (1 - q) := by
        rw [le_div_iff₀ p1]; norm_num at r2 ⊢; linarith
      have lb : |Real.log ((1 + q : ℝ) / (1 - q))| ≤ ((65 : ℕ) : ℝ) := by
        rcases le_total 1 ((1 + q : ℝ) / (1 - q)) with h1 | h1
        · exact log_range h1 l1
        · rw [← abs_neg, ← Real.log_inv]
          apply log_range ((one_le_inv₀ (by positivity)).mpr h1)
          rw [inv_le_comm₀ (by positivity) (by positivity), ← one_div]; exact l2
      rw [abs_mul]
      push_cast at lb
      rw [abs_of_pos (by norm_num : (0 : ℝ) < 1 / 2)]
      refine le_trans ?_ (by norm_num : (65 : ℝ) ≤ 2 ^ 100)
      linarith [abs_nonneg (Real.log ((1 + q : ℝ) / (1 - q)))]
    · exact zero_within (by norm_num) s
  atanh_one F hF x q hx h := by
    have hq : q ≠ 0 := by rintro rfl; norm_num at h
    rw [hx.eq_num hq]
    show (if 1 < |q| then Fl.nan else if |q| = 1 then .inf (decide (q < 0))
        else rnd F (1 / 2 * Real.log ((1 + q) / (1 - q)))) = _
    rw [if_neg (by rw [h]; exact lt_irrefl _), if_pos h]
  atanh_out F hF x q hx h := by
    have hq : q ≠ 0 := by rintro rfl; norm_num at h
    rw [hx.eq_num hq]
    show (if 1 < |q| then Fl.nan else if |q| = 1 then .inf (decide (q < 0))
        else rnd F (1 / 2 * Real.log ((1 + q) / (1 - q)))) = _
    rw [if_pos h]
  atanh_inf F s := rfl

theorem den_int (q : ℚ) : q.den = 1 ↔ ∃ k : ℤ, q = k := by
  constructor
  · intro h; exact ⟨q.num, ((Rat.den_eq_one_iff q).mp h).symm⟩
  · rintro ⟨k, rfl⟩; simp

theorem idealPow_num {F : Fmt} {p q : ℚ} (hp : p ≠ 1) :
    idealPow F (.num p) (.num q) = if p < 0 ∧ q.den ≠ 1 then .nan else rnd F ((p : ℝ) ^ (q : ℝ)) := by
  unfold idealPow
  rw [if_neg (by simp [hp])]
  rfl

theorem ideal_powSigns : ideal.PowSigns where
  not_int F p q hp hq := by
    show idealPow F (.num p) (.num q) = _
    rw [idealPow_num (by linarith), if_pos ⟨hp, by rwa [Ne, den_int]⟩]
  regular F hF p q hp hq ip iq h := by
    show idealPow F (.num p) (.num q) ≠ _ ∧ (idealPow F (.num p) (.num q)).In F ∧ ((idealPow F (.num p) (.num q)).sgn = true ↔ _)
    have hF' : F = b32 ∨ F = b64 ∨ F = x80 := Or.inr hF
    by_cases h1 : p = 1
    · subst h1
      have : idealPow F (.num 1) (.num q) = .num 1 := ideal_specials.base_one F (.num q)
      rw [this]
      refine ⟨by simp, ⟨by norm_num, one_in hF'⟩, ?_⟩
      simp [Fl.sgn]
    have e : idealPow F (.num p) (.num q) = rnd F ((p : ℝ) ^ (q : ℝ)) := by
      rw [idealPow_num h1, if_neg]
      rintro ⟨a, b⟩
      rcases h with h | h
      · linarith
      · exact b ((den_int q).mpr h)
    rw [e]
    refine ⟨rnd_ne_nan _ _, rnd_in hF' _, ?_⟩
    rw [rnd_sgn hF', decide_eq_true_iff]
    rcases lt_or_gt_of_ne hp with hneg | hpos
    · obtain ⟨k, rfl⟩ : ∃ k : ℤ, q = k := by
        rcases h with h | h
        · linarith
        · exact h
      have hR : (p : ℝ) < 0 := by exact_mod_cast hneg
      rw [show (((k : ℚ)) : ℝ) = ((k : ℤ) : ℝ) by push_cast; rfl, Real.rpow_intCast]
      rcases Int.even_or_odd k with hk | hk
      · have h1 : ¬ ((p : ℝ) ^ k < 0) := not_lt.mpr (hk.zpow_nonneg _)
        simp only [h1, false_iff]
        rintro ⟨-, j, hj⟩
        have : k = 2 * j + 1 := by exact_mod_cast hj
        exact absurd ⟨j, this⟩ (Int.not_odd_iff_even.mpr hk)
      · simp only [hk.zpow_neg hR, true_iff]
        obtain ⟨j, hj⟩ := hk
        exact ⟨hneg, j, by rw [hj]; push_cast; ring⟩
    · have hR : (0 : ℝ) < p := by exact_mod_cast hpos
      have := Real.rpow_pos_of_pos hR (q : ℝ)
      constructor
      · intro h; linarith
      · rintro ⟨h, -⟩; linarith
  zero_pos F s q hq := by
    refine ⟨s && decide (q.den = 1 ∧ q.num % 2 = 1), ?_⟩
    show idealPow F (.zero s) (.num q) = _
    unfold idealPow
    rw [if_neg (by simp)]
    show (if (Fl.num q).sgn = true then _ else _) = _
    rw [show (Fl.num q).sgn = false by simp [Fl.sgn]; linarith]
    rfl
  root p y h1 h2 ip hy0 hy iy h := by
    show ∃ z, idealPow x80 (.num p) (.num y) = _ ∧ _
    have p0 : 0 < |p| := lt_of_lt_of_le (by positivity) h1
    have hp0 : p ≠ 0 := abs_pos.mp p0
    by_cases hp1 : p = 1
    · subst hp1
      exact ⟨1, ideal_specials.base_one x80 (.num y), one_ne_zero⟩
    have hint : 0 < p ∨ ∃ k : ℤ, y = k := by
      rcases h with h | h
      · exact Or.inl h
      · refine Or.inr ?_
        rcases (abs_eq (by norm_num : (0 : ℚ) ≤ 1)).mp h with h | h
        · exact ⟨1, by rw [h]; norm_num⟩
        · exact ⟨-1, by rw [h]; norm_num⟩
    have e : idealPow x80 (.num p) (.num y) = rnd x80 ((p : ℝ) ^ (y : ℝ)) := by
      rw [idealPow_num hp1, if_neg]
      rintro ⟨a, b⟩
      rcases hint with h | h
      · linarith
      · exact b ((den_int y).mpr h)
    have habs : |(p : ℝ) ^ (y : ℝ)| = |(p : ℝ)| ^ (y : ℝ) := by
      rcases hint with h | ⟨k, rfl⟩
      · have : (0 : ℝ) < p := by exact_mod_cast h
        rw [abs_of_pos this, abs_of_pos (Real.rpow_pos_of_pos this _)]
      · rw [show (((k : ℚ)) : ℝ) = ((k : ℤ) : ℝ) by push_cast; rfl, Real.rpow_intCast, Real.rpow_intCast, abs_zpow]
    have b1 : (2 : ℝ) ^ (-300 : ℤ) ≤ |(p : ℝ)| := by
      have := (Rat.cast_le (K := ℝ)).mpr h1; rw [Rat.cast_zpow, Rat.cast_abs] at this; exact this
    have b2 : |(p : ℝ)| ≤ (2 : ℝ) ^ (300 : ℤ) := by
      have := (Rat.cast_le (K := ℝ)).mpr h2; rw [Rat.cast_zpow, Rat.cast_abs] at this; exact this
    have y1 : |(y : ℝ)| ≤ 1 := by exact_mod_cast hy
    have pR : (0 : ℝ) < |(p : ℝ)| := lt_of_lt_of_le (by positivity) b1
    have key : (2 : ℝ) ^ (-300 : ℤ) ≤ |(p : ℝ)| ^ (y : ℝ) ∧ |(p : ℝ)| ^ (y : ℝ) ≤ (2 : ℝ) ^ (300 : ℤ) := by
      have l2 : 0 < Real.log 2 := Real.log_pos (by norm_num)
      have c1 : -300 * Real.log 2 ≤ Real.log |(p : ℝ)| := by
        have := Real.log_le_log (by positivity) b1; rw [Real.log_zpow] at this; push_cast at this; exact this
      have c2 : Real.log |(p : ℝ)| ≤ 300 * Real.log 2 := by
        have := Real.log_le_log pR b2; rw [Real.log_zpow] at this; push_cast at this; exact this
      have c3 : |(y : ℝ) * (Real.log |(p : ℝ)|)| ≤ 300 * Real.log 2 := by
        rw [abs_mul]
        have : |(Real.log |(p : ℝ)|)| ≤ 300 * Real.log 2 := abs_le.mpr ⟨by linarith, c2⟩
        nlinarith [abs_nonneg (y : ℝ), abs_nonneg (Real.log |(p : ℝ)|)]
      rw [abs_le] at c3
      have pp := Real.rpow_pos_of_pos pR (y : ℝ)
      constructor
      · rw [← Real.log_le_log_iff (by positivity) pp, Real.log_rpow pR, Real.log_zpow]; push_cast; linarith [c3.1]
      · rw [← Real.log_le_log_iff pp (by positivity), Real.log_rpow pR, Real.log_zpow]; push_cast; linarith [c3.2]
    obtain ⟨r1, r2⟩ := rq_real_between (F := x80) (by decide) (by decide) (by norm_num) key.1 key.2
    rw [← habs, ← abs_rq_real x80 (by decide)] at r1 r2
    have hz : x80.rq ((p : ℝ) ^ (y : ℝ)) ≠ 0 := abs_pos.mp (lt_of_lt_of_le (by positivity) r1)
    refine ⟨_, ?_, hz⟩
    rw [e]
    exact (rnd_is (lt_of_le_of_lt r2 (zpow_lt_zpow_right₀ (by norm_num) (by decide)))).eq_num hz

theorem ideal_conforming : ideal.Conforming :=
  ⟨ideal_nans, ideal_powers, ideal_specials, ideal_logs, ideal_accurate, ideal_exps, ideal_logarithms, ideal_hyperbolics,
    ideal_inverses, ideal_circular, ideal_powSigns⟩

end Takum
