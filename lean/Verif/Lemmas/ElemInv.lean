import Verif.Lemmas.ElemAcc
import Verif.Lemmas.ElemArg

/-! # Accuracy of the functions of the reciprocal -/

namespace Takum
open Spec

theorem inv_pert {q v : ℚ} {δ ε : ℝ} (hv : v ≠ 0) (h : |(q : ℝ) - 1 / v| ≤ δ * |1 / (v : ℝ)|) (hd : δ ≤ 1 / 2) (he : δ ≤ ε * (1 - δ)) :
    q ≠ 0 ∧ |1 / (q : ℝ) - v| ≤ ε * |(v : ℝ)| ∧ (0 < q ↔ 0 < v) := by
  have v0 : (v : ℝ) ≠ 0 := by exact_mod_cast hv
  have vp := abs_pos.mpr v0
  have h1 : |(q : ℝ) * v - 1| ≤ δ := by
    have e : (q : ℝ) * v - 1 = (q - 1 / v) * v := by field_simp
    rw [e, abs_mul]
    have := mul_le_mul_of_nonneg_right h vp.le
    rw [abs_div (1 : ℝ), abs_one, mul_assoc, one_div_mul_cancel vp.ne', mul_one] at this
    exact this
  obtain ⟨h2, h3⟩ := abs_le.mp h1
  have hqv : 0 < (q : ℝ) * v := by linarith
  have q0 : (q : ℝ) ≠ 0 := by rintro h0; rw [h0, zero_mul] at hqv; exact lt_irrefl _ hqv
  refine ⟨by exact_mod_cast q0, ?_, ?_⟩
  · have e : 1 / (q : ℝ) - v = -(v * ((q * v - 1) / (q * v))) := by field_simp; ring
    rw [e, abs_neg, abs_mul, mul_comm, abs_div, abs_of_pos hqv]
    apply mul_le_mul_of_nonneg_right _ vp.le
    rw [div_le_iff₀ hqv]
    have e0 : 0 ≤ δ := (abs_nonneg _).trans h1
    have e1 : 0 ≤ ε := by
      by_contra hc
      have : ε * (1 - δ) < 0 := mul_neg_of_neg_of_pos (not_le.mp hc) (by linarith)
      linarith
    exact (h1.trans he).trans (mul_le_mul_of_nonneg_left (by linarith) e1)
  · constructor
    · intro hq
      have : (0 : ℝ) < q := by exact_mod_cast hq
      exact_mod_cast (pos_iff_pos_of_mul_pos hqv).mp this
    · intro hq
      have : (0 : ℝ) < v := by exact_mod_cast hq
      exact_mod_cast (pos_iff_pos_of_mul_pos hqv).mpr this

section
variable {w : W} {F : Fmt} {r : Fl} {v : ℚ} {x : ℝ} (h : Arg F w r v x)
include h

theorem inv_range (hv : v ≠ 0) : (2 : ℝ) ^ (-300 : ℤ) ≤ |1 / (v : ℝ)| ∧ |1 / (v : ℝ)| ≤ (2 : ℝ) ^ (300 : ℤ) := by
  have g := (Rat.cast_le (K := ℝ)).mpr (h.ge hv)
  have l := (Rat.cast_le (K := ℝ)).mpr h.le
  rw [Rat.cast_zpow, Rat.cast_abs, Rat.cast_ofNat] at g l
  have vp : 0 < |(v : ℝ)| := lt_of_lt_of_le (by positivity) g
  rw [abs_div, abs_one]
  constructor
  · rw [zpow_neg, ← one_div]; exact one_div_le_one_div_of_le vp l
  · rw [show (300 : ℤ) = -(-300) by norm_num, zpow_neg, ← one_div]; exact one_div_le_one_div_of_le (by positivity) g

/-- `1.0L / f` is accurate. -/
theorem inv80 (hv : v ≠ 0) : ∃ p : ℚ, (Fl.div x80 (.num 1) r).Is p ∧ |(p : ℝ) - 1 / v| ≤ 1 / 2 ^ 64 * |1 / (v : ℝ)| ∧ Mfl p ∧ p ≠ 0 ∧
    |1 / (p : ℝ) - v| ≤ 0.9 / 2 ^ 62 * |(v : ℝ)| ∧ (0 < p ↔ 0 < v) := by
  obtain ⟨a, b, -⟩ := div1 h hv
  obtain ⟨r1, r2⟩ := inv_range h hv
  have er := rq_real_err (F := x80) (x := 1 / (v : ℝ)) ((z_le (by decide)).trans r1)
  have e1 : (1 / (v : ℝ)) = ((1 / v : ℚ) : ℝ) := by push_cast; ring
  rw [e1, Fmt.rq_cast, ← e1, prec80] at er
  replace er : |((x80.rq (1 / v) : ℚ) : ℝ) - 1 / v| ≤ 1 / 2 ^ 64 * |1 / (v : ℝ)| := er.trans (by rw [div_mul_eq_mul_div, one_mul])
  obtain ⟨c1, c2, c3⟩ := inv_pert (ε := 0.9 / 2 ^ 62) hv er (by norm_num) (by norm_num)
  refine ⟨_, a, er, ⟨b, fun _ => ?_, ?_⟩, c1, c2, c3⟩
  · have e2 : (2 : ℝ) ^ (-302 : ℤ) = (2 : ℝ) ^ (-300 : ℤ) / 4 := by
      rw [show (-302 : ℤ) = -300 - 2 by norm_num, zpow_sub₀ (by norm_num)]; norm_num
    have := abs_add_le (1 / (v : ℝ) - x80.rq (1 / v)) (x80.rq (1 / v))
    rw [sub_add_cancel, abs_sub_comm] at this
    have b0 := abs_nonneg (1 / (v : ℝ))
    rw [e2]
    clear a b r2 e2 c1 c2 c3
    generalize (2 : ℝ) ^ (-300 : ℤ) = A at *
    generalize |1 / (v : ℝ)| = B at *
    generalize |((x80.rq (1 / v) : ℚ) : ℝ)| = D at *
    generalize |((x80.rq (1 / v) : ℚ) : ℝ) - 1 / v| = E at *
    norm_num at er ⊢; linarith
  · have e2 : (2 : ℝ) ^ (302 : ℤ) = (2 : ℝ) ^ (300 : ℤ) * 4 := by
      rw [show (302 : ℤ) = 300 + 2 by norm_num, zpow_add₀ (by norm_num)]; norm_num
    have := abs_add_le ((x80.rq (1 / v) : ℝ) - 1 / v) (1 / v)
    rw [sub_add_cancel] at this
    have b0 := abs_nonneg (1 / (v : ℝ))
    rw [e2]
    clear a b r1 e2 c1 c2 c3
    generalize (2 : ℝ) ^ (300 : ℤ) = A at *
    generalize |1 / (v : ℝ)| = B at *
    generalize |((x80.rq (1 / v) : ℚ) : ℝ)| = D at *
    generalize |((x80.rq (1 / v) : ℚ) : ℝ) - 1 / v| = E at *
    norm_num at er ⊢; linarith

/-- `1.0L / f` converted to `double` is accurate. -/
theorem inv64 (hv : v ≠ 0) : ∃ q : ℚ, (Fl.cast b64 (Fl.div x80 (.num 1) r)).Is q ∧ b64.In q ∧ Mfl q ∧ q ≠ 0 ∧
    |1 / (q : ℝ) - v| ≤ 0.9 / 2 ^ 52 * |(v : ℝ)| := by
  obtain ⟨p, a, er, m, -⟩ := inv80 h hv
  obtain ⟨r1, r2⟩ := inv_range h hv
  obtain ⟨s, e⟩ := cast_round (F := b64) a
  have hm : Mod (1 / (v : ℝ)) := mod_of (fun _ => (z_le (by norm_num)).trans r1) (r2.trans (z_le (by norm_num)))
  obtain ⟨q, i, j, c⟩ := round_near (F := b64) (Or.inl rfl) hm er (by norm_num) s
  rw [e]
  have c' : |(q : ℝ) - 1 / v| ≤ 1.26 / 2 ^ 53 * |1 / (v : ℝ)| := by
    refine c.trans (mul_le_mul_of_nonneg_right ?_ (abs_nonneg _))
    have : b64.prec = 53 := rfl
    rw [this]; norm_num
  obtain ⟨c1, c2, c3⟩ := inv_pert (ε := 0.9 / 2 ^ 52) hv c' (by norm_num) (by norm_num)
  refine ⟨q, i, j, ⟨in_x80 (Or.inl rfl) j, fun _ => ?_, ?_⟩, c1, c2⟩
  · have e2 : (2 : ℝ) ^ (-302 : ℤ) = (2 : ℝ) ^ (-300 : ℤ) / 4 := by
      rw [show (-302 : ℤ) = -300 - 2 by norm_num, zpow_sub₀ (by norm_num)]; norm_num
    have := abs_add_le (1 / (v : ℝ) - q) q
    rw [sub_add_cancel, abs_sub_comm] at this
    have b0 := abs_nonneg (1 / (v : ℝ))
    rw [e2]
    clear a m r2 e e2 hm i j c c1 c2 c3 er
    generalize (2 : ℝ) ^ (-300 : ℤ) = A at *
    generalize |1 / (v : ℝ)| = B at *
    generalize |(q : ℝ)| = D at *
    generalize |(q : ℝ) - 1 / v| = E at *
    norm_num at c' ⊢; linarith
  · have e2 : (2 : ℝ) ^ (302 : ℤ) = (2 : ℝ) ^ (300 : ℤ) * 4 := by
      rw [show (302 : ℤ) = 300 + 2 by norm_num, zpow_add₀ (by norm_num)]; norm_num
    have := abs_add_le ((q : ℝ) - 1 / v) (1 / v)
    rw [sub_add_cancel] at this
    have b0 := abs_nonneg (1 / (v : ℝ))
    rw [e2]
    clear a m r1 e e2 hm i j c c1 c2 c3
    generalize (2 : ℝ) ^ (300 : ℤ) = A at *
    generalize |1 / (v : ℝ)| = B at *
    generalize |(q : ℝ)| = D at *
    generalize |(q : ℝ) - 1 / v| = E at *
    norm_num at c' ⊢; linarith

theorem zero_of (hv : v = 0) : ∃ s, Fl.div x80 (.num 1) r = .inf s := by
  have := h.is
  rw [hv] at this
  rcases this.cases with ⟨h0, _⟩ | ⟨_, s, rfl⟩
  · exact absurd rfl h0
  · exact ⟨_, div1_zero⟩

end

theorem lt_one_inv {p : ℚ} (hp : p ≠ 0) : |1 / (p : ℝ)| < 1 ↔ 1 < |p| := by
  have : 0 < |(p : ℝ)| := abs_pos.mpr (by exact_mod_cast hp)
  rw [abs_div, abs_one, div_lt_one this, ← Rat.cast_abs, ← Rat.cast_one, Rat.cast_lt]

theorem le_one_inv {p : ℚ} (hp : p ≠ 0) : |1 / (p : ℝ)| ≤ 1 ↔ 1 ≤ |p| := by
  have : 0 < |(p : ℝ)| := abs_pos.mpr (by exact_mod_cast hp)
  rw [abs_div, abs_one, div_le_one this, ← Rat.cast_abs, ← Rat.cast_one, Rat.cast_le]

section
variable {L : Libm} (hL : L.Conforming) (hA : L.Approximates) {w : W} {F : Fmt} (hF : F = b64 ∨ F = x80) {r : Fl} {v : ℚ} {x : ℝ} (h : Arg F w r v x)
include hL hA hF h

omit hL hA hF h in
theorem good_zero {u : UFun} (hv : v = 0) (h0 : Undefined u 0 ∧ (u.fix r (u.ev L F r)).isfinite = false ∨
    ¬Undefined u 0 ∧ Res F (resPert F u * errScale u (realFn u 0)) (realFn u 0) (u.fix r (u.ev L F r))) : Good L u F r v := by
  refine ⟨0, ?_, h0⟩
  rw [hv]; simp

theorem good_arccsc : Good L .arccsc F r v := by
  by_cases hv : v = 0
  · obtain ⟨s, e⟩ := zero_of h hv
    refine good_zero hv (Or.inl ⟨by show |(0 : ℝ)| < 1; simp, ev_bad (u := .arccsc) rfl hF ?_⟩)
    show (L.asin x80 (Fl.div x80 (.num 1) r)).isfinite = false
    rw [e, hL.inverses.asin_inf]; rfl
  obtain ⟨p, i, -, m, p0, b, -⟩ := inv80 h hv
  refine ⟨1 / p, b, ?_⟩
  by_cases h1 : 1 < |p|
  · refine Or.inl ⟨(lt_one_inv p0).mpr h1, ev_bad (u := .arccsc) rfl hF ?_⟩
    show (L.asin x80 (Fl.div x80 (.num 1) r)).isfinite = false
    rw [hL.inverses.asin_out _ (Or.inr rfl) _ _ i h1]; rfl
  · refine Or.inr ⟨fun h => h1 ((lt_one_inv p0).mp h), ?_⟩
    have e : realFn .arccsc (1 / p) = Real.arcsin p := by show Real.arcsin (1 / (1 / (p : ℝ))) = _; rw [one_div_one_div]
    rw [e]
    have hm := mod_of' (arcsin_bounds m (not_lt.mp h1))
    refine (near_castfun (u := .arccsc) rfl hF ((hA.asin x80 (Or.inr rfl) _ p i m.rep (not_lt.mp h1)).near hm) hm ?_).res
    norm_num [prec80]

theorem good_arcsec : Good L .arcsec F r v := by
  by_cases hv : v = 0
  · obtain ⟨s, e⟩ := zero_of h hv
    refine good_zero hv (Or.inl ⟨by show |(0 : ℝ)| < 1; simp, ev_bad (u := .arcsec) rfl hF ?_⟩)
    show (L.acos x80 (Fl.div x80 (.num 1) r)).isfinite = false
    rw [e, hL.inverses.acos_inf]; rfl
  obtain ⟨p, i, -, m, p0, b, -⟩ := inv80 h hv
  refine ⟨1 / p, b, ?_⟩
  by_cases h1 : 1 < |p|
  · refine Or.inl ⟨(lt_one_inv p0).mpr h1, ev_bad (u := .arcsec) rfl hF ?_⟩
    show (L.acos x80 (Fl.div x80 (.num 1) r)).isfinite = false
    rw [hL.inverses.acos_out _ (Or.inr rfl) _ _ i h1]; rfl
  · refine Or.inr ⟨fun h => h1 ((lt_one_inv p0).mp h), ?_⟩
    have e : realFn .arcsec (1 / p) = Real.arccos p := by show Real.arccos (1 / (1 / (p : ℝ))) = _; rw [one_div_one_div]
    rw [e]
    have hm := mod_of' (arccos_bounds m (not_lt.mp h1))
    refine (near_castfun (u := .arcsec) rfl hF ((hA.acos x80 (Or.inr rfl) _ p i m.rep (not_lt.mp h1)).near hm) hm ?_).res
    norm_num [prec80]

theorem good_arccsc_over_pi : Good L .arccsc_over_pi F r v := by
  by_cases hv : v = 0
  · obtain ⟨s, e⟩ := zero_of h hv
    refine good_zero hv (Or.inl ⟨by show |(0 : ℝ)| < 1; simp, ev_bad (u := .arccsc_over_pi) rfl hF ?_⟩)
    show (Fl.div x80 (L.asin x80 (Fl.div x80 (.num 1) r)) PI).isfinite = false
    rw [e, hL.inverses.asin_inf]; rfl
  obtain ⟨p, i, -, m, p0, b, -⟩ := inv80 h hv
  refine ⟨1 / p, b, ?_⟩
  by_cases h1 : 1 < |p|
  · refine Or.inl ⟨(lt_one_inv p0).mpr h1, ev_bad (u := .arccsc_over_pi) rfl hF ?_⟩
    show (Fl.div x80 (L.asin x80 (Fl.div x80 (.num 1) r)) PI).isfinite = false
    rw [hL.inverses.asin_out _ (Or.inr rfl) _ _ i h1]; rfl
  · refine Or.inr ⟨fun h => h1 ((lt_one_inv p0).mp h), ?_⟩
    have e : realFn .arccsc_over_pi (1 / p) = Real.arcsin p / Real.pi := by
      show Real.arcsin (1 / (1 / (p : ℝ))) / Real.pi = _; rw [one_div_one_div]
    rw [e]
    have bb := arcsin_bounds m (not_lt.mp h1)
    have hm := (mod_scale pi_quarter.1 pi_quarter.2 bb.1 bb.2).2
    refine (near_castfun (u := .arccsc_over_pi) rfl hF
      (div_pi_near ((hA.asin x80 (Or.inr rfl) _ p i m.rep (not_lt.mp h1)).near (mod_of' bb)) hm ?_ ?_) hm ?_).res <;> norm_num [prec80]

theorem good_arcsec_over_pi : Good L .arcsec_over_pi F r v := by
  by_cases hv : v = 0
  · obtain ⟨s, e⟩ := zero_of h hv
    refine good_zero hv (Or.inl ⟨by show |(0 : ℝ)| < 1; simp, ev_bad (u := .arcsec_over_pi) rfl hF ?_⟩)
    show (Fl.div x80 (L.acos x80 (Fl.div x80 (.num 1) r)) PI).isfinite = false
    rw [e, hL.inverses.acos_inf]; rfl
  obtain ⟨p, i, -, m, p0, b, -⟩ := inv80 h hv
  refine ⟨1 / p, b, ?_⟩
  by_cases h1 : 1 < |p|
  · refine Or.inl ⟨(lt_one_inv p0).mpr h1, ev_bad (u := .arcsec_over_pi) rfl hF ?_⟩
    show (Fl.div x80 (L.acos x80 (Fl.div x80 (.num 1) r)) PI).isfinite = false
    rw [hL.inverses.acos_out _ (Or.inr rfl) _ _ i h1]; rfl
  · refine Or.inr ⟨fun h => h1 ((lt_one_inv p0).mp h), ?_⟩
    have e : realFn .arcsec_over_pi (1 / p) = Real.arccos p / Real.pi := by
      show Real.arccos (1 / (1 / (p : ℝ))) / Real.pi = _; rw [one_div_one_div]
    rw [e]
    have bb := arccos_bounds m (not_lt.mp h1)
    have hm := (mod_scale pi_quarter.1 pi_quarter.2 bb.1 bb.2).2
    refine (near_castfun (u := .arcsec_over_pi) rfl hF
      (div_pi_near ((hA.acos x80 (Or.inr rfl) _ p i m.rep (not_lt.mp h1)).near (mod_of' bb)) hm ?_ ?_) hm ?_).res <;> norm_num [prec80]

theorem good_arsech : Good L .arsech F r v := by
  by_cases hv : v = 0
  · obtain ⟨s, e⟩ := zero_of h hv
    refine good_zero hv (Or.inl ⟨Or.inl le_rfl, ev_bad (u := .arsech) rfl hF ?_⟩)
    show (L.acosh x80 (Fl.div x80 (.num 1) r)).isfinite = false
    rw [e]; exact hL.inverses.acosh_inf _ _
  obtain ⟨p, i, -, m, p0, b, -⟩ := inv80 h hv
  refine ⟨1 / p, b, ?_⟩
  have hu : Undefined .arsech (1 / (p : ℝ)) ↔ p < 1 := by
    show 1 / (p : ℝ) ≤ 0 ∨ 1 < 1 / (p : ℝ) ↔ _
    rcases lt_or_gt_of_ne p0 with hp | hp
    · have hp' : (p : ℝ) < 0 := by exact_mod_cast hp
      exact ⟨fun _ => by linarith, fun _ => Or.inl (one_div_neg.mpr hp').le⟩
    · have hp' : (0 : ℝ) < p := by exact_mod_cast hp
      rw [lt_div_iff₀ hp', one_mul]
      constructor
      · rintro (h | h)
        · exact absurd h (not_le.mpr (by positivity))
        · exact_mod_cast h
      · intro h; right; exact_mod_cast h
  by_cases h1 : p < 1
  · refine Or.inl ⟨hu.mpr h1, ev_bad (u := .arsech) rfl hF ?_⟩
    show (L.acosh x80 (Fl.div x80 (.num 1) r)).isfinite = false
    rw [hL.inverses.acosh_out _ (Or.inr rfl) _ _ i h1]; rfl
  · refine Or.inr ⟨fun h => h1 (hu.mp h), ?_⟩
    have h1 := not_lt.mp h1
    have h1' : (1 : ℝ) ≤ p := by exact_mod_cast h1
    have e : realFn .arsech (1 / p) = Real.log (p + √((p : ℝ) ^ 2 - 1)) := by
      show Real.log ((1 + √(1 - (1 / (p : ℝ)) ^ 2)) / (1 / p)) = _
      have : √(1 - (1 / (p : ℝ)) ^ 2) = √((p : ℝ) ^ 2 - 1) / p := by
        have e3 : 1 - (1 / (p : ℝ)) ^ 2 = ((p : ℝ) ^ 2 - 1) / p ^ 2 := by field_simp
        rw [e3, Real.sqrt_div' _ (by positivity), Real.sqrt_sq (by linarith)]
      rw [this]
      congr 1
      field_simp
    rw [e]
    have hm := mod_arcosh m h1
    refine (near_castfun (u := .arsech) rfl hF ((hA.acosh x80 (Or.inr rfl) _ p i m.rep h1).near hm) hm ?_).res
    norm_num [prec80]

omit hL hA h in
theorem res_b64 {u : UFun} (hu : CastFun u = true) {ε y : ℝ} (hn : Near b64 ε y (u.evl L r)) : Res F (ε * |y|) y (u.ev L F r) := by
  obtain ⟨z, i, j, c⟩ := hn
  rcases hF with rfl | rfl
  · rw [ev_b64, evd_cast L hu]
    have e := b64.rq_of_rep j.1
    have := i.cast (F := b64) (by rw [e]; exact j.2)
    rw [e] at this
    exact ⟨z, this, j, Or.inl c⟩
  · rw [ev_x80]; exact ⟨z, i, in_x80 (Or.inl rfl) j, Or.inl c⟩

theorem good_arcsch : Good L .arcsch F r v := by
  by_cases hv : v = 0
  · obtain ⟨s, e⟩ := zero_of h hv
    refine good_zero hv (Or.inl ⟨rfl, ev_bad (u := .arcsch) rfl hF ?_⟩)
    show (L.asinh b64 (Fl.cast b64 (Fl.div x80 (.num 1) r))).isfinite = false
    rw [e]
    show (L.asinh b64 (.inf s)).isfinite = false
    rw [hL.inverses.asinh_inf]; rfl
  obtain ⟨q, i, j, m, q0, b⟩ := inv64 h hv
  have q0' : (q : ℝ) ≠ 0 := by exact_mod_cast q0
  refine ⟨1 / q, b, Or.inr ⟨one_div_ne_zero q0', ?_⟩⟩
  have e : realFn .arcsch (1 / q) = Real.arsinh q := by show Real.arsinh (1 / (1 / (q : ℝ))) = _; rw [one_div_one_div]
  rw [e]
  exact res_b64 hF rfl ((hA.asinh b64 (Or.inl rfl) _ q i j).near (mod_arsinh m))

theorem good_arcoth : Good L .arcoth F r v := by
  by_cases hv : v = 0
  · obtain ⟨s, e⟩ := zero_of h hv
    refine good_zero hv (Or.inl ⟨by show |(0 : ℝ)| ≤ 1; simp, ev_bad (u := .arcoth) rfl hF ?_⟩)
    show (L.atanh b64 (Fl.cast b64 (Fl.div x80 (.num 1) r))).isfinite = false
    rw [e]
    show (L.atanh b64 (.inf s)).isfinite = false
    rw [hL.inverses.atanh_inf]; rfl
  obtain ⟨q, i, j, m, q0, b⟩ := inv64 h hv
  have q0' : (q : ℝ) ≠ 0 := by exact_mod_cast q0
  refine ⟨1 / q, b, ?_⟩
  by_cases h1 : 1 ≤ |q|
  · refine Or.inl ⟨(le_one_inv q0).mpr h1, ev_bad (u := .arcoth) rfl hF ?_⟩
    show (L.atanh b64 (Fl.cast b64 (Fl.div x80 (.num 1) r))).isfinite = false
    rcases h1.lt_or_eq with h2 | h2
    · rw [hL.inverses.atanh_out _ (Or.inl rfl) _ _ i h2]; rfl
    · rw [hL.inverses.atanh_one _ (Or.inl rfl) _ _ i h2.symm]; rfl
  · refine Or.inr ⟨fun h => h1 ((le_one_inv q0).mp h), ?_⟩
    have h1 := not_le.mp h1
    have e : realFn .arcoth (1 / q) = Real.log ((1 + q) / (1 - q)) / 2 := by
      show Real.log ((1 / (q : ℝ) + 1) / (1 / q - 1)) / 2 = _
      have h3 : (1 : ℝ) - q ≠ 0 := by
        have : (q : ℝ) < 1 := by exact_mod_cast (abs_lt.mp h1).2
        linarith
      congr 2
      have e2 : 1 / (q : ℝ) - 1 = (1 - q) / q := by field_simp
      have e3 : 1 / (q : ℝ) + 1 = (1 + q) / q := by field_simp
      rw [e2, e3, div_div_div_cancel_right₀ q0']
    rw [e]
    exact res_b64 hF rfl ((hA.atanh b64 (Or.inl rfl) _ q i j h1).near (mod_artanh m h1))

end

/-! ## Arccotangent -/

theorem add_near {ε δ y : ℝ} {z c : ℚ} {a : Fl} {C : ℝ} (ha : a.Is z) (hc0 : c ≠ 0) (h1 : |(z : ℝ) - (y - C)| ≤ ε * |y|) (h2 : |(c : ℝ) - C| ≤ δ * |y|)
    (hy : Mod y) (he : ε + δ ≤ 1 / 4) : Near x80 (ε + δ + 1.25 / 2 ^ 64) y (Fl.add x80 a (.num c)) := by
  rw [Fl.add_eq ha (Fl.Is.num hc0)]
  refine round_near (Or.inr rfl) hy ?_ he _
  have e : ((z + c : ℚ) : ℝ) - y = (z - (y - C)) + (c - C) := by push_cast; ring
  rw [e]
  refine (abs_add_le _ _).trans ?_
  rw [add_mul]; linarith

theorem arccot_recip {p : ℝ} : (0 < p → Real.pi / 2 - Real.arctan (1 / p) = Real.arctan p) ∧
    (p < 0 → Real.pi / 2 - Real.arctan (1 / p) = Real.arctan p + Real.pi) := by
  constructor
  · intro h; rw [one_div, Real.arctan_inv_of_pos h]; ring
  · intro h; rw [one_div, Real.arctan_inv_of_neg h]; ring

theorem le_zero_iff {r : Fl} {v : ℚ} (h : r.Is v) : Fl.le (.zero false) r = true ↔ 0 ≤ v := by
  unfold Fl.le
  rw [Bool.or_eq_true, Fl.lt_iff (Fl.Is.zero false) h, Fl.eq_iff (Fl.Is.zero false) h]
  exact le_iff_lt_or_eq.symm

theorem mod_mid {y : ℝ} (h1 : 1 / 4 ≤ y) (h2 : y ≤ 4) : Mod y := by
  right
  rw [abs_of_pos (by linarith)]
  exact ⟨(z_le (show (-1000 : ℤ) ≤ -2 by norm_num)).trans (by norm_num; linarith), le_trans (by norm_num; linarith) (z_le (show (2 : ℤ) ≤ 1000 by norm_num))⟩

section
variable {L : Libm} (hA : L.Approximates) {w : W} {F : Fmt} (hF : F = b64 ∨ F = x80) {r : Fl} {v : ℚ} {x : ℝ} (h : Arg F w r v x) (hz : v = 0 → r = .zero false)
include hA hF h hz

theorem good_arccot : Good L .arccot F r v := by
  have pi3 := Real.pi_gt_three
  have pi4 := Real.pi_le_four
  have ap := le_zero_iff h.is
  by_cases hv : v = 0
  · refine good_zero hv (Or.inr ⟨id, ?_⟩)
    have := hA.atan_inf x80 (Or.inr rfl) false
    have e : realFn .arccot 0 = (if false = true then -1 else 1) * (Real.pi / 2) := by show Real.pi / 2 - Real.arctan 0 = _; simp
    rw [e]
    have hm : Mod ((if false = true then -1 else 1) * (Real.pi / 2)) := by
      simp only [Bool.false_eq_true, if_false, one_mul]
      exact mod_mid (by linarith) (by linarith)
    have n := this.near hm
    refine (near_castfun (u := .arccot) rfl hF (ε := 4 / 2 ^ x80.prec) ?_ hm ?_).res
    · show Near x80 _ _ (arccotl L r)
      unfold arccotl
      rw [if_pos (ap.mpr hv.ge), hz hv, div1_zero]
      exact n
    · norm_num [prec80]
  obtain ⟨p, i, -, m, p0, b, sg⟩ := inv80 h hv
  refine ⟨1 / p, b, Or.inr ⟨id, ?_⟩⟩
  have n := (hA.atan x80 (Or.inr rfl) _ p i m.rep).near (mod_of' (arctan_bounds m))
  rcases lt_or_gt_of_ne hv with hv' | hv'
  · have hp : p < 0 := lt_of_le_of_ne (not_lt.mp fun hc => absurd (sg.mp hc) (by linarith)) p0
    have hp' : (p : ℝ) < 0 := by exact_mod_cast hp
    have e : realFn .arccot (1 / p) = Real.arctan p + Real.pi := arccot_recip.2 hp'
    rw [e]
    have a1 := Real.neg_pi_div_two_lt_arctan (p : ℝ)
    have a2 : Real.arctan (p : ℝ) < 0 := by rw [Real.arctan_lt_zero]; exact hp'
    have hm : Mod (Real.arctan p + Real.pi) := mod_mid (by linarith) (by linarith)
    obtain ⟨c, ec, c3, c4, hc⟩ := pi_near
    obtain ⟨z, iz, jz, cz⟩ := n
    refine (near_castfun (u := .arccot) rfl hF (ε := 4 / 2 ^ 64 + 2 / 2 ^ 64 + 1.25 / 2 ^ 64) ?_ hm ?_).res
    · show Near x80 _ _ (arccotl L r)
      unfold arccotl
      rw [if_neg (by rw [ap]; linarith), ec]
      refine add_near (C := Real.pi) iz (by linarith) ?_ ?_ hm (by norm_num)
      · rw [add_sub_cancel_right]
        refine cz.trans ?_
        rw [prec80, abs_of_neg a2, abs_of_pos (by linarith)]
        exact mul_le_mul_of_nonneg_left (by linarith) (by norm_num)
      · refine hc.trans ?_
        rw [abs_of_pos (by linarith)]
        norm_num; linarith
    · norm_num
  · have hp : 0 < p := sg.mpr hv'
    have e : realFn .arccot (1 / p) = Real.arctan p := arccot_recip.1 (by exact_mod_cast hp)
    rw [e]
    refine (near_castfun (u := .arccot) rfl hF (ε := 4 / 2 ^ x80.prec) ?_ (mod_of' (arctan_bounds m)) ?_).res
    · show Near x80 _ _ (arccotl L r)
      unfold arccotl
      rw [if_pos (ap.mpr hv'.le)]; exact n
    · norm_num [prec80]

theorem good_arccot_over_pi : Good L .arccot_over_pi F r v := by
  have pi3 := Real.pi_gt_three
  have pi4 := Real.pi_le_four
  have ap := le_zero_iff h.is
  by_cases hv : v = 0
  · refine good_zero hv (Or.inr ⟨id, ?_⟩)
    have := hA.atan_inf x80 (Or.inr rfl) false
    simp only [Bool.false_eq_true, if_false, one_mul] at this
    have e : realFn .arccot_over_pi 0 = Real.pi / 2 / Real.pi := by show (Real.pi / 2 - Real.arctan 0) / Real.pi = _; simp
    have e2 : Real.pi / 2 / Real.pi = 1 / 2 := by field_simp
    rw [e]
    have hm : Mod (Real.pi / 2 / Real.pi) := by rw [e2]; exact mod_mid (by norm_num) (by norm_num)
    have n := this.near (mod_mid (by linarith) (by linarith))
    refine (near_castfun (u := .arccot_over_pi) rfl hF (ε := 6.3 / 2 ^ 64) ?_ hm ?_).res
    · show Near x80 _ _ (arccotOverPil L r)
      unfold arccotOverPil
      rw [if_pos (ap.mpr hv.ge), hz hv, div1_zero]
      refine div_pi_near n hm ?_ ?_ <;> norm_num [prec80]
    · norm_num
  obtain ⟨p, i, -, m, p0, b, sg⟩ := inv80 h hv
  refine ⟨1 / p, b, Or.inr ⟨id, ?_⟩⟩
  have bb := arctan_bounds m
  have hm := (mod_scale pi_quarter.1 pi_quarter.2 bb.1 bb.2).2
  have n := div_pi_near ((hA.atan x80 (Or.inr rfl) _ p i m.rep).near (mod_of' bb)) hm (by norm_num [prec80]) (by norm_num [prec80])
  rcases lt_or_gt_of_ne hv with hv' | hv'
  · have hp : p < 0 := lt_of_le_of_ne (not_lt.mp fun hc => absurd (sg.mp hc) (by linarith)) p0
    have hp' : (p : ℝ) < 0 := by exact_mod_cast hp
    have e : realFn .arccot_over_pi (1 / p) = Real.arctan p / Real.pi + 1 := by
      show (Real.pi / 2 - Real.arctan (1 / p)) / Real.pi = _
      rw [arccot_recip.2 hp', add_div, div_self (by linarith)]
    rw [e]
    have a1 : -(1 / 2) < Real.arctan (p : ℝ) / Real.pi := by
      rw [lt_div_iff₀ (by linarith)]
      have := Real.neg_pi_div_two_lt_arctan (p : ℝ)
      linarith
    have a2 : Real.arctan (p : ℝ) / Real.pi < 0 := by
      apply div_neg_of_neg_of_pos _ (by linarith)
      rw [Real.arctan_lt_zero]; exact hp'
    generalize Real.arctan (p : ℝ) / Real.pi = y at *
    have hm : Mod (y + 1) := mod_mid (by linarith) (by linarith)
    obtain ⟨z, iz, jz, cz⟩ := n
    refine (near_castfun (u := .arccot_over_pi) rfl hF (ε := 6.3 / 2 ^ 64 + 0 + 1.25 / 2 ^ 64) ?_ hm ?_).res
    · show Near x80 _ _ (arccotOverPil L r)
      unfold arccotOverPil
      rw [if_neg (by rw [ap]; linarith)]
      refine add_near (C := 1) iz (by norm_num) ?_ ?_ hm (by norm_num)
      · rw [add_sub_cancel_right]
        refine cz.trans ?_
        rw [abs_of_neg a2, abs_of_pos (by linarith)]
        exact mul_le_mul_of_nonneg_left (by linarith) (by norm_num)
      · simp
    · norm_num
  · have hp : 0 < p := sg.mpr hv'
    have e : realFn .arccot_over_pi (1 / p) = Real.arctan p / Real.pi := by
      show (Real.pi / 2 - Real.arctan (1 / p)) / Real.pi = _
      rw [arccot_recip.1 (by exact_mod_cast hp)]
    rw [e]
    refine (near_castfun (u := .arccot_over_pi) rfl hF (ε := 6.3 / 2 ^ 64) ?_ hm ?_).res
    · show Near x80 _ _ (arccotOverPil L r)
      unfold arccotOverPil
      rw [if_pos (ap.mpr hv'.le)]; exact n
    · norm_num

end

end Takum
