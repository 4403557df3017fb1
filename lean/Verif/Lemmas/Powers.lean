import Verif.Model.Kinds
import Verif.Lemmas.Domain
import Verif.Lemmas.LogAdd
import Verif.Props.NaR

/-! # Powers with integral exponents, roots, and powers -/

namespace Takum
open Spec

/-- Conversion to `long double`. -/
def eTo (L : Libm) (k : Kind) (w : W) (t : T w) : C Fl :=
  match k with
  | .log => logTo L .ext w t
  | .lin => linTo .ext w t

/-- Conversion from `long double`. -/
def eFrom (L : Libm) (k : Kind) (w : W) (f : Fl) : C (T w) :=
  match k with
  | .log => logFrom L .ext w f
  | .lin => linFrom .ext w f

theorem eTo_fin {L : Libm} (hL : L.Powers) (k : Kind) (w : W) {t : T w} (h : t ≠ nar w.n) :
    ∃ (f : Fl) (v : ℚ), eTo L k w t = .ok f ∧ f.Is v ∧ x80.In v ∧ (v = 0 ↔ t = 0#w.n) ∧ (v < 0 ↔ t.toInt < 0) ∧
      |v| ≤ (2 : ℚ) ^ (300 : ℤ) ∧ (t ≠ 0#w.n → (2 : ℚ) ^ (-300 : ℤ) ≤ |v|) ∧ (k = .lin → v = qv t) := by
  have h8 := w.n_pos
  cases k
  · obtain ⟨f, v, e, i, n, a, b, -, c⟩ := logTo_ext hL w h
    obtain ⟨f', e', i', -, le⟩ := logTo_xv hL (A := .ext) (by decide) h
    rw [e] at e'
    obtain rfl := Except.ok.inj e'
    rw [← i.unique i'] at le
    exact ⟨f, v, e, i, n, a, b, le, c, by simp⟩
  · by_cases h0 : t = 0#w.n
    · subst h0
      exact ⟨_, 0, linToExtended_zero w, Fl.Is.zero _, ⟨Fmt.Rep.zero _, by rw [abs_zero]; positivity⟩, by simp, by simp,
        by rw [abs_zero]; positivity, fun h => absurd rfl h, fun _ => by rw [qv_zero]⟩
    have rt : Regular t := ⟨h0, h⟩
    obtain ⟨r, e, i⟩ := linToExtended_regular rt
    obtain ⟨b1, b2⟩ := lv_bounds t
    refine ⟨r, lv t, e, i, lv_in t (by cases w <;> decide) (by decide) (by decide), ?_, ?_, ?_, fun _ => ?_, fun _ => (qv_regular rt).symm⟩
    · simp [lv_ne t, h0]
    · rw [lv_neg_iff t, toInt_neg_iff (by omega) rt]
    · exact b2.le.trans (zpow_le_zpow_right₀ (by norm_num) (by norm_num))
    · exact le_trans (zpow_le_zpow_right₀ (by norm_num) (by norm_num)) b1

theorem eFrom_fin {L : Libm} (hL : L.Logs) (k : Kind) (w : W) {f : Fl} {v : ℚ} (hf : f.Is v) (h : x80.In v) :
    ∃ t : T w, eFrom L k w f = .ok t ∧ t ≠ nar w.n ∧ (t = 0#w.n ↔ v = 0) ∧ (t.toInt < 0 ↔ v < 0) := by
  cases k
  · exact kFrom_fin hL (k := .log) hf h
  · obtain ⟨t, e, h1, h2, h3, h4⟩ := linFrom_finite .ext w hf h
    have z : (0#w.n).toInt = 0 := by simp
    refine ⟨t, e, h1, ⟨fun h => ?_, h2⟩, ⟨fun h => ?_, h3⟩⟩
    · by_contra hv
      rw [h, z] at h3 h4
      rcases lt_or_gt_of_ne hv with hv | hv
      · exact absurd (h3 hv) (lt_irrefl _)
      · exact absurd (h4 hv) (lt_irrefl _)
    · by_contra hv
      rcases lt_or_eq_of_le (not_lt.mp hv) with hv | hv
      · have := h4 hv; omega
      · rw [h2 hv.symm, z] at h; exact lt_irrefl _ h

theorem eFrom_bad {L : Libm} (k : Kind) (w : W) {f : Fl} (h : f.isfinite = false) : eFrom L k w f = .ok (nar w.n) := by
  cases k
  · exact logFrom_nonfinite L .ext w h
  · cases f with
    | nan => exact linFrom_nan .ext w
    | inf s => exact linFrom_inf .ext w s
    | zero s => simp [Fl.isfinite] at h
    | num q => simp [Fl.isfinite] at h

theorem eFrom_one {L : Libm} (hS : L.Specials) (k : Kind) (w : W) : eFrom L k w (.num 1) = .ok (ONE w) := by
  cases k
  · exact logFrom_one hS w
  · have h := (ONE_facts w).2.2.1
    have e : lv (ONE w) = 1 := by rw [← qv_regular h, qv_one]
    exact linFrom_lv .ext h (by rw [e]; exact Fl.Is.num one_ne_zero)
      (by rw [e]; exact ⟨⟨1, 0, by norm_num, by decide, by decide⟩, by decide +kernel⟩)

theorem int64_in (n : BitVec 64) : x80.In ((n.toInt : ℤ) : ℚ) := by
  have h : |n.toInt| ≤ 2 ^ 63 := by
    have h1 := n.le_toInt
    have h2 := n.toInt_lt
    rw [abs_le]; constructor
    · simpa using h1
    · have : n.toInt < 2 ^ 63 := by simpa using h2
      omega
  refine ⟨Fmt.Rep.int (by decide) (lt_of_le_of_lt h (by decide)), ?_⟩
  have : |((n.toInt : ℤ) : ℚ)| ≤ 2 ^ 63 := by exact_mod_cast h
  exact lt_of_le_of_lt this (by decide +kernel)

theorem odd_rat (n : ℤ) : (∃ k : ℤ, (n : ℚ) = 2 * k + 1) ↔ n % 2 = 1 := by
  constructor
  · rintro ⟨k, h⟩
    have : n = 2 * k + 1 := by exact_mod_cast h
    omega
  · intro h; exact ⟨n / 2, by have : n = 2 * (n / 2) + 1 := by omega
                              exact_mod_cast this⟩

/-- What `pow` and the result fixers of the integer powers give. -/
theorem intPow_core {L : Libm} (hS : L.Specials) (hP : L.PowSigns) {w : W} {t : T w} {f : Fl} {v : ℚ} (hf : f.Is v)
    (iv : x80.In v) (h0 : v = 0 ↔ t = 0#w.n) (hn : v < 0 ↔ t.toInt < 0) (n : BitVec 64) (hz : ¬ (t = 0#w.n ∧ n.toInt ≤ 0)) :
    ∃ z, (intPowFix t n.toInt (L.pow x80 f (Fl.ofInt x80 n.toInt))).Is z ∧ x80.In z ∧ (z = 0 ↔ t = 0#w.n) ∧
      (z < 0 ↔ t.toInt < 0 ∧ n.toInt % 2 = 1) ∧ (n = 0#64 → intPowFix t n.toInt (L.pow x80 f (Fl.ofInt x80 n.toInt)) = .num 1) := by
  have io := Fl.Is.ofInt_in (int64_in n)
  obtain ⟨M, hM, M0, iM⟩ := dbl_max (F := x80) (Or.inr rfl)
  obtain ⟨m, hm, m0, im⟩ := dbl_min (F := x80) (Or.inr rfl)
  have one : x80.In 1 := ⟨⟨1, 0, by norm_num, by decide, by decide⟩, by decide +kernel⟩
  by_cases n0 : n.toInt = 0
  · have ht : t ≠ 0#w.n := fun h => hz ⟨h, by omega⟩
    have e : intPowFix t n.toInt (L.pow x80 f (Fl.ofInt x80 n.toInt)) = .num 1 := by
      rw [n0, show Fl.ofInt x80 0 = .zero false by decide +kernel, hS.exp_zero]; rfl
    exact ⟨1, by rw [e]; exact Fl.Is.num one_ne_zero, one, by simp [ht], by rw [n0]; norm_num, fun _ => e⟩
  have en : n ≠ 0#64 := by rintro rfl; exact n0 rfl
  have nq : ((n.toInt : ℤ) : ℚ) ≠ 0 := by exact_mod_cast n0
  rw [io.eq_num nq]
  by_cases t0 : t = 0#w.n
  · have v0 := h0.mpr t0
    have hpos : (0 : ℚ) < ((n.toInt : ℤ) : ℚ) := by
      have : ¬ n.toInt ≤ 0 := fun h => hz ⟨t0, h⟩
      exact_mod_cast not_le.mp this
    subst v0
    rcases hf.cases with ⟨h, _⟩ | ⟨_, s, rfl⟩
    · exact absurd rfl h
    obtain ⟨s', e⟩ := hP.zero_pos x80 s _ hpos
    refine ⟨0, ?_, ⟨Fmt.Rep.zero _, by rw [abs_zero]; positivity⟩, by simp [t0], ?_, fun h => absurd h en⟩
    · rw [e]
      have : intPowFix t n.toInt (.zero s') = .zero s' := by
        unfold intPowFix; simp [Fl.isinf, t0]
      rw [this]; exact Fl.Is.zero _
    · rw [t0]; simp
  have v0 : v ≠ 0 := fun h => t0 (h0.mp h)
  rw [hf.eq_num v0]
  obtain ⟨r1, r2, r3⟩ := hP.regular x80 (Or.inr rfl) v _ v0 nq iv (int64_in n) (Or.inr ⟨_, rfl⟩)
  rw [odd_rat, hn] at r3
  generalize L.pow x80 (.num v) (.num ((n.toInt : ℤ) : ℚ)) = r at *
  cases r with
  | nan => exact absurd rfl r1
  | inf s =>
    cases s with
    | false =>
      refine ⟨M, ?_, iM, by simp [M0.ne', t0], ?_, fun h => absurd h en⟩
      · show (if Fl.lt (.zero false) (.inf false) = true then DBL_MAX else DBL_MAX.neg).Is M
        rw [if_pos (by decide), hM]; exact Fl.Is.num M0.ne'
      · rw [← r3]; simp [Fl.sgn, M0.le]
    | true =>
      refine ⟨-M, ?_, In_neg iM, by simp [M0.ne', t0], ?_, fun h => absurd h en⟩
      · show (if Fl.lt (.zero false) (.inf true) = true then DBL_MAX else DBL_MAX.neg).Is (-M)
        rw [if_neg (by decide), hM]; exact (Fl.Is.num M0.ne').neg
      · rw [← r3]; simp [Fl.sgn, M0]
  | zero s =>
    have e : intPowFix t n.toInt (.zero s) = if isNeg t && odd n.toInt then DBL_MIN.neg else DBL_MIN := by
      unfold intPowFix
      rw [if_neg (by simp [Fl.isinf])]
      have : (t != 0#w.n) = true := by simp [t0]
      rw [this, if_pos (by simp [Fl.eq, Fl.toQ])]
    rw [e]
    by_cases hc : t.toInt < 0 ∧ n.toInt % 2 = 1
    · have : (isNeg t && odd n.toInt) = true := by
        rw [Bool.and_eq_true, odd_iff]; exact ⟨by rw [isNeg_eq, ← isNeg_iff]; exact hc.1, hc.2⟩
      rw [this, if_pos rfl, hm]
      exact ⟨-m, (Fl.Is.num m0.ne').neg, In_neg im, by simp [m0.ne', t0], by simp [m0, hc], fun h => absurd h en⟩
    · have : ¬ (isNeg t && odd n.toInt) = true := by
        rw [Bool.and_eq_true, odd_iff]; intro h; exact hc ⟨by rw [isNeg_iff, ← isNeg_eq]; exact h.1, h.2⟩
      rw [if_neg this, hm]
      exact ⟨m, Fl.Is.num m0.ne', im, by simp [m0.ne', t0], by simp only [hc, iff_false]; linarith, fun h => absurd h en⟩
  | num q =>
    have hq : q ≠ 0 := r2.1
    refine ⟨q, ?_, r2.2, by simp [hq, t0], by rw [← r3]; simp [Fl.sgn], fun h => absurd h en⟩
    unfold intPowFix
    rw [if_neg (by simp [Fl.isinf]), if_neg (by simp [Fl.eq, Fl.toQ, hq])]
    exact Fl.Is.num hq

/-- The conversion used by the two-argument functions. -/
theorem kTo_fin {L : Libm} (hL : L.Powers) (k : Kind) (w : W) {t : T w} (h : t ≠ nar w.n) :
    ∃ (f : Fl) (v : ℚ), kTo L k w t = .ok f ∧ f.Is v ∧ (kF k w).In v ∧ (v = 0 ↔ t = 0#w.n) ∧ (v < 0 ↔ t.toInt < 0) ∧
      (k = .lin → linVal t = some v) := by
  cases k
  · obtain ⟨f, v, e, i, n, a, b, -⟩ := logTo_ext hL w h
    exact ⟨f, v, e, i, n, a, b, by simp⟩
  · obtain ⟨f, e, i⟩ := linTo_src w h
    refine ⟨f, qv t, e, i, qv_src, qv_eq_zero h, ?_, fun _ => linVal_qv h⟩
    have := (qv_le_iff (zero_ne_nar w) h).not
    rw [qv_zero] at this
    rw [← not_le, this]; simp

/-- The corrected result of `pow`, for a non-zero base and exponent. -/
theorem pow_core {L : Libm} (hP : L.PowSigns) {F : Fmt} (hF : F = b64 ∨ F = x80) {p q : ℚ} (p0 : p ≠ 0) (q0 : q ≠ 0)
    (ip : F.In p) (iq : F.In q) (h : 0 < p ∨ ∃ k : ℤ, q = k) :
    ∃ z, (fixPower (.num p) (.num q) (L.pow F (.num p) (.num q))).Is z ∧ F.In z ∧ z ≠ 0 ∧
      (z < 0 ↔ p < 0 ∧ ∃ k : ℤ, q = 2 * k + 1) := by
  obtain ⟨M, hM, M0, iM⟩ := dbl_max hF
  obtain ⟨m, hm, m0, im⟩ := dbl_min hF
  obtain ⟨r1, r2, r3⟩ := hP.regular F hF p q p0 q0 ip iq h
  rw [← r3]
  have hp : Fl.eq (.num p) (.zero false) = false := by simp [Fl.eq, Fl.toQ, p0]
  generalize L.pow F (.num p) (.num q) = r at *
  unfold fixPower
  rw [hp]
  cases r with
  | nan => exact absurd rfl r1
  | inf s =>
    rw [if_neg (by simp [Fl.eq, Fl.toQ]), if_pos (by simp [Fl.isinf]), if_neg (by decide), hM]
    cases s
    · rw [if_neg (by simp [Fl.sgn])]
      exact ⟨M, Fl.Is.num M0.ne', iM, M0.ne', by simp [Fl.sgn, M0.le]⟩
    · rw [if_pos (by simp [Fl.sgn])]
      exact ⟨-M, (Fl.Is.num M0.ne').neg, In_neg iM, by simp [M0.ne'], by simp [Fl.sgn, M0]⟩
  | zero s =>
    rw [if_pos (by simp [Fl.eq, Fl.toQ]), if_neg (by decide), hm]
    cases s
    · rw [if_neg (by simp [Fl.sgn])]
      exact ⟨m, Fl.Is.num m0.ne', im, m0.ne', by simp [Fl.sgn, m0.le]⟩
    · rw [if_pos (by simp [Fl.sgn])]
      exact ⟨-m, (Fl.Is.num m0.ne').neg, In_neg im, by simp [m0.ne'], by simp [Fl.sgn, m0]⟩
  | num x =>
    have hx : x ≠ 0 := r2.1
    rw [if_neg (by simp [Fl.eq, Fl.toQ, hx]), if_neg (by simp [Fl.isinf])]
    exact ⟨x, Fl.Is.num hx, r2.2, hx, by simp [Fl.sgn]⟩

end Takum
