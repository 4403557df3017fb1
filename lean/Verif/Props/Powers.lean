import Verif.Lemmas.Powers
import Verif.Lemmas.IdealInv
import Verif.Props.LogArith

/-!
# Integer powers and roots that use the math library (C52, C61), powers (C62)
-/

namespace Takum
open Spec

/-- C61: integer powers of both families and all widths.  NaR exactly for NaR and for 0 with an exponent
`≤ 0` (as documented), 0 exactly for 0 with a positive exponent, otherwise the sign of the power; exponent
0 gives 1.  Hence overflow and underflow saturate. -/
theorem integer_power_sign (L : Libm) (hL : L.Powers) (hS : L.Specials) (hG : L.Logs) (hP : L.PowSigns) (k : Kind) (w : W)
    (t : T w) (n : BitVec 64) :
    ∃ v : T w, integerPowerOf L k w t n = .ok v ∧
      (v = nar w.n ↔ t = nar w.n ∨ (t = 0#w.n ∧ n.toInt ≤ 0)) ∧
      (v = 0#w.n ↔ t = 0#w.n ∧ 0 < n.toInt) ∧
      (v ≠ nar w.n → (v.toInt < 0 ↔ t.toInt < 0 ∧ n.toInt % 2 = 1)) ∧
      (t ≠ nar w.n → t ≠ 0#w.n → n = 0#64 → v = ONE w) := by
  have h8 := w.n_pos
  have h1 : 1 ≤ w.n := by omega
  have hnz := nar_ne_zero h1
  -- the versions that work in `long double`
  have main : ∀ F : C (T w), (F = if t = NAR w.n ∨ (t = 0#w.n ∧ n.toInt ≤ 0) then .ok (NAR w.n) else do
        let f ← eTo L k w t
        eFrom L k w (intPowFix t n.toInt (L.pow x80 f (Fl.ofInt x80 n.toInt)))) →
      ∃ v : T w, F = .ok v ∧ (v = nar w.n ↔ t = nar w.n ∨ (t = 0#w.n ∧ n.toInt ≤ 0)) ∧
        (v = 0#w.n ↔ t = 0#w.n ∧ 0 < n.toInt) ∧ (v ≠ nar w.n → (v.toInt < 0 ↔ t.toInt < 0 ∧ n.toInt % 2 = 1)) ∧
        (t ≠ nar w.n → t ≠ 0#w.n → n = 0#64 → v = ONE w) := by
    intro F hF
    rw [NAR_eq h1] at hF
    by_cases hc : t = nar w.n ∨ (t = 0#w.n ∧ n.toInt ≤ 0)
    · rw [if_pos hc] at hF
      refine ⟨_, hF, by simp [hc], ?_, fun h => absurd rfl h, fun a b => ?_⟩
      · rcases hc with hc | hc
        · simp [hc, hnz]
        · simp only [hc, hnz, false_iff]; rintro ⟨-, h⟩; omega
      · rcases hc with hc | hc
        · exact absurd hc a
        · exact absurd hc.1 b
    · rw [if_neg hc] at hF
      have ht : t ≠ nar w.n := fun h => hc (Or.inl h)
      obtain ⟨f, v, e, i, n1, a, b, -⟩ := eTo_fin hL k w ht
      obtain ⟨z, hz, iz, z0, zn, z1⟩ := intPow_core hS hP i n1 a b n (fun h => hc (Or.inr h))
      obtain ⟨y, ey, y1, y2, y3⟩ := eFrom_fin hG k w hz iz
      rw [e, ok_bind] at hF
      refine ⟨y, by rw [hF, ey], by simp [y1, hc], ?_, fun _ => by rw [y3, zn], fun _ _ h => ?_⟩
      · rw [y2, z0]
        constructor
        · intro h; exact ⟨h, by by_contra h'; exact hc (Or.inr ⟨h, by omega⟩)⟩
        · exact fun h => h.1
      · rw [z1 h, eFrom_one hS] at ey
        exact (Except.ok.inj ey).symm
  cases k
  · by_cases hw : w = .w64
    · subst hw; exact main _ rfl
    · obtain ⟨s1, s2⟩ := integerPower_special L w hw t n
      by_cases hr : Regular t
      · obtain ⟨v, e, rv, hv⟩ := integerPower_regular L w hw t hr n
        have l0 := (integerPower_laws L w hw t hr).1
        refine ⟨v, e, by simp [rv.2, hr.1, hr.2], by simp [rv.1, hr.1], fun _ => hv, fun _ _ h => ?_⟩
        subst h
        have e' : integerPower L w t 0#64 = .ok v := e
        rw [l0] at e'; exact (Except.ok.inj e').symm
      · have hcase : (t = nar w.n ∨ (t = 0#w.n ∧ n.toInt ≤ 0)) ∨ (t = 0#w.n ∧ 0 < n.toInt) := by
          by_cases ht : t = nar w.n
          · exact Or.inl (Or.inl ht)
          · have : t = 0#w.n := by by_contra h; exact hr ⟨h, ht⟩
            rcases le_or_gt n.toInt 0 with h | h
            · exact Or.inl (Or.inr ⟨this, h⟩)
            · exact Or.inr ⟨this, h⟩
        have hdead : t ≠ nar w.n → t ≠ 0#w.n → n = 0#64 → False := fun a b _ => hr ⟨b, a⟩
        rcases hcase with hc | hc
        · refine ⟨_, s1.mpr hc, by simp [hc], ?_, fun h => absurd rfl h, fun a b c => (hdead a b c).elim⟩
          rcases hc with hc | hc
          · simp [hc, hnz]
          · simp only [hnz, false_iff]; rintro ⟨-, h⟩; omega
        · refine ⟨_, s2.mpr hc, ?_, by simp [hc], fun _ => ?_, fun a b c => (hdead a b c).elim⟩
          · simp only [hnz.symm, false_iff]
            rintro (h | h)
            · rw [hc.1] at h; exact hnz h.symm
            · omega
          · rw [hc.1]; simp
  · exact main _ rfl

example : ideal.Powers ∧ ideal.Specials ∧ ideal.Logs ∧ ideal.PowSigns ∧ Regular (0xb123456789abcdef#64 : T .w64) ∧
    (-3#64).toInt % 2 = 1 :=
  ⟨ideal_powers, ideal_specials, ideal_logs, ideal_powSigns, by unfold Regular; decide, by decide⟩

/-! ## C52 -/

/-- The exponent `1.0l / (long double)n`. -/
theorem root_exponent {n : BitVec 64} (hn : n.toInt ≠ 0) : ∃ y : ℚ, Fl.div x80 (.num 1) (Fl.ofInt x80 n.toInt) = .num y ∧ y ≠ 0 ∧
    |y| ≤ 1 ∧ x80.In y ∧ (y < 0 ↔ n.toInt < 0) ∧ (|y| = 1 ↔ |n.toInt| = 1) ∧ (|n.toInt| ≠ 1 → ¬ ∃ k : ℤ, y = k) := by
  have io := Fl.Is.ofInt_in (int64_in n)
  have nq : ((n.toInt : ℤ) : ℚ) ≠ 0 := by exact_mod_cast hn
  set N := n.toInt with hN
  have hb : |N| ≤ 2 ^ 63 := by
    have h1 := n.le_toInt
    have h2 := n.toInt_lt
    rw [abs_le]; constructor
    · simpa using h1
    · have : N < 2 ^ 63 := by simpa using h2
      omega
  have ha1 : 1 ≤ |N| := Int.one_le_abs hn
  have q1 : (1 : ℚ) ≤ |(N : ℚ)| := by exact_mod_cast ha1
  have q2 : |(N : ℚ)| ≤ 2 ^ 63 := by exact_mod_cast hb
  have e : |1 / (N : ℚ)| = 1 / |(N : ℚ)| := by rw [abs_div, abs_one]
  have hx : |1 / (N : ℚ)| ≤ 1 := by rw [e]; exact div_le_one_of_le₀ q1 (abs_nonneg _)
  have hy : (2 : ℚ) ^ (-63 : ℤ) ≤ |1 / (N : ℚ)| := by
    rw [e, le_div_iff₀ (by linarith)]
    calc (2 : ℚ) ^ (-63 : ℤ) * |(N : ℚ)| ≤ (2 : ℚ) ^ (-63 : ℤ) * 2 ^ 63 := mul_le_mul_of_nonneg_left q2 (by positivity)
      _ = 1 := by norm_num
  have r1 : x80.Rep (1 : ℚ) := ⟨1, 0, by norm_num, by decide, by decide⟩
  have u1 := x80.abs_rq_le (by decide) r1 hx
  have u2 : (2 : ℚ) ^ (-63 : ℤ) ≤ |x80.rq (1 / (N : ℚ))| := by
    rw [← Fmt.abs_rq]; exact x80.le_rq (by decide) (Fmt.Rep.zpow (by decide) (by decide)) hy
  have y0 : x80.rq (1 / (N : ℚ)) ≠ 0 := abs_pos.mp (lt_of_lt_of_le (by positivity) u2)
  have iy : x80.In (x80.rq (1 / (N : ℚ))) :=
    ⟨x80.rq_rep (by decide) _, lt_of_le_of_lt u1 (by decide +kernel)⟩
  have hd := Fl.Is.div (F := x80) (Fl.Is.num one_ne_zero) io nq iy.2
  have big : |N| ≠ 1 → |x80.rq (1 / (N : ℚ))| ≤ 1 / 2 := by
    intro h
    have h2 : 2 ≤ |N| := by omega
    have q3 : (2 : ℚ) ≤ |(N : ℚ)| := by exact_mod_cast h2
    apply x80.abs_rq_le (by decide)
    · have : x80.Rep ((2 : ℚ) ^ (-1 : ℤ)) := Fmt.Rep.zpow (by decide) (by decide)
      norm_num at this ⊢; exact this
    · rw [e]; exact one_div_le_one_div_of_le (by norm_num) q3
  refine ⟨_, hd.eq_num y0, y0, u1, iy, ?_, ?_, ?_⟩
  · constructor
    · intro h
      by_contra hc
      have hpos : 0 < N := by omega
      have : (0 : ℚ) ≤ 1 / (N : ℚ) := by
        have : (0 : ℚ) < N := by exact_mod_cast hpos
        positivity
      have := x80.rq_nonneg this
      linarith
    · intro h
      have : (1 : ℚ) / (N : ℚ) ≤ 0 := by
        have : (N : ℚ) < 0 := by exact_mod_cast h
        exact div_nonpos_of_nonneg_of_nonpos (by norm_num) this.le
      exact lt_of_le_of_ne (rq_nonpos' x80 this) y0
  · constructor
    · intro h; by_contra hc; have := big hc; rw [h] at this; norm_num at this
    · intro h
      have hN1 : |(N : ℚ)| = 1 := by exact_mod_cast h
      rw [← Fmt.abs_rq, e, hN1, div_one]; exact x80.rq_of_rep r1
  · rintro h ⟨k, hk⟩
    have b := big h
    rw [hk] at b y0
    have k0 : k ≠ 0 := by rintro rfl; simp at y0
    have : (1 : ℚ) ≤ |(k : ℚ)| := by exact_mod_cast Int.one_le_abs k0
    linarith

/-- The linear root, completely: NaR for NaR, index 0, a negative radicand with an index other than 1 and
-1, and for 0 with a negative index; 0 for 0 with a positive index; otherwise the sign of the radicand. -/
theorem lin_root_sign (L : Libm) (hN : L.NaNs) (hL : L.Powers) (hS : L.Specials) (hP : L.PowSigns) (w : W) (t : T w)
    (n : BitVec 64) :
    ∃ v : T w, linRoot L w t n = .ok v ∧
      (v = nar w.n ↔ t = nar w.n ∨ n.toInt = 0 ∨ (t.toInt < 0 ∧ |n.toInt| ≠ 1) ∨ (t = 0#w.n ∧ n.toInt < 0)) ∧
      (v = 0#w.n ↔ t = 0#w.n ∧ 0 < n.toInt) ∧
      (v ≠ nar w.n → (v.toInt < 0 ↔ t.toInt < 0)) := by
  have h8 := w.n_pos
  have h1 : 1 ≤ w.n := by omega
  have hnz := nar_ne_zero h1
  have nneg : (nar w.n).toInt < 0 := by rw [isNeg_iff]; exact nar_msb h1
  have e0 : n = 0#64 ↔ n.toInt = 0 :=
    ⟨by rintro rfl; rfl, fun h => BitVec.eq_of_toInt_eq (by rw [h]; rfl)⟩
  have cond : (n = 0#64 ∨ (isNeg t ∧ ¬ odd n.toInt)) ↔ (n.toInt = 0 ∨ (t.toInt < 0 ∧ n.toInt % 2 = 0)) := by
    rw [e0, isNeg_eq, ← isNeg_iff, odd_iff]
    constructor <;> rintro (h | h)
    · exact Or.inl h
    · exact Or.inr ⟨h.1, by omega⟩
    · exact Or.inl h
    · exact Or.inr ⟨h.1, by omega⟩
  unfold linRoot
  rw [NAR_eq h1]
  by_cases hc : n = 0#64 ∨ (isNeg t ∧ ¬ odd n.toInt)
  · rw [if_pos hc]
    rw [cond] at hc
    refine ⟨_, rfl, ?_, ?_, fun h => absurd rfl h⟩
    · simp only [true_iff]
      rcases hc with h | h
      · exact Or.inr (Or.inl h)
      · refine Or.inr (Or.inr (Or.inl ⟨h.1, ?_⟩))
        intro h'
        rcases (abs_eq (by norm_num : (0 : ℤ) ≤ 1)).mp h' with h' | h' <;> omega
    · simp only [hnz, false_iff]
      rintro ⟨rfl, h⟩
      rcases hc with h' | h'
      · omega
      · simp at h'
  rw [if_neg hc]
  rw [cond] at hc
  push Not at hc
  obtain ⟨n0, hodd⟩ := hc
  obtain ⟨y, ey, y0, y1, iy, yn, ya, yi⟩ := root_exponent n0
  rw [ey]
  have F0 : ∀ r : Fl, (do linFromExtended w r : C (T w)) = eFrom L .lin w r := fun r => rfl
  by_cases ht : t = nar w.n
  · subst ht
    refine ⟨nar w.n, ?_, by simp, by simp [hnz], fun h => absurd rfl h⟩
    rw [show linToExtended w (nar w.n) = .ok .nan from linToExtended_nar w, ok_bind, hN.pow_left _ _ (by simp)]
    exact linFrom_nan .ext w
  obtain ⟨f, v, e, i, iv, v0, vn, v2, v3, -⟩ := eTo_fin hL .lin w ht
  rw [show linToExtended w t = .ok f from e, ok_bind]
  by_cases t0 : t = 0#w.n
  · have hv := v0.mpr t0
    subst hv
    rcases i.cases with ⟨h, _⟩ | ⟨_, s, rfl⟩
    · exact absurd rfl h
    rcases lt_or_gt_of_ne n0 with hneg | hpos
    · have hinf := hS.zero_neg x80 s y (yn.mpr hneg)
      refine ⟨nar w.n, ?_, by simp [t0, hneg], by simp [hnz]; omega, fun h => absurd rfl h⟩
      generalize L.pow x80 (.zero s) (.num y) = r at *
      cases r with
      | inf b => show linFrom .ext w (.inf b) = _; exact linFrom_inf .ext w b
      | _ => simp [Fl.isinf] at hinf
    · have hy : 0 < y := by
        rcases lt_or_gt_of_ne y0 with h | h
        · have := yn.mp h; omega
        · exact h
      obtain ⟨s', e'⟩ := hP.zero_pos x80 s y hy
      refine ⟨0#w.n, ?_, ?_, by simp [t0, hpos], fun _ => by rw [t0]⟩
      · rw [e']
        have : (t != 0#w.n) = false := by simp [t0]
        dsimp only
        rw [this, Bool.and_false, if_neg (by decide)]
        exact linFrom_zero .ext w s'
      · simp only [hnz.symm, false_iff]
        rintro (h | h | h | h)
        · exact ht h
        · exact n0 h
        · rw [t0] at h; simp at h
        · omega
  have vne : v ≠ 0 := fun h => t0 (v0.mp h)
  rw [i.eq_num vne]
  by_cases hb : t.toInt < 0 ∧ |n.toInt| ≠ 1
  · refine ⟨nar w.n, ?_, by simp [hb], by simp [hnz, t0], fun h => absurd rfl h⟩
    rw [hP.not_int x80 v y (vn.mpr hb.1) (yi hb.2)]
    exact linFrom_nan .ext w
  · have hp : 0 < v ∨ |y| = 1 := by
      rcases lt_or_gt_of_ne vne with h | h
      · right; rw [ya]; by_contra hh; exact hb ⟨vn.mp h, hh⟩
      · exact Or.inl h
    have hint : 0 < v ∨ ∃ k : ℤ, y = k := by
      rcases hp with h | h
      · exact Or.inl h
      · refine Or.inr ?_
        rcases (abs_eq (by norm_num : (0 : ℚ) ≤ 1)).mp h with h | h
        · exact ⟨1, by rw [h]; norm_num⟩
        · exact ⟨-1, by rw [h]; norm_num⟩
    obtain ⟨z, ez, z0⟩ := hP.root v y (v3 t0) v2 iv y0 y1 iy hp
    obtain ⟨-, r2, r3⟩ := hP.regular x80 (Or.inr rfl) v y vne y0 iv iy hint
    rw [ez] at r2 r3
    obtain ⟨u, eu, u1, u2, u3⟩ := eFrom_fin (L := ideal) ideal_logs .lin w (Fl.Is.num z0) r2.2
    refine ⟨u, ?_, ?_, by simp [u2, z0, t0], fun _ => ?_⟩
    · rw [ez]
      have : Fl.eq (.num z) (.zero false) = false := by simp [Fl.eq, Fl.toQ, z0]
      dsimp only
      rw [this, Bool.false_and, if_neg (by decide)]
      exact eu
    · simp only [u1, false_iff]
      rintro (h | h | h | h)
      · exact ht h
      · exact n0 h
      · exact hb h
      · exact t0 h.1
    · rw [u3]
      have r3' : z < 0 ↔ v < 0 ∧ ∃ k : ℤ, y = 2 * k + 1 := by rw [← r3]; simp [Fl.sgn]
      rw [r3', ← vn]
      constructor
      · exact fun h => h.1
      · intro h
        refine ⟨h, ?_⟩
        rcases hp with h' | h'
        · linarith
        rcases (abs_eq (by norm_num : (0 : ℚ) ≤ 1)).mp h' with h' | h'
        · exact ⟨0, by rw [h']; norm_num⟩
        · exact ⟨-1, by rw [h']; norm_num⟩

example : ideal.NaNs ∧ ideal.Powers ∧ ideal.Specials ∧ ideal.PowSigns :=
  ⟨ideal_nans, ideal_powers, ideal_specials, ideal_powSigns⟩

/-- C52 is false: a negative radicand has no odd root other than the first one; the cube root of -8 is NaR,
although the manual page restricts NaR to even indices and the value -2 is a takum. -/
theorem lin_root_refuted (L : Libm) (hN : L.NaNs) (hL : L.Powers) (hS : L.Specials) (hP : L.PowSigns) :
    linRoot L .w16 0xb000#16 3#64 = .ok (nar 16) ∧ linVal (0xb000#16 : BitVec 16) = some (-8) ∧
      linVal (0xb800#16 : BitVec 16) = some (-2) ∧ ((-2 : ℚ) ^ 3 = -8) := by
  obtain ⟨v, e, h, -⟩ := lin_root_sign L hN hL hS hP .w16 0xb000#16 3#64
  have : v = nar 16 := h.mpr (Or.inr (Or.inr (Or.inl (by decide))))
  exact ⟨by rw [← this]; exact e, by decide +kernel, by decide +kernel, by norm_num⟩

/-- C52 for non-negative radicands and for the indices 1 and -1: NaR exactly for index 0 and for 0 with a
negative index, otherwise the sign of the radicand. -/
theorem lin_root_partial (L : Libm) (hN : L.NaNs) (hL : L.Powers) (hS : L.Specials) (hP : L.PowSigns) (w : W) (t : T w)
    (ht : t ≠ nar w.n) (n : BitVec 64) (h : 0 ≤ t.toInt ∨ |n.toInt| = 1) :
    ∃ v : T w, linRoot L w t n = .ok v ∧ (v = nar w.n ↔ n.toInt = 0 ∨ (t = 0#w.n ∧ n.toInt < 0)) ∧
      (v = 0#w.n ↔ t = 0#w.n ∧ 0 < n.toInt) ∧ (v ≠ nar w.n → (v.toInt < 0 ↔ t.toInt < 0)) := by
  obtain ⟨v, e, h1, h2, h3⟩ := lin_root_sign L hN hL hS hP w t n
  refine ⟨v, e, ?_, h2, h3⟩
  rw [h1]
  constructor
  · rintro (a | a | a | a)
    · exact absurd a ht
    · exact Or.inl a
    · rcases h with h | h
      · omega
      · exact absurd h a.2
    · exact Or.inr a
  · rintro (a | a)
    · exact Or.inr (Or.inl a)
    · exact Or.inr (Or.inr (Or.inr a))

example : (0 : ℤ) ≤ (0x7001#16 : T .w16).toInt ∧ |(-1#64).toInt| = 1 ∧ (0x9001#16 : T .w16) ≠ nar 16 := by decide

/-! ## C62 -/

/-- C62: `power` of a positive base never is zero, NaR or negative (overflow and underflow saturate); a zero
base gives 0 for positive and NaR for negative exponents; exponent 0 gives 1. -/
theorem power_sign (L : Libm) (hL : L.Powers) (hS : L.Specials) (hG : L.Logs) (hP : L.PowSigns) (k : Kind) (w : W)
    (a b : T w) (ha : a ≠ nar w.n) (hb : b ≠ nar w.n) :
    ∃ v : T w, BFun.power.call L k w a b = .ok v ∧ (0 < a.toInt → v ≠ nar w.n ∧ 0 < v.toInt) ∧
      (a = 0#w.n → 0 < b.toInt → v = 0#w.n) ∧ (a = 0#w.n → b.toInt < 0 → v = nar w.n) ∧ (b = 0#w.n → v = ONE w) := by
  have h8 := w.n_pos
  have h1 : 1 ≤ w.n := by omega
  have tri : ∀ t : T w, t = 0#w.n ↔ t.toInt = 0 := fun t =>
    ⟨by rintro rfl; simp, fun h => BitVec.eq_of_toInt_eq (by rw [h]; simp)⟩
  obtain ⟨x, p, ex, ix, np, p0, pn, -⟩ := kTo_fin hL k w ha
  obtain ⟨y, q, ey, iy, nq, q0, qn, -⟩ := kTo_fin hL k w hb
  rw [bcall_eq ex ey]
  simp only [BFun.fix, BFun.ev]
  have f1 : ∀ x y, fixPower x y (.num 1) = .num 1 := fun x y => rfl
  have k1 : kFrom L k w (.num 1) = .ok (ONE w) := by
    cases k
    · exact logFrom_one hS w
    · exact linFrom_one w
  by_cases hq : q = 0
  · subst hq
    have hb0 := q0.mp rfl
    rcases iy.cases with ⟨h, _⟩ | ⟨_, s, rfl⟩
    · exact absurd rfl h
    obtain ⟨o1, o2, o3, -⟩ := ONE_facts w
    refine ⟨ONE w, by rw [hS.exp_zero, f1, k1], fun _ => ⟨o3.2, ?_⟩, ?_, ?_, fun _ => rfl⟩
    · cases w <;> decide
    · intro _ h; rw [hb0] at h; simp at h
    · intro _ h; rw [hb0] at h; simp at h
  have hb0 : b ≠ 0#w.n := fun h => hq (q0.mpr h)
  rw [iy.eq_num hq]
  by_cases hp : p = 0
  · subst hp
    have ha0 := p0.mp rfl
    rcases ix.cases with ⟨h, _⟩ | ⟨_, s, rfl⟩
    · exact absurd rfl h
    have hz : ¬ (0 < a.toInt) := by rw [ha0]; simp
    rcases lt_or_gt_of_ne hq with hn | hn
    · have hi := hS.zero_neg (kF k w) s q hn
      have fx : ∀ r, r.isinf = true → fixPower (.zero s) (.num q) r = .nan := by
        intro r hr
        cases r with
        | inf s' => rfl
        | _ => simp [Fl.isinf] at hr
      refine ⟨nar w.n, by rw [fx _ hi]; exact kFrom_bad rfl, fun h => absurd h hz, fun _ h => ?_, fun _ _ => rfl, fun h => absurd h hb0⟩
      have := qn.mp hn; omega
    · obtain ⟨s', e⟩ := hP.zero_pos (kF k w) s q hn
      obtain ⟨v, ev, v1, v2, v3⟩ := kFrom_fin hG (k := k) (w := w) (Fl.Is.zero false) ⟨Fmt.Rep.zero _, by rw [abs_zero]; positivity⟩
      refine ⟨v, ?_, fun h => absurd h hz, fun _ _ => v2.mpr rfl, fun _ h => ?_, fun h => absurd h hb0⟩
      · rw [e]
        exact ev
      · have := qn.mpr h; linarith
  have ha0 : a ≠ 0#w.n := fun h => hp (p0.mpr h)
  rw [ix.eq_num hp]
  by_cases hpos : 0 < p
  · obtain ⟨z, iz, nz, z0, zn⟩ := pow_core hP (kF_std k w) hp hq np nq (Or.inl hpos)
    obtain ⟨v, ev, v1, v2, v3⟩ := kFrom_fin hG iz nz
    refine ⟨v, ev, fun _ => ⟨v1, ?_⟩, fun h => absurd h ha0, fun h => absurd h ha0, fun h => absurd h hb0⟩
    have u1 : v.toInt ≠ 0 := fun h => z0 (v2.mp ((tri v).mpr h))
    have u2 : ¬ v.toInt < 0 := by rw [v3, zn]; rintro ⟨h, -⟩; linarith
    omega
  · have hneg : a.toInt < 0 := pn.mp (lt_of_le_of_ne (not_lt.mp hpos) hp)
    by_cases hint : ∃ j : ℤ, q = j
    · obtain ⟨z, iz, nz, z0, zn⟩ := pow_core hP (kF_std k w) hp hq np nq (Or.inr hint)
      obtain ⟨v, ev, -⟩ := kFrom_fin hG iz nz
      exact ⟨v, ev, fun h => absurd h (by omega), fun h => absurd h ha0, fun h => absurd h ha0, fun h => absurd h hb0⟩
    · rw [hP.not_int _ _ _ (lt_of_le_of_ne (not_lt.mp hpos) hp) hint]
      exact ⟨nar w.n, kFrom_bad rfl, fun h => absurd h (by omega), fun h => absurd h ha0, fun h => absurd h ha0, fun h => absurd h hb0⟩

/-- C62: a negative base of a linear takum.  NaR exactly for exponents that are not integers, otherwise a
non-zero result, negative exactly for odd exponents. -/
theorem power_negative (L : Libm) (hL : L.Powers) (hS : L.Specials) (hG : L.Logs) (hP : L.PowSigns) (w : W)
    (a b : T w) (ha : a ≠ nar w.n) (hneg : a.toInt < 0) (q : ℚ) (hq : linVal b = some q) :
    ∃ v : T w, BFun.power.call L .lin w a b = .ok v ∧ (v = nar w.n ↔ ¬ ∃ j : ℤ, q = j) ∧ v ≠ 0#w.n ∧
      (v ≠ nar w.n → (v.toInt < 0 ↔ ∃ j : ℤ, q = 2 * j + 1)) := by
  have h8 := w.n_pos
  have h1 : 1 ≤ w.n := by omega
  have hb : b ≠ nar w.n := by rintro rfl; unfold linVal at hq; rw [if_pos rfl] at hq; simp at hq
  obtain ⟨x, p, ex, ix, np, p0, pn, -⟩ := kTo_fin hL .lin w ha
  obtain ⟨y, q', ey, iy, nq, q0, qn, hl⟩ := kTo_fin hL .lin w hb
  obtain rfl : q = q' := by have := hl rfl; rw [hq] at this; exact Option.some.inj this
  have hp := pn.mpr hneg
  by_cases hq0 : q = 0
  · obtain ⟨v, ev, -, -, -, v1⟩ := power_sign L hL hS hG hP .lin w a b ha hb
    have hv := v1 (q0.mp hq0)
    subst hv
    obtain ⟨o1, o2, o3, -⟩ := ONE_facts w
    refine ⟨_, ev, ?_, o3.1, fun _ => ?_⟩
    · simp only [o3.2, false_iff, not_not]; exact ⟨0, by rw [hq0]; simp⟩
    · have : ¬ (ONE w).toInt < 0 := by cases w <;> decide
      simp only [this, false_iff]
      rintro ⟨j, hj⟩
      rw [hq0] at hj
      have : (0 : ℤ) = 2 * j + 1 := by exact_mod_cast hj
      omega
  rw [bcall_eq ex ey]
  simp only [BFun.fix, BFun.ev]
  rw [ix.eq_num hp.ne, iy.eq_num hq0]
  by_cases hint : ∃ j : ℤ, q = j
  · obtain ⟨z, iz, nz, z0, zn⟩ := pow_core hP (kF_std .lin w) hp.ne hq0 np nq (Or.inr hint)
    obtain ⟨v, ev, v1, v2, v3⟩ := kFrom_fin hG iz nz
    refine ⟨v, ev, by simp [v1, hint], by simp [v2, z0], fun _ => by rw [v3, zn]; simp [hp]⟩
  · rw [hP.not_int _ _ _ hp hint]
    exact ⟨nar w.n, kFrom_bad rfl, by simp only [true_iff]; exact hint, nar_ne_zero h1, fun h => absurd rfl h⟩

example : linVal (0x4400#16 : T .w16) = some (3 / 2) ∧ linVal (0xB800#16 : T .w16) = some (-2) ∧ (0xa123#16 : T .w16).toInt < 0 ∧
    (0xa123#16 : T .w16) ≠ nar 16 := by decide +kernel

end Takum
