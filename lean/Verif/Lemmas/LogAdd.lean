import Verif.Lemmas.Call
import Verif.Props.LinArith

/-! # The floats made from logarithmic takums: odd and strictly increasing; sums of them -/

namespace Takum
open Spec

/-- The number that a logarithmic takum is converted to. -/
def xv (L : Libm) (A : Src) (w : W) (t : T w) : ℚ :=
  match logTo L A w t with
  | .ok f => f.toQ
  | .error _ => 0

theorem xv_of {L : Libm} {A : Src} {w : W} {t : T w} {f : Fl} {v : ℚ} (h : logTo L A w t = .ok f) (hf : f.Is v) :
    xv L A w t = v := by
  unfold xv; rw [h]; exact hf.toQ

theorem xv_zero {L : Libm} (hL : L.Powers) (A : Src) (w : W) : xv L A w 0#w.n = 0 :=
  xv_of (logTo_zero hL A w) (Fl.Is.zero _)

theorem fmt_std {A : Src} (hA : A ≠ .f32) : A.fmt = b64 ∨ A.fmt = x80 := by
  cases A
  · exact absurd rfl hA
  · exact Or.inl rfl
  · exact Or.inr rfl

theorem logTo_xv {L : Libm} (hL : L.Powers) {A : Src} (hA : A ≠ .f32) {w : W} {t : T w} (h : t ≠ nar w.n) :
    ∃ f, logTo L A w t = .ok f ∧ f.Is (xv L A w t) ∧ A.fmt.In (xv L A w t) ∧ |xv L A w t| ≤ (2 : ℚ) ^ (300 : ℤ) := by
  by_cases h0 : t = 0#w.n
  · subst h0
    refine ⟨_, logTo_zero hL A w, ?_⟩
    rw [xv_zero hL]
    exact ⟨Fl.Is.zero _, ⟨Fmt.Rep.zero _, by rw [abs_zero]; positivity⟩, by rw [abs_zero]; positivity⟩
  obtain ⟨l, f, z, -, -, -, z2, z3, -, e, i, n, -⟩ := logTo_finite hL A hA w ⟨h0, h⟩
  have hx := xv_of e i
  rw [hx]
  refine ⟨f, e, i, n, ?_⟩
  obtain ⟨a, b, -⟩ := rq_mid (fmt_std hA) z2 z3
  rw [sg_abs, abs_of_pos (lt_of_lt_of_le (by positivity) a)]
  exact b

theorem expo_zero (A : Src) (w : W) (s : Bool) : expo A w (.zero s) = .zero s := by cases A <;> cases w <;> rfl

theorem xv_neg {L : Libm} (hL : L.Powers) (hS : L.Specials) {A : Src} (hA : A ≠ .f32) {w : W} {t : T w} (h : t ≠ nar w.n) :
    xv L A w (-t) = -xv L A w t := by
  by_cases h0 : t = 0#w.n
  · subst h0
    rw [show -(0#w.n) = 0#w.n by simp, xv_zero hL, neg_zero]
  have rt : Regular t := ⟨h0, h⟩
  obtain ⟨hm, -, rn, he⟩ := regular_neg (by have := w.n_pos; omega : 5 ≤ w.n) rt
  obtain ⟨l, f, z, -, i, p, -, -, -, e, j, -, -⟩ := logTo_finite hL A hA w rt
  obtain ⟨l', f', z', -, i', p', -, -, -, e', j', -, -⟩ := logTo_finite hL A hA w rn
  have hz : z' = z := by
    rw [he] at i'
    rcases i.cases with ⟨h1, rfl⟩ | ⟨h1, s, rfl⟩
    · rw [i'.eq_num h1, p] at p'; injection p' with p'; exact p'.symm
    · rw [h1] at i'
      rcases i'.cases with ⟨h2, _⟩ | ⟨_, s', rfl⟩
      · exact absurd rfl h2
      rw [expo_zero, hS.exp_zero] at p p'
      rw [p] at p'; injection p' with p'; exact p'.symm
  rw [xv_of e j, xv_of e' j', hz, hm]
  cases t.msb <;> simp [sg]

theorem logTo_gap (w : W) (A : Src) (hA : A ≠ .f32) (hw : A = .f64 → w ≠ .w64) :
    2 * lamOf A w < 499 / 1000 / 2 ^ (w.n - 5) := by
  cases A
  · exact absurd rfl hA
  · cases w
    · decide +kernel
    · decide +kernel
    · decide +kernel
    · exact absurd rfl (hw rfl)
  · cases w <;> decide +kernel

/-- Two positive takums. -/
theorem xv_mono_pos {L : Libm} (hL : L.Powers) (hA' : L.Accurate) {A : Src} (hA : A ≠ .f32) {w : W} (hw : A = .f64 → w ≠ .w64)
    {a b : T w} (ra : Regular a) (rb : Regular b) (hs : a.msb = b.msb) (h : ell a < ell b) :
    sg a.msb * xv L A w a < sg b.msb * xv L A w b ∧ 0 < sg a.msb * xv L A w a := by
  have pstd : powF A w = b64 ∨ powF A w = x80 := by cases A <;> cases w <;> simp_all [powF]
  obtain ⟨f, u, e1, i1, -, pu, l1⟩ := logTo_log hL hA' A hA w hw ra
  obtain ⟨g, v, e2, i2, -, pv, l2⟩ := logTo_log hL hA' A hA w hw rb
  have s2 : ∀ s : Bool, sg s * sg s = 1 := by intro s; cases s <;> norm_num [sg]
  rw [xv_of e1 i1, xv_of e2 i2, ← mul_assoc, ← mul_assoc, s2, s2, one_mul, one_mul]
  refine ⟨?_, pu⟩
  have pu' : (0 : ℝ) < u := by exact_mod_cast pu
  have pv' : (0 : ℝ) < v := by exact_mod_cast pv
  have hne : a ≠ b := by rintro rfl; exact lt_irrefl _ h
  have gap := ell_gap hs hne
  rw [abs_of_pos (sub_pos.mpr h)] at gap
  have gap' : 1 / 2 ^ (w.n - 5) ≤ ell b - ell a := by
    refine le_trans ?_ gap
    apply div_le_div_of_nonneg_right (le_max_left _ _); positivity
  have g1 : (1 : ℝ) / 2 ^ (w.n - 5) ≤ (ell b : ℝ) - ell a := by
    have := (Rat.cast_le (K := ℝ)).mpr gap'; push_cast at this; exact this
  have g2 : 2 * ((lamOf A w : ℚ) : ℝ) < 499 / 1000 * (1 / 2 ^ (w.n - 5)) := by
    have := (Rat.cast_lt (K := ℝ)).mpr (logTo_gap w A hA hw); push_cast at this; rw [mul_one_div]; exact this
  have hd : (0 : ℝ) < 1 / 2 ^ (w.n - 5) := by positivity
  have hκ : |2 * Real.log (sqe (powF A w)) - 1| ≤ 1 / 2 ^ 49 := by
    refine (sqe_log pstd).trans ?_
    have := (sqe_sq pstd).2
    have : ((kap (powF A w) : ℚ) : ℝ) ≤ 1 / 2 ^ 50 := by
      have := (Rat.cast_le (K := ℝ)).mpr this; push_cast at this; exact this
    nlinarith
  have hb := abs_le.mp hκ
  have B1 : 0.4999 ≤ Real.log (sqe (powF A w)) := by norm_num at hb ⊢; linarith
  have hl : Real.log u < Real.log v := by
    rw [abs_le] at l1 l2
    have : (ell a : ℝ) * Real.log (sqe (powF A w)) + 0.4999 * (1 / 2 ^ (w.n - 5)) ≤ (ell b : ℝ) * Real.log (sqe (powF A w)) := by
      generalize (1 : ℝ) / 2 ^ (w.n - 5) = d at *
      nlinarith
    norm_num at g2 this ⊢
    linarith [l1.2, l2.1]
  exact_mod_cast (Real.log_lt_log_iff pu' pv').mp hl

theorem xv_sign {L : Libm} (hL : L.Powers) {A : Src} (hA : A ≠ .f32) {w : W} {t : T w} (h : Regular t) :
    0 < sg t.msb * xv L A w t := by
  obtain ⟨l, f, z, -, -, -, -, -, -, e, i, -, p⟩ := logTo_finite hL A hA w h
  rw [xv_of e i]
  have : 0 < A.fmt.rq z := lt_of_lt_of_le (by positivity) p
  cases t.msb <;> simpa [sg] using this

/-- The conversion is strictly increasing: the same function `val` as for the values. -/
theorem xv_lt {L : Libm} (hL : L.Powers) (hA' : L.Accurate) {A : Src} (hA : A ≠ .f32) {w : W} (hw : A = .f64 → w ≠ .w64)
    {a b : T w} (ha : a ≠ nar w.n) (hb : b ≠ nar w.n) (h : a.toInt < b.toInt) : xv L A w a < xv L A w b := by
  have h8 := w.n_pos
  have h1 : 1 ≤ w.n := by omega
  by_cases a0 : a = 0#w.n
  · subst a0
    have b0 : b ≠ 0#w.n := by rintro rfl; exact lt_irrefl _ h
    have rb : Regular b := ⟨b0, hb⟩
    have hm : b.msb = false := (toInt_pos_iff h1 rb).mp (by simpa using h)
    have := xv_sign hL hA rb
    rw [xv_zero hL]; rw [hm] at this; simpa [sg] using this
  have ra : Regular a := ⟨a0, ha⟩
  by_cases b0 : b = 0#w.n
  · subst b0
    have hm : a.msb = true := (toInt_neg_iff h1 ra).mp (by simpa using h)
    have := xv_sign hL hA ra
    rw [xv_zero hL]; rw [hm] at this; simpa [sg] using this
  have rb : Regular b := ⟨b0, hb⟩
  have sa := xv_sign hL hA ra
  have sb := xv_sign hL hA rb
  have hv := (val_lt_iff (by omega : 5 ≤ w.n) lam_strictMono lam_pos ha hb).mpr h
  unfold val at hv
  rw [if_neg a0, if_neg b0] at hv
  cases ma : a.msb <;> cases mb : b.msb
  · simp only [ma, mb] at hv
    simp at hv
    have := xv_mono_pos hL hA' hA hw ra rb (ma.trans mb.symm) (lam_strictMono.lt_iff_lt.mp hv)
    rw [ma, mb] at this
    simpa [sg] using this.1
  · have q1 := (toInt_pos_iff h1 ra).mpr ma
    have q2 := (toInt_neg_iff h1 rb).mpr mb
    omega
  · rw [ma] at sa; rw [mb] at sb
    simp [sg] at sa sb
    linarith
  · simp only [ma, mb] at hv
    simp at hv
    have := xv_mono_pos hL hA' hA hw rb ra (mb.trans ma.symm) (lam_strictMono.lt_iff_lt.mp hv)
    rw [ma, mb] at this
    simpa [sg] using this.1

theorem xv_le_iff {L : Libm} (hL : L.Powers) (hA' : L.Accurate) {A : Src} (hA : A ≠ .f32) {w : W} (hw : A = .f64 → w ≠ .w64)
    {a b : T w} (ha : a ≠ nar w.n) (hb : b ≠ nar w.n) : xv L A w a < xv L A w b ↔ a.toInt < b.toInt := by
  refine ⟨fun h => ?_, xv_lt hL hA' hA hw ha hb⟩
  by_contra hc
  rcases lt_or_eq_of_le (not_lt.mp hc) with h' | h'
  · exact absurd (xv_lt hL hA' hA hw hb ha h') (not_lt.mpr h.le)
  · rw [BitVec.eq_of_toInt_eq h'] at h; exact lt_irrefl _ h

/-! ## Sums in `long double` -/

theorem In_multiple {F : Fmt} {v : ℚ} (h : F.In v) : ∃ k : ℤ, v = k * (2 : ℚ) ^ F.emin := by
  obtain ⟨m, e, h1, -, h3⟩ := h.1
  obtain ⟨d, hd⟩ := Int.eq_ofNat_of_zero_le (show 0 ≤ e - F.emin by omega)
  refine ⟨m * 2 ^ d, ?_⟩
  have : e = F.emin + (d : ℤ) := by omega
  rw [h1, this, zpow_add₀ (by norm_num)]
  push_cast; rw [zpow_natCast]; ring

/-- A sum of two numbers of the format is rounded to zero only if it is zero. -/
theorem rq_sum_pos {F : Fmt} (hp : 1 ≤ F.prec) {a b : ℚ} (ha : F.In a) (hb : F.In b) : 0 < F.rq (a + b) ↔ 0 < a + b := by
  constructor
  · intro h
    by_contra hc
    have := rq_nonpos' F (not_lt.mp hc)
    linarith
  · intro h
    obtain ⟨j, hj⟩ := In_multiple ha
    obtain ⟨k, hk⟩ := In_multiple hb
    apply F.rq_pos hp
    have e : a + b = ((j + k : ℤ) : ℚ) * (2 : ℚ) ^ F.emin := by rw [hj, hk]; push_cast; ring
    have hE : (0 : ℚ) < (2 : ℚ) ^ F.emin := by positivity
    rw [e] at h ⊢
    have : (0 : ℚ) < ((j + k : ℤ) : ℚ) := pos_of_mul_pos_left h hE.le
    have : (1 : ℚ) ≤ ((j + k : ℤ) : ℚ) := by
      have : 0 < j + k := by exact_mod_cast this
      exact_mod_cast this
    nlinarith

theorem rq_sum_neg {F : Fmt} (hp : 1 ≤ F.prec) {a b : ℚ} (ha : F.In a) (hb : F.In b) : F.rq (a + b) < 0 ↔ a + b < 0 := by
  have := rq_sum_pos hp (In_neg ha) (In_neg hb)
  rw [show -a + -b = -(a + b) by ring, F.rq_neg] at this
  constructor
  · intro h; have := this.mp (by linarith); linarith
  · intro h; have := this.mpr (by linarith); linarith

theorem sum_x80 {a b : ℚ} (ha : |a| ≤ (2 : ℚ) ^ (300 : ℤ)) (hb : |b| ≤ (2 : ℚ) ^ (300 : ℤ)) : x80.In (x80.rq (a + b)) := by
  refine ⟨x80.rq_rep (by decide) _, ?_⟩
  have h : |a + b| ≤ (2 : ℚ) ^ (301 : ℤ) := by
    refine (abs_add_le _ _).trans ((add_le_add ha hb).trans ?_)
    decide +kernel
  exact lt_of_le_of_lt (x80.abs_rq_le (by decide) (Fmt.Rep.zpow (by decide) (by decide)) h)
    (zpow_lt_zpow_right₀ (by norm_num) (by decide))

end Takum
