import Verif.ConvSpec
import Verif.Lemmas.Faithful
import Verif.Lemmas.ElemArg
import Verif.Lemmas.IdealAcc
import Verif.Lemmas.RoundTrip

/-!
# Accuracy of the conversions
-/

namespace Takum
open Spec

theorem enc_faithfulLog' {w : W} (s : Bool) {l : Fl} {q : ℚ} (hl : l.Is q) (hq : w.encF.Rep q) :
    ∃ v : T w, fromSAndL w s l = .ok v ∧ FaithfulLog ((sg s : ℚ) * logG q) v := by
  have h8 := w.n_pos
  obtain ⟨v, e, r, hs⟩ := enc_regular (w := w) s hl hq
  exact ⟨v, e, faithfulLog_of (by omega) r hs fun t ht hs' => enc_faithful s hl hq e ht hs'⟩

theorem logEnc_faithful (A : Src) (w : W) (s : Bool) {l : Fl} {q : ℚ} (hl : l.Is q) (hq : (logF A w).Rep q) (hb : |q| ≤ 2 ^ 101) :
    ∃ t : T w, logEnc A w s l = .ok t ∧ Faithful .log ((sg s : ℚ) * logG q) t := by
  have hne : ((sg s : ℚ) : ℝ) * logG q ≠ 0 := by
    have := logG_pos q
    cases s <;> simp [sg, this.ne']
  have dir : ∀ w : W, w.encF.Rep q → ∃ t : T w, fromSAndL w s l = .ok t ∧ Faithful .log ((sg s : ℚ) * logG q) t := by
    intro w h
    obtain ⟨v, e, f⟩ := enc_faithfulLog' (w := w) s hl h
    exact ⟨v, e, f.faithful hne⟩
  have red : ∀ w : W, w.n < W.w64.n → x80.Rep q → ∃ t : T w, (do reduce .w64 w (← fromSAndL .w64 s l)) = .ok t ∧
      Faithful .log ((sg s : ℚ) * logG q) t := by
    intro w hw h
    obtain ⟨v, e, f⟩ := dir .w64 h
    rw [e, ok_bind]; exact f.reduce hw
  cases A
  · cases w
    · obtain ⟨v, e, f⟩ := enc_faithfulLog (w := .w8) s (x := q) (cast32_is hl hb)
      exact ⟨v, e, f.faithful hne⟩
    · exact dir .w16 hq
    · exact dir .w32 (hq.mono (by decide) (by decide))
    · exact dir .w64 hq
  · cases w
    · exact red .w8 (by decide) hq
    · exact red .w16 (by decide) hq
    · exact dir .w32 hq
    · exact dir .w64 hq
  · cases w
    · exact red .w8 (by decide) hq
    · exact red .w16 (by decide) hq
    · exact red .w32 (by decide) hq
    · exact dir .w64 hq

/-- A logarithm that is off by `ε` of itself. -/
theorem exp_log_err' {a r ε : ℝ} (ha : 0 < a) (e0 : 0 ≤ ε) (e1 : ε ≤ 1 / 2 ^ 50) (h : |r - Real.log a| ≤ ε * |Real.log a|) :
    |Real.exp r - a| ≤ 131 * ε * a ∨ (127.5 < Real.log a ∧ 127.5 < r) ∨ (Real.log a < -127.5 ∧ r < -127.5) := by
  by_cases hb : |Real.log a| ≤ 130
  · left
    have h1 : |r - Real.log a| ≤ 130 * ε := by
      have := mul_le_mul_of_nonneg_left hb e0; linarith
    have h2 := Real.abs_exp_sub_one_sub_id_le (x := r - Real.log a) (h1.trans (by norm_num at e1 ⊢; linarith))
    have e : Real.exp r - a = a * (Real.exp (r - Real.log a) - 1) := by
      rw [Real.exp_sub, Real.exp_log ha]; field_simp
    rw [e, abs_mul, abs_of_pos ha, mul_comm]
    apply mul_le_mul_of_nonneg_right _ ha.le
    have h3 : |Real.exp (r - Real.log a) - 1| ≤ (r - Real.log a) ^ 2 + |r - Real.log a| := by
      have := abs_add_le (Real.exp (r - Real.log a) - 1 - (r - Real.log a)) (r - Real.log a)
      rw [sub_add_cancel] at this; linarith
    have h4 : (r - Real.log a) ^ 2 ≤ (130 * ε) ^ 2 := by
      rw [← sq_abs]; gcongr
    have h5 : (130 * ε) ^ 2 ≤ ε := by
      have : (130 * ε) ^ 2 = 16900 * ε * ε := by ring
      rw [this]
      have : 16900 * ε ≤ 1 := by norm_num at e1 ⊢; linarith
      exact mul_le_of_le_one_left e0 this
    linarith
  · right
    push Not at hb
    have := abs_le.mp h
    have h6 : ε * |Real.log a| ≤ 1 / 2 ^ 50 * |Real.log a| := mul_le_mul_of_nonneg_right e1 (abs_nonneg _)
    rcases le_total 0 (Real.log a) with h0 | h0
    · left; rw [abs_of_nonneg h0] at *; norm_num at *; constructor <;> linarith
    · right; rw [abs_of_nonpos h0] at *; norm_num at *; constructor <;> linarith

/-- Every conversion from a float to a logarithmic takum. -/
theorem logFrom_acc {L : Libm} (hL : L.Conforming) (A : Src) (w : W) {f : Fl} {z : ℚ} (hf : f.Is z) (h : A.fmt.In z) :
    ∃ (t : T w) (y : ℝ), logFrom L A w f = .ok t ∧ |y - z| ≤ fromTol A w * |(z : ℝ)| ∧ Faithful .log y t := by
  have tol0 : 0 ≤ fromTol A w := by cases A <;> cases w <;> norm_num [fromTol]
  by_cases hz : z = 0
  · subst hz
    rcases hf.cases with ⟨h0, _⟩ | ⟨_, s, rfl⟩
    · exact absurd rfl h0
    · exact ⟨_, 0, logFrom_zero L A w s, by simp, Faithful.zero _⟩
  have hzp : 0 < |z| := abs_pos.mpr hz
  have hx := logF_std A w
  have hi : (logF A w).In |z| := ⟨(logF_in A w h).1.abs, by rw [abs_abs]; exact (logF_in A w h).2⟩
  obtain ⟨r, h1, h2, h3⟩ := hL.accurate.log _ hx |z| hzp hi
  obtain ⟨r', h1', -, h3'⟩ := hL.logs.finite _ hx |z| hzp hi
  have := h1.unique h1'
  subst this
  obtain ⟨t1, t2⟩ := twoLog_is hx hf hz h1 h2 h3'
  obtain ⟨t, et, ft⟩ := logEnc_faithful A w (decide (z < 0)) t1 t2.1
    (by rw [abs_mul, abs_two, show (2 : ℚ) ^ 101 = 2 * 2 ^ 100 by norm_num]; exact mul_le_mul_of_nonneg_left h3' (by norm_num))
  have e1 := logFrom_eq L A w hf hz
  have eg : logG (2 * r) = Real.exp r := by rw [logG_exp]; congr 1; push_cast; ring
  rw [eg] at ft
  have ha : (0 : ℝ) < |(z : ℝ)| := by exact_mod_cast hzp
  have h3 : |(r : ℝ) - Real.log (|(z : ℝ)|)| ≤ 4 / 2 ^ (logF A w).prec * |Real.log (|(z : ℝ)|)| := by
    have : ((|z| : ℚ) : ℝ) = |(z : ℝ)| := by push_cast; rfl
    rw [this] at h3; exact h3
  have zs : (z : ℝ) = (sg (decide (z < 0)) : ℚ) * |(z : ℝ)| := by
    by_cases hn : z < 0
    · have : (z : ℝ) < 0 := by exact_mod_cast hn
      simp [hn, sg, abs_of_neg this]
    · have : (0 : ℝ) ≤ z := by exact_mod_cast not_lt.mp hn
      simp [hn, sg, abs_of_nonneg this]
  have p53 : b64.prec = 53 := rfl
  have prec80 : x80.prec = 64 := rfl
  have htol : 131 * (4 / 2 ^ (logF A w).prec) ≤ fromTol A w := by
    cases A <;> cases w <;> simp only [logF, fromTol, prec80, p53] <;> norm_num
  rcases exp_log_err' ha (by positivity) (by rcases hx with g | g <;> rw [g] <;> norm_num [prec80, p53]) h3 with hc | hc | hc
  · refine ⟨t, _, e1.trans et, ?_, ft⟩
    conv_lhs => rw [zs]
    rw [← mul_sub, abs_mul]
    have : |((sg (decide (z < 0)) : ℚ) : ℝ)| = 1 := by cases decide (z < 0) <;> simp [sg]
    rw [this, one_mul]; exact hc.trans (mul_le_mul_of_nonneg_right htol ha.le)
  · refine ⟨t, z, e1.trans et, by rw [sub_self, abs_zero]; positivity, ft.congr (same_of_beyond (Real.exp_pos (-127.5)) (Real.exp_pos 127.5) value_range_log ?_)⟩
    have a := (Real.lt_log_iff_exp_lt ha).mp hc.1
    have b := Real.exp_lt_exp.mpr hc.2
    rw [zs]
    cases decide (z < 0)
    · left; simp only [sg, Bool.false_eq_true, if_false, Rat.cast_one, one_mul]; exact ⟨b, a⟩
    · right; left; simp only [sg, if_true, Rat.cast_neg, Rat.cast_one, neg_mul, one_mul]; exact ⟨by linarith, by linarith⟩
  · refine ⟨t, z, e1.trans et, by rw [sub_self, abs_zero]; positivity, ft.congr (same_of_beyond (Real.exp_pos (-127.5)) (Real.exp_pos 127.5) value_range_log ?_)⟩
    have a := (Real.log_lt_iff_lt_exp ha).mp hc.1
    have b := Real.exp_lt_exp.mpr hc.2
    have c := Real.exp_pos r
    rw [zs]
    right; right
    cases decide (z < 0)
    · left; simp only [sg, Bool.false_eq_true, if_false, Rat.cast_one, one_mul]; exact ⟨c, b, ha, a⟩
    · right; simp only [sg, if_true, Rat.cast_neg, Rat.cast_one, neg_mul, one_mul]
      exact ⟨by linarith, by linarith, by linarith, by linarith⟩

/-! ## From logarithmic takums to floats -/

theorem sqe_log32 : |2 * Real.log (sqe b32) - 1| ≤ 1.4 / 2 ^ 24 * (1 + 1 / 2 ^ 20) := by
  have h1 : |sqe b32 ^ 2 - 363916618873 / 133877442384| ≤ 1.4 / 2 ^ 24 * 2.7 - 1 / 10 ^ 20 := by decide +kernel
  have h1' : |((sqe b32 : ℚ) : ℝ) ^ 2 - 363916618873 / 133877442384| ≤ 1.4 / 2 ^ 24 * 2.7 - 1 / 10 ^ 20 := by
    have := (Rat.cast_le (K := ℝ)).mpr h1; push_cast at this; exact this
  have he := Real.exp_one_near_20
  have he2 := Real.exp_one_gt_d9
  have hs : (0 : ℝ) < sqe b32 := by
    have := (sqe_facts (F := b32) (by tauto)).1
    exact_mod_cast lt_trans one_pos this
  have d : |((sqe b32 : ℚ) : ℝ) ^ 2 - Real.exp 1| ≤ 1.4 / 2 ^ 24 * 2.7 := by
    have := abs_sub_le ((sqe b32 : ℝ) ^ 2) (363916618873 / 133877442384) (Real.exp 1)
    rw [abs_sub_comm (363916618873 / 133877442384 : ℝ) (Real.exp 1)] at this
    linarith
  have d2 : |((sqe b32 : ℚ) : ℝ) ^ 2 / Real.exp 1 - 1| ≤ 1.4 / 2 ^ 24 := by
    rw [div_sub_one (Real.exp_pos 1).ne', abs_div, abs_of_pos (Real.exp_pos 1), div_le_iff₀ (Real.exp_pos 1)]
    nlinarith
  have e : 2 * Real.log (sqe b32) - 1 = Real.log ((sqe b32 : ℝ) ^ 2 / Real.exp 1) := by
    rw [Real.log_div (by positivity) (Real.exp_pos 1).ne', Real.log_exp, Real.log_pow]; norm_num
  rw [e]
  refine (abs_log_le d2 (by norm_num)).trans ?_
  norm_num

theorem sqe_log_all {F : Fmt} (hF : F = b32 ∨ F = b64 ∨ F = x80) : |2 * Real.log (sqe F) - 1| ≤ 1.401 / 2 ^ F.prec := by
  have p24 : b32.prec = 24 := rfl
  have p53 : b64.prec = 53 := rfl
  have prec80 : x80.prec = 64 := rfl
  rcases hF with rfl | rfl | rfl
  · refine sqe_log32.trans ?_; rw [p24]; norm_num
  · refine (sqe_log (Or.inl rfl)).trans ?_; unfold kap; rw [p53]; norm_num
  · refine (sqe_log (Or.inr rfl)).trans ?_; unfold kap; rw [prec80]; norm_num

theorem expo_close (A : Src) (w : W) {t : T w} {l : Fl} (hl : l.Is (ell t)) :
    ∃ q, (expo A w l).Is q ∧ (powF A w).In q ∧ |q| ≤ 255 ∧ |(q : ℝ) - (ell t : ℝ)| ≤ 255 / 2 ^ (powF A w).prec := by
  obtain ⟨q, hq, hi, hb, e⟩ := expo_finite A w hl
  refine ⟨q, hq, hi, hb, ?_⟩
  have h0 : |(ell t : ℝ)| ≤ 255 := by exact_mod_cast abs_ell_le t
  have key : ∀ F : Fmt, F = b32 ∨ F = b64 → |((F.rq (ell t) : ℚ) : ℝ) - (ell t : ℝ)| ≤ 255 / 2 ^ F.prec := by
    intro F hF
    by_cases hz : ell t = 0
    · rw [hz, Fmt.rq_zero]; simp; positivity
    have hge : (2 : ℝ) ^ (F.emin + F.prec) ≤ |(ell t : ℝ)| := by
      have h1 : (1 : ℚ) / 2 ^ (w.n - 5) ≤ |ell t| := ell_sep hz
      have h2 : (1 : ℝ) / 2 ^ (w.n - 5) ≤ |(ell t : ℝ)| := by
        have := (Rat.cast_le (K := ℝ)).mpr h1; push_cast at this; exact this
      refine le_trans ?_ h2
      rw [one_div, ← zpow_natCast, ← zpow_neg]
      exact zpow_le_zpow_right₀ (by norm_num) (by rcases hF with rfl | rfl <;> cases w <;> decide)
    have := rq_real_err hge
    rw [Fmt.rq_cast] at this
    refine this.trans ?_
    gcongr
  have pz : (0 : ℝ) ≤ 255 / 2 ^ (powF A w).prec := by positivity
  cases A <;> cases w <;> simp only at e <;> rw [e] <;>
    first
    | (rw [sub_self, abs_zero]; exact pz)
    | exact key b32 (Or.inl rfl)
    | exact key b64 (Or.inr rfl)

theorem logTo_of_pow {L : Libm} (A : Src) (w : W) {t : T w} (h : Regular t) {l : Fl} (e : toL w t = .ok l) {z : ℚ}
    (z1 : L.pow (powF A w) (.num (sqe (powF A w))) (expo A w l) = .num z) (z0 : 0 < z) (z4 : (powF A w).In z)
    (r3 : A.fmt.In (A.fmt.rq z)) :
    ∃ f, logTo L A w t = .ok f ∧ f.Is (sg t.msb * A.fmt.rq z) ∧ A.fmt.In (sg t.msb * A.fmt.rq z) := by
  have ein : ∀ {x : ℚ} {F : Fmt}, F.In x → F.In (sg t.msb * x) := by
    intro x F hx; cases t.msb
    · simpa [sg] using hx
    · simpa [sg] using In_neg hx
  have hm : (Fl.mul (powF A w) (.num (sg t.msb)) (.num z)).Is (sg t.msb * z) := by
    have e1 : (powF A w).rq (sg t.msb * z) = sg t.msb * z := (powF A w).rq_of_rep (ein z4).1
    have := Fl.Is.mul (F := powF A w) (Fl.Is.num (q := sg t.msb) (by cases t.msb <;> simp [sg])) (Fl.Is.num z0.ne')
      (by rw [e1]; exact (ein z4).2)
    rwa [e1] at this
  rcases logTo_eq L A w e with e' | ⟨e0, e'⟩
  · rw [signFactor_regular h, ofInt_unit (powF_std A w), z1] at e'
    refine ⟨_, e', ?_, ein r3⟩
    have := hm.cast (F := A.fmt) (by rw [rq_sg]; exact (ein r3).2)
    rwa [rq_sg] at this
  · rw [signFactor_regular h, ofInt_unit (powF_std A w), z1] at e'
    refine ⟨_, e', ?_, ein r3⟩
    rw [← e0, (powF A w).rq_of_rep z4.1]
    exact hm

/-- The power whose base is the rounded square root of e and whose exponent is the rounded logarithmic value. -/
theorem pow_close {B q l p : ℝ} (hB : 0 < B) (hκ : |2 * Real.log B - 1| ≤ 1.401 * p) (hq : |q| ≤ 255) (hl : |q - l| ≤ 255 * p)
    (p0 : 0 ≤ p) (p1 : p ≤ 1 / 2 ^ 24) : |B ^ q - Real.exp (l / 2)| ≤ 306.3 * p * Real.exp (l / 2) := by
  have e : B ^ q = Real.exp (l / 2) * Real.exp (q * (2 * Real.log B - 1) / 2 + (q - l) / 2) := by
    rw [Real.rpow_def_of_pos hB, ← Real.exp_add]; congr 1; ring
  set d := q * (2 * Real.log B - 1) / 2 + (q - l) / 2 with hd
  have h1 : |d| ≤ 306.2 * p := by
    have a1 : |q * (2 * Real.log B - 1) / 2| ≤ 255 * (1.401 * p) / 2 := by
      rw [abs_div, abs_mul, abs_two]; gcongr
    have a2 : |(q - l) / 2| ≤ 255 * p / 2 := by rw [abs_div, abs_two]; gcongr
    have := abs_add_le (q * (2 * Real.log B - 1) / 2) ((q - l) / 2)
    linarith
  have h2 := Real.abs_exp_sub_one_sub_id_le (x := d) (h1.trans (by norm_num at p1 ⊢; linarith))
  have h3 : |Real.exp d - 1| ≤ d ^ 2 + |d| := by
    have := abs_add_le (Real.exp d - 1 - d) d
    rw [sub_add_cancel] at this; linarith
  have h4 : d ^ 2 ≤ (306.2 * p) ^ 2 := by rw [← sq_abs]; gcongr
  have h5 : (306.2 * p) ^ 2 ≤ 0.1 * p := by
    have : (306.2 * p) ^ 2 = 306.2 ^ 2 * p * p := by ring
    rw [this]
    refine mul_le_mul_of_nonneg_right ?_ p0
    norm_num at p1 ⊢; linarith
  have e2 : B ^ q - Real.exp (l / 2) = (Real.exp d - 1) * Real.exp (l / 2) := by rw [e]; ring
  rw [e2, abs_mul, abs_of_pos (Real.exp_pos _)]
  refine mul_le_mul_of_nonneg_right ?_ (Real.exp_pos _).le
  linarith

/-- Every conversion from a logarithmic takum to a float. -/
theorem logTo_acc {L : Libm} (hL : L.Conforming) (A : Src) (w : W) {t : T w} {x : ℝ} (hx : value .log t = some x)
    (h32 : A = .f32 → L.AccurateF ∧ (x = 0 ∨ ((2 : ℝ) ^ (-100 : ℤ) ≤ |x| ∧ |x| ≤ (2 : ℝ) ^ (100 : ℤ)))) :
    ∃ (f : Fl) (v : ℚ), logTo L A w t = .ok f ∧ f.Is v ∧ A.fmt.In v ∧ |(v : ℝ) - x| ≤ toTol A w * |x| := by
  have h8 := w.n_pos
  have p24 : b32.prec = 24 := rfl
  have p53 : b64.prec = 53 := rfl
  have prec80 : x80.prec = 64 := rfl
  have ht : t ≠ nar w.n := by rw [Ne, ← value_none (k := .log), hx]; simp
  have in0 : ∀ F : Fmt, F.In 0 := fun F => ⟨Fmt.Rep.zero F, by rw [abs_zero]; exact zpow_pos (by norm_num) _⟩
  by_cases t0 : t = 0#w.n
  · subst t0
    rw [value_zero] at hx
    obtain rfl := Option.some.inj hx
    exact ⟨_, 0, logTo_zero hL.powers A w, Fl.Is.zero _, in0 _, by simp⟩
  have hr : Regular t := ⟨t0, ht⟩
  by_cases hA : A = .ext
  · subst hA
    obtain ⟨r, v, e, ha⟩ := kTo_acc hL .log w hx
    refine ⟨r, v, e, ha.is, ha.isIn, ha.close.trans (mul_le_mul_of_nonneg_right ?_ (abs_nonneg x))⟩
    simp only [inTol, toTol]; norm_num
  have hx' : x = (sg t.msb : ℚ) * logG (ell t) := by
    have := logVal_regular (by omega : 1 ≤ w.n) hr
    change logVal _ = _ at hx; rw [this] at hx; simpa using hx.symm
  have hX := logG_pos (ell t)
  have sgn : |((sg t.msb : ℚ) : ℝ)| = 1 := by cases t.msb <;> simp [sg]
  have ax : |x| = logG (ell t) := by rw [hx', abs_mul, sgn, one_mul, abs_of_pos hX]
  obtain ⟨l, el, hl⟩ := toL_regular w t hr
  obtain ⟨q, hq, hi, hb, hd⟩ := expo_close A w hl
  obtain ⟨h1, h2, h3⟩ := sqe_facts (powF_std A w)
  have hB : (0 : ℝ) < sqe (powF A w) := by exact_mod_cast lt_trans one_pos h1
  have hκ := sqe_log_all (powF_std A w)
  have hbr : |(q : ℝ)| ≤ 255 := by exact_mod_cast hb
  set P : ℝ := 1 / 2 ^ (powF A w).prec with hP
  have P0 : 0 ≤ P := by positivity
  have P1 : P ≤ 1 / 2 ^ 24 := by
    rcases powF_std A w with g | g | g <;> rw [hP, g] <;> norm_num [p24, p53, prec80]
  rw [← mul_one_div, ← hP] at hκ hd
  have pc := pow_close hB hκ hbr hd P0 P1
  rw [← logG_exp] at pc
  set X := logG (ell t) with hXd
  set b : ℝ := (sqe (powF A w) : ℝ) ^ (q : ℝ) with hbd
  have bX := abs_le.mp pc
  have PX : P * X ≤ 1 / 2 ^ 24 * X := mul_le_mul_of_nonneg_right P1 hX.le
  have PX0 : 0 ≤ P * X := mul_nonneg P0 hX.le
  have b1 : b ≤ 1.001 * X := by norm_num at PX ⊢; nlinarith [bX.2]
  have near : ∀ z : ℝ, |z - b| ≤ 4 * P * b → |z - X| ≤ 310.4 * P * X := by
    intro z hz
    have a1 := abs_sub_le z b X
    have a2 : 4 * P * b ≤ 4 * P * (1.001 * X) := mul_le_mul_of_nonneg_left b1 (by positivity)
    have a3 : 4 * P * (1.001 * X) = 4.004 * (P * X) := by ring
    have a4 : 306.3 * P * X = 306.3 * (P * X) := by ring
    have a5 : 310.4 * P * X = 310.4 * (P * X) := by ring
    linarith
  have fin : ∀ (f : Fl) (z : ℚ), logTo L A w t = .ok f → f.Is (sg t.msb * z) → A.fmt.In (sg t.msb * z) → |(z : ℝ) - X| ≤ toTol A w * X →
      ∃ (f : Fl) (v : ℚ), logTo L A w t = .ok f ∧ f.Is v ∧ A.fmt.In v ∧ |(v : ℝ) - x| ≤ toTol A w * |x| := by
    intro f z a1 a2 a3 a4
    refine ⟨f, _, a1, a2, a3, ?_⟩
    rw [ax, hx', Rat.cast_mul, ← mul_sub, abs_mul, sgn, one_mul]; exact a4
  cases A
  · -- float
    have hPv : P = 1 / 2 ^ 24 := by rw [hP]; rfl
    obtain ⟨hF, hrange⟩ := h32 rfl
    have x0 : x ≠ 0 := by intro h; rw [h, abs_zero] at ax; linarith
    have hrange := hrange.resolve_left x0
    rw [ax] at hrange
    have hbl : X / 2 ≤ b := by norm_num at PX ⊢; nlinarith [bX.1]
    have c1 : (2 : ℝ) ^ (-120 : ℤ) ≤ b := by
      refine le_trans ?_ hbl
      have : (2 : ℝ) ^ (-120 : ℤ) ≤ (2 : ℝ) ^ (-100 : ℤ) / 2 := by norm_num
      exact this.trans (by gcongr; exact hrange.1)
    have c2 : b ≤ (2 : ℝ) ^ (120 : ℤ) := by
      have : 1.001 * (2 : ℝ) ^ (100 : ℤ) ≤ (2 : ℝ) ^ (120 : ℤ) := by norm_num
      linarith [hrange.2]
    obtain ⟨z, z1, z2, z3⟩ := hF.pow _ _ q h1 h2 h3 hq hi hb c1 c2
    have n := near z (by rw [hPv]; exact z3.trans (le_of_eq (by rw [hbd]; ring)))
    have z0 : 0 < z := by
      have := (abs_le.mp n).1
      have h' : 310.4 * P * X ≤ 1 / 2 * X := by rw [hPv]; exact mul_le_mul_of_nonneg_right (by norm_num) hX.le
      have : (0 : ℝ) < z := by linarith
      exact_mod_cast this
    have rz : b32.rq z = z := b32.rq_of_rep z2.1
    obtain ⟨f, f1, f2, f3⟩ := logTo_of_pow .f32 w hr el z1 z0 z2 (by show b32.In (b32.rq z); rw [rz]; exact z2)
    rw [show Src.f32.fmt.rq z = z from rz] at f2 f3
    refine fin f z f1 f2 f3 (n.trans (mul_le_mul_of_nonneg_right ?_ hX.le))
    rw [hPv]; simp only [toTol]; norm_num
  · -- double
    obtain ⟨l', f, z, el', -, z1, z2, z3, z4, e', i, n, p⟩ := logTo_finite hL.powers .f64 (by simp) w hr
    have : l' = l := by rw [el] at el'; injection el' with h; exact h.symm
    subst this
    have pstd : powF .f64 w = b64 ∨ powF .f64 w = x80 := by cases w <;> simp [powF]
    obtain ⟨z', w1, w2, w3⟩ := hL.accurate.pow _ pstd _ _ _ h1 h2 h3 hq hi hb
    rw [z1] at w1
    obtain rfl := Fl.num.inj w1
    have nn := near z (w3.trans (le_of_eq (by rw [hbd, hP]; ring)))
    by_cases hw : w = .w8
    · subst hw
      have hPv : P = 1 / 2 ^ 64 := by rw [hP]; rfl
      have hzp : (0 : ℝ) < z := by exact_mod_cast lt_of_lt_of_le (by positivity) z2
      have hz1 : (2 : ℝ) ^ (b64.emin + (b64.prec : ℤ)) ≤ |(z : ℝ)| := by
        rw [abs_of_pos hzp]
        have h0 : (2 : ℚ) ^ (b64.emin + (b64.prec : ℤ)) ≤ (2 : ℚ) ^ (-300 : ℤ) :=
          zpow_le_zpow_right₀ (by norm_num) (by decide)
        have := (Rat.cast_le (K := ℝ)).mpr (h0.trans z2)
        rw [Rat.cast_zpow] at this
        exact this
      have er := rq_real_err (F := b64) (x := (z : ℝ)) hz1
      rw [Fmt.rq_cast, abs_of_pos hzp, p53] at er
      refine fin f _ e' i n ?_
      rw [hPv] at nn
      have a1 := abs_sub_le ((b64.rq z : ℚ) : ℝ) z X
      have a2 := (abs_le.mp nn).2
      simp only [toTol]
      show |((b64.rq z : ℚ) : ℝ) - X| ≤ _
      norm_num at er nn a2 ⊢
      linarith
    · have hPv : P = 1 / 2 ^ 53 := by rw [hP]; cases w <;> first | exact absurd rfl hw | rfl
      have hF : powF .f64 w = b64 := by cases w <;> first | rfl | exact absurd rfl hw
      rw [show Src.f64.fmt.rq z = z from b64.rq_of_rep (by rw [← hF]; exact z4.1)] at i n
      refine fin f z e' i n (nn.trans (mul_le_mul_of_nonneg_right ?_ hX.le))
      rw [hPv]
      have : toTol .f64 w = 1 / 2 ^ 44 := by cases w <;> first | exact absurd rfl hw | simp only [toTol]
      rw [this]; norm_num
  · exact absurd rfl hA

end Takum
