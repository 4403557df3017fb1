import Verif.Lemmas.Numeric
import Verif.Lemmas.LinArith
import Verif.Lemmas.Call

/-!
# Intervals of the named numbers, and the test that a takum is the closest to a number in an interval
-/

namespace Takum
open Spec

def piIv (k j : ℚ) : ℚ × ℚ := (k * (314159265358979323846 / 10 ^ 20) / j, k * (314159265358979323847 / 10 ^ 20) / j)
def rtIv (a : ℚ) : ℚ × ℚ := (a / 10 ^ 26, (a + 1) / 10 ^ 26)
def l2Iv : ℚ × ℚ := rtIv 69314718055994530941723212
def l10Iv : ℚ × ℚ := rtIv 230258509299404568401799145
def divIv (a b : ℚ × ℚ) : ℚ × ℚ := (a.1 / b.2, a.2 / b.1)

/-- An interval that contains the named number. -/
def Const.iv : Const → ℚ × ℚ
  | .pi2 => piIv 2 1
  | .pi2_3 => piIv 2 3
  | .pi2_5 => piIv 2 5
  | .pi3 => piIv 3 1
  | .pi3_2 => piIv 3 2
  | .pi3_4 => piIv 3 4
  | .pi3_5 => piIv 3 5
  | .pi4 => piIv 4 1
  | .pi4_3 => piIv 4 3
  | .pi4_5 => piIv 4 5
  | .pi5 => piIv 5 1
  | .pi5_2 => piIv 5 2
  | .pi5_3 => piIv 5 3
  | .pi5_4 => piIv 5 4
  | .pi5_6 => piIv 5 6
  | .pi6 => piIv 6 1
  | .pi6_5 => piIv 6 5
  | .gamma => (57721566490153286060 / 10 ^ 20, 57721566490153286061 / 10 ^ 20)
  | .lb_10 => divIv l10Iv l2Iv
  | .lb_e => divIv (1, 1) l2Iv
  | .lg_2 => divIv l2Iv l10Iv
  | .lg_e => divIv (1, 1) l10Iv
  | .ln_10 => l10Iv
  | .ln_2 => l2Iv
  | .phi => ((1 + 223606797749978969640917366 / 10 ^ 26) / 2, (1 + 223606797749978969640917367 / 10 ^ 26) / 2)
  | .pi1 => piIv 1 1
  | .pi1_2 => piIv 1 2
  | .pi1_3 => piIv 1 3
  | .pi1_4 => piIv 1 4
  | .pi1_5 => piIv 1 5
  | .pi1_6 => piIv 1 6
  | .sqrt2 => rtIv 141421356237309504880168872
  | .sqrt3 => rtIv 173205080756887729352744634
  | .sqrt5 => rtIv 223606797749978969640917366
  | .sqrt6 => rtIv 244948974278317809819728407

/-- `x` lies in the interval. -/
def InIv (p : ℚ × ℚ) (x : ℝ) : Prop := (p.1 : ℝ) ≤ x ∧ x ≤ p.2

theorem pi_in (k j : ℚ) (hk : 0 < k) (hj : 0 < j) : InIv (piIv k j) (k * Real.pi / j) := by
  have h1 := Real.pi_gt_d20
  have h2 := Real.pi_lt_d20
  have hk' : (0 : ℝ) < k := by exact_mod_cast hk
  have hj' : (0 : ℝ) < j := by exact_mod_cast hj
  unfold InIv piIv
  push_cast
  constructor
  · apply div_le_div_of_nonneg_right _ hj'.le
    apply mul_le_mul_of_nonneg_left _ hk'.le
    norm_num at *; linarith
  · apply div_le_div_of_nonneg_right _ hj'.le
    apply mul_le_mul_of_nonneg_left _ hk'.le
    norm_num at *; linarith

theorem sqrt_in (a k : ℚ) (ha : 0 ≤ a) (h1 : a * a ≤ k * 10 ^ 52) (h2 : k * 10 ^ 52 ≤ (a + 1) * (a + 1)) : InIv (rtIv a) (√(k : ℝ)) := by
  have ha' : (0 : ℝ) ≤ a := by exact_mod_cast ha
  have h1' : (a : ℝ) * a ≤ k * 10 ^ 52 := by exact_mod_cast h1
  have h2' : (k : ℝ) * 10 ^ 52 ≤ (a + 1) * (a + 1) := by exact_mod_cast h2
  unfold InIv rtIv
  push_cast
  constructor
  · apply Real.le_sqrt_of_sq_le
    rw [div_pow, div_le_iff₀ (by positivity)]; norm_num at *; nlinarith
  · rw [Real.sqrt_le_left (by positivity), div_pow, le_div_iff₀ (by positivity)]; norm_num at *; nlinarith

theorem div_in {a b : ℚ × ℚ} {x y : ℝ} (hx : InIv a x) (hy : InIv b y) (ha : 0 ≤ a.1) (hb : 0 < b.1) : InIv (divIv a b) (x / y) := by
  have ha' : (0 : ℝ) ≤ a.1 := by exact_mod_cast ha
  have hb' : (0 : ℝ) < b.1 := by exact_mod_cast hb
  unfold InIv divIv at *
  push_cast
  exact ⟨div_le_div₀ (ha'.trans hx.1) hx.1 (hb'.trans_le hy.1) hy.2, div_le_div₀ (ha'.trans (hx.1.trans hx.2)) hx.2 hb' hy.1⟩

theorem Const.iv_real (c : Const) : InIv c.iv c.real := by
  have P : ∀ k j : ℚ, 0 < k → 0 < j → ∀ x : ℝ, x = (k : ℝ) * Real.pi / (j : ℝ) → InIv (piIv k j) x :=
    fun k j hk hj x e => e ▸ pi_in k j hk hj
  have l2 : InIv l2Iv (Real.log 2) := by
    have := log2_iv; unfold InIv l2Iv rtIv; norm_num at *; exact this
  have l10 : InIv l10Iv (Real.log 10) := by
    have := log10_iv; unfold InIv l10Iv rtIv; norm_num at *; exact this
  have one : InIv (1, 1) 1 := by unfold InIv; norm_num
  have s : ∀ a k : ℚ, 0 ≤ a → a * a ≤ k * 10 ^ 52 → k * 10 ^ 52 ≤ (a + 1) * (a + 1) → InIv (rtIv a) (√(k : ℝ)) := sqrt_in
  cases c
  case gamma => exact gamma_iv
  case lb_10 => exact div_in l10 l2 (by decide +kernel) (by decide +kernel)
  case lb_e =>
    show InIv (divIv (1, 1) l2Iv) (Real.log (Real.exp 1) / Real.log 2)
    rw [Real.log_exp]; exact div_in one l2 (by decide +kernel) (by decide +kernel)
  case lg_2 => exact div_in l2 l10 (by decide +kernel) (by decide +kernel)
  case lg_e =>
    show InIv (divIv (1, 1) l10Iv) (Real.log (Real.exp 1) / Real.log 10)
    rw [Real.log_exp]; exact div_in one l10 (by decide +kernel) (by decide +kernel)
  case ln_10 => exact l10
  case ln_2 => exact l2
  case phi =>
    have := s 223606797749978969640917366 5 (by norm_num) (by norm_num) (by norm_num)
    unfold InIv rtIv at this
    unfold InIv Const.iv Const.real Real.goldenRatio
    norm_num at *
    constructor <;> linarith
  case sqrt2 => exact_mod_cast s 141421356237309504880168872 2 (by norm_num) (by norm_num) (by norm_num)
  case sqrt3 => exact_mod_cast s 173205080756887729352744634 3 (by norm_num) (by norm_num) (by norm_num)
  case sqrt5 => exact_mod_cast s 223606797749978969640917366 5 (by norm_num) (by norm_num) (by norm_num)
  case sqrt6 => exact_mod_cast s 244948974278317809819728407 6 (by norm_num) (by norm_num) (by norm_num)
  all_goals exact P _ _ (by norm_num) (by norm_num) _ (by simp [Const.real])

/-! ## The closest takum -/

theorem value_val {w : W} (k : Kind) {t : T w} (h : t ≠ nar w.n) : ∃ v, value k t = some v := by
  rcases hv : value k t with _ | v
  · exact absurd (value_none.mp hv) h
  · exact ⟨v, rfl⟩

theorem value_order {w : W} (k : Kind) {a b : T w} {x y : ℝ} (ha : value k a = some x) (hb : value k b = some y) :
    a.toInt ≤ b.toInt ↔ x ≤ y := by
  have h8 := w.n_pos
  have na : a ≠ nar w.n := by rw [Ne, ← value_none (k := k), ha]; simp
  have nb : b ≠ nar w.n := by rw [Ne, ← value_none (k := k), hb]; simp
  cases k
  · change logVal _ = _ at ha hb
    rw [logVal_val (by omega) na] at ha
    rw [logVal_val (by omega) nb] at hb
    obtain rfl := Option.some.inj ha
    obtain rfl := Option.some.inj hb
    exact (val_le_iff (by omega) logG_mono logG_pos na nb).symm
  · rw [value_lin (linVal_qv na)] at ha
    rw [value_lin (linVal_qv nb)] at hb
    obtain rfl := Option.some.inj ha
    obtain rfl := Option.some.inj hb
    rw [← qv_le_iff na nb]; norm_cast

/-- Between the midpoints to its neighbours, a takum is the closest. -/
theorem closest_mid {w : W} {k : Kind} {a t b : T w} {x u v z : ℝ} (ha : value k a = some u) (ht : value k t = some v)
    (hb : value k b = some z) (ea : a.toInt = t.toInt - 1) (eb : b.toInt = t.toInt + 1) (h1 : u + v ≤ 2 * x) (h2 : 2 * x ≤ v + z) :
    Closest k t x := by
  refine ⟨v, ht, fun s y hs => ?_⟩
  rcases lt_trichotomy s.toInt t.toInt with h | h | h
  · have := (value_order k hs ha).mp (by omega)
    have := (value_order k ha ht).mp (by omega)
    rw [abs_sub_comm y, abs_of_nonneg (by linarith : 0 ≤ x - y), abs_le]
    constructor <;> linarith
  · obtain rfl := BitVec.eq_of_toInt_eq h
    rw [ht] at hs; obtain rfl := Option.some.inj hs; exact le_rfl
  · have := (value_order k hb hs).mp (by omega)
    have := (value_order k ht hb).mp (by omega)
    rw [abs_of_nonneg (by linarith : 0 ≤ y - x), abs_le]
    constructor <;> linarith

/-- Neighbours without wrapping, away from 0 and NaR. -/
def mid {n : ℕ} (t : BitVec n) : Bool :=
  decide ((t - 1).toInt = t.toInt - 1 ∧ (t + 1).toInt = t.toInt + 1 ∧ 1 < t.toInt)

theorem mid_iff {n : ℕ} {t : BitVec n} (h : mid t = true) : (t - 1).toInt = t.toInt - 1 ∧ (t + 1).toInt = t.toInt + 1 ∧ 1 < t.toInt := by
  unfold mid at h; exact of_decide_eq_true h

/-- The midpoint test for linear takums. -/
def chkLin {n : ℕ} (t : BitVec n) (p : ℚ × ℚ) : Bool :=
  mid t && match linVal (t - 1), linVal t, linVal (t + 1) with
    | some a, some v, some b => decide (a + v ≤ 2 * p.1 ∧ 2 * p.2 ≤ v + b)
    | _, _, _ => false

/-- The midpoint test for logarithmic takums. -/
def chkLog {n : ℕ} (t : BitVec n) (p : ℚ × ℚ) : Bool :=
  mid t && decide (|ell (t - 1)| ≤ 8 ∧ |ell t| ≤ 8 ∧ |ell (t + 1)| ≤ 8 ∧
    eHi (ell (t - 1) / 2) + eHi (ell t / 2) ≤ 2 * p.1 ∧ 2 * p.2 ≤ eLo (ell t / 2) + eLo (ell (t + 1) / 2))

theorem closest_lin {w : W} {t : T w} {p : ℚ × ℚ} {x : ℝ} (h : chkLin t p = true) (hx : InIv p x) : Closest .lin t x := by
  unfold chkLin at h
  rw [Bool.and_eq_true] at h
  obtain ⟨m1, m2, -⟩ := mid_iff h.1
  have h2 := h.2
  split at h2
  · rename_i a v b ha hv hb
    obtain ⟨c1, c2⟩ := of_decide_eq_true h2
    have c1' : ((a : ℝ) + v) ≤ 2 * p.1 := by exact_mod_cast c1
    have c2' : 2 * (p.2 : ℝ) ≤ (v : ℝ) + b := by exact_mod_cast c2
    exact closest_mid (value_lin ha) (value_lin hv) (value_lin hb) m1 m2 (by linarith [hx.1]) (by linarith [hx.2])
  · simp at h2

/-- A positive logarithmic takum as an exponential. -/
theorem logVal_pos {w : W} {t : T w} (h : 0 < t.toInt) : value .log t = some (Real.exp ((ell t / 2 : ℚ) : ℝ)) := by
  have h8 := w.n_pos
  have hm : t.msb = false := by
    rcases hh : t.msb with _ | _
    · rfl
    · have := (isNeg_iff t).mpr hh; omega
  have t0 : t ≠ 0#w.n := by rintro rfl; simp at h
  have tn : t ≠ nar w.n := by rintro rfl; rw [nar_msb (by omega)] at hm; simp at hm
  show logVal t = _
  rw [logVal_regular (by omega) ⟨t0, tn⟩, hm]
  unfold logG sg
  rw [Real.sqrt_eq_rpow, ← Real.exp_mul, ← Real.exp_mul]
  push_cast
  simp only [one_mul]
  congr 2; ring

theorem closest_log {w : W} {t : T w} {p : ℚ × ℚ} {x : ℝ} (h : chkLog t p = true) (hx : InIv p x) : Closest .log t x := by
  unfold chkLog at h
  rw [Bool.and_eq_true] at h
  obtain ⟨m1, m2, m3⟩ := mid_iff h.1
  obtain ⟨b1, b2, b3, c1, c2⟩ := of_decide_eq_true h.2
  have half : ∀ q : ℚ, |q| ≤ 8 → |q / 2| ≤ 4 := fun q hq => by rw [abs_div]; norm_num; linarith
  have e1 := exp_iv (half _ b1)
  have e2 := exp_iv (half _ b2)
  have e3 := exp_iv (half _ b3)
  have c1' : ((eHi (ell (t - 1) / 2) : ℝ) + eHi (ell t / 2)) ≤ 2 * p.1 := by exact_mod_cast c1
  have c2' : 2 * (p.2 : ℝ) ≤ (eLo (ell t / 2) : ℝ) + eLo (ell (t + 1) / 2) := by exact_mod_cast c2
  exact closest_mid (logVal_pos (by omega)) (logVal_pos (by omega)) (logVal_pos (by omega)) m1 m2
    (by linarith [hx.1, e1.2, e2.2]) (by linarith [hx.2, e2.1, e3.1])

end Takum
