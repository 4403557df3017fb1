import Verif.Lemmas.LogNear
import Verif.Props.BinAccuracy

/-!
# C127: logarithmic takums are rounded to the nearest on the logarithmic scale, unless next to a tie

The conversions from floats to logarithmic takums, addition and subtraction and the elementary functions choose the takum whose exponent is closest to
that of the exact value, up to a small tolerance.
-/

namespace Takum
open Spec

namespace Spec

/-- The exponent of `t` is, up to `τ`, as close to that of the real number `f` as the exponent of any takum of its sign; 0 becomes 0 and nothing
else does. -/
def NearestLogUpTo {n : ℕ} (τ f : ℝ) (t : BitVec n) : Prop :=
  (f = 0 → t = 0#n) ∧ (f ≠ 0 → Regular t ∧ (t.msb = true ↔ f < 0) ∧
    ∀ t' : BitVec n, Regular t' → t'.msb = t.msb → |(ell t : ℝ) - logScale f| ≤ |(ell t' : ℝ) - logScale f| + τ)

/-- The tolerance for each conversion: `double` logarithms for `float` arguments of the narrow types, `long double` otherwise. -/
noncomputable def fromSlack : Src → W → ℝ
  | .f32, .w8 => 1 / 2 ^ 14
  | .f32, .w16 | .f32, .w32 => 1 / 2 ^ 41
  | _, _ => 1 / 2 ^ 50

end Spec

theorem Spec.NearestLogUpTo.mono {n : ℕ} {τ τ' f : ℝ} {t : BitVec n} (h : NearestLogUpTo τ f t) (hd : τ ≤ τ') : NearestLogUpTo τ' f t :=
  ⟨h.1, fun h0 => ⟨(h.2 h0).1, (h.2 h0).2.1, fun t' rt' mt' => ((h.2 h0).2.2 t' rt' mt').trans (by linarith)⟩⟩

/-- A float `z` next to `f`, or both beyond the takums on the same side. -/
theorem logFrom_near_of {L : Libm} (hL : L.Conforming) (A : Src) (w : W) {g : Fl} {z : ℚ} (hg : g.Is z) (hz : A.fmt.In z) (z0 : z ≠ 0) {f η : ℝ}
    (f0 : f ≠ 0) (hs : (z : ℝ) < 0 ↔ f < 0) (e0 : 0 ≤ η) (e1 : η ≤ 1)
    (h : |logScale z - logScale f| ≤ η ∨ (256 < logScale z ∧ 255 < logScale f) ∨ (logScale z < -256 ∧ logScale f < -255)) :
    ∃ t : T w, logFrom L A w g = .ok t ∧ NearestLogUpTo (fromSlack A w + 2 * η) f t := by
  have hzp : 0 < |z| := abs_pos.mpr z0
  have hx := logF_std A w
  have hi : (logF A w).In |z| := ⟨(logF_in A w hz).1.abs, by rw [abs_abs]; exact (logF_in A w hz).2⟩
  obtain ⟨r, h1, h2, h3⟩ := hL.accurate.log _ hx |z| hzp hi
  obtain ⟨r', h1', -, h3'⟩ := hL.logs.finite _ hx |z| hzp hi
  have := h1.unique h1'
  subst this
  obtain ⟨t1, t2⟩ := twoLog_is hx hg z0 h1 h2 h3'
  obtain ⟨t, et, rt, mt, hsat, hn⟩ := logEnc_near A w (decide (z < 0)) t1 t2.1
    (by rw [abs_mul, abs_two, show (2 : ℚ) ^ 101 = 2 * 2 ^ 100 by norm_num]; exact mul_le_mul_of_nonneg_left h3' (by norm_num))
  refine ⟨t, (logFrom_eq L A w hg z0).trans et, fun h => absurd h f0, fun _ => ⟨rt, ?_, fun e re me => ?_⟩⟩
  · rw [mt, decide_eq_true_iff, ← hs]; exact_mod_cast Iff.rfl
  rw [mt] at me
  have ez : ((|z| : ℚ) : ℝ) = |(z : ℝ)| := by push_cast; rfl
  rw [ez] at h3
  set ℓ := logScale (z : ℝ) with hℓ
  set φ := logScale f with hφ
  have hq : |((2 * r : ℚ) : ℝ) - ℓ| ≤ 4 / 2 ^ (logF A w).prec * |ℓ| := by
    rw [hℓ, logScale]; push_cast
    rw [← mul_sub, abs_mul, abs_mul]
    have := mul_le_mul_of_nonneg_left h3 (abs_nonneg (2 : ℝ))
    linarith
  have hp : (4 : ℝ) / 2 ^ (logF A w).prec ≤ 1 / 2 ^ 51 := by
    rcases hx with g | g <;> rw [g]
    · rw [show b64.prec = 53 from rfl]; norm_num
    · rw [show x80.prec = 64 from rfl]; norm_num
  have s0 : 0 ≤ fromSlack A w := by cases A <;> cases w <;> norm_num [fromSlack]
  have le : ∀ u : T w, -255 ≤ (ell u : ℝ) ∧ (ell u : ℝ) ≤ 255 := fun u => by
    have := abs_le.mp (abs_ell_le u)
    exact ⟨by exact_mod_cast this.1, by exact_mod_cast this.2⟩
  -- beyond the range on both sides
  have up : 256 < ℓ → 255 < φ → |(ell t : ℝ) - φ| ≤ |(ell e : ℝ) - φ| + (fromSlack A w + 2 * η) := by
    intro a b
    have hq' : 4 / 2 ^ (logF A w).prec * |ℓ| ≤ 1 / 2 ^ 51 * |ℓ| := mul_le_mul_of_nonneg_right hp (abs_nonneg _)
    rw [abs_of_pos (show 0 < ℓ by linarith)] at hq hq'
    have k := (abs_le.mp hq).1
    have k1 : (255 : ℝ) ≤ ((2 * r : ℚ) : ℝ) := by norm_num at hq' ⊢; push_cast at k; linarith
    have k2 : (255 : ℚ) ≤ 2 * r := by exact_mod_cast k1
    have hall : ∀ u : T w, Regular u → u.msb = decide (z < 0) → ell u ≤ 2 * r := fun u _ _ => ((abs_le.mp (abs_ell_le u)).2).trans k2
    have m := hsat (Or.inl hall) e re me
    rw [abs_of_nonpos (sub_nonpos.mpr (hall t rt mt)), abs_of_nonpos (sub_nonpos.mpr (hall e re me))] at m
    have m' : (ell e : ℝ) ≤ ell t := by have : ell e ≤ ell t := by linarith
                                        exact_mod_cast this
    rw [abs_of_neg (by linarith [(le t).2]), abs_of_neg (by linarith [(le e).2])]
    linarith
  have dn : ℓ < -256 → φ < -255 → |(ell t : ℝ) - φ| ≤ |(ell e : ℝ) - φ| + (fromSlack A w + 2 * η) := by
    intro a b
    have hq' : 4 / 2 ^ (logF A w).prec * |ℓ| ≤ 1 / 2 ^ 51 * |ℓ| := mul_le_mul_of_nonneg_right hp (abs_nonneg _)
    rw [abs_of_neg (show ℓ < 0 by linarith)] at hq hq'
    have k := (abs_le.mp hq).2
    have k1 : ((2 * r : ℚ) : ℝ) ≤ -255 := by norm_num at hq' ⊢; push_cast at k; linarith
    have k2 : 2 * r ≤ (-255 : ℚ) := by exact_mod_cast k1
    have hall : ∀ u : T w, Regular u → u.msb = decide (z < 0) → 2 * r ≤ ell u := fun u _ _ => k2.trans (abs_le.mp (abs_ell_le u)).1
    have m := hsat (Or.inr hall) e re me
    rw [abs_of_nonneg (sub_nonneg.mpr (hall t rt mt)), abs_of_nonneg (sub_nonneg.mpr (hall e re me))] at m
    have m' : (ell t : ℝ) ≤ ell e := by have : ell t ≤ ell e := by linarith
                                        exact_mod_cast this
    rw [abs_of_pos (by linarith [(le t).1]), abs_of_pos (by linarith [(le e).1])]
    linarith
  rcases h with h | ⟨a, b⟩ | ⟨a, b⟩
  · by_cases hb : |ℓ| ≤ 256
    · have m : |(ell t : ℝ) - ((2 * r : ℚ) : ℝ)| ≤ |(ell e : ℝ) - ((2 * r : ℚ) : ℝ)| + encSlack A w := by
        have := (Rat.cast_le (K := ℝ)).mpr (hn e re me)
        push_cast at this ⊢; exact this
      have d : 4 / 2 ^ (logF A w).prec * |ℓ| ≤ 4 / 2 ^ (logF A w).prec * 256 := mul_le_mul_of_nonneg_left hb (by positivity)
      have tot : (encSlack A w : ℝ) + 2 * (4 / 2 ^ (logF A w).prec * 256) ≤ fromSlack A w := by
        have p53 : b64.prec = 53 := rfl
        have p64 : x80.prec = 64 := rfl
        cases A <;> cases w <;> simp only [logF, encSlack, fromSlack, p53, p64] <;> norm_num
      have a1 := abs_sub_le ((2 * r : ℚ) : ℝ) ℓ φ
      have a2 := abs_sub_le (ell t : ℝ) ((2 * r : ℚ) : ℝ) φ
      have a3 := abs_sub_le (ell e : ℝ) φ ((2 * r : ℚ) : ℝ)
      rw [abs_sub_comm φ] at a3
      linarith
    · rw [not_le, lt_abs] at hb
      have := abs_le.mp h
      rcases hb with g | g
      · exact up g (by linarith)
      · exact dn (by linarith) (by linarith)
  · exact up a b
  · exact dn a b

/-- C127: the conversion of a finite `float`, `double` or `long double` to a logarithmic takum of any width. -/
theorem log_from_nearest {L : Libm} (hL : L.Conforming) (A : Src) (w : W) (g : Fl) (z : ℚ) (hg : g.Is z) (hz : A.fmt.In z) :
    ∃ t : T w, logFrom L A w g = .ok t ∧ NearestLogUpTo (fromSlack A w) z t := by
  by_cases z0 : z = 0
  · subst z0
    obtain ⟨s, rfl⟩ : ∃ s, g = .zero s := by
      rcases hg.cases with ⟨h, -⟩ | ⟨-, s, rfl⟩
      · exact absurd rfl h
      · exact ⟨s, rfl⟩
    exact ⟨_, logFrom_zero L A w s, fun _ => rfl, fun h => absurd Rat.cast_zero h⟩
  · obtain ⟨t, e, h⟩ := logFrom_near_of hL A w hg hz z0 (f := z) (η := 0) (by exact_mod_cast z0) Iff.rfl le_rfl (by norm_num) (Or.inl (by simp))
    exact ⟨t, e, by simpa using h⟩

theorem logScale_close {z f ε : ℝ} (f0 : f ≠ 0) (e0 : 0 ≤ ε) (e1 : ε ≤ 1 / 4) (h : |z - f| ≤ ε * |f|) :
    z ≠ 0 ∧ (z < 0 ↔ f < 0) ∧ |logScale z - logScale f| ≤ 4 * ε := by
  have fp : 0 < |f| := abs_pos.mpr f0
  have h1 : |f| * (1 - ε) ≤ |z| := by
    have := abs_sub_abs_le_abs_sub f z
    rw [abs_sub_comm f z] at this; linarith
  have h2 : |z| ≤ |f| * (1 + ε) := by
    have := abs_sub_abs_le_abs_sub z f; linarith
  have zp : 0 < |z| := lt_of_lt_of_le (mul_pos fp (by linarith)) h1
  have z0 : z ≠ 0 := abs_pos.mp zp
  refine ⟨z0, ?_, ?_⟩
  · rcases lt_or_gt_of_ne f0 with hf | hf
    · rw [abs_of_neg hf] at h
      have := (abs_le.mp h).2
      exact iff_of_true (by nlinarith) hf
    · rw [abs_of_pos hf] at h
      have := (abs_le.mp h).1
      exact iff_of_false (not_lt.mpr (by nlinarith)) hf.le.not_gt
  · have l1 : Real.log |f| - 2 * ε ≤ Real.log |z| := by
      have := Real.log_le_log (mul_pos fp (by linarith)) h1
      rw [Real.log_mul fp.ne' (by linarith)] at this
      have g : -(2 * ε) ≤ Real.log (1 - ε) := by
        have := Real.one_sub_inv_le_log_of_pos (show 0 < 1 - ε by linarith)
        refine le_trans ?_ this
        have hh : (1 - ε)⁻¹ ≤ 1 + 2 * ε := by
          rw [inv_le_comm₀ (by linarith) (by linarith), inv_le_iff_one_le_mul₀ (by linarith)]
          nlinarith
        linarith
      linarith
    have l2 : Real.log |z| ≤ Real.log |f| + 2 * ε := by
      have := Real.log_le_log zp h2
      rw [Real.log_mul fp.ne' (by linarith)] at this
      have g := Real.log_le_sub_one_of_pos (show 0 < 1 + ε by linarith)
      linarith
    unfold logScale
    rw [abs_le]; constructor <;> linarith

/-- A `long double` that approximates `f`. -/
theorem Res.nearestLog {L : Libm} (hL : L.Conforming) {w : W} {ε f : ℝ} (e0 : 0 ≤ ε) (e1 : ε ≤ 1 / 4) {r : Fl} (h : Res x80 (ε * |f|) f r) :
    ∃ t : T w, logFrom L .ext w r = .ok t ∧ NearestLogUpTo (1 / 2 ^ 50 + 8 * ε) f t := by
  obtain ⟨z, iz, hz, h⟩ := h
  have fs : fromSlack .ext w = 1 / 2 ^ 50 := by cases w <;> rfl
  by_cases f0 : f = 0
  · subst f0
    have z0 : z = 0 := by
      rcases h with h | h
      · rw [abs_zero, mul_zero, sub_zero] at h
        exact_mod_cast abs_nonpos_iff.mp h
      · rcases h with h | h | h | h
        · exact absurd h.2 (not_lt.mpr (by positivity))
        · exact absurd h.2 (not_lt.mpr (by rw [neg_nonpos]; positivity))
        · exact absurd h.2.2.1 (lt_irrefl _)
        · exact absurd h.2.2.2 (lt_irrefl _)
    subst z0
    obtain ⟨s, rfl⟩ : ∃ s, r = .zero s := by
      rcases iz.cases with ⟨h, -⟩ | ⟨-, s, rfl⟩
      · exact absurd rfl h
      · exact ⟨s, rfl⟩
    exact ⟨_, logFrom_zero L .ext w s, fun _ => rfl, fun h => absurd rfl h⟩
  · have l2 := Real.log_two_gt_d9
    have big : ∀ y : ℝ, (2 : ℝ) ^ (300 : ℤ) < |y| → 256 < logScale y := fun y hy => by
      have := Real.log_lt_log (by positivity) hy
      rw [Real.log_zpow] at this
      unfold logScale; push_cast at this; linarith
    have small : ∀ y : ℝ, 0 < |y| → |y| < (2 : ℝ) ^ (-300 : ℤ) → logScale y < -256 := fun y h0 hy => by
      have := Real.log_lt_log h0 hy
      rw [Real.log_zpow] at this
      unfold logScale; push_cast at this; linarith
    have key : z ≠ 0 ∧ ((z : ℝ) < 0 ↔ f < 0) ∧ (|logScale z - logScale f| ≤ 4 * ε ∨ (256 < logScale z ∧ 255 < logScale f) ∨ (logScale z < -256 ∧ logScale f < -255)) := by
      rcases h with h | h
      · obtain ⟨a, b, c⟩ := logScale_close f0 e0 e1 h
        exact ⟨by exact_mod_cast a, b, Or.inl c⟩
      · have p1 : (0 : ℝ) < 2 ^ (300 : ℤ) := by positivity
        have p2 : (0 : ℝ) < 2 ^ (-300 : ℤ) := by positivity
        have ne : (z : ℝ) ≠ 0 → z ≠ 0 := fun h => by exact_mod_cast h
        rcases h with h | h | h | h
        · have a := p1.trans h.1
          have b := p1.trans h.2
          refine ⟨ne a.ne', iff_of_false a.le.not_gt b.le.not_gt, Or.inr (Or.inl ⟨big _ (by rw [abs_of_pos a]; exact h.1), ?_⟩)⟩
          have := big f (by rw [abs_of_pos b]; exact h.2)
          linarith
        · have a := h.1.trans (neg_lt_zero.mpr p1)
          have b := h.2.trans (neg_lt_zero.mpr p1)
          refine ⟨ne a.ne, iff_of_true a b, Or.inr (Or.inl ⟨big _ (by rw [abs_of_neg a]; exact lt_neg.mp h.1), ?_⟩)⟩
          have := big f (by rw [abs_of_neg b]; exact lt_neg.mp h.2)
          linarith
        · refine ⟨ne h.1.ne', iff_of_false h.1.le.not_gt h.2.2.1.le.not_gt, Or.inr (Or.inr ⟨small _ (abs_pos.mpr h.1.ne') (by rw [abs_of_pos h.1]; exact h.2.1), ?_⟩)⟩
          have := small f (abs_pos.mpr h.2.2.1.ne') (by rw [abs_of_pos h.2.2.1]; exact h.2.2.2)
          linarith
        · refine ⟨ne h.2.1.ne, iff_of_true h.2.1 h.2.2.2, Or.inr (Or.inr ⟨small _ (abs_pos.mpr h.2.1.ne) (by rw [abs_of_neg h.2.1]; exact neg_lt.mp h.1), ?_⟩)⟩
          have := small f (abs_pos.mpr h.2.2.2.ne) (by rw [abs_of_neg h.2.2.2]; exact neg_lt.mp h.2.2.1)
          linarith
    obtain ⟨z0, hs, hc⟩ := key
    obtain ⟨t, e, hn⟩ := logFrom_near_of hL .ext w iz hz z0 f0 hs (by linarith) (by linarith) hc
    exact ⟨t, e, hn.mono (by rw [fs]; linarith)⟩

section
variable {L : Libm} (hL : L.Conforming) (hA : L.Approximates)
include hL

/-- C127: a linear takum converted to a logarithmic takum of any width. -/
theorem log_from_lin_nearest (a b : W) (t : T a) (x : ℝ) (hx : value .lin t = some x) :
    ∃ v : T b, logFromLin L a b t = .ok v ∧ NearestLogUpTo (1 / 2 ^ 50) x v := by
  obtain ⟨q, hq, rfl⟩ : ∃ q : ℚ, linVal t = some q ∧ (q : ℝ) = x := by
    change (linVal t).map _ = _ at hx; simpa using hx
  obtain ⟨⟨e1, i1⟩, h2⟩ := lin_to_exact a t
  have is : (exactFl (linVal t)).Is q := by
    rw [hq]; unfold exactFl; simp only
    split_ifs with h
    · rw [h]; exact Fl.Is.zero _
    · exact Fl.Is.num h
  unfold logFromLin
  by_cases h : a = .w64 ∨ b = .w64
  · rw [if_pos h, e1, ok_bind]
    obtain ⟨v, e, hn⟩ := log_from_nearest hL .ext b _ q is (i1 q hq)
    exact ⟨v, e, hn.mono (by cases b <;> exact le_rfl)⟩
  · obtain ⟨e2, i2⟩ := h2 (fun h' => h (Or.inl h'))
    rw [if_neg h, e2, ok_bind]
    obtain ⟨v, e, hn⟩ := log_from_nearest hL .f64 b _ q is (i2 q hq)
    exact ⟨v, e, hn.mono (by cases b <;> exact le_rfl)⟩

/-- C127: logarithmic addition and subtraction. The sum is that of numbers within `2^-56` of the operands. -/
theorem log_addition_nearest (w : W) (s t : T w) (a b : ℝ) (ha : value .log s = some a) (hb : value .log t = some b) :
    (∃ (a' b' : ℝ) (v : T w), addition L w s t = .ok v ∧ |a' - a| ≤ 1 / 2 ^ 56 * |a| ∧ |b' - b| ≤ 1 / 2 ^ 56 * |b| ∧
      NearestLogUpTo (1 / 2 ^ 49) (a' + b') v) ∧
    (∃ (a' b' : ℝ) (v : T w), subtraction L w s t = .ok v ∧ |a' - a| ≤ 1 / 2 ^ 56 * |a| ∧ |b' - b| ≤ 1 / 2 ^ 56 * |b| ∧
      NearestLogUpTo (1 / 2 ^ 49) (a' - b') v) := by
  obtain ⟨r, p, e, hp⟩ := kTo_acc hL .log w ha
  obtain ⟨r', q, e', hq⟩ := kTo_acc hL .log w hb
  have t1 : |(p : ℝ) - a| ≤ 1 / 2 ^ 56 * |a| := argTol2_ge .log hp.close
  have t2 : |(q : ℝ) - b| ≤ 1 / 2 ^ 56 * |b| := argTol2_ge .log hq.close
  have fin : ∀ (f : Fl) (x : ℝ), Near x80 (1.25 / 2 ^ 64) x f → ∃ v : T w, logFrom L .ext w f = .ok v ∧ NearestLogUpTo (1 / 2 ^ 49) x v := by
    intro f x hn
    obtain ⟨v, h6, h7⟩ := Res.nearestLog hL (w := w) (by norm_num) (by norm_num) (hn.res : Res x80 (1.25 / 2 ^ 64 * |x|) x f)
    exact ⟨v, h6, h7.mono (by norm_num)⟩
  constructor
  · have n := sum_near hp.isIn hq.isIn hp.ge hq.ge hp.le hq.le (r.sgn && r'.sgn)
    rw [← Fl.add_eq hp.is hq.is, Rat.cast_add] at n
    obtain ⟨v, h1, h2⟩ := fin _ _ n
    exact ⟨p, q, v, (binaryLog_eq e e').trans h1, t1, t2, h2⟩
  · have n := sum_near hp.isIn (In_neg hq.isIn) hp.ge (by rw [abs_neg]; exact fun h => hq.ge (fun h' => h (by rw [h', neg_zero])))
      hp.le (by rw [abs_neg]; exact hq.le) (r.sgn && r'.neg.sgn)
    rw [← Fl.add_eq hp.is hq.is.neg, Rat.cast_add, Rat.cast_neg, ← sub_eq_add_neg] at n
    obtain ⟨v, h1, h2⟩ := fin _ _ n
    exact ⟨p, q, v, (binaryLog_eq e e').trans h1, t1, t2, h2⟩

include hA

/-- C127: the functions of one argument but `2^x - 1` and `10^x - 1`. -/
theorem elementary_nearest_log (u : UFun) (h1 : u ≠ .two_raised_minus_1) (h2 : u ≠ .ten_raised_minus_1) (w : W) (t : T w) (x : ℝ)
    (hx : value .log t = some x) :
    ∃ (x' : ℝ) (v : T w), |x' - x| ≤ argTol .log u * |x| ∧ u.call L .log w t = .ok v ∧
      ((Undefined u x' ∧ v = nar w.n) ∨ (¬Undefined u x' ∧ NearestLogUpTo (1 / 2 ^ 47) (realFn u x') v)) := by
  obtain ⟨r, q, e, ha⟩ := kTo_acc hL .log w hx
  obtain ⟨x', g1, g2⟩ := good_all hL hA u ha
  have g3 := argTol_ge .log u g1 ha.close
  rw [call_eq e]
  rcases g2 with ⟨h4, h5⟩ | ⟨h4, h5⟩
  · exact ⟨x', nar w.n, g3, kFrom_bad h5, Or.inl ⟨h4, rfl⟩⟩
  · have es : errScale u (realFn u x') = |realFn u x'| := by
      cases u <;> first | rfl | exact absurd rfl h1 | exact absurd rfl h2
    rw [es] at h5
    have r0 : 0 ≤ resPert (kF .log w) u := by unfold resPert; split <;> positivity
    have p64 : (kF .log w).prec = 64 := by cases w <;> rfl
    have r1 : resPert (kF .log w) u ≤ 4 / 2 ^ 53 := by
      unfold resPert; rw [p64]; split <;> norm_num
    have h5' : Res x80 (resPert (kF .log w) u * |realFn u x'|) (realFn u x') (u.fix r (u.ev L (kF .log w) r)) := h5
    obtain ⟨v, e1, e2⟩ := Res.nearestLog hL (w := w) r0 (r1.trans (by norm_num)) h5'
    exact ⟨x', v, g3, e1, Or.inr ⟨h4, e2.mono (by norm_num at r1 ⊢; linarith)⟩⟩

/-- C127: `arctan2`, `arctan2_over_pi`, `hypotenuse` and `power`. -/
theorem binary_nearest_log (u : BFun) (w : W) (s t : T w) (a b : ℝ) (ha : value .log s = some a) (hb : value .log t = some b) :
    ∃ (a' b' : ℝ) (v : T w), |a' - a| ≤ 1 / 2 ^ 56 * |a| ∧ |b' - b| ≤ 1 / 2 ^ 56 * |b| ∧ u.call L .log w s t = .ok v ∧
      ((Undefined2 u a' b' ∧ v = nar w.n) ∨ (¬Undefined2 u a' b' ∧ NearestLogUpTo (1 / 2 ^ 49) (realFn2 u a' b') v)) := by
  obtain ⟨r, p, e, hp⟩ := kTo_acc hL .log w ha
  obtain ⟨r', q, e', hq⟩ := kTo_acc hL .log w hb
  have h2 := good2_all hL hA u hp hq
  have t1 : |(p : ℝ) - a| ≤ 1 / 2 ^ 56 * |a| := argTol2_ge .log hp.close
  have t2 : |(q : ℝ) - b| ≤ 1 / 2 ^ 56 * |b| := argTol2_ge .log hq.close
  rw [bcall_eq e e']
  rcases h2 with ⟨h4, h5⟩ | ⟨h4, h5⟩
  · exact ⟨p, q, nar w.n, t1, t2, kFrom_bad h5, Or.inl ⟨h4, rfl⟩⟩
  · have h5' : Res x80 (8 / 2 ^ 64 * |realFn2 u p q|) (realFn2 u p q) (u.fix r r' (u.ev L (kF .log w) r r')) := h5
    obtain ⟨v, e1, e2⟩ := Res.nearestLog hL (w := w) (by norm_num) (by norm_num) h5'
    exact ⟨p, q, v, t1, t2, e1, Or.inr ⟨h4, e2.mono (by norm_num)⟩⟩

/-- C127: the integral power of 64-bit takums (for the other widths, which do not use the math library, see C29 and C118). -/
theorem integer_power64_nearest (t : T .w64) (x : ℝ) (hx : value .log t = some x) (n : BitVec 64) (hn : x ≠ 0 ∨ 0 < n.toInt) :
    ∃ (x' : ℝ) (v : T .w64), |x' - x| ≤ 1 / 2 ^ 56 * |x| ∧ integerPowerOf L .log .w64 t n = .ok v ∧ NearestLogUpTo (1 / 2 ^ 49) (x' ^ n.toInt) v := by
  obtain ⟨p, g, e, h1, hg⟩ := integer_power_res hL hA .log .w64 (Or.inr rfl) t x hx n hn
  rw [e]
  obtain ⟨v, e1, e2⟩ := Res.nearestLog hL (w := .w64) (by norm_num) (by norm_num) hg
  exact ⟨p, v, h1, e1, e2.mono (by norm_num)⟩

end

/-- If the exponent of one takum is closer to that of `f` than all others of its sign, by more than the tolerance, it is the result. -/
theorem nearestLog_unless_tie {w : W} {τ f : ℝ} {t : T w} (h : NearestLogUpTo τ f t) (f0 : f ≠ 0) (s : T w) (rs : Regular s) (ms : s.msb = true ↔ f < 0)
    (hbest : ∀ s' : T w, Regular s' → s'.msb = s.msb → s' ≠ s → |(ell s : ℝ) - logScale f| + τ < |(ell s' : ℝ) - logScale f|) : t = s := by
  obtain ⟨rt, mt, h⟩ := h.2 f0
  by_contra hne
  have hm : s.msb = t.msb := Bool.eq_iff_iff.mpr (ms.trans mt.symm)
  exact absurd (h s rs hm) (not_le.mpr (hbest t rt hm.symm hne))

theorem value_log16 : value .log (0x4400#16 : T .w16) = some (Real.exp (1 / 4)) := by
  show logVal (0x4400#16 : T .w16) = _
  rw [logVal_regular (by decide) (by unfold Regular; decide), logG_exp, show ell (0x4400#16 : T .w16) = 1 / 2 by decide +kernel,
    show (0x4400#16 : T .w16).msb = false by decide]
  norm_num [sg]

/-- The hyperbolic sine of `e^(1/4)` with 16 bits, and the sum of `e^(1/4)` with itself. -/
example : (∃ (x' : ℝ) (v : T .w16), |x' - Real.exp (1 / 4)| ≤ 1 / 2 ^ 56 * Real.exp (1 / 4) ∧ UFun.sinh.call ideal .log .w16 (0x4400#16) = .ok v ∧
      NearestLogUpTo (1 / 2 ^ 47) (Real.sinh x') v) ∧
    (∃ (a b : ℝ) (v : T .w16), addition ideal .w16 0x4400#16 0x4400#16 = .ok v ∧ NearestLogUpTo (1 / 2 ^ 49) (a + b) v) := by
  constructor
  · obtain ⟨x', v, h1, h2, h3⟩ := elementary_nearest_log ideal_conforming ideal_approximates .sinh (by decide) (by decide) .w16 _ _ value_log16
    rw [abs_of_pos (Real.exp_pos _), show argTol .log .sinh = 1 / 2 ^ 56 by norm_num [argTol]] at h1
    rcases h3 with ⟨h3, -⟩ | ⟨-, h3⟩
    · simp [Undefined, Excluded] at h3
    · exact ⟨x', v, h1, h2, h3⟩
  · obtain ⟨⟨a, b, v, h1, -, -, h4⟩, -⟩ := log_addition_nearest ideal_conforming .w16 _ _ _ _ value_log16 value_log16
    exact ⟨a, b, v, h1, h4⟩

/-- The `double` 2 becomes the 16-bit logarithmic takum with the exponent closest to `2 log 2`. -/
example : ∃ t : T .w16, logFrom ideal .f64 .w16 (.num 2) = .ok t ∧
    ∀ t' : T .w16, Regular t' → t'.msb = false → |(ell t : ℝ) - 2 * Real.log 2| ≤ |(ell t' : ℝ) - 2 * Real.log 2| + 1 / 2 ^ 50 := by
  obtain ⟨t, e, h⟩ := log_from_nearest ideal_conforming .f64 .w16 (.num 2) 2 (Fl.Is.num (by norm_num)) ⟨⟨1, 1, by norm_num, by decide, by decide⟩, by decide +kernel⟩
  obtain ⟨-, m, h⟩ := h.2 (by norm_num)
  refine ⟨t, e, fun t' rt' mt' => ?_⟩
  have ht : t.msb = false := by
    rw [← Bool.not_eq_true, m]; norm_num
  have := h t' rt' (mt'.trans ht.symm)
  have e2 : logScale ((2 : ℚ) : ℝ) = 2 * Real.log 2 := by unfold logScale; norm_num
  rwa [e2] at this

end Takum
