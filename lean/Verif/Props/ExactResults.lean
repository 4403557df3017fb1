import Verif.Lemmas.ExactNear
import Verif.Props.Accuracy
import Verif.Props.BinAccuracy
import Verif.Props.LinAlmost

/-!
# C125: exact results are returned exactly

If the exact value of an elementary function at a linear takum is a linear takum of the same width, it is returned: `lb(8)` is 3, `lg(1000)`
is 3, `hypotenuse(3, 4)` is 5, `root(27, 3)` is 3. The errors of the math library and of the conversions are too small to matter.
-/

namespace Takum
open Spec

/-- When the error `σ` of the `double` or `long double` cannot change the takum `f`: always with 8, 16 and 32 bits if `σ` is at most `f / 2^40`;
with 64 bits if it is smaller than two and a half units in the last place, or smaller than five for a takum that is not between 1/4 and 4. -/
def Harmless (w : W) (σ f : ℝ) : Prop :=
  (w ≠ .w64 ∧ σ ≤ 1 / 2 ^ 40 * |f|) ∨ σ ≤ 5 / 2 ^ 64 * |f| ∨ (σ ≤ 9 / 2 ^ 64 * |f| ∧ (4 ≤ |f| ∨ |f| ≤ 1 / 4))

theorem lin_regular {w : W} {t : T w} {f : ℝ} (ht : value .lin t = some f) (h0 : f ≠ 0) : Regular t ∧ f = lv t := by
  have hn : t ≠ nar w.n := by rw [Ne, ← value_none (k := .lin), ht]; simp
  have hz : t ≠ 0#w.n := by rintro rfl; rw [value_zero] at ht; exact h0 (Option.some.inj ht).symm
  rw [value_lin (linVal_qv hn), qv_regular ⟨hz, hn⟩] at ht
  exact ⟨⟨hz, hn⟩, (Option.some.inj ht).symm⟩

theorem two_le_ell {x : ℚ} (h : 4 ≤ lam x ∨ lam x ≤ 1 / 4) : 2 ≤ |x| := by
  have e1 : lam 2 = 4 := by decide +kernel
  have e2 : lam (-2) = 1 / 4 := by decide +kernel
  rcases h with h | h
  · rw [← e1, lam_strictMono.le_iff_le] at h
    exact h.trans (le_abs_self x)
  · rw [← e2, lam_strictMono.le_iff_le] at h
    exact (by linarith : (2 : ℚ) ≤ -x).trans (neg_le_abs x)

/-- A float that approximates a takum well enough is converted to that takum. -/
theorem Res.exact {A : Src} {w : W} (hA : w = .w64 → A = .ext) {σ f : ℝ} {r : Fl} (h : Res A.fmt σ f r) {t : T w} (ht : value .lin t = some f)
    (hd : Harmless w σ f) : linFrom A w r = .ok t := by
  obtain ⟨z, iz, hz, h⟩ := h
  by_cases h0 : f = 0
  · subst h0
    have t0 : t = 0#w.n := BitVec.eq_of_toInt_eq
      (le_antisymm ((value_order .lin ht (value_zero .lin)).mpr le_rfl) ((value_order .lin (value_zero .lin) ht).mpr le_rfl))
    have hs : σ ≤ 0 := by
      rcases hd with h | h | h
      · simpa using h.2
      · simpa using h
      · simpa using h.1
    have z0 : z = 0 := by
      rcases h with h | h
      · rw [sub_zero] at h
        have := abs_nonpos_iff.mp (h.trans hs)
        exact_mod_cast this
      · rcases h with h | h | h | h
        · exact absurd h.2 (not_lt.mpr (by positivity))
        · exact absurd h.2 (not_lt.mpr (by rw [neg_nonpos]; positivity))
        · exact absurd h.2.2.1 (lt_irrefl _)
        · exact absurd h.2.2.2 (lt_irrefl _)
    subst z0
    obtain ⟨s, rfl⟩ : ∃ s, r = .zero s := by
      rcases iz.cases with ⟨h, -⟩ | ⟨-, s, rfl⟩
      · exact absurd rfl h
      · exact ⟨s, rfl⟩
    rw [t0]; exact linFrom_zero A w s
  · obtain ⟨rt, rfl⟩ := lin_regular ht h0
    have lb : (|lv t| : ℚ) = lam (ell t) := lv_abs t
    obtain ⟨b1, b2⟩ := lv_bounds t
    have hz' : |(z : ℝ) - (lv t : ℚ)| ≤ σ := by
      rcases h with h | h
      · exact h
      · exfalso
        have b1' : (2 : ℝ) ^ (-300 : ℤ) ≤ |((lv t : ℚ) : ℝ)| := by
          have := (Rat.cast_le (K := ℝ)).mpr (le_trans (zpow_le_zpow_right₀ (by norm_num) (by norm_num) : (2 : ℚ) ^ (-300 : ℤ) ≤ _) b1)
          rwa [Rat.cast_zpow, Rat.cast_abs, Rat.cast_ofNat] at this
        have b2' : |((lv t : ℚ) : ℝ)| ≤ (2 : ℝ) ^ (300 : ℤ) := by
          have := (Rat.cast_le (K := ℝ)).mpr (b2.le.trans (zpow_le_zpow_right₀ (by norm_num) (by norm_num) : _ ≤ (2 : ℚ) ^ (300 : ℤ)))
          rwa [Rat.cast_zpow, Rat.cast_abs, Rat.cast_ofNat] at this
        rcases h with h | h | h | h
        · exact absurd (h.2.trans_le (le_abs_self _)) (not_lt.mpr b2')
        · exact absurd ((lt_neg.mp h.2).trans_le (neg_le_abs _)) (not_lt.mpr b2')
        · rw [abs_of_pos h.2.2.1] at b1'; exact absurd h.2.2.2 (not_lt.mpr b1')
        · rw [abs_of_neg h.2.2.2] at b1'; exact absurd (neg_lt.mp h.2.2.1) (not_lt.mpr b1')
    have key : ∃ δ : ℚ, Tol w (ell t) δ ∧ σ ≤ (δ : ℝ) * |((lv t : ℚ) : ℝ)| := by
      rcases hd with ⟨h1, h2⟩ | h | ⟨h1, h2⟩
      · exact ⟨1 / 2 ^ 40, Or.inl ⟨h1, le_rfl⟩, by push_cast; exact h2⟩
      · exact ⟨5 / 2 ^ 64, Or.inr (Or.inl le_rfl), by push_cast; exact h⟩
      · refine ⟨9 / 2 ^ 64, Or.inr (Or.inr ⟨le_rfl, two_le_ell ?_⟩), by push_cast; exact h1⟩
        rw [← lb]
        rcases h2 with h2 | h2
        · left; exact_mod_cast h2
        · right
          refine (Rat.cast_le (K := ℝ)).mp ?_
          push_cast; exact h2
    obtain ⟨δ, hδ, hσ⟩ := key
    have hq : |z - lv t| ≤ δ * |lv t| := by
      refine (Rat.cast_le (K := ℝ)).mp ?_
      push_cast
      exact hz'.trans hσ
    obtain ⟨z0, e⟩ := linFrom_close A hA rt hz hδ hq
    rw [iz.eq_num z0]; exact e

theorem src64 {w : W} (h : w = .w64) : w.src = .ext := by rw [h]; rfl

section
variable {L : Libm} (hL : L.Conforming) (hA : L.Approximates)
include hL hA

/-- The functions whose argument is used as it is. For `2^x - 1` and `10^x - 1`, which are computed by a subtraction, `errScale` is `|y| + 1` instead
of `|y|`. -/
theorem elementary_exact_of (u : UFun) (hu : argTol .lin u = 0) (w : W) (t v : T w) (x : ℝ) (hx : value .lin t = some x) (hd : ¬Undefined u x)
    (hv : value .lin v = some (realFn u x)) (h : Harmless w (8 / 2 ^ (kF .lin w).prec * errScale u (realFn u x)) (realFn u x)) :
    u.call L .lin w t = .ok v := by
  obtain ⟨r, q, e, ha⟩ := kTo_acc hL .lin w hx
  obtain ⟨x', h1, h2⟩ := good_all hL hA u ha
  have h3 := argTol_ge .lin u h1 ha.close
  rw [hu, zero_mul] at h3
  obtain rfl : x' = x := by have := abs_nonpos_iff.mp h3; linarith
  rw [call_eq e]
  rcases h2 with ⟨h4, -⟩ | ⟨-, h5⟩
  · exact absurd h4 hd
  · have : resPert (kF .lin w) u = 8 / 2 ^ (kF .lin w).prec := by
      cases u <;> first | rfl | (exfalso; norm_num [argTol] at hu)
    rw [this] at h5
    exact Res.exact src64 h5 hv h

/-- C125: with 8, 16 and 32 bits an elementary function returns its value if this is a takum (for `2^x - 1` and `10^x - 1`, unless it is tiny). -/
theorem elementary_exact (u : UFun) (hu : argTol .lin u = 0) (w : W) (hw : w ≠ .w64) (t v : T w) (x : ℝ) (hx : value .lin t = some x)
    (hd : ¬Undefined u x) (hv : value .lin v = some (realFn u x)) (hs : errScale u (realFn u x) ≤ 2 ^ 10 * |realFn u x|) :
    u.call L .lin w t = .ok v := by
  refine elementary_exact_of hL hA u hu w t v x hx hd hv (Or.inl ⟨hw, ?_⟩)
  have : (kF .lin w).prec = 53 := by cases w <;> first | rfl | exact absurd rfl hw
  rw [this]
  refine (mul_le_mul_of_nonneg_left hs (by norm_num)).trans (le_of_eq ?_)
  ring

/-- C125: with 64 bits, if it is not between 1/4 and 4 in magnitude. -/
theorem elementary_exact_64 (u : UFun) (hu : argTol .lin u = 0) (t v : T .w64) (x : ℝ) (hx : value .lin t = some x)
    (hd : ¬Undefined u x) (hv : value .lin v = some (realFn u x)) (hs : errScale u (realFn u x) ≤ 9 / 8 * |realFn u x|)
    (hf : 4 ≤ |realFn u x| ∨ |realFn u x| ≤ 1 / 4) : u.call L .lin .w64 t = .ok v := by
  refine elementary_exact_of hL hA u hu .w64 t v x hx hd hv (Or.inr (Or.inr ⟨?_, hf⟩))
  rw [show (kF .lin .w64).prec = 64 from rfl]
  refine (mul_le_mul_of_nonneg_left hs (by norm_num)).trans (le_of_eq ?_)
  ring

/-- C125: `arctan2`, `arctan2_over_pi`, `hypotenuse` and `power`. -/
theorem binary_exact (u : BFun) (w : W) (s t v : T w) (a b : ℝ) (ha : value .lin s = some a) (hb : value .lin t = some b)
    (hd : ¬Undefined2 u a b) (hv : value .lin v = some (realFn2 u a b)) (hw : w = .w64 → 4 ≤ |realFn2 u a b| ∨ |realFn2 u a b| ≤ 1 / 4) :
    u.call L .lin w s t = .ok v := by
  obtain ⟨r, p, e, hp⟩ := kTo_acc hL .lin w ha
  obtain ⟨r', q, e', hq⟩ := kTo_acc hL .lin w hb
  have h2 := good2_all hL hA u hp hq
  have t1 := argTol2_ge .lin hp.close
  have t2 := argTol2_ge .lin hq.close
  rw [argTol2, zero_mul] at t1 t2
  obtain rfl : (p : ℝ) = a := by have := abs_nonpos_iff.mp t1; linarith
  obtain rfl : (q : ℝ) = b := by have := abs_nonpos_iff.mp t2; linarith
  rw [bcall_eq e e']
  rcases h2 with ⟨h4, -⟩ | ⟨-, h5⟩
  · exact absurd h4 hd
  refine Res.exact src64 h5 hv ?_
  by_cases h : w = .w64
  · subst h
    rw [show (kF .lin .w64).prec = 64 from rfl]
    exact Or.inr (Or.inr ⟨mul_le_mul_of_nonneg_right (by norm_num) (abs_nonneg _), hw rfl⟩)
  · have : (kF .lin w).prec = 53 := by cases w <;> first | rfl | exact absurd rfl h
    rw [this]
    exact Or.inl ⟨h, mul_le_mul_of_nonneg_right (by norm_num) (abs_nonneg _)⟩

/-- C125: the integral power, for all widths. -/
theorem integer_power_exact (w : W) (t v : T w) (x : ℝ) (hx : value .lin t = some x) (n : BitVec 64) (hn : x ≠ 0 ∨ 0 < n.toInt)
    (hv : value .lin v = some (x ^ n.toInt)) : integerPowerOf L .lin w t n = .ok v := by
  obtain ⟨p, g, e, h1, hg⟩ := integer_power_res hL hA .lin w (Or.inl rfl) t x hx n hn
  rw [argTol2, zero_mul] at h1
  obtain rfl : p = x := by have := abs_nonpos_iff.mp h1; linarith
  rw [e]
  exact Res.exact (A := .ext) (fun _ => rfl) hg hv (Or.inr (Or.inl (mul_le_mul_of_nonneg_right (by norm_num) (abs_nonneg _))))

/-- C125: the root, with 8, 16 and 32 bits. -/
theorem root_exact (w : W) (hw : w ≠ .w64) (t v : T w) (x y : ℝ) (hx : value .lin t = some x) (hv : value .lin v = some y) (x0 : 0 < x) (y0 : 0 < y)
    (n : BitVec 64) (n0 : n.toInt ≠ 0) (h : y ^ n.toInt = x) : linRoot L w t n = .ok v := by
  obtain ⟨g, G, e, ⟨z, iz, hz, hG⟩, h1⟩ := lin_root_res hL hA w t x hx n n0 (Or.inl x0)
  have ey : |x| ^ (1 / (n.toInt : ℝ)) = y := by
    rw [abs_of_pos x0, ← h, ← Real.rpow_intCast, ← Real.rpow_mul y0.le, mul_one_div_cancel (by exact_mod_cast n0), Real.rpow_one]
  rw [ey, Real.sign_of_pos x0, one_mul] at h1
  rw [e]
  refine Res.exact (A := .ext) (σ := 1 / 2 ^ 40 * |y|) (fun _ => rfl) ⟨z, iz, hz, Or.inl ?_⟩ hv (Or.inl ⟨hw, le_rfl⟩)
  have h2 : |G| ≤ 2 * y := by
    have h3 := abs_sub_abs_le_abs_sub G y
    rw [abs_of_pos y0] at h3
    have : 500 / 2 ^ 64 * y ≤ 1 * y := mul_le_mul_of_nonneg_right (by norm_num) y0.le
    linarith
  have h3 : (4 / 2 ^ 64 : ℝ) * |G| ≤ 4 / 2 ^ 64 * (2 * y) := mul_le_mul_of_nonneg_left h2 (by norm_num)
  have h4 := abs_sub_le (z : ℝ) G y
  have h5 : (4 / 2 ^ 64 * (2 * y) : ℝ) + 500 / 2 ^ 64 * y ≤ 1 / 2 ^ 40 * y := by
    rw [show (4 / 2 ^ 64 * (2 * y) : ℝ) + 500 / 2 ^ 64 * y = 508 / 2 ^ 64 * y by ring]
    exact mul_le_mul_of_nonneg_right (by norm_num) y0.le
  rw [abs_of_pos y0]
  linarith

/-- C125: if a positive takum has an integral power that is a takum, the root takes the power back. -/
theorem root_of_integer_power (w : W) (hw : w ≠ .w64) (t p : T w) (x : ℝ) (hx : value .lin t = some x) (x0 : 0 < x) (n : BitVec 64) (n0 : n.toInt ≠ 0)
    (hp : value .lin p = some (x ^ n.toInt)) : integerPowerOf L .lin w t n = .ok p ∧ linRoot L w p n = .ok t :=
  ⟨integer_power_exact hL hA w t p x hx n (Or.inl x0.ne') hp, root_exact hL hA w hw p t _ x hp hx (zpow_pos x0 _) x0 n n0 rfl⟩

end

theorem lin_value {w : W} {t : T w} {q : ℚ} (h : linVal t = some q) {x : ℝ} (hx : x = q) : value .lin t = some x := by
  rw [value_lin h, hx]

/-- `lb(8) = 3` with 16 bits, `lb(32) = 5` with 64 bits. -/
example : UFun.lb.call ideal .lin .w16 (0x5000#16) = .ok (0x4A00#16) ∧
    UFun.lb.call ideal .lin .w64 (0x5400000000000000#64) = .ok (0x4D00000000000000#64) := by
  have h3 : Real.logb 2 8 = 3 := by rw [show (8 : ℝ) = 2 ^ (3 : ℕ) by norm_num, Real.logb_pow]; norm_num
  have h5 : Real.logb 2 32 = 5 := by rw [show (32 : ℝ) = 2 ^ (5 : ℕ) by norm_num, Real.logb_pow]; norm_num
  constructor
  · refine elementary_exact ideal_conforming ideal_approximates .lb (by norm_num [argTol]) .w16 (by decide) _ _ 8
      (lin_value (w := .w16) (t := 0x5000#16) (q := 8) (by decide +kernel) (by norm_num)) (by norm_num [Undefined, Excluded]) ?_ ?_
    · rw [realFn, h3]; refine lin_value (w := .w16) (t := 0x4A00#16) (q := 3) (by decide +kernel) (by norm_num)
    · rw [realFn, h3]; norm_num [errScale]
  · refine elementary_exact_64 ideal_conforming ideal_approximates .lb (by norm_num [argTol]) _ _ 32
      (lin_value (w := .w64) (t := 0x5400000000000000#64) (q := 32) (by decide +kernel) (by norm_num)) (by norm_num [Undefined, Excluded]) ?_ ?_ ?_
    · rw [realFn, h5]; refine lin_value (w := .w64) (t := 0x4D00000000000000#64) (q := 5) (by decide +kernel) (by norm_num)
    · rw [realFn, h5]; norm_num [errScale]
    · rw [realFn, h5]; norm_num

/-- `hypotenuse(3, 4) = 5` with 16 and 64 bits. -/
example : BFun.hypotenuse.call ideal .lin .w16 (0x4A00#16) (0x4C00#16) = .ok (0x4D00#16) ∧
    BFun.hypotenuse.call ideal .lin .w64 (0x4A00000000000000#64) (0x4C00000000000000#64) = .ok (0x4D00000000000000#64) := by
  have h5 : Real.sqrt (3 ^ 2 + 4 ^ 2) = 5 := by rw [show (3 : ℝ) ^ 2 + 4 ^ 2 = 5 ^ 2 by norm_num, Real.sqrt_sq (by norm_num)]
  constructor
  · refine binary_exact ideal_conforming ideal_approximates .hypotenuse .w16 _ _ _ 3 4 (lin_value (w := .w16) (t := 0x4A00#16) (q := 3) (by decide +kernel) (by norm_num))
      (lin_value (w := .w16) (t := 0x4C00#16) (q := 4) (by decide +kernel) (by norm_num)) (by simp [Undefined2]) ?_ (fun h => absurd h (by decide))
    rw [realFn2, h5]; refine lin_value (w := .w16) (t := 0x4D00#16) (q := 5) (by decide +kernel) (by norm_num)
  · refine binary_exact ideal_conforming ideal_approximates .hypotenuse .w64 _ _ _ 3 4 (lin_value (w := .w64) (t := 0x4A00000000000000#64) (q := 3) (by decide +kernel) (by norm_num))
      (lin_value (w := .w64) (t := 0x4C00000000000000#64) (q := 4) (by decide +kernel) (by norm_num)) (by simp [Undefined2]) ?_ (fun _ => ?_)
    · rw [realFn2, h5]; refine lin_value (w := .w64) (t := 0x4D00000000000000#64) (q := 5) (by decide +kernel) (by norm_num)
    · rw [realFn2, h5]; norm_num

/-- `3^3 = 27` and the cube root of 27 is 3. -/
example : integerPowerOf ideal .lin .w16 (0x4A00#16) 3#64 = .ok (0x5360#16) ∧ linRoot ideal .w16 (0x5360#16) 3#64 = .ok (0x4A00#16) := by
  refine root_of_integer_power ideal_conforming ideal_approximates .w16 (by decide) _ _ 3 (lin_value (w := .w16) (t := 0x4A00#16) (q := 3) (by decide +kernel) (by norm_num))
    (by norm_num) 3#64 (by decide) ?_
  rw [show (3#64 : BitVec 64).toInt = 3 by decide]
  exact lin_value (w := .w16) (t := 0x5360#16) (q := 27) (by decide +kernel) (by norm_num)

end Takum
