import Verif.Props.ExactResults
import Verif.Props.RelError

/-!
# C126: elementary functions are correctly rounded unless the value is next to a tie

C66 and C68 say that the result is one of the two takums enclosing a number close to the value of the function. Here: for linear takums of 16, 32
and 64 bits the result is as close to the value as any takum, up to a small part of the value. So if the value is not next to the middle of two
takums, the result is the nearest takum.
-/

namespace Takum
open Spec

namespace Spec

/-- `t` is, up to `δ |f|`, as close to the real number `f` as any linear takum of its sign; only 0 becomes 0. -/
def NearestUpTo {n : ℕ} (δ f : ℝ) (t : BitVec n) : Prop :=
  ∃ a : ℝ, value .lin t = some a ∧ (a = 0 ↔ f = 0) ∧ 0 ≤ a * f ∧
    ∀ (t' : BitVec n) (b : ℝ), value .lin t' = some b → 0 < b * f → |a - f| ≤ |b - f| + δ * |f|

/-- The tolerance: the errors of the math library and of the steps before the encoding. `arcsch` and `arcoth` are computed in `double`. -/
noncomputable def nearTol : W → UFun → ℝ
  | .w64, .arcsch | .w64, .arcoth => 1 / 2 ^ 49
  | .w64, _ => 1 / 2 ^ 53
  | .w32, _ => 3 / 2 ^ 50
  | _, _ => 1 / 2 ^ 42

/-- The same for the functions of two arguments. -/
noncomputable def nearTol2 : W → ℝ
  | .w64 => 1 / 2 ^ 53
  | .w32 => 3 / 2 ^ 50
  | .w16 | .w8 => 1 / 2 ^ 42

end Spec

/-- A float that approximates `f`. -/
theorem Res.nearest {A : Src} {w : W} (hw : w ≠ .w8) {ε f : ℝ} (e0 : 0 ≤ ε) (e1 : ε ≤ 1 / 4) {r : Fl} (h : Res A.fmt (ε * |f|) f r) :
    ∃ t : T w, linFrom A w r = .ok t ∧ NearestUpTo (slack A w + 3 * ε) f t := by
  obtain ⟨z, iz, hz, h⟩ := h
  have s0 : (0 : ℚ) ≤ slack A w := by cases A <;> cases w <;> simp [slack]
  have s1 : slack A w ≤ 1 := by cases A <;> cases w <;> norm_num [slack]
  have s0' : (0 : ℝ) ≤ slack A w := by exact_mod_cast s0
  have s1' : (slack A w : ℝ) ≤ 1 := by exact_mod_cast s1
  by_cases h0 : z = 0
  · have f0 : f = 0 := by
      rw [h0] at h
      rcases h with h | h
      · rw [Rat.cast_zero, zero_sub, abs_neg] at h
        by_contra hf
        have : 0 < |f| := abs_pos.mpr hf
        nlinarith
      · rw [Rat.cast_zero] at h
        rcases h with h | h | h | h
        · exact absurd h.1 (not_lt.mpr (by positivity))
        · exact absurd h.1 (not_lt.mpr (by rw [neg_nonpos]; positivity))
        · exact absurd h.1 (lt_irrefl _)
        · exact absurd h.2.1 (lt_irrefl _)
    subst h0
    obtain ⟨s, rfl⟩ : ∃ s, r = .zero s := by
      rcases iz.cases with ⟨h, -⟩ | ⟨-, s, rfl⟩
      · exact absurd rfl h
      · exact ⟨s, rfl⟩
    exact ⟨_, linFrom_zero A w s, 0, value_zero .lin, by simp [f0], by simp, fun t' b _ hb => by rw [f0, mul_zero] at hb; exact absurd hb (lt_irrefl _)⟩
  · obtain ⟨t, e, rt, sg, hn⟩ := lin_from_almost_partial A w hw z h0 hz
    obtain ⟨t', e', hf⟩ := lin_from_faithful A w z h0 hz
    obtain rfl : t' = t := by rw [e] at e'; exact (Except.ok.inj e').symm
    have ff := hf.faithful (by exact_mod_cast h0)
    have h5 : 5 ≤ w.n := by have := w.n_pos; omega
    have va : value .lin t' = some ((lv t' : ℚ) : ℝ) := value_lin (linVal_lv h5 rt)
    have a0 : (lv t' : ℝ) ≠ 0 := by exact_mod_cast lv_ne t'
    have neg : (lv t' : ℝ) < 0 ↔ (z : ℝ) < 0 := by
      rw [show (lv t' : ℝ) < 0 ↔ lv t' < 0 by exact_mod_cast Iff.rfl, lv_neg_iff, sg]; exact_mod_cast Iff.rfl
    have zr : (z : ℝ) ≠ 0 := by exact_mod_cast h0
    -- signs of f and z agree
    have zf : f ≠ 0 ∧ ((z : ℝ) < 0 ↔ f < 0) := by
      rcases h with h | h
      · have f0 : f ≠ 0 := by
          rintro rfl
          rw [abs_zero, mul_zero, sub_zero] at h
          exact zr (abs_nonpos_iff.mp h)
        refine ⟨f0, ?_⟩
        rcases lt_or_gt_of_ne f0 with hf | hf
        · rw [abs_of_neg hf] at h
          have := (abs_le.mp h).2
          exact iff_of_true (by nlinarith) hf
        · rw [abs_of_pos hf] at h
          have := (abs_le.mp h).1
          exact iff_of_false (not_lt.mpr (by nlinarith)) hf.le.not_gt
      · have p1 : (0 : ℝ) < 2 ^ (300 : ℤ) := by positivity
        have p2 : (0 : ℝ) < 2 ^ (-300 : ℤ) := by positivity
        rcases h with h | h | h | h
        · exact ⟨(p1.trans h.2).ne', iff_of_false (p1.trans h.1).le.not_gt (p1.trans h.2).le.not_gt⟩
        · have q1 : (z : ℝ) < 0 := h.1.trans (neg_lt_zero.mpr p1)
          have q2 : f < 0 := h.2.trans (neg_lt_zero.mpr p1)
          exact ⟨q2.ne, iff_of_true q1 q2⟩
        · exact ⟨h.2.2.1.ne', iff_of_false h.1.le.not_gt h.2.2.1.le.not_gt⟩
        · exact ⟨h.2.2.2.ne, iff_of_true h.2.1 h.2.2.2⟩
    obtain ⟨f0, zf⟩ := zf
    have same : ∀ {a b : ℝ}, a ≠ 0 → b ≠ 0 → (a < 0 ↔ b < 0) → 0 < a * b := fun {a b} ha hb h => by
      rcases lt_or_gt_of_ne ha with g | g
      · exact mul_pos_of_neg_of_neg g (h.mp g)
      · exact mul_pos g (lt_of_le_of_ne (not_lt.mp (fun k => g.le.not_gt (h.mpr k))) hb.symm)
    refine ⟨t', by rw [iz.eq_num h0]; exact e, (lv t' : ℚ), va, iff_of_false a0 f0, (same a0 f0 (neg.trans zf)).le, fun s b hb hbf => ?_⟩
    have fpos : 0 < |f| := abs_pos.mpr f0
    have b0 : b ≠ 0 := by rintro rfl; rw [zero_mul] at hbf; exact lt_irrefl _ hbf
    obtain ⟨rs, rfl⟩ := lin_regular hb b0
    have bf : (lv s : ℝ) < 0 ↔ f < 0 := by
      constructor
      · intro h; by_contra k; have := mul_nonpos_of_nonpos_of_nonneg h.le (not_lt.mp k); linarith
      · intro h; by_contra k; have := mul_nonpos_of_nonneg_of_nonpos (not_lt.mp k) h.le; linarith
    rcases h with h | h
    · have ms : s.msb = t'.msb := by
        have q1 : s.msb = true ↔ f < 0 := by rw [← lv_neg_iff, ← bf]; exact_mod_cast Iff.rfl
        have q2 : t'.msb = true ↔ f < 0 := by rw [← lv_neg_iff, ← zf, ← neg]; exact_mod_cast Iff.rfl
        exact Bool.eq_iff_iff.mpr (q1.trans q2.symm)
      have k := hn s rs ms _ _ (linVal_lv h5 rt) (linVal_lv h5 rs)
      have k' : |(lv t' : ℝ) - z| ≤ |(lv s : ℝ) - z| + slack A w * |(z : ℝ)| := by exact_mod_cast k
      have k1 := abs_sub_le (lv t' : ℝ) z f
      have k2 := abs_sub_le (lv s : ℝ) f z
      rw [abs_sub_comm f z] at k2
      have k3 : |(z : ℝ)| ≤ |f| + ε * |f| := by have := abs_sub_abs_le_abs_sub (z : ℝ) f; linarith
      have k4 : slack A w * |(z : ℝ)| ≤ slack A w * |f| + ε * |f| := by
        calc (slack A w : ℝ) * |(z : ℝ)| ≤ slack A w * (|f| + ε * |f|) := mul_le_mul_of_nonneg_left k3 s0'
          _ = slack A w * |f| + slack A w * (ε * |f|) := by ring
          _ ≤ _ := by have := mul_le_of_le_one_left (by positivity : 0 ≤ ε * |f|) s1'; linarith
      have : (slack A w + 3 * ε) * |f| = slack A w * |f| + 3 * (ε * |f|) := by ring
      linarith
    · have tail : |(lv t' : ℝ) - f| ≤ |(lv s : ℝ) - f| := by
        obtain ⟨b1, b2⟩ := lv_bounds s
        obtain ⟨a1, a2⟩ := lv_bounds t'
        have up : ∀ u : T w, |((lv u : ℚ) : ℝ)| ≤ (2 : ℝ) ^ (300 : ℤ) := fun u => by
          have := (Rat.cast_le (K := ℝ)).mpr ((lv_bounds u).2.le.trans (zpow_le_zpow_right₀ (by norm_num) (by norm_num) : _ ≤ (2 : ℚ) ^ (300 : ℤ)))
          rwa [Rat.cast_zpow, Rat.cast_abs, Rat.cast_ofNat] at this
        have lo : ∀ u : T w, (2 : ℝ) ^ (-300 : ℤ) ≤ |((lv u : ℚ) : ℝ)| := fun u => by
          have := (Rat.cast_le (K := ℝ)).mpr (le_trans (zpow_le_zpow_right₀ (by norm_num) (by norm_num) : (2 : ℚ) ^ (-300 : ℤ) ≤ _) (lv_bounds u).1)
          rwa [Rat.cast_zpow, Rat.cast_abs, Rat.cast_ofNat] at this
        have ord := ff.2.2 s _ hb
        have le := (value_order .lin hb va).mp
        have ge := (value_order .lin va hb).mp
        have pa : ∀ u : T w, -(2 : ℝ) ^ (300 : ℤ) ≤ (lv u : ℝ) ∧ (lv u : ℝ) ≤ 2 ^ (300 : ℤ) := fun u => abs_le.mp (up u)
        rcases h with h | h | h | h
        · have h1 := le (ord.1 ((pa s).2.trans h.1.le))
          rw [abs_sub_comm, abs_sub_comm (lv s : ℝ), abs_of_nonneg (sub_nonneg.mpr ((pa t').2.trans h.2.le)),
            abs_of_nonneg (sub_nonneg.mpr ((pa s).2.trans h.2.le))]
          linarith
        · have h1 := ge (ord.2 (h.1.le.trans (pa s).1))
          rw [abs_of_nonneg (sub_nonneg.mpr (h.2.le.trans (pa t').1)), abs_of_nonneg (sub_nonneg.mpr (h.2.le.trans (pa s).1))]
          linarith
        · have sp : 0 < (lv s : ℝ) := by
            rcases lt_or_gt_of_ne b0 with g | g
            · exact absurd (bf.mp g) h.2.2.1.le.not_gt
            · exact g
          have tp : 0 < (lv t' : ℝ) := by
            rcases lt_or_gt_of_ne a0 with g | g
            · exact absurd (neg.mp g) h.1.le.not_gt
            · exact g
          have l1 := lo s
          have l2 := lo t'
          rw [abs_of_pos sp] at l1
          rw [abs_of_pos tp] at l2
          have h1 := ge (ord.2 (h.2.1.le.trans l1))
          rw [abs_of_nonneg (by linarith [h.2.2.2]), abs_of_nonneg (by linarith [h.2.2.2])]
          linarith
        · have sp : (lv s : ℝ) < 0 := bf.mpr h.2.2.2
          have tp : (lv t' : ℝ) < 0 := neg.mpr h.2.1
          have l1 := lo s
          have l2 := lo t'
          rw [abs_of_neg sp] at l1
          rw [abs_of_neg tp] at l2
          have h1 := le (ord.1 (by linarith [h.1]))
          rw [abs_of_nonpos (by linarith [h.2.2.1]), abs_of_nonpos (by linarith [h.2.2.1])]
          linarith
      refine tail.trans (le_add_of_nonneg_right (mul_nonneg (by linarith) (abs_nonneg _)))

/-- `NearestUpTo` is weaker for a larger tolerance. -/
theorem Spec.NearestUpTo.mono {n : ℕ} {δ δ' f : ℝ} {t : BitVec n} (h : NearestUpTo δ f t) (hd : δ ≤ δ') : NearestUpTo δ' f t := by
  obtain ⟨a, h1, h2, h3, h4⟩ := h
  exact ⟨a, h1, h2, h3, fun t' b hb hbf => (h4 t' b hb hbf).trans (by have := mul_le_mul_of_nonneg_right hd (abs_nonneg f); linarith)⟩

theorem src_fmt (w : W) : w.src.fmt = kF .lin w := by cases w <;> rfl

section
variable {L : Libm} (hL : L.Conforming) (hA : L.Approximates)
include hL hA

/-- C126: the functions of one argument but `2^x - 1` and `10^x - 1`, which lose digits in a subtraction. The value is that at a point within a relative
error of `argTol` of the argument; the result is NaR if the function is not defined there. -/
theorem elementary_nearest (u : UFun) (h1 : u ≠ .two_raised_minus_1) (h2 : u ≠ .ten_raised_minus_1) (w : W) (hw : w ≠ .w8) (t : T w) (x : ℝ)
    (hx : value .lin t = some x) :
    ∃ (x' : ℝ) (v : T w), |x' - x| ≤ argTol .lin u * |x| ∧ u.call L .lin w t = .ok v ∧
      ((Undefined u x' ∧ v = nar w.n) ∨ (¬Undefined u x' ∧ NearestUpTo (nearTol w u) (realFn u x') v)) := by
  obtain ⟨r, q, e, ha⟩ := kTo_acc hL .lin w hx
  obtain ⟨x', g1, g2⟩ := good_all hL hA u ha
  have g3 := argTol_ge .lin u g1 ha.close
  rw [call_eq e]
  rcases g2 with ⟨h4, h5⟩ | ⟨h4, h5⟩
  · exact ⟨x', nar w.n, g3, kFrom_bad h5, Or.inl ⟨h4, rfl⟩⟩
  · have es : errScale u (realFn u x') = |realFn u x'| := by
      cases u <;> first | rfl | exact absurd rfl h1 | exact absurd rfl h2
    rw [es] at h5
    have p64 : (kF .lin .w64).prec = 64 := rfl
    have p32 : (kF .lin .w32).prec = 53 := rfl
    have p16 : (kF .lin .w16).prec = 53 := rfl
    have r0 : 0 ≤ resPert (kF .lin w) u := by unfold resPert; split <;> positivity
    have r1 : resPert (kF .lin w) u ≤ 1 / 4 := by
      cases w <;> first | exact absurd rfl hw | (unfold resPert; split <;> first | rw [p64] | rw [p32] | rw [p16] | skip) <;> norm_num
    have r2 : (slack w.src w : ℝ) + 3 * resPert (kF .lin w) u ≤ nearTol w u := by
      cases w
      · exact absurd rfl hw
      · rw [show slack W.w16.src .w16 = 1 / 2 ^ 43 from rfl]
        unfold resPert nearTol; rw [p16]; cases u <;> norm_num
      · rw [show slack W.w32.src .w32 = 0 from rfl]
        unfold resPert nearTol; rw [p32]; cases u <;> norm_num
      · rw [show slack W.w64.src .w64 = 1 / 2 ^ 54 from rfl]
        unfold resPert nearTol; rw [p64]; cases u <;> norm_num
    obtain ⟨v, e1, e2⟩ := Res.nearest (A := w.src) hw r0 r1 h5
    exact ⟨x', v, g3, e1, Or.inr ⟨h4, e2.mono r2⟩⟩

/-- C126: `arctan2`, `arctan2_over_pi`, `hypotenuse` and `power`. -/
theorem binary_nearest (u : BFun) (w : W) (hw : w ≠ .w8) (s t : T w) (a b : ℝ) (ha : value .lin s = some a) (hb : value .lin t = some b) :
    ∃ v : T w, u.call L .lin w s t = .ok v ∧
      ((Undefined2 u a b ∧ v = nar w.n) ∨ (¬Undefined2 u a b ∧ NearestUpTo (nearTol2 w) (realFn2 u a b) v)) := by
  obtain ⟨r, p, e, hp⟩ := kTo_acc hL .lin w ha
  obtain ⟨r', q, e', hq⟩ := kTo_acc hL .lin w hb
  have h2 := good2_all hL hA u hp hq
  have t1 := argTol2_ge .lin hp.close
  have t2 := argTol2_ge .lin hq.close
  rw [argTol2, zero_mul] at t1 t2
  obtain rfl : (p : ℝ) = a := by have := abs_nonpos_iff.mp t1; linarith
  obtain rfl : (q : ℝ) = b := by have := abs_nonpos_iff.mp t2; linarith
  rw [bcall_eq e e']
  rcases h2 with ⟨h4, h5⟩ | ⟨h4, h5⟩
  · exact ⟨_, kFrom_bad h5, Or.inl ⟨h4, rfl⟩⟩
  have r2 : (slack w.src w : ℝ) + 3 * (8 / 2 ^ (kF .lin w).prec) ≤ nearTol2 w := by
    cases w
    · exact absurd rfl hw
    · rw [show slack W.w16.src .w16 = 1 / 2 ^ 43 from rfl, show (kF .lin .w16).prec = 53 from rfl, nearTol2]; norm_num
    · rw [show slack W.w32.src .w32 = 0 from rfl, show (kF .lin .w32).prec = 53 from rfl, nearTol2]; norm_num
    · rw [show slack W.w64.src .w64 = 1 / 2 ^ 54 from rfl, show (kF .lin .w64).prec = 64 from rfl, nearTol2]; norm_num
  have r1 : (8 / 2 ^ (kF .lin w).prec : ℝ) ≤ 1 / 4 := by
    rcases kF_std .lin w with h | h <;> rw [h]
    · rw [show b64.prec = 53 from rfl]; norm_num
    · rw [prec80]; norm_num
  obtain ⟨v, e1, e2⟩ := Res.nearest (A := w.src) hw (by positivity) r1 h5
  exact ⟨v, e1, Or.inr ⟨h4, e2.mono r2⟩⟩

/-- C126: the integral power. -/
theorem integer_power_nearest (w : W) (hw : w ≠ .w8) (t : T w) (x : ℝ) (hx : value .lin t = some x) (n : BitVec 64) (hn : x ≠ 0 ∨ 0 < n.toInt) :
    ∃ v : T w, integerPowerOf L .lin w t n = .ok v ∧ NearestUpTo (nearTol2 w) (x ^ n.toInt) v := by
  obtain ⟨p, g, e, h1, hg⟩ := integer_power_res hL hA .lin w (Or.inl rfl) t x hx n hn
  rw [argTol2, zero_mul] at h1
  obtain rfl : p = x := by have := abs_nonpos_iff.mp h1; linarith
  rw [e]
  obtain ⟨v, e1, e2⟩ := Res.nearest (A := .ext) hw (by positivity) (by norm_num) hg
  refine ⟨v, e1, e2.mono ?_⟩
  cases w
  · exact absurd rfl hw
  · rw [show slack .ext .w16 = 1 / 2 ^ 43 from rfl, nearTol2]; norm_num
  · rw [show slack .ext .w32 = 1 / 2 ^ 54 from rfl, nearTol2]; norm_num
  · rw [show slack .ext .w64 = 1 / 2 ^ 54 from rfl, nearTol2]; norm_num

/-- C126: the root of a positive number. -/
theorem lin_root_nearest_up_to (w : W) (hw : w ≠ .w8) (t : T w) (x : ℝ) (hx : value .lin t = some x) (x0 : 0 < x) (n : BitVec 64) (n0 : n.toInt ≠ 0) :
    ∃ v : T w, linRoot L w t n = .ok v ∧ NearestUpTo (2 * nearTol2 w) (x ^ (1 / (n.toInt : ℝ))) v := by
  obtain ⟨g, G, e, ⟨z, iz, hz, hG⟩, h1⟩ := lin_root_res hL hA w t x hx n n0 (Or.inl x0)
  rw [abs_of_pos x0, Real.sign_of_pos x0, one_mul] at h1
  set y := x ^ (1 / (n.toInt : ℝ)) with hy
  have y0 : 0 < y := Real.rpow_pos_of_pos x0 _
  have h2 : |G| ≤ 2 * y := by
    have h3 := abs_sub_abs_le_abs_sub G y
    rw [abs_of_pos y0] at h3
    have : 500 / 2 ^ 64 * y ≤ 1 * y := mul_le_mul_of_nonneg_right (by norm_num) y0.le
    linarith
  have h3 : (4 / 2 ^ 64 : ℝ) * |G| ≤ 4 / 2 ^ 64 * (2 * y) := mul_le_mul_of_nonneg_left h2 (by norm_num)
  have h4 := abs_sub_le (z : ℝ) G y
  have hr : Res Src.ext.fmt (508 / 2 ^ 64 * |y|) y g := by
    refine ⟨z, iz, hz, Or.inl ?_⟩
    rw [abs_of_pos y0, show (508 / 2 ^ 64 * y : ℝ) = 4 / 2 ^ 64 * (2 * y) + 500 / 2 ^ 64 * y by ring]
    linarith
  rw [e]
  obtain ⟨v, e1, e2⟩ := Res.nearest (A := .ext) hw (by positivity) (by norm_num) hr
  refine ⟨v, e1, e2.mono ?_⟩
  cases w
  · exact absurd rfl hw
  · rw [show slack .ext .w16 = 1 / 2 ^ 43 from rfl, nearTol2]; norm_num
  · rw [show slack .ext .w32 = 1 / 2 ^ 54 from rfl, nearTol2]; norm_num
  · rw [show slack .ext .w64 = 1 / 2 ^ 54 from rfl, nearTol2]; norm_num

end

/-- C126: if one takum is closer to `f` than all others of its sign, by more than the tolerance, it is the result. -/
theorem nearest_unless_tie {w : W} {δ f : ℝ} {t : T w} (h : NearestUpTo δ f t) (s : T w) (c : ℝ) (hs : value .lin s = some c) (hc : 0 < c * f)
    (hbest : ∀ (s' : T w) (b : ℝ), value .lin s' = some b → 0 < b * f → s' ≠ s → |c - f| + δ * |f| < |b - f|) : t = s := by
  obtain ⟨a, h1, h2, h3, h4⟩ := h
  by_contra hne
  have f0 : f ≠ 0 := by rintro rfl; rw [mul_zero] at hc; exact lt_irrefl _ hc
  have af : 0 < a * f := lt_of_le_of_ne h3 (mul_ne_zero (fun h => f0 (h2.mp h)) f0).symm
  exact absurd (h4 s c hs hc) (not_le.mpr (hbest t a h1 af hne))

/-- A real number in the range has an enclosing takum. -/
theorem exists_faithful_lin {w : W} {f : ℝ} (hr : InRangeLin w f) : ∃ t : T w, FaithfulLin f t := by
  have h5 : 5 ≤ w.n := by have := w.n_pos; omega
  obtain ⟨s, m, hs, hm, v1, v2⟩ := hr
  obtain ⟨rM, r1, -⟩ := max_facts w
  have ps : (0 : ℚ) < s := by
    rw [linVal_lv h5 r1, Option.some.injEq] at hs
    rw [← hs]
    refine lt_of_le_of_ne (not_lt.mp (fun h => ?_)) (lv_ne _).symm
    have := (lv_neg_iff _).mp h
    revert this; cases w <;> decide
  have f0 : f ≠ 0 := by
    rintro rfl
    rw [abs_zero] at v1
    have : (0 : ℝ) < s := by exact_mod_cast ps
    linarith
  let P : T w → Prop := fun u => Regular u ∧ (u.msb = true ↔ f < 0) ∧ (lv u : ℝ) ≤ f
  have ne : ∃ u, P u := by
    rcases lt_or_gt_of_ne f0 with h | h
    · refine ⟨-(BitVec.ofNat w.n (2 ^ (w.n - 1) - 1)), (regular_neg (by omega) rM).2.2.1, ?_, ?_⟩
      · refine iff_of_true ?_ h
        cases w <;> decide
      · rw [linVal_lv h5 rM, Option.some.injEq] at hm
        have : lv (-(BitVec.ofNat w.n (2 ^ (w.n - 1) - 1) : T w)) = -m := by
          rw [← hm, ← qv_regular (regular_neg (by omega) rM).2.2.1, qv_neg rM.2, qv_regular rM]
        rw [this, Rat.cast_neg]
        rw [abs_of_neg h] at v2
        linarith
    · refine ⟨1#w.n, r1, ?_, ?_⟩
      · refine iff_of_false ?_ h.le.not_gt
        cases w <;> decide
      · rw [linVal_lv h5 r1, Option.some.injEq] at hs
        rw [hs]; rwa [abs_of_pos h] at v1
  obtain ⟨u0, hu0⟩ := ne
  obtain ⟨i, ⟨t, ⟨rt, st, lt⟩, hi⟩, hmax'⟩ := Int.exists_greatest_of_bdd (P := fun i => ∃ u, P u ∧ u.toInt = i)
    ⟨2 ^ w.n, by rintro z ⟨u, -, rfl⟩; have := u.toInt_lt; have h : (2 : ℤ) ^ (w.n - 1) ≤ 2 ^ w.n := pow_le_pow_right₀ (by norm_num) (by omega); omega⟩
    ⟨_, u0, hu0, rfl⟩
  have hmax : ∀ u, P u → u.toInt ≤ t.toInt := fun u hu => by rw [hi]; exact hmax' _ ⟨u, hu, rfl⟩
  have va : value .lin t = some ((lv t : ℚ) : ℝ) := value_lin (linVal_lv h5 rt)
  refine ⟨t, rt, st, fun t' x rt' hx => ?_⟩
  have vb : value .lin t' = some (x : ℝ) := value_lin hx
  rw [linVal_lv h5 rt', Option.some.injEq] at hx
  subst hx
  refine ⟨fun h => ?_, fun h => (value_order .lin va vb).mpr (lt.trans h)⟩
  have nb : (lv t' : ℝ) < 0 ↔ t'.msb = true := by rw [← lv_neg_iff]; exact_mod_cast Iff.rfl
  have na : (lv t : ℝ) < 0 ↔ t.msb = true := by rw [← lv_neg_iff]; exact_mod_cast Iff.rfl
  by_cases hm' : t'.msb = true ↔ f < 0
  · exact hmax t' ⟨rt', hm', h⟩
  · refine (value_order .lin vb va).mpr ?_
    by_cases hf : f < 0
    · exact absurd (iff_of_true (nb.mp (h.trans_lt hf)) hf) hm'
    · have q1 : t'.msb = true := by by_contra k; exact hm' (iff_of_false k hf)
      have q2 : ¬ (lv t : ℝ) < 0 := fun k => hf (st.mp (na.mp k))
      exact (nb.mpr q1).le.trans (not_lt.mp q2)

/-- C126: the relative error of a result whose value is in the range of the takums. -/
theorem nearest_relative {w : W} (hw : w ≠ .w8) {δ f : ℝ} {t : T w} (h : NearestUpTo δ f t) (hr : InRangeLin w f) :
    ∃ a : ℝ, value .lin t = some a ∧ |a - f| ≤ (1 / 2 ^ (w.n - 11) + δ) * |f| := by
  obtain ⟨a, h1, h2, h3, h4⟩ := h
  obtain ⟨s, hs⟩ := exists_faithful_lin hr
  have h5 : 5 ≤ w.n := by have := w.n_pos; omega
  have key : ∃ (u : T w) (b : ℝ), value .lin u = some b ∧ 0 < b * f ∧ |b - f| ≤ 1 / 2 ^ (w.n - 11) * |f| := by
    have ss : (lv s : ℝ) < 0 ↔ f < 0 := by rw [← hs.2.1, ← lv_neg_iff]; exact_mod_cast Iff.rfl
    obtain ⟨z, hz, h6⟩ := bracket_lin hs hr
    rw [linVal_lv h5 hs.1, Option.some.injEq] at hz
    have f0 : f ≠ 0 := by
      rintro rfl
      obtain ⟨p, m, hp, -, g, -⟩ := hr
      obtain ⟨-, r1, -⟩ := max_facts w
      rw [linVal_lv h5 r1, Option.some.injEq] at hp
      rw [abs_zero] at g
      have g' : p ≤ 0 := by exact_mod_cast g
      rw [← hp] at g'
      have := (lv_neg_iff _).mp (lt_of_le_of_ne g' (lv_ne _))
      revert this; cases w <;> decide
    rcases h6 with e | ⟨u, p, q, hu, hu', ru, ru', mu, mu', pq, g1, g2⟩
    · refine ⟨s, f, ?_, mul_self_pos.mpr f0, by rw [sub_self, abs_zero]; positivity⟩
      rw [← e, ← hz]; exact value_lin (linVal_lv h5 hs.1)
    · obtain ⟨k, hk, lk⟩ := min_precision hw u
      have half : |f| / 2 ^ (k + 1) ≤ 1 / 2 ^ (w.n - 11) * |f| := by
        have : (2 : ℝ) ^ (w.n - 11) ≤ 2 ^ (k + 1) := pow_le_pow_right₀ (by norm_num) (by cases w <;> first | exact absurd rfl hw | (simp only [W.n] at *; omega))
        rw [div_eq_mul_one_div, mul_comm]
        exact mul_le_mul_of_nonneg_right (one_div_le_one_div_of_le (by positivity) this) (abs_nonneg f)
      have sgn : ∀ (u' : T w) (c : ℚ), Regular u' → linVal u' = some c → u'.msb = s.msb → 0 < (c : ℝ) * f := by
        intro u' c ru' hc hm
        rw [linVal_lv h5 ru', Option.some.injEq] at hc
        subst hc
        have : (lv u' : ℝ) < 0 ↔ f < 0 := by rw [← hs.2.1, ← hm, ← lv_neg_iff]; exact_mod_cast Iff.rfl
        have n0 : (lv u' : ℝ) ≠ 0 := by exact_mod_cast lv_ne u'
        rcases lt_or_gt_of_ne n0 with g | g
        · exact mul_pos_of_neg_of_neg g (this.mp g)
        · exact mul_pos g (lt_of_le_of_ne (not_lt.mp (fun k => g.le.not_gt (this.mpr k))) f0.symm)
      rcases precision_error_lin w u k hk (Or.inl hw) p q hu hu' pq f g1.le g2.le with g | g
      · exact ⟨u, p, value_lin hu, sgn u p ru hu mu, by rw [abs_sub_comm]; exact g.trans half⟩
      · exact ⟨_, q, value_lin hu', sgn _ q ru' hu' mu', by rw [abs_sub_comm]; exact g.trans half⟩
  obtain ⟨u, b, hb, hbf, hd⟩ := key
  refine ⟨a, h1, ?_⟩
  rw [add_mul]
  linarith [h4 u b hb hbf]

/-- `exp(3/2)` with 16 bits: a relative error of little more than 1/32. -/
example : ∃ (v : T .w16) (a : ℝ), UFun.exp.call ideal .lin .w16 (0x4400#16) = .ok v ∧ value .lin v = some a ∧
    |a - Real.exp (3 / 2)| ≤ (1 / 2 ^ 5 + 1 / 2 ^ 42) * |Real.exp (3 / 2)| := by
  obtain ⟨x', v, h1, h2, h3⟩ := elementary_nearest ideal_conforming ideal_approximates .exp (by decide) (by decide) .w16 (by decide) _ _ value_three_halves16
  rw [show argTol .lin .exp = 0 by norm_num [argTol], zero_mul] at h1
  obtain rfl : x' = 3 / 2 := by have := abs_nonpos_iff.mp h1; linarith
  rcases h3 with ⟨h3, -⟩ | ⟨-, h3⟩
  · simp [Undefined, Excluded] at h3
  have e1 : linVal (1#W.w16.n : T .w16) = some (17 / 2 ^ 259) := by decide +kernel
  have e2 : linVal (BitVec.ofNat W.w16.n (2 ^ (W.w16.n - 1) - 1) : T .w16) = some (31 * 2 ^ 250) := by decide +kernel
  obtain ⟨a, h4, h5⟩ := nearest_relative (by decide) h3 ⟨_, _, e1, e2, by
    have := Real.one_le_exp (show (0 : ℝ) ≤ 3 / 2 by norm_num)
    rw [realFn, abs_of_pos (Real.exp_pos _)]
    have h : (17 : ℝ) / 2 ^ 259 ≤ 17 / 2 ^ 8 := div_le_div_of_nonneg_left (by norm_num) (by norm_num) (pow_le_pow_right₀ (by norm_num) (by norm_num))
    push_cast
    exact h.trans (le_trans (by norm_num) this), by
    rw [realFn, abs_of_pos (Real.exp_pos _)]
    have h : Real.exp (3 / 2) ≤ 9 := by
      have h1 := Real.exp_one_lt_d9
      calc Real.exp (3 / 2) ≤ Real.exp 2 := Real.exp_le_exp.mpr (by norm_num)
        _ = Real.exp 1 ^ 2 := by rw [← Real.exp_nat_mul]; norm_num
        _ ≤ 3 ^ 2 := by
          have := Real.exp_pos 1
          exact pow_le_pow_left₀ this.le (by linarith) 2
        _ = 9 := by norm_num
    refine h.trans ?_
    norm_num⟩
  exact ⟨v, a, h2, h4, h5⟩

/-- 5 is the nearest takum of 5, by more than the tolerance, so `hypotenuse(3, 4)` is 5. -/
example : ∀ v : T .w16, NearestUpTo (nearTol2 .w16) 5 v → v = 0x4D00#16 := by
  intro v hv
  have val : ∀ (t : T .w16) (q : ℚ), linVal t = some q → value .lin t = some (q : ℝ) := fun t q h => value_lin h
  have h5 := val 0x4D00#16 5 (by decide +kernel)
  have h4 := val 0x4CFF#16 (1279 / 256) (by decide +kernel)
  have h6 := val 0x4D01#16 (1281 / 256) (by decide +kernel)
  refine nearest_unless_tie hv _ _ h5 (by norm_num) fun s b hb _ hne => ?_
  have : s.toInt ≤ (0x4CFF#16 : T .w16).toInt ∨ (0x4D01#16 : T .w16).toInt ≤ s.toInt := by
    by_contra h
    rw [show (0x4CFF#16 : T .w16).toInt = 0x4CFF by decide, show (0x4D01#16 : T .w16).toInt = 0x4D01 by decide] at h
    refine hne (BitVec.eq_of_toInt_eq ?_)
    rw [show (0x4D00#16 : T .w16).toInt = 0x4D00 by decide]
    omega
  rw [nearTol2, show ((5 : ℚ) : ℝ) - 5 = 0 by norm_num, abs_zero, zero_add]
  rcases this with h | h
  · have := (value_order .lin hb h4).mp h
    push_cast at this
    rw [abs_of_neg (show b - 5 < 0 by linarith)]; norm_num; linarith
  · have := (value_order .lin h6 hb).mp h
    push_cast at this
    rw [abs_of_pos (show 0 < b - 5 by linarith)]; norm_num; linarith

end Takum
