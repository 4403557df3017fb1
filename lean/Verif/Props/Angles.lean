import Verif.Lemmas.Angles
import Verif.Lemmas.IdealAngles
import Verif.Props.Range
import Verif.Lemmas.Powers

/-!
# C122: the inverse trigonometric functions stay in their range and `arctan2` in its quadrant

The bounds are the constants `PI` and `PI_OVER_2` of the header, the numbers 1/2 and 1, and 0.
-/

namespace Takum
open Spec

/-- The takum from a float between two bounds is between the takums of the bounds. -/
theorem from_between {L : Libm} (hL : L.Conforming) (k : Kind) {w : W} (hm : k = .log → Increasing L.log) {f flo fhi : Fl} {lo hi : ℚ} (h : f.Btw (kF k w) lo hi)
    (hlo : (kF k w).In lo) (hhi : (kF k w).In hi) (nlo : flo.Is lo) (nhi : fhi.Is hi) {a b : T w} (ea : kFrom L k w flo = .ok a) (eb : kFrom L k w fhi = .ok b) {p q : ℝ}
    (hp : value k a = some p) (hq : value k b = some q) :
    ∃ (s : T w) (y : ℝ), kFrom L k w f = .ok s ∧ value k s = some y ∧ p ≤ y ∧ y ≤ q := by
  obtain ⟨r, hr, ir, h1, h2⟩ := h
  obtain ⟨s, y, e, hy, -⟩ := kFrom_unit hL k (w := w) hr ir
  have mono : ∀ {f g : Fl} {v u : ℚ} {t t' : T w}, f.Is v → g.Is u → (kF k w).In v → (kF k w).In u → v ≤ u → kFrom L k w f = .ok t →
      kFrom L k w g = .ok t' → t.toInt ≤ t'.toInt := by
    intro f g v u t t' hf hg hv hu h et et'
    cases k with
    | log =>
      obtain ⟨x, x', e1, e2, l⟩ := kFrom_mono hL (hm rfl) .log w hf hg hv hu (Or.inl h)
      rw [et] at e1; rw [et'] at e2; cases e1; cases e2; exact l
    | lin =>
      obtain ⟨x, x', e1, e2, l⟩ := linFrom_mono w.src w hf hg hv hu h
      have et : linFrom w.src w f = .ok t := et
      have et' : linFrom w.src w g = .ok t' := et'
      rw [et] at e1; rw [et'] at e2; cases e1; cases e2; exact l
  exact ⟨s, y, e, hy, (value_order k hp hy).mp (mono nlo hr hlo ir h1 ea e), (value_order k hy hq).mp (mono hr nhi ir hhi h2 e eb)⟩

/-- The linear constants have a value, and so do their negations. -/
theorem const_value (c : Const) (hc : c = .pi1 ∨ c = .pi1_2) (w : W) :
    ∃ x : ℝ, value .lin (c.takum .lin w) = some x ∧ value .lin (-c.takum .lin w) = some (-x) ∧ 0 < x := by
  have h8 := w.n_pos
  have hn : c.takum .lin w ≠ nar w.n := by rcases hc with rfl | rfl <;> cases w <;> decide +kernel
  obtain ⟨x, hx⟩ := value_some (k := .lin) hn
  refine ⟨x, hx, by rw [value_neg (by omega), hx]; rfl, ?_⟩
  have h1 : ¬ (c.takum .lin w).toInt ≤ (0#w.n).toInt := by rcases hc with rfl | rfl <;> cases w <;> decide +kernel
  rw [value_order .lin hx (value_zero .lin)] at h1
  exact not_le.mp h1

variable {L : Libm} (hL : L.Conforming) (hA : L.Angles)
include hL hA

/-- C122: `arcsin`, `arctan` and `arccsc` of a linear takum are NaR or between `-PI_OVER_2` and `PI_OVER_2` (the constants of the type). -/
theorem quarter_linear (u : UFun) (hu : Quarter u = true) (w : W) (t : T w) (x : ℝ) (hx : value .lin t = some x) :
    ∃ s : T w, u.call L .lin w t = .ok s ∧ (s = nar w.n ∨
      ∃ y c, value .lin s = some y ∧ value .lin (Const.pi1_2.takum .lin w) = some c ∧ |y| ≤ c) := by
  obtain ⟨r, v, e, a⟩ := kTo_acc hL .lin w hx
  have hF := kF_std .lin w
  have A := angle_in hF
  rcases quarter_seg hA hu hF a.is a.isIn with h | h
  · exact ⟨_, (call_eq e).trans (kFrom_bad h), Or.inl rfl⟩
  · obtain ⟨c, hc, hc', -⟩ := const_value .pi1_2 (Or.inr rfl) w
    have P := lin_pi w
    have p := hiPi_pos (kF .lin w)
    obtain ⟨s, y, e', hy, h1, h2⟩ := from_between hL .lin (by simp) h (In_neg A.2.1) A.2.1 (Fl.Is.num (by linarith : -(hiPi (kF .lin w) / 2) < 0).ne)
      (Fl.Is.num (by linarith : 0 < hiPi (kF .lin w) / 2).ne') P.2.2.2.1 P.2.2.1 hc' hc
    exact ⟨s, (call_eq e).trans e', Or.inr ⟨y, c, hy, hc, abs_le.mpr ⟨h1, h2⟩⟩⟩

/-- C122: `arccos`, `arcsec` and `arccot` of a linear takum are NaR or between 0 and `PI`. -/
theorem halfturn_linear (u : UFun) (hu : Halfturn u = true) (w : W) (t : T w) (x : ℝ) (hx : value .lin t = some x) :
    ∃ s : T w, u.call L .lin w t = .ok s ∧ (s = nar w.n ∨
      ∃ y c, value .lin s = some y ∧ value .lin (Const.pi1.takum .lin w) = some c ∧ 0 ≤ y ∧ y ≤ c) := by
  obtain ⟨r, v, e, a⟩ := kTo_acc hL .lin w hx
  have hF := kF_std .lin w
  have A := angle_in hF
  rcases halfturn_seg hA hu hF a.is a.isIn a.zpos with h | h
  · exact ⟨_, (call_eq e).trans (kFrom_bad h), Or.inl rfl⟩
  · obtain ⟨c, hc, hc', -⟩ := const_value .pi1 (Or.inl rfl) w
    have P := lin_pi w
    obtain ⟨s, y, e', hy, h1, h2⟩ := from_between hL .lin (by simp) h A.2.2.2.2.2.2 A.1 (Fl.Is.zero false)
      (Fl.Is.num (hiPi_pos (kF .lin w)).ne') (kFrom_zero L .lin w false) P.1 (value_zero .lin) hc
    exact ⟨s, (call_eq e).trans e', Or.inr ⟨y, c, hy, hc, h1, h2⟩⟩

/-- C122: `arcsin_over_pi`, `arctan_over_pi` and `arccsc_over_pi`: NaR or between the takums of -1/2 and 1/2 (for logarithmic takums, which do
not have 1/2, the conversion of these numbers, and a logarithm that is monotone is assumed). -/
theorem quarter_over_pi (u : UFun) (hu : QuarterPi u = true) (k : Kind) (hm : k = .log → Increasing L.log) (w : W) (t : T w) (x : ℝ) (hx : value k t = some x) :
    ∃ (s a b : T w) (p q : ℝ), u.call L k w t = .ok s ∧ kFrom L k w (.num (-(1 / 2))) = .ok a ∧ kFrom L k w (.num (1 / 2)) = .ok b ∧ value k a = some p ∧
      value k b = some q ∧ (k = .lin → p = -(1 / 2) ∧ q = 1 / 2) ∧ (s = nar w.n ∨ ∃ y, value k s = some y ∧ p ≤ y ∧ y ≤ q) := by
  obtain ⟨r, v, e, a⟩ := kTo_acc hL k w hx
  have hF := kF_std k w
  have A := angle_in hF
  have n1 : (-(1 / 2) : ℚ) ≠ 0 := by norm_num
  have n2 : (1 / 2 : ℚ) ≠ 0 := by norm_num
  obtain ⟨c, p, ec, hp, -⟩ := kFrom_unit hL k (w := w) (Fl.Is.num n1) (In_neg A.2.2.2.2.1)
  obtain ⟨d, q, ed, hq, -⟩ := kFrom_unit hL k (w := w) (Fl.Is.num n2) A.2.2.2.2.1
  have ex : k = .lin → p = -(1 / 2) ∧ q = 1 / 2 := by
    rintro rfl
    obtain ⟨h1, h2, -, -, h3, h4⟩ := lin_half w
    have ec : linFrom w.src w (.num (-(1 / 2))) = .ok c := ec
    have ed : linFrom w.src w (.num (1 / 2)) = .ok d := ed
    rw [h2] at ec; rw [h1] at ed; cases ec; cases ed
    rw [value_lin h4] at hp; rw [value_lin h3] at hq
    exact ⟨(Option.some.inj hp).symm.trans (by push_cast; ring), (Option.some.inj hq).symm.trans (by push_cast; ring)⟩
  rcases quarterPi_seg hA hu hF a.is (kF_x80 a.isIn) with h | h
  · exact ⟨_, c, d, p, q, (call_eq e).trans (kFrom_bad h), ec, ed, hp, hq, ex, Or.inl rfl⟩
  · obtain ⟨s, y, e', hy, h1, h2⟩ := from_between hL k hm h (In_neg A.2.2.2.2.1) A.2.2.2.2.1 (Fl.Is.num n1) (Fl.Is.num n2) ec ed hp hq
    exact ⟨s, c, d, p, q, (call_eq e).trans e', ec, ed, hp, hq, ex, Or.inr ⟨y, hy, h1, h2⟩⟩

/-- C122: `arccos_over_pi`, `arcsec_over_pi` and `arccot_over_pi`: NaR or between 0 and 1. -/
theorem halfturn_over_pi (u : UFun) (hu : HalfturnPi u = true) (k : Kind) (w : W) (t : T w) (x : ℝ) (hx : value k t = some x) :
    ∃ s : T w, u.call L k w t = .ok s ∧ (s = nar w.n ∨ ∃ y, value k s = some y ∧ 0 ≤ y ∧ y ≤ 1) := by
  obtain ⟨r, v, e, a⟩ := kTo_acc hL k w hx
  have hF := kF_std k w
  rcases halfturnPi_seg hA hu hF a.is (kF_x80 a.isIn) a.zpos with h | ⟨z, iz, nz, h1, h2⟩
  · exact ⟨_, (call_eq e).trans (kFrom_bad h), Or.inl rfl⟩
  · obtain ⟨s, y, e', hy, h3, -, -, h4⟩ := kFrom_unit hL k (w := w) iz nz
    refine ⟨s, (call_eq e).trans e', Or.inr ⟨y, hy, ?_, ?_⟩⟩
    · exact not_lt.mp fun h => absurd (h4.mpr h) (not_lt.mpr h1)
    · exact (abs_le.mp (h3 (abs_le.mpr ⟨by linarith, h2⟩))).2

omit hA in
theorem arg_sgn {k : Kind} {w : W} {t : T w} {x : ℝ} (hx : value k t = some x) : ∃ r : Fl, kTo L k w t = .ok r ∧ r.In (kF k w) ∧ r.In x80 ∧ r.isfinite = true ∧
    (r.sgn = true ↔ x < 0) := by
  obtain ⟨r, v, e, a⟩ := kTo_acc hL k w hx
  refine ⟨r, e, fl_in_of_is a.is a.isIn, fl_in_of_is a.is (kF_x80 a.isIn), a.is.isfinite, ?_⟩
  have ht : t ≠ nar w.n := by rw [Ne, ← value_none (k := k), hx]; simp
  obtain ⟨f, v', e', i', -, h0, h1, -⟩ := kTo_fin hL.powers k w ht
  rw [e] at e'; cases e'
  obtain rfl := a.is.unique i'
  have hs : r.sgn = true ↔ v < 0 := by
    rcases a.is.cases with ⟨_, rfl⟩ | ⟨h, -⟩
    · simp [Fl.sgn]
    · rw [a.zpos h, h]; simp [Fl.sgn]
  rw [hs, h1]
  have o := value_order k (value_zero k (w := w)) hx
  rw [← not_le, ← not_le, ← o]
  simp

/-- C122: `arctan2_over_pi` is between -1 and 1 and has the sign of its first argument (or is 0), for both families. -/
theorem arctan2_over_pi_range (k : Kind) (w : W) (a b : T w) (x z : ℝ) (hx : value k a = some x) (hz : value k b = some z) :
    ∃ (s : T w) (y : ℝ), BFun.arctan2_over_pi.call L k w a b = .ok s ∧ value k s = some y ∧ |y| ≤ 1 ∧ (0 ≤ x → 0 ≤ y) ∧ (x < 0 → y ≤ 0) := by
  have hF := kF_std k w
  obtain ⟨r, e, -, i, f, g⟩ := arg_sgn hL hx
  obtain ⟨r', e', -, i', f', g'⟩ := arg_sgn hL hz
  obtain ⟨q, iq, nq, h1, h2⟩ := atan2_pi_btw hA hF i i' f f'
  obtain ⟨s, y, es, hy, h3, -, h4, h5⟩ := kFrom_unit hL k (w := w) iq nq
  have lh : 0 < loHalf (kF k w) ∧ loHalf (kF k w) ≤ 1 := by unfold loHalf; split_ifs <;> decide +kernel
  refine ⟨s, y, (bcall_eq e e').trans es, hy, h3 ?_, ?_, ?_⟩
  · revert h1 h2
    rcases r.sgn <;> rcases r'.sgn <;> simp only [quadPiLo, quadPiHi] <;> intro h1 h2 <;> rw [abs_le] <;> constructor <;> linarith
  · intro h
    have : r.sgn = false := by rw [Bool.eq_false_iff, Ne, g]; exact not_lt.mpr h
    rw [this] at h1
    have q0 : 0 ≤ q := by revert h1; rcases r'.sgn <;> simp only [quadPiLo] <;> intro h1 <;> linarith
    exact not_lt.mp fun h => absurd (h5.mpr h) (not_lt.mpr q0)
  · intro h
    rw [g.mpr h] at h2
    have q0 : q ≤ 0 := by revert h2; rcases r'.sgn <;> simp only [quadPiHi] <;> intro h2 <;> linarith
    exact not_lt.mp fun h => absurd (h4.mpr h) (not_lt.mpr q0)

/-- C122: for linear takums it is in the right half turn: at most 1/2 in magnitude for a second argument that is not negative, else at least 1/2. -/
theorem arctan2_over_pi_quadrant (w : W) (a b : T w) (x z : ℝ) (hx : value .lin a = some x) (hz : value .lin b = some z) :
    ∃ (s : T w) (y : ℝ), BFun.arctan2_over_pi.call L .lin w a b = .ok s ∧ value .lin s = some y ∧ (0 ≤ z → |y| ≤ 1 / 2) ∧ (z < 0 → 1 / 2 ≤ |y|) := by
  have hF := kF_std .lin w
  obtain ⟨r, e, -, i, f, g⟩ := arg_sgn hL hx
  obtain ⟨r', e', -, i', f', g'⟩ := arg_sgn hL hz
  have h := atan2_pi_btw hA hF i i' f f'
  have A := angle_in hF
  obtain ⟨h1, h2, h3, h4, h5, h6⟩ := lin_half w
  have v1 : value .lin (halfT w) = some (1 / 2) := (value_lin h5).trans (by push_cast; rfl)
  have v2 : value .lin (-halfT w) = some (-(1 / 2)) := (value_lin h6).trans (by push_cast; rfl)
  have n1 : (-(1 / 2) : ℚ) ≠ 0 := by norm_num
  have n2 : (1 / 2 : ℚ) ≠ 0 := by norm_num
  have lh : 0 < loHalf (kF .lin w) ∧ loHalf (kF .lin w) ≤ 1 := by unfold loHalf; split_ifs <;> decide +kernel
  have one : linFrom w.src w (.num 1) = .ok (ONE w) ∧ linFrom w.src w (.num (-1)) = .ok (-ONE w) := by cases w <;> (constructor <;> decide +kernel)
  have o1 : ∃ c, value .lin (ONE w) = some c := by
    obtain ⟨s, c, es, hc, -⟩ := kFrom_unit hL .lin (w := w) (Fl.Is.num one_ne_zero) A.2.2.2.2.2.1
    have es : linFrom w.src w (.num 1) = .ok s := es
    rw [one.1] at es; cases es; exact ⟨c, hc⟩
  have o2 : ∃ c, value .lin (-ONE w) = some c := by
    obtain ⟨s, c, es, hc, -⟩ := kFrom_unit hL .lin (w := w) (Fl.Is.num (by norm_num : (-1 : ℚ) ≠ 0)) (In_neg A.2.2.2.2.2.1)
    have es : linFrom w.src w (.num (-1)) = .ok s := es
    rw [one.2] at es; cases es; exact ⟨c, hc⟩
  obtain ⟨c, hc⟩ := o1
  obtain ⟨d, hd⟩ := o2
  by_cases hs' : r'.sgn = true
  · have hz' := g'.mp hs'
    rw [hs'] at h
    by_cases hs : r.sgn = true
    · rw [hs] at h
      obtain ⟨s, y, es, hy, l1, l2⟩ := from_between hL .lin (by simp) h (In_neg A.2.2.2.2.2.1) (In_neg A.2.2.2.1) (Fl.Is.num (by simp [quadPiLo])) (Fl.Is.num (by simp only [quadPiHi]; linarith [lh.1] : quadPiHi (kF .lin w) true true < 0).ne)
        one.2 h4 hd v2
      exact ⟨s, y, (bcall_eq e e').trans es, hy, fun h => absurd hz' (not_lt.mpr h), fun _ => by rw [abs_of_nonpos (by linarith)]; linarith⟩
    · rw [Bool.eq_false_iff.mpr hs] at h
      obtain ⟨s, y, es, hy, l1, l2⟩ := from_between hL .lin (by simp) h A.2.2.2.1 A.2.2.2.2.2.1 (Fl.Is.num lh.1.ne') (Fl.Is.num (by simp [quadPiHi])) h3 one.1 v1 hc
      exact ⟨s, y, (bcall_eq e e').trans es, hy, fun h => absurd hz' (not_lt.mpr h), fun _ => l1.trans (le_abs_self y)⟩
  · have hz' : 0 ≤ z := not_lt.mp fun h => hs' (g'.mpr h)
    rw [Bool.eq_false_iff.mpr hs'] at h
    by_cases hs : r.sgn = true
    · rw [hs] at h
      obtain ⟨s, y, es, hy, l1, l2⟩ := from_between hL .lin (by simp) h (In_neg A.2.2.2.2.1) A.2.2.2.2.2.2 (Fl.Is.num n1) (Fl.Is.zero false) h2 (kFrom_zero L .lin w false) v2 (value_zero .lin)
      exact ⟨s, y, (bcall_eq e e').trans es, hy, fun _ => abs_le.mpr ⟨l1, by linarith⟩, fun h => absurd h (not_lt.mpr hz')⟩
    · rw [Bool.eq_false_iff.mpr hs] at h
      obtain ⟨s, y, es, hy, l1, l2⟩ := from_between hL .lin (by simp) h A.2.2.2.2.2.2 A.2.2.2.2.1 (Fl.Is.zero false) (Fl.Is.num n2) (kFrom_zero L .lin w false) h1 (value_zero .lin) v1
      exact ⟨s, y, (bcall_eq e e').trans es, hy, fun _ => abs_le.mpr ⟨by linarith, l2⟩, fun h => absurd h (not_lt.mpr hz')⟩

/-- C122: `arctan2` of linear takums has the sign of its first argument (or is 0), is at most `PI` in magnitude, at most `PI_OVER_2` for a second
argument that is not negative, and else at least `PI_OVER_2`. -/
theorem arctan2_quadrant (w : W) (a b : T w) (x z : ℝ) (hx : value .lin a = some x) (hz : value .lin b = some z) :
    ∃ (s : T w) (y c d : ℝ), BFun.arctan2.call L .lin w a b = .ok s ∧ value .lin s = some y ∧ value .lin (Const.pi1.takum .lin w) = some c ∧
      value .lin (Const.pi1_2.takum .lin w) = some d ∧ |y| ≤ c ∧ (0 ≤ x → 0 ≤ y) ∧ (x < 0 → y ≤ 0) ∧ (0 ≤ z → |y| ≤ d) ∧ (z < 0 → d ≤ |y|) := by
  have hF := kF_std .lin w
  obtain ⟨r, e, i, -, f, g⟩ := arg_sgn hL hx
  obtain ⟨r', e', i', -, f', g'⟩ := arg_sgn hL hz
  have h := atan2_btw hA hF i i' f f'
  have A := angle_in hF
  obtain ⟨P1, P2, P3, P4, P5, P6⟩ := lin_pi w
  obtain ⟨c, hc, hc', c0⟩ := const_value .pi1 (Or.inl rfl) w
  obtain ⟨d, hd, hd', d0⟩ := const_value .pi1_2 (Or.inr rfl) w
  have dc : d ≤ c := (value_order .lin hd hc).mp (by cases w <;> decide +kernel)
  have p := hiPi_pos (kF .lin w)
  have lp : 0 < loPi (kF .lin w) := by unfold loPi; split_ifs <;> decide +kernel
  by_cases hs' : r'.sgn = true
  · have hz' := g'.mp hs'
    rw [hs'] at h
    by_cases hs : r.sgn = true
    · have hx' := g.mp hs
      rw [hs] at h
      obtain ⟨s, y, es, hy, l1, l2⟩ := from_between hL .lin (by simp) h (In_neg A.1) (In_neg A.2.2.1) (Fl.Is.num (by simp only [quadLo]; linarith : quadLo (kF .lin w) true true < 0).ne)
        (Fl.Is.num (by simp only [quadHi]; linarith : quadHi (kF .lin w) true true < 0).ne) P2 P6 hc' hd'
      exact ⟨s, y, c, d, (bcall_eq e e').trans es, hy, hc, hd, abs_le.mpr ⟨l1, by linarith⟩, fun h => absurd hx' (not_lt.mpr h), fun _ => by linarith,
        fun h => absurd hz' (not_lt.mpr h), fun _ => by rw [abs_of_nonpos (by linarith)]; linarith⟩
    · have hx' : 0 ≤ x := not_lt.mp fun h => hs (g.mpr h)
      rw [Bool.eq_false_iff.mpr hs] at h
      obtain ⟨s, y, es, hy, l1, l2⟩ := from_between hL .lin (by simp) h A.2.2.1 A.1 (Fl.Is.num (by simp only [quadLo]; linarith : 0 < quadLo (kF .lin w) false true).ne')
        (Fl.Is.num p.ne') P5 P1 hd hc
      exact ⟨s, y, c, d, (bcall_eq e e').trans es, hy, hc, hd, abs_le.mpr ⟨by linarith, l2⟩, fun _ => by linarith, fun h => absurd h (not_lt.mpr hx'),
        fun h => absurd hz' (not_lt.mpr h), fun _ => l1.trans (le_abs_self y)⟩
  · have hz' : 0 ≤ z := not_lt.mp fun h => hs' (g'.mpr h)
    rw [Bool.eq_false_iff.mpr hs'] at h
    by_cases hs : r.sgn = true
    · have hx' := g.mp hs
      rw [hs] at h
      obtain ⟨s, y, es, hy, l1, l2⟩ := from_between hL .lin (by simp) h (In_neg A.2.1) A.2.2.2.2.2.2 (Fl.Is.num (by simp only [quadLo]; linarith : quadLo (kF .lin w) true false < 0).ne)
        (Fl.Is.zero false) P4 (kFrom_zero L .lin w false) hd' (value_zero .lin)
      exact ⟨s, y, c, d, (bcall_eq e e').trans es, hy, hc, hd, abs_le.mpr ⟨by linarith, by linarith⟩, fun h => absurd hx' (not_lt.mpr h), fun _ => l2,
        fun _ => abs_le.mpr ⟨l1, by linarith⟩, fun h => absurd h (not_lt.mpr hz')⟩
    · have hx' : 0 ≤ x := not_lt.mp fun h => hs (g.mpr h)
      rw [Bool.eq_false_iff.mpr hs] at h
      obtain ⟨s, y, es, hy, l1, l2⟩ := from_between hL .lin (by simp) h A.2.2.2.2.2.2 A.2.1 (Fl.Is.zero false) (Fl.Is.num (by simp only [quadHi]; linarith : 0 < quadHi (kF .lin w) false false).ne')
        (kFrom_zero L .lin w false) P3 (value_zero .lin) hd
      exact ⟨s, y, c, d, (bcall_eq e e').trans es, hy, hc, hd, abs_le.mpr ⟨by linarith, by linarith⟩, fun _ => l1, fun h => absurd h (not_lt.mpr hx'),
        fun _ => abs_le.mpr ⟨by linarith, l2⟩, fun h => absurd h (not_lt.mpr hz')⟩

omit hL hA in
/-- A library that meets the hypotheses, functions of each group, and arguments. -/
example : ideal.Conforming ∧ ideal.Angles ∧ Increasing ideal.log ∧ Quarter .arccsc = true ∧ Halfturn .arccot = true ∧ QuarterPi .arctan_over_pi = true ∧
    HalfturnPi .arcsec_over_pi = true ∧ ∃ x z, value .lin (0xb123#16 : T .w16) = some x ∧ value .lin (0x8001#16 : T .w16) = some z :=
  ⟨ideal_conforming, ideal_angles, ideal_monotone.log, rfl, rfl, rfl, rfl, _, _, value_lin (linVal_qv (w := .w16) (by decide)), value_lin (linVal_qv (w := .w16) (by decide))⟩

end Takum
