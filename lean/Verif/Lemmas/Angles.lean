import Verif.AngleSpec
import Verif.Lemmas.Range
import Verif.Lemmas.IdealInv
import Verif.Lemmas.IdealMono
import Verif.Lemmas.MonoConv
import Verif.Lemmas.MonoArg
import Verif.Model.Constants

/-! # Angles between bounds -/

namespace Takum
open Spec

/-- A number of the type between two bounds. -/
def Fl.Btw (F : Fmt) (lo hi : ℚ) (x : Fl) : Prop := ∃ r : ℚ, Fl.Is x r ∧ F.In r ∧ lo ≤ r ∧ r ≤ hi

theorem Fl.Span.btw {F : Fmt} {a b : ℝ} {x : Fl} (h : x.Span F a b) {lo hi : ℚ} (h1 : F.In lo) (h2 : F.In hi) (h3 : (lo : ℝ) ≤ a) (h4 : b ≤ (hi : ℝ)) :
    x.Btw F lo hi := by
  obtain ⟨r, hr, hi', hc⟩ := h
  exact ⟨r, hr, hi', (hc lo h1).1 h3, (hc hi h2).2 h4⟩

theorem round_btw {F : Fmt} (hF : F = b64 ∨ F = x80) (z : Bool) {q lo hi : ℚ} (h1 : F.In lo) (h2 : F.In hi) (h3 : lo ≤ q) (h4 : q ≤ hi) :
    (Fl.round F z q).Btw F lo hi := by
  have hp := (std_facts hF).1
  have a := F.le_rq (by omega) h1.1 h3
  have b := F.rq_le (by omega) h2.1 h4
  have hb : |F.rq q| < (2 : ℚ) ^ F.emax := abs_lt.mpr ⟨lt_of_lt_of_le (abs_lt.mp h1.2).1 a, lt_of_le_of_lt b (abs_lt.mp h2.2).2⟩
  exact ⟨_, Fl.Is.round z hb, ⟨F.rq_rep (by omega) q, hb⟩, a, b⟩

theorem cast_btw {F : Fmt} (hF : F = b64 ∨ F = x80) {x : Fl} {lo hi lo' hi' : ℚ} (h : x.Btw x80 lo hi) (h1 : F.In lo') (h2 : F.In hi')
    (h3 : lo' ≤ lo) (h4 : hi ≤ hi') : (Fl.cast F x).Btw F lo' hi' := by
  obtain ⟨r, hr, -, a, b⟩ := h
  obtain ⟨z, e⟩ := cast_round (F := F) hr
  rw [e]; exact round_btw hF z h1 h2 (h3.trans a) (b.trans h4)

/-- The `long double` `PI`. -/
def piX : ℚ := 14488038916154245685 / 2 ^ 62

theorem PI_piX : PI = .num piX := by
  have : x80.rq (3.1415926535897932384626433832795028841972 : ℚ) = piX := by decide +kernel
  unfold PI; rw [this]

theorem fmt_in {F : Fmt} {q : ℚ} (m e : ℤ) (hq : q = m * 2 ^ e) (h1 : |m| < 2 ^ F.prec) (h2 : F.emin ≤ e) (h3 : |q| < (2 : ℚ) ^ F.emax) : F.In q :=
  ⟨⟨m, e, hq, h1, h2⟩, h3⟩

/-- The smallest number of the type above `π`. -/
def hiPi (F : Fmt) : ℚ := if F = b64 then 7074237752028441 / 2 ^ 51 else piX
/-- The largest number of the type below `π`. -/
def loPi (F : Fmt) : ℚ := if F = b64 then 7074237752028440 / 2 ^ 51 else 14488038916154245684 / 2 ^ 62
/-- A number a little below 1/2. -/
def loHalf (F : Fmt) : ℚ := if F = b64 then (2 ^ 53 - 1) / 2 ^ 54 else (2 ^ 63 - 1) / 2 ^ 64

theorem pi_between {F : Fmt} (hF : F = b64 ∨ F = x80) : (loPi F : ℝ) ≤ Real.pi ∧ Real.pi ≤ (hiPi F : ℝ) := by
  have h1 := Real.pi_gt_d20
  have h2 := Real.pi_lt_d20
  rcases hF with rfl | rfl
  · simp only [loPi, hiPi, if_pos]
    push_cast
    constructor
    · refine le_trans ?_ h1.le; norm_num
    · refine le_trans h2.le ?_; norm_num
  · have : ¬ x80 = b64 := by decide
    simp only [loPi, hiPi, if_neg this, piX]
    push_cast
    constructor
    · refine le_trans ?_ h1.le; norm_num
    · refine le_trans h2.le ?_; norm_num

theorem angle_in {F : Fmt} (hF : F = b64 ∨ F = x80) : F.In (hiPi F) ∧ F.In (hiPi F / 2) ∧ F.In (loPi F / 2) ∧ F.In (loHalf F) ∧ F.In (1 / 2) ∧ F.In 1 ∧ F.In 0 := by
  have h : ¬ x80 = b64 := by decide
  rcases hF with rfl | rfl
  · refine ⟨fmt_in 7074237752028441 (-51) ?_ ?_ ?_ ?_, fmt_in 7074237752028441 (-52) ?_ ?_ ?_ ?_, fmt_in 7074237752028440 (-52) ?_ ?_ ?_ ?_,
      fmt_in (2 ^ 53 - 1) (-54) ?_ ?_ ?_ ?_, fmt_in 1 (-1) ?_ ?_ ?_ ?_, fmt_in 1 0 ?_ ?_ ?_ ?_, fmt_in 0 0 ?_ ?_ ?_ ?_⟩ <;> decide +kernel
  · refine ⟨fmt_in 14488038916154245685 (-62) ?_ ?_ ?_ ?_, fmt_in 14488038916154245685 (-63) ?_ ?_ ?_ ?_, fmt_in 14488038916154245684 (-63) ?_ ?_ ?_ ?_,
      fmt_in (2 ^ 63 - 1) (-64) ?_ ?_ ?_ ?_, fmt_in 1 (-1) ?_ ?_ ?_ ?_, fmt_in 1 0 ?_ ?_ ?_ ?_, fmt_in 0 0 ?_ ?_ ?_ ?_⟩ <;> decide +kernel

/-- The codes of the bounds: the constants of the header. -/
theorem lin_pi (w : W) :
    linFrom w.src w (.num (hiPi w.src.fmt)) = .ok (Const.pi1.takum .lin w) ∧
    linFrom w.src w (.num (-hiPi w.src.fmt)) = .ok (-Const.pi1.takum .lin w) ∧
    linFrom w.src w (.num (hiPi w.src.fmt / 2)) = .ok (Const.pi1_2.takum .lin w) ∧
    linFrom w.src w (.num (-(hiPi w.src.fmt / 2))) = .ok (-Const.pi1_2.takum .lin w) ∧
    linFrom w.src w (.num (loPi w.src.fmt / 2)) = .ok (Const.pi1_2.takum .lin w) ∧
    linFrom w.src w (.num (-(loPi w.src.fmt / 2))) = .ok (-Const.pi1_2.takum .lin w) := by
  cases w <;> (refine ⟨?_, ?_, ?_, ?_, ?_, ?_⟩ <;> decide +kernel)

/-- The takum 1/2. -/
def halfT (w : W) : T w := BitVec.ofNat w.n (7 * 2 ^ (w.n - 5))

theorem lin_half (w : W) :
    linFrom w.src w (.num (1 / 2)) = .ok (halfT w) ∧ linFrom w.src w (.num (-(1 / 2))) = .ok (-halfT w) ∧
    linFrom w.src w (.num (loHalf w.src.fmt)) = .ok (halfT w) ∧ linFrom w.src w (.num (-loHalf w.src.fmt)) = .ok (-halfT w) ∧
    linVal (halfT w) = some (1 / 2) ∧ linVal (-halfT w) = some (-(1 / 2)) := by
  cases w <;> (refine ⟨?_, ?_, ?_, ?_, ?_, ?_⟩ <;> decide +kernel)

theorem div_pi_btw {x : Fl} {lo hi lo' hi' : ℚ} (h : x.Btw x80 lo hi) (h1 : x80.In lo') (h2 : x80.In hi') (h3 : lo' * piX ≤ lo) (h4 : hi ≤ hi' * piX) :
    (Fl.div x80 x PI).Btw x80 lo' hi' := by
  obtain ⟨r, hr, -, a, b⟩ := h
  have p : (0 : ℚ) < piX := by decide +kernel
  rw [PI_piX, Fl.div_eq hr (Fl.Is.num p.ne') p.ne']
  refine round_btw (Or.inr rfl) _ h1 h2 ?_ ?_
  · rw [le_div_iff₀ p]; exact h3.trans a
  · rw [div_le_iff₀ p]; exact b.trans h4

theorem div_pi_nonfinite {x : Fl} (h : x.isfinite = false) : (Fl.div x80 x PI).isfinite = false := by
  cases x <;> first | rfl | cases h

/-- Not finite or between the bounds. -/
def Fl.Seg (F : Fmt) (lo hi : ℚ) (x : Fl) : Prop := x.isfinite = false ∨ x.Btw F lo hi

theorem ev_seg {L : Libm} {u : UFun} (hu : CastFun u = true) {F : Fmt} (hF : F = b64 ∨ F = x80) {r : Fl} {lo hi lo' hi' : ℚ} (h : (u.evl L r).Seg x80 lo hi)
    (h1 : F.In lo') (h2 : F.In hi') (h3 : lo' ≤ lo) (h4 : hi ≤ hi') : (u.ev L F r).Seg F lo' hi' := by
  rcases hF with rfl | rfl
  · rw [ev_b64, evd_cast L hu]
    rcases h with h | h
    · exact Or.inl (cast_bad h)
    · exact Or.inr (cast_btw (Or.inl rfl) h h1 h2 h3 h4)
  · rw [ev_x80]
    rcases h with h | ⟨q, a, b, c, d⟩
    · exact Or.inl h
    · exact Or.inr ⟨q, a, b, h3.trans c, d.trans h4⟩

/-- The reciprocal has the sign of the number. -/
theorem recip_sgn {r : Fl} {v : ℚ} (hr : r.Is v) (hz : v = 0 → r = .zero false) :
    (Fl.div x80 (.num 1) r).In x80 ∧ Fl.div x80 (.num 1) r ≠ .nan ∧ ((Fl.div x80 (.num 1) r).sgn = true ↔ v < 0) := by
  refine ⟨Fl.div_type (std3 (Or.inr rfl)) _ _, ?_⟩
  by_cases hv : v = 0
  · rw [hz hv, hv]
    simp [Fl.div, Fl.sgn]
  · rw [Fl.div_eq (Fl.Is.num one_ne_zero) hr hv]
    have q0 : (1 : ℚ) / v ≠ 0 := by positivity
    refine ⟨?_, ?_⟩
    · unfold Fl.round Fl.mk; split_ifs <;> simp
    · rw [Fl.round_sgn q0]
      simp

/-- Functions with values between `-π/2` and `π/2`. -/
def Quarter : UFun → Bool
  | .arcsin | .arctan | .arccsc => true
  | _ => false
/-- Functions with values between `0` and `π`. -/
def Halfturn : UFun → Bool
  | .arccos | .arcsec | .arccot => true
  | _ => false
/-- The same divided by `π`. -/
def QuarterPi : UFun → Bool
  | .arcsin_over_pi | .arctan_over_pi | .arccsc_over_pi => true
  | _ => false
/-- The same divided by `π`. -/
def HalfturnPi : UFun → Bool
  | .arccos_over_pi | .arcsec_over_pi | .arccot_over_pi => true
  | _ => false

section
variable {L : Libm} (hA : L.Angles)
include hA

theorem asin_seg {F : Fmt} (hF : F = b64 ∨ F = x80) {x : Fl} (hx : x.In F) : (L.asin F x).Seg F (-(hiPi F / 2)) (hiPi F / 2) := by
  obtain ⟨-, p⟩ := pi_between hF
  rcases hA.asin F hF x hx with h | h
  · exact Or.inl h
  · exact Or.inr (h.btw (In_neg (angle_in hF).2.1) (angle_in hF).2.1 (by push_cast; linarith) (by push_cast; linarith))

theorem acos_seg {F : Fmt} (hF : F = b64 ∨ F = x80) {x : Fl} (hx : x.In F) : (L.acos F x).Seg F 0 (hiPi F) := by
  obtain ⟨-, p⟩ := pi_between hF
  rcases hA.acos F hF x hx with h | h
  · exact Or.inl h
  · exact Or.inr (h.btw (angle_in hF).2.2.2.2.2.2 (angle_in hF).1 (by push_cast; linarith) p)

theorem atan_pos_btw {F : Fmt} (hF : F = b64 ∨ F = x80) {x : Fl} (hx : x.In F) (hn : x ≠ .nan) (hs : x.sgn = false) : (L.atan F x).Btw F 0 (hiPi F / 2) := by
  obtain ⟨-, p⟩ := pi_between hF
  exact (hA.atan_pos F hF x hx hn hs).btw (angle_in hF).2.2.2.2.2.2 (angle_in hF).2.1 (by push_cast; linarith) (by push_cast; linarith)

theorem atan_neg_btw {F : Fmt} (hF : F = b64 ∨ F = x80) {x : Fl} (hx : x.In F) (hn : x ≠ .nan) (hs : x.sgn = true) : (L.atan F x).Btw F (-(hiPi F / 2)) 0 := by
  obtain ⟨-, p⟩ := pi_between hF
  exact (hA.atan_neg F hF x hx hn hs).btw (In_neg (angle_in hF).2.1) (angle_in hF).2.2.2.2.2.2 (by push_cast; linarith) (by push_cast; linarith)

omit hA in
theorem hiPi_pos (F : Fmt) : 0 < hiPi F := by
  unfold hiPi; split_ifs <;> decide +kernel

omit hA in
theorem x80_hi : hiPi x80 = piX := by unfold hiPi; rw [if_neg (by decide)]

theorem atan_seg {F : Fmt} (hF : F = b64 ∨ F = x80) {x : Fl} (hx : x.In F) (hn : x ≠ .nan) : (L.atan F x).Seg F (-(hiPi F / 2)) (hiPi F / 2) := by
  have p := hiPi_pos F
  rcases hs : x.sgn
  · obtain ⟨r, a, b, c, d⟩ := atan_pos_btw hA hF hx hn hs
    exact Or.inr ⟨r, a, b, by linarith, d⟩
  · obtain ⟨r, a, b, c, d⟩ := atan_neg_btw hA hF hx hn hs
    exact Or.inr ⟨r, a, b, c, by linarith⟩

omit hA in
theorem Fl.Seg.mono {F : Fmt} {x : Fl} {lo hi lo' hi' : ℚ} (h : x.Seg F lo hi) (h3 : lo' ≤ lo) (h4 : hi ≤ hi') : x.Seg F lo' hi' := by
  rcases h with h | ⟨q, a, b, c, d⟩
  · exact Or.inl h
  · exact Or.inr ⟨q, a, b, h3.trans c, d.trans h4⟩

omit hA in
theorem div_pi_seg {x : Fl} {lo hi lo' hi' : ℚ} (h : x.Seg x80 lo hi) (h1 : x80.In lo') (h2 : x80.In hi') (h3 : lo' * piX ≤ lo) (h4 : hi ≤ hi' * piX) :
    (Fl.div x80 x PI).Seg x80 lo' hi' := by
  rcases h with h | h
  · exact Or.inl (div_pi_nonfinite h)
  · exact Or.inr (div_pi_btw h h1 h2 h3 h4)

omit hA in
theorem b64_hi : piX ≤ hiPi b64 := by decide +kernel

theorem quarter_seg {u : UFun} (hu : Quarter u = true) {F : Fmt} (hF : F = b64 ∨ F = x80) {r : Fl} {v : ℚ} (hr : r.Is v) (hi : F.In v) :
    (u.fix r (u.ev L F r)).Seg F (-(hiPi F / 2)) (hiPi F / 2) := by
  have X : x80 = b64 ∨ x80 = x80 := Or.inr rfl
  have ri := fl_in_of_is hr hi
  have rn : r ≠ .nan := by rintro rfl; rcases hr.cases with ⟨_, e⟩ | ⟨_, s, e⟩ <;> cases e
  have big : piX / 2 ≤ hiPi F / 2 := by
    rcases hF with rfl | rfl
    · have := b64_hi; linarith
    · rw [x80_hi]
  cases u <;> simp only [Quarter, Bool.false_eq_true] at hu
  case arcsin => rcases hF with rfl | rfl <;> exact asin_seg hA (by simp) ri
  case arctan => rcases hF with rfl | rfl <;> exact atan_seg hA (by simp) ri rn
  case arccsc =>
    refine ev_seg (u := .arccsc) rfl hF (asin_seg hA X (Fl.div_type (std3 X) _ _)) (In_neg (angle_in hF).2.1) (angle_in hF).2.1 ?_ ?_ <;>
      (rw [x80_hi]; linarith)

theorem halfturn_seg {u : UFun} (hu : Halfturn u = true) {F : Fmt} (hF : F = b64 ∨ F = x80) {r : Fl} {v : ℚ} (hr : r.Is v) (hi : F.In v)
    (hz : v = 0 → r = .zero false) : (u.fix r (u.ev L F r)).Seg F 0 (hiPi F) := by
  have X : x80 = b64 ∨ x80 = x80 := Or.inr rfl
  have ri := fl_in_of_is hr hi
  have P := hiPi_pos x80
  rw [x80_hi] at P
  have big : piX ≤ hiPi F := by
    rcases hF with rfl | rfl
    · exact b64_hi
    · rw [x80_hi]
  cases u <;> simp only [Halfturn, Bool.false_eq_true] at hu
  case arccos => rcases hF with rfl | rfl <;> exact acos_seg hA (by simp) ri
  case arcsec =>
    refine ev_seg (u := .arcsec) rfl hF (acos_seg hA X (Fl.div_type (std3 X) _ _)) (angle_in hF).2.2.2.2.2.2 (angle_in hF).1 le_rfl ?_
    rwa [x80_hi]
  case arccot =>
    refine ev_seg (u := .arccot) rfl hF (lo := 0) (hi := piX) ?_ (angle_in hF).2.2.2.2.2.2 (angle_in hF).1 le_rfl big
    obtain ⟨i, n, s⟩ := recip_sgn hr hz
    show (arccotl L r).Seg _ _ _
    unfold arccotl
    have le0 : Fl.le (.zero false) r = true ↔ 0 ≤ v := Fl.le_is (Fl.Is.zero false) hr
    split_ifs with h
    · have s' : (Fl.div x80 (.num 1) r).sgn = false := by
        rw [Bool.eq_false_iff, Ne, s]; exact not_lt.mpr (le0.mp h)
      obtain ⟨q, a, b, c, d⟩ := atan_pos_btw hA X i n s'
      rw [x80_hi] at d
      exact Or.inr ⟨q, a, b, c, by linarith⟩
    · have s' : (Fl.div x80 (.num 1) r).sgn = true := s.mpr (not_le.mp (fun h' => h (le0.mpr h')))
      obtain ⟨q, a, b, c, d⟩ := atan_neg_btw hA X i n s'
      rw [x80_hi] at c
      have A := angle_in X
      rw [x80_hi] at A
      rw [PI_piX, Fl.add_eq a (Fl.Is.num P.ne')]
      exact Or.inr (round_btw X _ A.2.2.2.2.2.2 A.1 (by linarith) (by linarith))

theorem quarterPi_seg {u : UFun} (hu : QuarterPi u = true) {F : Fmt} (hF : F = b64 ∨ F = x80) {r : Fl} {v : ℚ} (hr : r.Is v) (hi : x80.In v) :
    (u.fix r (u.ev L F r)).Seg F (-(1 / 2)) (1 / 2) := by
  have X : x80 = b64 ∨ x80 = x80 := Or.inr rfl
  have ri := fl_in_of_is hr hi
  have rn : r ≠ .nan := by rintro rfl; rcases hr.cases with ⟨_, e⟩ | ⟨_, s, e⟩ <;> cases e
  have A := angle_in X
  have B := angle_in hF
  have c1 : -(1 / 2) * piX ≤ -(hiPi x80 / 2) := by rw [x80_hi]; linarith
  have c2 : hiPi x80 / 2 ≤ 1 / 2 * piX := by rw [x80_hi]; linarith
  cases u <;> simp only [QuarterPi, Bool.false_eq_true] at hu
  case arcsin_over_pi =>
    exact ev_seg (u := .arcsin_over_pi) rfl hF (div_pi_seg (asin_seg hA X ri) (In_neg A.2.2.2.2.1) A.2.2.2.2.1 c1 c2) (In_neg B.2.2.2.2.1) B.2.2.2.2.1 le_rfl le_rfl
  case arctan_over_pi =>
    exact ev_seg (u := .arctan_over_pi) rfl hF (div_pi_seg (atan_seg hA X ri rn) (In_neg A.2.2.2.2.1) A.2.2.2.2.1 c1 c2) (In_neg B.2.2.2.2.1) B.2.2.2.2.1 le_rfl le_rfl
  case arccsc_over_pi =>
    exact ev_seg (u := .arccsc_over_pi) rfl hF (div_pi_seg (asin_seg hA X (Fl.div_type (std3 X) _ _)) (In_neg A.2.2.2.2.1) A.2.2.2.2.1 c1 c2)
      (In_neg B.2.2.2.2.1) B.2.2.2.2.1 le_rfl le_rfl

theorem halfturnPi_seg {u : UFun} (hu : HalfturnPi u = true) {F : Fmt} (hF : F = b64 ∨ F = x80) {r : Fl} {v : ℚ} (hr : r.Is v) (hi : x80.In v)
    (hz : v = 0 → r = .zero false) : (u.fix r (u.ev L F r)).Seg F 0 1 := by
  have X : x80 = b64 ∨ x80 = x80 := Or.inr rfl
  have ri := fl_in_of_is hr hi
  have A := angle_in X
  have B := angle_in hF
  have c1 : 0 * piX ≤ 0 := by rw [zero_mul]
  have c2 : hiPi x80 ≤ 1 * piX := by rw [x80_hi, one_mul]
  cases u <;> simp only [HalfturnPi, Bool.false_eq_true] at hu
  case arccos_over_pi =>
    exact ev_seg (u := .arccos_over_pi) rfl hF (div_pi_seg (acos_seg hA X ri) A.2.2.2.2.2.2 A.2.2.2.2.2.1 c1 c2) B.2.2.2.2.2.2 B.2.2.2.2.2.1 le_rfl le_rfl
  case arcsec_over_pi =>
    exact ev_seg (u := .arcsec_over_pi) rfl hF (div_pi_seg (acos_seg hA X (Fl.div_type (std3 X) _ _)) A.2.2.2.2.2.2 A.2.2.2.2.2.1 c1 c2)
      B.2.2.2.2.2.2 B.2.2.2.2.2.1 le_rfl le_rfl
  case arccot_over_pi =>
    refine ev_seg (u := .arccot_over_pi) rfl hF (lo := 0) (hi := 1) ?_ B.2.2.2.2.2.2 B.2.2.2.2.2.1 le_rfl le_rfl
    obtain ⟨i, n, s⟩ := recip_sgn hr hz
    show (arccotOverPil L r).Seg _ _ _
    unfold arccotOverPil
    have le0 : Fl.le (.zero false) r = true ↔ 0 ≤ v := Fl.le_is (Fl.Is.zero false) hr
    split_ifs with h
    · have s' : (Fl.div x80 (.num 1) r).sgn = false := by
        rw [Bool.eq_false_iff, Ne, s]; exact not_lt.mpr (le0.mp h)
      refine Or.inr (div_pi_btw (atan_pos_btw hA X i n s') A.2.2.2.2.2.2 A.2.2.2.2.2.1 c1 ?_)
      have := hiPi_pos x80
      linarith
    · have s' : (Fl.div x80 (.num 1) r).sgn = true := s.mpr (not_le.mp (fun h' => h (le0.mpr h')))
      obtain ⟨q, a, b, c, d⟩ := div_pi_btw (lo' := -(1 / 2)) (hi' := 0) (atan_neg_btw hA X i n s') (In_neg A.2.2.2.2.1) A.2.2.2.2.2.2 (by rw [x80_hi]; linarith) (by rw [zero_mul])
      rw [Fl.add_eq a (Fl.Is.num one_ne_zero)]
      exact Or.inr (round_btw X _ A.2.2.2.2.2.2 A.2.2.2.2.2.1 (by linarith) (by linarith))

/-- The bounds of the quadrant with the given signs, for the `arctan2`: lower. -/
def quadLo (F : Fmt) : Bool → Bool → ℚ
  | false, false => 0
  | false, true => loPi F / 2
  | true, false => -(hiPi F / 2)
  | true, true => -hiPi F
/-- Upper. -/
def quadHi (F : Fmt) : Bool → Bool → ℚ
  | false, false => hiPi F / 2
  | false, true => hiPi F
  | true, false => 0
  | true, true => -(loPi F / 2)

theorem atan2_btw {F : Fmt} (hF : F = b64 ∨ F = x80) {y x : Fl} (hy : y.In F) (hx : x.In F) (fy : y.isfinite = true) (fx : x.isfinite = true) :
    (L.atan2 F y x).Btw F (quadLo F y.sgn x.sgn) (quadHi F y.sgn x.sgn) := by
  obtain ⟨p1, p2⟩ := pi_between hF
  have A := angle_in hF
  have h := hA.atan2 F hF y x hy hx fy fx
  revert h
  rcases y.sgn <;> rcases x.sgn <;> intro h
  · exact h.btw A.2.2.2.2.2.2 A.2.1 (by simp [quadLo]) (by simp only [quadHi]; push_cast; linarith)
  · exact h.btw A.2.2.1 A.1 (by simp only [quadLo]; push_cast; linarith) (by simp only [quadHi]; linarith)
  · exact h.btw (In_neg A.2.1) A.2.2.2.2.2.2 (by simp only [quadLo]; push_cast; linarith) (by simp [quadHi])
  · exact h.btw (In_neg A.1) (In_neg A.2.2.1) (by simp only [quadLo]; push_cast; linarith) (by simp only [quadHi]; push_cast; linarith)

/-- The bounds divided by `π`. -/
def quadPiLo (F : Fmt) : Bool → Bool → ℚ
  | false, false => 0
  | false, true => loHalf F
  | true, false => -(1 / 2)
  | true, true => -1
/-- Upper. -/
def quadPiHi (F : Fmt) : Bool → Bool → ℚ
  | false, false => 1 / 2
  | false, true => 1
  | true, false => 0
  | true, true => -loHalf F

theorem atan2_pi_btw {F : Fmt} (hF : F = b64 ∨ F = x80) {y x : Fl} (hy : y.In x80) (hx : x.In x80) (fy : y.isfinite = true) (fx : x.isfinite = true) :
    (Fl.cast F (Fl.div x80 (L.atan2 x80 y x) PI)).Btw F (quadPiLo F y.sgn x.sgn) (quadPiHi F y.sgn x.sgn) := by
  have X : x80 = b64 ∨ x80 = x80 := Or.inr rfl
  have A := angle_in X
  have B := angle_in hF
  have h := atan2_btw hA X hy hx fy fx
  have e : hiPi x80 = piX := x80_hi
  have h64 : loHalf F ≤ loHalf x80 := by
    rcases hF with rfl | rfl
    · decide +kernel
    · exact le_rfl
  have lo1 : loHalf x80 * piX ≤ loPi x80 / 2 := by decide +kernel
  revert h
  rcases y.sgn <;> rcases x.sgn <;> intro h
  · exact cast_btw hF (div_pi_btw h A.2.2.2.2.2.2 A.2.2.2.2.1 (by simp [quadLo]) (by simp only [quadHi]; rw [e]; linarith)) B.2.2.2.2.2.2 B.2.2.2.2.1 le_rfl le_rfl
  · exact cast_btw hF (div_pi_btw h A.2.2.2.1 A.2.2.2.2.2.1 lo1 (by simp only [quadHi]; rw [e]; linarith)) B.2.2.2.1 B.2.2.2.2.2.1 h64 le_rfl
  · exact cast_btw hF (div_pi_btw h (In_neg A.2.2.2.2.1) A.2.2.2.2.2.2 (by simp only [quadLo]; rw [e]; linarith) (by simp [quadHi])) (In_neg B.2.2.2.2.1) B.2.2.2.2.2.2 le_rfl le_rfl
  · exact cast_btw hF (div_pi_btw h (In_neg A.2.2.2.2.2.1) (In_neg A.2.2.2.1) (by simp only [quadLo]; rw [e]; linarith) (by simp only [quadHi]; linarith))
      (In_neg B.2.2.2.2.2.1) (In_neg B.2.2.2.1) le_rfl (by show -loHalf x80 ≤ -loHalf F; linarith)

end

end Takum
