import Verif.Lemmas.CrossRound
import Verif.Lemmas.Gap
import Verif.Props.LinFloat

/-!
# C12: how far the conversions from floats to linear takums are from correct rounding

`lin_from_nearest_refuted` shows that some results are not the nearest takum.  Here: for every argument the result is
nearest up to a small part of the argument, so that only arguments next to a tie can be rounded to the wrong side.
-/

namespace Takum
open Spec

/-- `t` is, up to `δ·|v|`, as close to `v ≠ 0` as any regular linear takum of its sign. -/
def AlmostNearestLin {n : ℕ} (δ v : ℚ) (t : BitVec n) : Prop :=
  Regular t ∧ (t.msb = true ↔ v < 0) ∧
  ∀ t' : BitVec n, Regular t' → t'.msb = t.msb → ∀ a b : ℚ, linVal t = some a → linVal t' = some b →
    |a - v| ≤ |b - v| + δ * |v|

/-- What the roundings before the encoding cost: 0 where C09 applies. -/
def slack : Src → W → ℚ
  | .f32, .w8 | .f64, .w8 | .ext, .w8 => 1 / 2 ^ 14
  | .f32, .w16 => 1 / 2 ^ 14
  | .f64, .w16 | .ext, .w16 => 1 / 2 ^ 43
  | .ext, .w32 | .ext, .w64 => 1 / 2 ^ 54
  | .f32, .w32 | .f32, .w64 | .f64, .w32 | .f64, .w64 => 0

theorem rho_slack {A : Src} {w : W} (h : w = .w8 ∨ w = .w16 ∨ A = .ext) {x : ℚ} (hx : |x| ≤ 255) :
    2 * |rho A w x - x| + 2 / 2 ^ w.grid ≤ slack A w := by
  have e1 := rq_err_any (F := b32) (Or.inl rfl)
  have e2 := rq_err_any (F := b64) (Or.inr (Or.inl rfl))
  have e3 := rq_err_any (F := x80) (Or.inr (Or.inr rfl))
  have c3 := e3 x (by linarith)
  rw [show b32.prec = 24 from rfl] at e1
  rw [show b64.prec = 53 from rfl] at e2
  rw [show x80.prec = 64 from rfl] at e3 c3
  have b3 : |x80.rq x| ≤ 256 := by
    have := abs_add_le (x80.rq x - x) x
    rw [sub_add_cancel] at this
    norm_num at c3
    linarith
  have c1 := e1 x (by linarith)
  have c2 := e2 x (by linarith)
  have d1 := (abs_sub_le _ (x80.rq x) _).trans (add_le_add (e1 _ b3) c3)
  have d2 := (abs_sub_le _ (x80.rq x) _).trans (add_le_add (e2 _ b3) c3)
  have fin : ∀ {y c g s : ℚ}, y ≤ c → 2 * c + g ≤ s → 2 * y + g ≤ s := fun h1 h2 => by linarith
  cases A <;> cases w
  · exact fin c1 (by norm_num [slack, W.grid])
  · exact fin c1 (by norm_num [slack, W.grid])
  · simp at h
  · simp at h
  · exact fin c1 (by norm_num [slack, W.grid])
  · exact fin c2 (by norm_num [slack, W.grid])
  · simp at h
  · simp at h
  · exact fin d1 (by norm_num [slack, W.grid])
  · exact fin d2 (by norm_num [slack, W.grid])
  · exact fin c3 (by norm_num [slack, W.grid])
  · exact fin c3 (by norm_num [slack, W.grid])

/-- The result on the scale of the positions: next to the position of the argument and almost nearest. -/
theorem linFrom_almost {A : Src} {w : W} (hw : w = .w8 ∨ w = .w16 ∨ A = .ext) {v : ℚ} (hv : v ≠ 0) (h : A.fmt.In v) :
    ∃ t : T w, linFrom A w (.num v) = .ok t ∧ Regular t ∧ t.msb = decide (v < 0) ∧
      ∀ t' : T w, Regular t' → t'.msb = decide (v < 0) →
        (ell t' ≤ lamInv |v| → ell t' ≤ ell t) ∧ (lamInv |v| ≤ ell t' → ell t ≤ ell t') ∧
        |ell t - lamInv (|v|)| ≤ |ell t' - lamInv (|v|)| + slack A w := by
  have h8 := w.n_pos
  have hp := abs_pos.mpr hv
  obtain ⟨t, e, rt, st, hf⟩ := linFrom_faithful A w (Fl.Is.num hv) hv h
  obtain ⟨l, el, hl⟩ := linFrom_spec A w (Fl.Is.num hv) hv h
  obtain ⟨t2, e2, -, -, al⟩ := enc_almost (w := w) (decide (v < 0)) hl (rho_rep A w hv h)
  obtain rfl : t = t2 := by rw [el, e2] at e; exact (Except.ok.inj e).symm
  refine ⟨t, e, rt, st, fun t' rt' st' => ?_⟩
  set x := lamInv |v| with hx
  have lx : lam x = |v| := lam_lamInv hp
  have vx : v = sg (decide (v < 0)) * lam x := by rw [lx, sg_decide_abs]
  have o1 : ell t' ≤ x → ell t' ≤ ell t := by
    intro hle
    have m := lam_strictMono.monotone hle
    by_contra hc
    push Not at hc
    by_cases h0 : v < 0
    · have d : decide (v < 0) = true := by simp [h0]
      rw [d] at st st' vx
      have := (hf t' rt').2 (by unfold lv; rw [vx, st']; simp only [sg, if_true]; linarith)
      have := (ell_lt_iff_neg (by omega) st st').mp hc
      omega
    · have d : decide (v < 0) = false := by simp [h0]
      rw [d] at st st' vx
      have := (hf t' rt').1 (by unfold lv; rw [vx, st']; simp only [sg, Bool.false_eq_true, if_false]; linarith)
      have := (ell_lt_iff_pos (by omega) st st').mp hc
      omega
  have o2 : x ≤ ell t' → ell t ≤ ell t' := by
    intro hle
    have m := lam_strictMono.monotone hle
    by_contra hc
    push Not at hc
    by_cases h0 : v < 0
    · have d : decide (v < 0) = true := by simp [h0]
      rw [d] at st st' vx
      have := (hf t' rt').1 (by unfold lv; rw [vx, st']; simp only [sg, if_true]; linarith)
      have := (ell_lt_iff_neg (by omega) st' st).mp hc
      omega
    · have d : decide (v < 0) = false := by simp [h0]
      rw [d] at st st' vx
      have := (hf t' rt').2 (by unfold lv; rw [vx, st']; simp only [sg, Bool.false_eq_true, if_false]; linarith)
      have := (ell_lt_iff_pos (by omega) st' st).mp hc
      omega
  refine ⟨o1, o2, ?_⟩
  have s0 : 0 ≤ slack A w := by cases A <;> cases w <;> norm_num [slack]
  obtain ⟨a1, a2⟩ := abs_le.mp (abs_ell_le t')
  obtain ⟨b1, b2⟩ := abs_le.mp (abs_ell_le t)
  by_cases hb : |x| ≤ 255
  · have h1 := al t' rt' st'
    have h2 := rho_slack hw hb
    have h3 := abs_sub_le (ell t) (rho A w x) x
    have h4 := abs_sub_le (ell t') x (rho A w x)
    rw [abs_sub_comm x] at h4
    linarith
  · rcases lt_abs.mp (not_le.mp hb) with h' | h'
    · have := o1 (by linarith)
      rw [abs_of_neg (by linarith), abs_of_neg (by linarith)]; linarith
    · have := o2 (by linarith)
      rw [abs_of_pos (by linarith), abs_of_pos (by linarith)]; linarith

/-- C12 for all arguments and all functions to 16, 32 and 64 bits, with the nearest takum replaced by one that is at
most `slack·|v|` farther away. -/
theorem lin_from_almost_partial (A : Src) (w : W) (hw : w ≠ .w8) (v : ℚ) (hv : v ≠ 0) (h : A.fmt.In v) :
    ∃ t : T w, linFrom A w (.num v) = .ok t ∧ AlmostNearestLin (slack A w) v t := by
  have h8 := w.n_pos
  by_cases hc : w = .w8 ∨ w = .w16 ∨ A = .ext
  swap
  · push Not at hc
    obtain ⟨t, e, r, s, hn⟩ := lin_from_nearest A w (by revert hc; cases A <;> simp) (by revert hc; cases w <;> simp) v hv h
    refine ⟨t, e, r, s, fun t' r' s' a b ha hb => ?_⟩
    have : slack A w = 0 := by revert hc; cases A <;> cases w <;> simp [slack]
    rw [this, zero_mul, add_zero]
    rcases hn t' r' s' a b ha hb with h | ⟨h, -⟩
    · exact h.le
    · exact h.le
  obtain ⟨t, e, r, s, hn⟩ := linFrom_almost hc hv h
  have hp := abs_pos.mpr hv
  refine ⟨t, e, r, by rw [s]; simp, fun t' r' s' a b ha hb => ?_⟩
  set x := lamInv |v| with hx
  have lx : lam x = |v| := lam_lamInv hp
  have vx : v = sg t.msb * lam x := by rw [lx, s, sg_decide_abs]
  rw [linVal_sg (by omega) r, Option.some.injEq] at ha
  rw [linVal_sg (by omega) r', Option.some.injEq, s'] at hb
  have key : ∀ y, |sg t.msb * y - v| = |y - lam x| := by
    intro y
    conv_lhs => rw [vx]
    rw [← mul_sub, sg_abs]
  rw [← ha, ← hb, key, key, ← lx]
  have s0 : 0 ≤ slack A w := by cases A <;> cases w <;> norm_num [slack]
  have lp := lam_pos x
  have sl := mul_nonneg s0 lp.le
  by_cases hne : t' = t
  · rw [hne]; linarith
  have hw12 : 12 ≤ w.n := by cases w <;> first | decide | exact absurd rfl hw
  obtain ⟨u, ru, su, -, hbet, j, j1, j2⟩ := neighbour hw12 r r' s' hne
  rw [le_min_iff] at j1
  rw [max_le_iff] at j2
  obtain ⟨o1, o2, al⟩ := hn u ru (by rw [su, s])
  have hm := lam_strictMono
  have two : (0 : ℚ) < (2 : ℚ) ^ j := zpow_pos (by norm_num) _
  have hta : lam (ell t) = (1 + (ell t - j)) * (2 : ℚ) ^ j := lam_affine j1.1 j2.1
  have hua : lam (ell u) = (1 + (ell u - j)) * (2 : ℚ) ^ j := lam_affine j1.2 j2.2
  rcases hbet with ⟨b1, b2⟩ | ⟨b1, b2⟩
  · -- t < u ≤ t'
    have m2 := hm.monotone b2
    have m1 := hm b1
    rcases le_or_gt x (ell t) with hx | hx
    · have := hm.monotone hx
      rw [abs_of_nonneg (by linarith), abs_of_nonneg (by linarith)]; linarith
    · have hxu : x < ell u := by
        by_contra hc
        have := o1 (not_lt.mp hc); linarith
      have hxa : lam x = (1 + (x - j)) * (2 : ℚ) ^ j := lam_affine (by linarith) (by linarith)
      have p1 := hm hx
      have p2 := hm hxu
      rw [abs_of_neg (by linarith), abs_of_pos (by linarith)] at al
      rw [abs_of_neg (by linarith), abs_of_pos (by linarith)]
      have jx : (2 : ℚ) ^ j ≤ lam x := by rw [hxa]; nlinarith
      have q1 := mul_le_mul_of_nonneg_left jx s0
      have q2 := mul_le_mul_of_nonneg_right al two.le
      nlinarith
  · -- t' ≤ u < t
    have m2 := hm.monotone b1
    have m1 := hm b2
    rcases le_or_gt (ell t) x with hx | hx
    · have := hm.monotone hx
      rw [abs_of_nonpos (by linarith), abs_of_nonpos (by linarith)]; linarith
    · have hxu : ell u < x := by
        by_contra hc
        have := o2 (not_lt.mp hc); linarith
      have hxa : lam x = (1 + (x - j)) * (2 : ℚ) ^ j := lam_affine (by linarith) (by linarith)
      have p1 := hm hx
      have p2 := hm hxu
      rw [abs_of_pos (by linarith), abs_of_neg (by linarith)] at al
      rw [abs_of_pos (by linarith), abs_of_neg (by linarith)]
      have jx : (2 : ℚ) ^ j ≤ lam x := by rw [hxa]; nlinarith
      have q1 := mul_le_mul_of_nonneg_left jx s0
      have q2 := mul_le_mul_of_nonneg_right al two.le
      nlinarith

/-- The witness of `lin_from_nearest_refuted` for `long double` and 64 bits: rounded to the wrong side of a tie. -/
example : x80.In (2 ^ 4 * (1 + 1 / 2 ^ 58 + 1 / 2 ^ 63) : ℚ) ∧ linFrom .ext .w64 (.num (2 ^ 4 * (1 + 1 / 2 ^ 58 + 1 / 2 ^ 63))) =
    .ok 5908722711110090752#64 := by
  refine ⟨⟨⟨2 ^ 63 + 2 ^ 5 + 1, -59, ?_, by decide, by decide⟩, ?_⟩, ?_⟩ <;> decide +kernel

/-- C12 for all arguments of the functions to 8 bits, on the scale of the format (`x` is the position of the argument)
and up to 2^-14, a 2^-11th of the smallest distance of 8-bit takums. -/
theorem lin8_from_almost_partial (A : Src) (v : ℚ) (hv : v ≠ 0) (h : A.fmt.In v) :
    ∃ (t : T .w8) (x : ℚ), linFrom A .w8 (.num v) = .ok t ∧ |v| = (1 + Int.fract x) * (2 : ℚ) ^ ⌊x⌋ ∧
      Regular t ∧ (t.msb = true ↔ v < 0) ∧
      ∀ t' : T .w8, Regular t' → t'.msb = t.msb → |ell t - x| ≤ |ell t' - x| + 1 / 2 ^ 14 := by
  obtain ⟨t, e, r, s, hn⟩ := linFrom_almost (A := A) (w := .w8) (Or.inl rfl) hv h
  refine ⟨t, _, e, (lam_lamInv (abs_pos.mpr hv)).symm, r, by rw [s]; simp, fun t' r' s' => ?_⟩
  have := (hn t' r' (by rw [s', s])).2.2
  rwa [show slack A .w8 = 1 / 2 ^ 14 by cases A <;> rfl] at this

/-- An argument with more significant bits than `float` has. -/
example : b64.In (5 * 2 ^ 100 + 2 ^ 50 : ℚ) ∧ linFrom .f64 .w8 (.num (5 * 2 ^ 100 + 2 ^ 50)) = .ok 0x75#8 := by
  refine ⟨⟨⟨5 * 2 ^ 50 + 1, 50, ?_, by decide, by decide⟩, ?_⟩, ?_⟩ <;> decide +kernel

end Takum
