import Verif.PointSpec
import Verif.ElemSpec
import Verif.Lemmas.SymmetryCall
import Verif.Lemmas.IdealMono
import Verif.Lemmas.ConstIv
import Verif.Props.NaR

/-! # Exact points: the floats -/

namespace Takum
open Spec

theorem kTo_one {L : Libm} (hL : L.Conforming) (k : Kind) (w : W) : kTo L k w (ONE w) = .ok (.num 1) := by
  cases k
  · exact logTo_one hL.specials w
  · obtain ⟨o, ho, io⟩ := linTo_src w (ONE_facts w).2.2.1.2
    rw [qv_one] at io
    rw [io.eq_num one_ne_zero] at ho
    exact ho

theorem kFrom_one {L : Libm} (hL : L.Conforming) (k : Kind) (w : W) : kFrom L k w (.num 1) = .ok (ONE w) := by
  cases k
  · exact logFrom_one hL.specials w
  · exact linFrom_one w

theorem value_one (k : Kind) (w : W) : value k (ONE w) = some 1 := by
  cases k
  · have h8 := w.n_pos
    obtain ⟨o1, o2, o3, o4⟩ := ONE_facts w
    have := logVal_regular (by omega : 1 ≤ w.n) o3
    change logVal _ = _
    rw [this, o1, o4]
    simp [sg, logG]
  · have := linVal_qv (ONE_facts w).2.2.1.2
    rw [qv_one] at this
    change (linVal (ONE w)).map _ = _
    rw [this]; simp

theorem value_inj {w : W} {k : Kind} {a b : T w} {x : ℝ} (ha : value k a = some x) (hb : value k b = some x) : a = b := by
  apply BitVec.eq_of_toInt_eq
  exact le_antisymm ((value_order k ha hb).mpr le_rfl) ((value_order k hb ha).mpr le_rfl)

/-- The float that the function returns at its point. -/
def UFun.pointVal : UFun → ℚ
  | .ten_raised | .two_raised | .exp | .cos | .sec | .cos_pi_times | .sec_pi_times | .cosh | .sech => 1
  | _ => 0

theorem ev_point {L : Libm} (hS : L.Specials) (hP : L.Points) {F : Fmt} (hF : F = b64 ∨ F = x80) {u : UFun} :
    (u.exactAt = some 0 → (u.ev L F (.zero false)).Is u.pointVal) ∧ (u.exactAt = some 1 → (u.ev L F (.num 1)).Is u.pointVal) := by
  have B : b64 = b64 ∨ b64 = x80 := Or.inl rfl
  have X : x80 = b64 ∨ x80 = x80 := Or.inr rfl
  have i1 : (Fl.num 1).Is 1 := Fl.Is.num one_ne_zero
  have i0 : ∀ s, (Fl.zero s).Is 0 := fun s => Fl.Is.zero s
  have c1 : Fl.cast b64 (.num 1) = .num 1 := by decide +kernel
  have d1 : Fl.div x80 (.num 1) (.num 1) = .num 1 := by decide +kernel
  have d2 : Fl.div b64 (.num 1) (.num 1) = .num 1 := by decide +kernel
  have s1 : Fl.sub x80 (.num 1) (.num 1) = .zero false := by decide +kernel
  have m1 : Fl.mul x80 LB_E (.zero false) = .zero false := by decide +kernel
  have m2 : Fl.mul x80 LG_E (.zero false) = .zero false := by decide +kernel
  have p1 : Fl.div x80 (.zero false) PI = .zero false := by decide +kernel
  have c0 : Fl.cast b64 (.zero false) = .zero false := by decide +kernel
  have hm : Fl.fmod (.zero false) (.num 1) = .zero false ∧ Fl.fmod (.zero false) (.num 2) = .zero false := by decide +kernel
  have he : Fl.eq (.zero false) (.zero false) = true := by decide +kernel
  have q1 : sinpil L (.zero false) = .zero false := by unfold sinpil; simp only [hm.1, hm.2, he, if_true]
  have q2 : cospil L (.zero false) = .num 1 := by unfold cospil; simp only [hm.1, hm.2, he, if_true]
  have q3 : tanpil L (.zero false) = .zero false := by unfold tanpil; simp only [hm.1, hm.2, he, if_true]
  have q4 : secPiTimesl L (.zero false) = .num 1 := by unfold secPiTimesl; simp only [hm.1, hm.2, he, if_true]
  rcases hF with rfl | rfl
  · rw [ev_b64, ev_b64]
    constructor <;> intro h <;> cases u <;>
      first
      | (exfalso; revert h; decide)
      | (simp only [UFun.evd, UFun.evl, UFun.pointVal, secl, hP.exp _ B, hP.exp2 _ B, hP.exp2 _ X, hP.expm1 _ B, hP.log2 _ B, hP.log10 _ B, hP.log1p _ B, hP.log1p _ X,
          hP.sin _ B, hP.cos _ B, hP.cos _ X, hP.tan _ B, hP.asin _ B, hP.asin _ X, hP.acos _ B, hP.acos _ X, hP.atan _ B, hP.atan _ X, hP.sinh _ B, hP.cosh _ B,
          hP.tanh _ B, hP.asinh _ B, hP.acosh _ B, hP.acosh _ X, hP.atanh _ B, hS.log_one, hS.exp_zero, c1, d1, d2, s1, m1, m2, p1, c0, q1, q2, q3, q4]
         first | exact i1 | exact i0 _)
  · rw [ev_x80, ev_x80]
    constructor <;> intro h <;> cases u <;>
      first
      | (exfalso; revert h; decide)
      | (simp only [UFun.evl, UFun.pointVal, secl, hP.exp _ X, hP.exp2 _ X, hP.expm1 _ X, hP.log2 _ X, hP.log10 _ X, hP.log1p _ X,
          hP.sin _ X, hP.cos _ X, hP.tan _ X, hP.asin _ X, hP.acos _ X, hP.atan _ X, hP.sinh _ X, hP.cosh _ X,
          hP.tanh _ X, hP.asinh _ X, hP.acosh _ X, hP.atanh _ X, hS.log_one, hS.exp_zero, c1, d1, d2, s1, m1, m2, p1, c0, q1, q2, q3, q4]
         first | exact i1 | exact i0 _)

theorem fix_point {u : UFun} {x : ℚ} (h : u.exactAt = some x) {f r : Fl} (hr : r.Is u.pointVal) : u.fix f r = r := by
  rcases hr.cases with ⟨h0, rfl⟩ | ⟨h0, s, rfl⟩
  · cases u <;> first | rfl | (exfalso; revert h0; decide) | (exfalso; revert h; simp [UFun.exactAt])
  · cases s <;> cases u <;> first | rfl | (exfalso; revert h0; decide) | (exfalso; revert h; simp [UFun.exactAt])

theorem point_real {u : UFun} {x : ℚ} (h : u.exactAt = some x) : realFn u (x : ℝ) = u.pointVal := by
  cases u <;> first
    | (exfalso; revert h; simp [UFun.exactAt]; done)
    | (have hx : x = 0 := by simpa [UFun.exactAt] using h.symm
       subst hx; simp [realFn, UFun.pointVal]; done)
    | (have hx : x = 1 := by simpa [UFun.exactAt] using h.symm
       subst hx; simp [realFn, UFun.pointVal]; done)

/-! ### The ideal library -/

theorem rnd_in' {F : Fmt} (hF : F = b64 ∨ F = x80) {q : ℚ} (h0 : q ≠ 0) (hq : F.In q) : rnd F (q : ℝ) = .num q := by
  have e : F.rq (q : ℝ) = q := by rw [F.rq_cast, F.rq_of_rep hq.1]
  have := rnd_is (F := F) (r := (q : ℝ)) (by rw [e]; exact hq.2)
  rw [e] at this
  exact this.eq_num h0

theorem ideal_points : ideal.Points where
  exp F hF s := by show rnd F (Real.exp 0) = _; rw [Real.exp_zero, rnd_one hF]
  exp2 F hF s := by show rnd F ((2 : ℝ) ^ (0 : ℝ)) = _; rw [Real.rpow_zero, rnd_one hF]
  expm1 F hF s := rfl
  log2 F hF := by
    show (if (1 : ℚ) < 0 then Fl.nan else rnd F (Real.logb 2 ((1 : ℚ) : ℝ))) = _
    rw [if_neg (by norm_num), Rat.cast_one, Real.logb_one, rnd_zero]
  log10 F hF := by
    show (if (1 : ℚ) < 0 then Fl.nan else rnd F (Real.logb 10 ((1 : ℚ) : ℝ))) = _
    rw [if_neg (by norm_num), Rat.cast_one, Real.logb_one, rnd_zero]
  log1p F hF s := rfl
  sin F hF s := rfl
  cos F hF s := by show rnd F (Real.cos 0) = _; rw [Real.cos_zero, rnd_one hF]
  tan F hF s := rfl
  asin F hF s := rfl
  acos F hF := by
    show (if |(1 : ℚ)| ≤ 1 then rnd F (Real.arccos ((1 : ℚ) : ℝ)) else .nan) = _
    rw [if_pos (by norm_num), Rat.cast_one, Real.arccos_one, rnd_zero]
  atan F hF s := rfl
  sinh F hF s := rfl
  cosh F hF s := by show rnd F (Real.cosh 0) = _; rw [Real.cosh_zero, rnd_one hF]
  tanh F hF s := rfl
  asinh F hF s := rfl
  acosh F hF := by
    show (if (1 : ℚ) < 1 then .nan else rnd F (Real.log (((1 : ℚ) : ℝ) + Real.sqrt (((1 : ℚ) : ℝ) ^ 2 - 1)))) = _
    rw [if_neg (by norm_num), Rat.cast_one]
    norm_num
    exact rnd_zero F
  atanh F hF s := rfl
  hypot F hF x hx s := by
    cases x with
    | nan => rfl
    | inf t => rfl
    | zero t => rfl
    | num q =>
      show rnd F (Real.sqrt (((Fl.num q).toQ : ℝ) ^ 2 + ((Fl.zero s).toQ : ℝ) ^ 2)) = .num |q|
      have e : Real.sqrt (((Fl.num q).toQ : ℝ) ^ 2 + ((Fl.zero s).toQ : ℝ) ^ 2) = ((|q| : ℚ) : ℝ) := by
        show Real.sqrt ((q : ℝ) ^ 2 + ((0 : ℚ) : ℝ) ^ 2) = _
        rw [Rat.cast_zero, zero_pow (by norm_num), add_zero, Real.sqrt_sq_eq_abs, Rat.cast_abs]
      rw [e]
      have hi : F.In |q| := by
        rcases abs_choice q with h | h
        · rw [h]; exact hx.2
        · rw [h]; exact In_neg hx.2
      exact rnd_in' hF (abs_ne_zero.mpr hx.1) hi
  hypot_comm F hF x y := by
    cases x <;> cases y <;> first | rfl | (show rnd F (Real.sqrt (_ + _)) = rnd F (Real.sqrt (_ + _)); rw [add_comm])
  atan2 F hF x s hx := by
    show (if (Fl.num x).sgn then rnd F ((if s then -1 else 1) * Real.pi) else .zero s) = _
    have : (Fl.num x).sgn = false := by simp [Fl.sgn, hx.le]
    rw [this]; rfl

end Takum
