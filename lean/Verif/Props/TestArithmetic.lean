import Verif.Lemmas.TestFuns

/-!
# C86: the test programs of the arithmetic functions

`Clear E`: no case raises the exceptions underflow and overflow.
-/

namespace Takum.Test
open Takum Spec

/-- No case raises the exceptions underflow or overflow. -/
def Clear (E : Env) : Prop := ∀ k w a b, E.flags k w a b = (false, false)

/-! ### Addition and subtraction -/

theorem addition_case {E : Env} (hE : Clear E) (k : Kind) (w : W) (a b : T w) :
    PassedBinary E additionReference
      (fun k w => match k with
        | .log => addition E.L w
        | .lin => linAddition w) k w a b := by
  cases k
  · exact log_binary (fun _ => rfl) w a b (hE _ _ _ _)
  · refine lin_binary (op := Fl.add) (fun _ => rfl) w a b (hE _ _ _ _) fun x y hx hy => ?_
    rcases hx with ⟨rfl, -⟩ | ⟨hx, -⟩
    · exact .inr fun F => add_fin.1 _
    rcases hy with ⟨rfl, -⟩ | ⟨hy, -⟩
    · exact .inr fun F => add_fin.2 _
    exact .inl ⟨qv a + qv b, sum_le (qv_lt a) (qv_lt b), fun F _ h => hx.add hy h⟩

/-- C86. The test program of the addition exits with status 0, whatever the mathematical library and
the random numbers are. -/
theorem addition_passes {E : Env} (hE : Clear E) : additionMain E = .ok 0 :=
  block_pass2 (addition_case hE)

theorem subtraction_case {E : Env} (hE : Clear E) (k : Kind) (w : W) (a b : T w) :
    PassedBinary E subtractionReference
      (fun k w => match k with
        | .log => subtraction E.L w
        | .lin => linSubtraction w) k w a b := by
  cases k
  · exact log_binary (fun _ => rfl) w a b (hE _ _ _ _)
  · refine lin_binary (op := Fl.sub) (fun _ => rfl) w a b (hE _ _ _ _) fun x y hx hy => ?_
    rcases hx with ⟨rfl, -⟩ | ⟨hx, -⟩
    · exact .inr fun F => sub_fin.1 _
    rcases hy with ⟨rfl, -⟩ | ⟨hy, -⟩
    · exact .inr fun F => sub_fin.2 _
    refine .inl ⟨qv a - qv b, ?_, fun F _ h => hx.sub hy h⟩
    rw [sub_eq_add_neg]; exact sum_le (qv_lt a) (by rw [abs_neg]; exact qv_lt b)

/-- C86. The same for the subtraction. -/
theorem subtraction_passes {E : Env} (hE : Clear E) : subtractionMain E = .ok 0 :=
  block_pass2 (subtraction_case hE)

/-! ### Linear multiplication, division, inversion and square root -/

/-- C86. The tests of the multiplication of linear takums report no failure. -/
theorem lin_multiplication_passes {E : Env} (hE : Clear E) (w : W) :
    ∃ p t, runType E multiplicationBlock .lin w (2 ^ 22) = .ok ⟨0, p, t⟩ := by
  refine type_pass2 .lin w fun a b => (case_binary a b).2.mp ?_
  refine lin_binary (op := Fl.mul) (fun _ => rfl) w a b (hE _ _ _ _) fun x y hx hy => ?_
  rcases hx with ⟨rfl, -⟩ | ⟨hx, -⟩
  · exact .inr fun F => mul_fin.1 _
  rcases hy with ⟨rfl, -⟩ | ⟨hy, -⟩
  · exact .inr fun F => mul_fin.2 _
  exact .inl ⟨qv a * qv b, prod_le (qv_lt a) (qv_lt b), fun F _ h => hx.mul hy h⟩

/-- C86. The same for the division. -/
theorem lin_division_passes {E : Env} (hE : Clear E) (w : W) :
    ∃ p t, runType E divisionBlock .lin w (2 ^ 22) = .ok ⟨0, p, t⟩ := by
  refine type_pass2 .lin w fun a b => (case_binary a b).2.mp ?_
  refine lin_binary (op := Fl.div) (fun _ => rfl) w a b (hE _ _ _ _) fun x y hx hy => ?_
  rcases hx with ⟨rfl, -⟩ | ⟨hx, -⟩
  · exact .inr fun F => div_fin.1 _
  rcases hy with ⟨rfl, -⟩ | ⟨hy, nb⟩
  · exact .inr fun F => div_fin.2.1 _
  by_cases h0 : b = 0#w.n
  · subst h0
    rw [qv_zero] at hy
    rcases hy.cases with ⟨h0, _⟩ | ⟨_, s, rfl⟩
    · exact absurd rfl h0
    · exact .inr fun F => div_fin.2.2 _ _
  · exact .inl ⟨qv a / qv b, quot_le (qv_lt a) ⟨h0, nb⟩, fun F _ h => hx.div hy (qv_ne ⟨h0, nb⟩) h⟩

/-- C86. The same for the inversion. -/
theorem lin_inversion_passes {E : Env} (hE : Clear E) (w : W) :
    ∃ p t, runType E inversionBlock .lin w (2 ^ 22) = .ok ⟨0, p, t⟩ := by
  refine type_pass (blk := inversionBlock) trivial .lin w fun t => (case_unary t _).2.mp ?_
  obtain ⟨x, ex, hx⟩ := lin_arg w t
  obtain ⟨u, v, e1, e2, e3, e4⟩ := cast_near' (w := w) (r := Fl.div x80 (.num 1) x) (by
    rcases hx with ⟨-, rfl⟩ | ⟨h, hx⟩
    · exact .inl (div_fin.2.1 _)
    by_cases h0 : t = 0#w.n
    · subst h0
      rw [qv_zero] at hx
      rcases hx.cases with ⟨h0, _⟩ | ⟨_, s, rfl⟩
      · exact absurd rfl h0
      · exact .inl (div_fin.2.2 _ _)
    · right
      have hq : |1 / qv t| ≤ (2 : ℚ) ^ (600 : ℤ) := quot_le (by norm_num) ⟨h0, h⟩
      obtain ⟨i1, i2⟩ := x80_small hq
      refine ⟨_, (Fl.Is.num one_ne_zero).div hx (qv_ne ⟨h0, h⟩) i1, i2, fun _ => ?_⟩
      refine le_trans (x80.abs_rq_le (by decide) (Fmt.Rep.zpow (by decide) (by decide)) hq) ?_
      exact zpow_le_zpow_right₀ (by norm_num) (by norm_num))
  refine unary_near (hE _ _ _ _) (lin_ext ex) ?_ e2 e3 e4
  show linInversion w t = _
  unfold linInversion
  rw [unaryLin_eq ex]; exact e1

theorem sqrt_is {w : W} {t : T w} {x : Fl} (ht : Regular t) (hp : 0 < qv t) (hx : x.Is (qv t)) {F : Fmt}
    (hF : 1 ≤ F.prec ∧ F.emin ≤ -1074 ∧ 1024 ≤ F.emax) :
    (Fl.sqrt F x).Is (F.rq (Real.sqrt (qv t))) ∧ F.In (F.rq (Real.sqrt (qv t))) := by
  obtain ⟨F1, F2, F3⟩ := hF
  have hq1 := (lv_bounds t).1
  have hq2 := (lv_bounds t).2
  rw [← qv_regular ht, abs_of_pos hp] at hq1 hq2
  have b1 : F.rq (Real.sqrt (qv t)) ≤ (2 : ℚ) ^ (128 : ℤ) := by
    apply Fmt.rq_real_le _ F1 (Fmt.Rep.zpow F1 (by omega))
    rw [Real.sqrt_le_left (by positivity)]
    have : qv t ≤ ((2 : ℚ) ^ (128 : ℤ)) ^ 2 := hq2.le.trans (by decide +kernel)
    exact_mod_cast this
  have b2 : (2 : ℚ) ^ (-128 : ℤ) ≤ F.rq (Real.sqrt (qv t)) := by
    apply Fmt.le_rq_real _ F1 (Fmt.Rep.zpow F1 (by omega))
    apply Real.le_sqrt_of_sq_le
    have : ((2 : ℚ) ^ (-128 : ℤ)) ^ 2 ≤ qv t := le_trans (by decide +kernel) hq1
    exact_mod_cast this
  have pos : 0 < F.rq (Real.sqrt (qv t)) := lt_of_lt_of_le (by positivity) b2
  constructor
  · rw [hx.eq_num hp.ne']
    unfold Fl.sqrt
    simp only [not_lt.mpr hp.le, if_false]
    rw [F.sqrtQ_eq hp]; exact Fl.Is.num pos.ne'
  · refine ⟨F.rq_real_rep F1 _, ?_⟩
    rw [abs_of_pos pos]
    exact lt_of_le_of_lt b1 (zpow_lt_zpow_right₀ (by norm_num) (by omega))

/-- C86. The same for the square root. -/
theorem lin_squareRoot_passes {E : Env} (hE : Clear E) (w : W) :
    ∃ p t, runType E squareRootBlock .lin w (2 ^ 22) = .ok ⟨0, p, t⟩ := by
  refine type_pass (blk := squareRootBlock) trivial .lin w fun t => (case_unary t _).2.mp ?_
  obtain ⟨x, ex, hx⟩ := lin_arg w t
  have key : ∃ u v : T w, linFrom w.src w (Fl.sqrt w.src.fmt x) = .ok u ∧ linFrom .ext w (Fl.sqrt x80 x) = .ok v ∧
      |u.toInt - v.toInt| ≤ 1 := by
    have same : (∀ F, (Fl.sqrt F x).isfinite = false) → ∃ u v : T w, linFrom w.src w (Fl.sqrt w.src.fmt x) = .ok u ∧
        linFrom .ext w (Fl.sqrt x80 x) = .ok v ∧ |u.toInt - v.toInt| ≤ 1 := fun h =>
      ⟨_, _, lin_bad _ _ (h _), lin_bad _ _ (h _), by simp⟩
    rcases hx with ⟨-, rfl⟩ | ⟨h, hx⟩
    · exact same fun _ => rfl
    rcases hx.cases with ⟨h0, hx'⟩ | ⟨h0, s, rfl⟩
    · have hr : Regular t := ⟨fun e => h0 ((qv_eq_zero h).mpr e), h⟩
      rcases lt_or_gt_of_ne h0 with hn | hp
      · refine same fun F => ?_
        rw [hx']; unfold Fl.sqrt; simp only [hn, if_true]; rfl
      · obtain ⟨F1, F2, F3⟩ := src_facts w
        obtain ⟨a1, a2⟩ := sqrt_is hr hp hx (F := w.src.fmt) ⟨by omega, F2, F3⟩
        obtain ⟨b1, b2⟩ := sqrt_is hr hp hx (F := x80) (by decide)
        exact rounded_near _ a1 a2 b1 b2
    · exact ⟨_, _, linFrom_zero _ _ _, linFrom_zero _ _ _, by simp⟩
  obtain ⟨u, v, e1, e2, e3⟩ := key
  refine unary_near (hE _ _ _ _) (lin_ext ex) ?_ e2 e3 ?_
  · show linSquareRoot w t = _
    unfold linSquareRoot
    rw [unaryLin_eq ex]; exact e1
  · rintro rfl
    have : linFrom .ext .w64 (Fl.sqrt x80 x) = .ok u := e1
    rw [e2] at this; exact (Except.ok.inj this).symm

/-! ## Examples -/

/-- An environment with a given library and clear flags. -/
def plain (L : Libm) : Env := ⟨L, fun _ _ _ => 0, fun _ _ _ _ => (false, false)⟩

example : Clear (plain ideal) := fun _ _ _ _ => rfl

example : additionMain (plain ideal) = .ok 0 ∧ subtractionMain (plain ideal) = .ok 0 :=
  ⟨addition_passes fun _ _ _ _ => rfl, subtraction_passes fun _ _ _ _ => rfl⟩

end Takum.Test
