import Verif.Props.LogArith
import Verif.Lemmas.CrossRound
import Verif.Lemmas.SymmetryCall

/-!
# C25, C27, C31: how far 64-bit products, quotients and roots are from what is claimed

`multiplication_nearest_refuted` and `division_nearest_refuted` show results that are not the nearest takum.  Here: on
the logarithmic scale no takum is closer by more than 2^-63 of the position of the exact result.
-/

namespace Takum
open Spec

/-- `t` is as close to the number `v ≠ 0` as any takum of its sign, up to the part `δ` of the position of `v` on the
logarithmic scale. -/
def AlmostNearestLog {n : ℕ} (δ v : ℝ) (t : BitVec n) : Prop :=
  Regular t ∧ (t.msb = true ↔ v < 0) ∧
  ∀ t' : BitVec n, Regular t' → t'.msb = t.msb → |(ell t : ℝ) - logScale v| ≤ |(ell t' : ℝ) - logScale v| + δ * |logScale v|

theorem add_rq_err {w : W} (a b : T w) : |w.lF.rq (ell a + ell b) - (ell a + ell b)| ≤ |ell a + ell b| / 2 ^ 64 := by
  by_cases hw : w ≠ .w64 ∨ |ell a + ell b| < 32
  · rw [w.lF.rq_of_rep (ell_add_rep a b hw), sub_self, abs_zero]; positivity
  · push Not at hw
    obtain ⟨rfl, h32⟩ := hw
    have hr : (32 : ℝ) ≤ |((ell a + ell b : ℚ) : ℝ)| := by
      have := (Rat.cast_le (K := ℝ)).mpr h32
      rwa [Rat.cast_abs] at this
    have h1 : (2 : ℝ) ^ (x80.emin + x80.prec) ≤ 32 := by
      have : (2 : ℝ) ^ (x80.emin + x80.prec) ≤ (2 : ℝ) ^ (5 : ℤ) := zpow_le_zpow_right₀ (by norm_num) (by decide)
      exact this.trans (by norm_num)
    have := rq_real_err (F := x80) (h1.trans hr)
    rw [Fmt.rq_cast] at this
    apply (Rat.cast_le (K := ℝ)).mp; push_cast at *; exact this

/-- C25 for all widths: the product is the nearest takum, up to 2^-63 of the position of the exact product.  Missing
for C25: nothing more than that. -/
theorem multiplication_almost_partial (w : W) (a b : T w) (ha : Regular a) (hb : Regular b) :
    ∃ (x y : ℝ) (v : T w), logVal a = some x ∧ logVal b = some y ∧ multiplication w a b = .ok v ∧
      AlmostNearestLog (1 / 2 ^ 63) (x * y) v := by
  obtain ⟨x, y, hx, hy, hxy⟩ := logVal_mul ha hb
  obtain ⟨l, hl, e⟩ := multiplication_regular ha hb
  have hr : w.lF.Rep (w.lF.rq (ell a + ell b)) := w.lF.rq_rep (by cases w <;> decide) _
  obtain ⟨v, e', r, s, hn⟩ := enc_nearest (w := w) (a.msb ^^ b.msb) hl (lF_rep_encF hr) ((ell_grid a).add (ell_grid b)).rq
  have hp := logG_pos (ell a + ell b)
  have es : logScale (x * y) = ((ell a + ell b : ℚ) : ℝ) := by
    unfold logScale; rw [hxy, abs_mul, abs_of_pos hp]
    have : |((sg (a.msb ^^ b.msb) : ℚ) : ℝ)| = 1 := by cases a.msb ^^ b.msb <;> simp [sg]
    rw [this, one_mul]; exact log_logG _
  refine ⟨x, y, v, hx, hy, by rw [e, e'], r, ?_, fun t' r' s' => ?_⟩
  · rw [s, hxy]; cases a.msb ^^ b.msb <;> simp [sg, hp, hp.le]
  rw [es]
  have h1 : |ell v - w.lF.rq (ell a + ell b)| ≤ |ell t' - w.lF.rq (ell a + ell b)| := by
    rcases hn t' r' (by rw [s', s]) with h | ⟨h, -⟩
    · exact h.le
    · exact h.le
  have h2 := add_rq_err a b
  have h3 := abs_sub_le (ell v) (w.lF.rq (ell a + ell b)) (ell a + ell b)
  have h4 := abs_sub_le (ell t') (ell a + ell b) (w.lF.rq (ell a + ell b))
  rw [abs_sub_comm (ell a + ell b)] at h4
  have : |ell v - (ell a + ell b)| ≤ |ell t' - (ell a + ell b)| + 1 / 2 ^ 63 * |ell a + ell b| := by linarith
  have := (Rat.cast_le (K := ℝ)).mpr this
  push_cast at this ⊢
  exact this

example : Regular (0x6840000000000000#64 : T .w64) ∧ Regular (0x4000000000000011#64 : T .w64) ∧
    multiplication .w64 0x6840000000000000#64 0x4000000000000011#64 = .ok 0x6840000000000000#64 := by
  unfold Regular; decide +kernel

/-- C27 for all widths, in the same way. -/
theorem division_almost_partial (w : W) (a b : T w) (ha : Regular a) (hb : Regular b) :
    ∃ (x y : ℝ) (v : T w), logVal a = some x ∧ logVal b = some y ∧ division w a b = .ok v ∧
      AlmostNearestLog (1 / 2 ^ 63) (x / y) v := by
  obtain ⟨i1, i2, i3, i4⟩ := inversion_facts hb
  obtain ⟨x, y, z, hx, hy, hz, hxz, -⟩ := logVal_div ha hb
  obtain ⟨x', z', v, hx', hz', e, hv⟩ := multiplication_almost_partial w a _ ha i3
  rw [hx] at hx'; rw [hz] at hz'
  rw [← Option.some.inj hx', ← Option.some.inj hz', ← hxz] at hv
  exact ⟨x, y, v, hx, hy, by rw [division_eq, e], hv⟩

example : Regular (0x6840000000000000#64 : T .w64) ∧ Regular (0x3fffffffffffffef#64 : T .w64) ∧
    division .w64 0x6840000000000000#64 0x3fffffffffffffef#64 = .ok 0x6840000000000000#64 := by
  unfold Regular; decide +kernel

/-- C31 for all widths: an odd root of the negated takum is within one unit in the last place of the negated root. Missing
for C31: equality for 64 bits, which is false (`root_odd_refuted`). -/
theorem root_odd_unit_partial (w : W) (t : T w) (n : BitVec 64) (ho : n.toInt % 2 = 1) :
    ∃ v v' : T w, root w t n = .ok v ∧ root w (-t) n = .ok v' ∧ (v' = -v ∨ |v.toInt + v'.toInt| ≤ 1) := by
  have h8 := w.n_pos
  have hn : n ≠ 0#64 := by rintro rfl; simp at ho
  by_cases hw : w = .w64
  swap
  · obtain ⟨v, e, e'⟩ := root_odd_partial w hw t n ho
    exact ⟨v, -v, e, e', Or.inl rfl⟩
  by_cases h0 : t = 0#w.n
  · have : -t = t := by rw [h0]; simp
    rw [this]
    obtain ⟨s1, s2⟩ := root_special w t n
    rcases lt_or_ge n.toInt 0 with hneg | hpos
    · have e := s1.mpr (Or.inr (Or.inr (Or.inr ⟨h0, hneg⟩)))
      exact ⟨_, _, e, e, Or.inl ((neg_value (by omega) (nar w.n)).2.2.mpr (Or.inr rfl)).symm⟩
    · have e := s2.mpr ⟨h0, by omega⟩
      exact ⟨_, _, e, e, by simp⟩
  by_cases h1 : t = nar w.n
  · have hneg := (neg_value (by omega) (nar w.n)).2.2.mpr (Or.inr rfl)
    have : -t = t := by rw [h1, hneg]
    rw [this]
    have e := (root_special w t n).1.mpr (Or.inl h1)
    exact ⟨_, _, e, e, Or.inl hneg.symm⟩
  have h : Regular t := ⟨h0, h1⟩
  obtain ⟨m1, m2, m3, m4⟩ := regular_neg (by omega) h
  obtain ⟨l, hl, e⟩ := root_regular h hn (fun _ => ho)
  obtain ⟨l', hl', e'⟩ := root_regular m3 hn (fun _ => ho)
  rw [m4] at hl'
  obtain ⟨v, ev, fv⟩ := enc_faithfulLog t.msb hl
  obtain ⟨v', ev', fv'⟩ := enc_faithfulLog (-t).msb hl'
  refine ⟨v, v', by rw [e, ev], by rw [e', ev'], Or.inr ?_⟩
  have g0 : ((sg t.msb : ℚ) : ℝ) * logG (ell t / w.lF.rq (n.toInt : ℚ)) ≠ 0 := by
    have := (logG_pos (ell t / w.lF.rq (n.toInt : ℚ))).ne'
    cases t.msb <;> simpa [sg] using this
  have g1 : ((sg (-t).msb : ℚ) : ℝ) * logG (ell t / w.lF.rq (n.toInt : ℚ)) = -(((sg t.msb : ℚ) : ℝ) * logG (ell t / w.lF.rq (n.toInt : ℚ))) := by
    rw [m1]; cases t.msb <;> simp [sg]
  rw [g1] at fv'
  exact faithful_opposite (by omega) (fv.faithful g0) (fv'.faithful (neg_ne_zero.mpr g0))

/-- The witness of `root_odd_refuted`: the two roots differ by one unit. -/
example : root .w64 0x400000000000000b#64 21#64 = .ok 0x4000000000000000#64 ∧
    root .w64 (-0x400000000000000b#64) 21#64 = .ok 0xbfffffffffffffff#64 ∧
    (0x4000000000000000#64).toInt + (0xbfffffffffffffff#64).toInt = -1 := by decide +kernel

end Takum
