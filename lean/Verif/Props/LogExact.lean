import Verif.Lemmas.Sterbenz
import Verif.Props.LogArith

/-!
# C105: products and quotients that come closer to 1 are exact

The counterpart of Sterbenz' lemma (C103) for logarithmic takums.
-/

namespace Takum
open Spec

theorem ell_mul_fine {n : ℕ} (hn : 12 ≤ n) (t : BitVec n) {R : ℕ} (hR : R < 8) (h : (2 : ℚ) ^ R - 1 ≤ |ell t|) :
    ∃ j : ℤ, ell t * 2 ^ (n - 5) = 2 ^ R * j := by
  rw [ell_sg (by omega)] at h ⊢
  rw [sg_abs] at h
  obtain ⟨j, hj⟩ := psi_fine hn t hR h
  cases t.msb
  · exact ⟨j, by simpa [sg] using hj⟩
  · exact ⟨-j, by simp only [sg, if_true]; push_cast; linear_combination -hj⟩

/-- A sum of positions that is no larger than either is a position. -/
theorem ell_sum {w : W} (hw : 12 ≤ w.n) {a b : T w} (ha : Regular a) (s : Bool)
    (h1 : |ell a + ell b| ≤ |ell a|) (h2 : |ell a + ell b| ≤ |ell b|) :
    ∃ t : T w, Regular t ∧ t.msb = s ∧ ell t = ell a + ell b := by
  set y := ell a + ell b with hy
  have ha1 : |ell a| < 255 := by
    have hp := low_pos (by omega) ha
    rw [ell_sg (by omega), sg_abs, abs_lt]
    have hpos : 0 < pos a := div_pos (by exact_mod_cast hp) (by positivity)
    exact ⟨by rw [← psi_zero]; exact psi_strictMono le_rfl hpos (pos_lt (by omega) a), psi_lt_255 (pos_nonneg a) (pos_lt (by omega) a)⟩
  obtain ⟨y1, y2⟩ := abs_lt.mp (lt_of_le_of_lt h1 ha1)
  have f1 : -255 ≤ ⌊y⌋ := by rw [Int.le_floor]; exact_mod_cast y1.le
  have f2 : ⌊y⌋ < 255 := by rw [Int.floor_lt]; exact_mod_cast y2
  obtain ⟨r8, rc, -⟩ := rg_spec f1 f2
  have hy0 : (2 : ℚ) ^ rg ⌊y⌋ - 1 ≤ |y| := by
    rw [le_abs]
    rcases rc with h | h
    · left
      have : ((2 ^ rg ⌊y⌋ - 1 : ℤ) : ℚ) ≤ (⌊y⌋ : ℚ) := by exact_mod_cast h
      push_cast at this
      linarith [Int.floor_le y]
    · right
      have : ((⌊y⌋ + 1 : ℤ) : ℚ) ≤ ((1 - 2 ^ rg ⌊y⌋ : ℤ) : ℚ) := by exact_mod_cast h
      push_cast at this
      linarith [Int.lt_floor_add_one y]
  obtain ⟨j, hj⟩ := ell_mul_fine hw a r8 (hy0.trans h1)
  obtain ⟨j', hj'⟩ := ell_mul_fine hw b r8 (hy0.trans h2)
  obtain ⟨t, rt, st, et⟩ := takum_exists hw y1 y2 (j := j + j') (by rw [hy]; push_cast; linear_combination hj + hj')
  cases s
  · exact ⟨t, rt, st, et⟩
  · obtain ⟨n1, -, n3, n4⟩ := regular_neg (by omega) rt
    exact ⟨-t, n3, by rw [n1, st]; rfl, by rw [n4, et]⟩

/-- A product that is a takum is returned. -/
theorem product_exact {w : W} {a b v : T w} (ha : Regular a) (hb : Regular b) (hv : Regular v) {x y : ℝ}
    (hx : logVal a = some x) (hy : logVal b = some y) (h : logVal v = some (x * y)) : multiplication w a b = .ok v := by
  obtain ⟨x', y', u, hx', hy', e, -, -, hf⟩ := multiplication_faithful w a b ha hb
  obtain rfl := Option.some.inj (hx.symm.trans hx')
  obtain rfl := Option.some.inj (hy.symm.trans hy')
  obtain ⟨f1, f2⟩ := hf v _ hv h
  rw [e, BitVec.eq_of_toInt_eq (le_antisymm (f2 le_rfl) (f1 le_rfl))]

theorem log_ell {w : W} {t : T w} (ht : Regular t) {x : ℝ} (hx : logVal t = some x) : Real.log x = ell t / 2 := by
  have h8 := w.n_pos
  rw [logVal_regular (by omega) ht, Option.some.injEq] at hx
  rw [← hx, ← Real.log_abs, abs_mul, logG_exp, abs_of_pos (Real.exp_pos _)]
  have : |((sg t.msb : ℚ) : ℝ)| = 1 := by cases t.msb <;> simp [sg]
  rw [this, one_mul, Real.log_exp]

/-- C105, products (`Real.log x` is the logarithm of `|x|`). -/
theorem product_toward_one_exact (w : W) (hw : w ≠ .w8) (a b : T w) (ha : Regular a) (hb : Regular b) (x y : ℝ)
    (hx : logVal a = some x) (hy : logVal b = some y) (h1 : |Real.log (x * y)| ≤ |Real.log x|)
    (h2 : |Real.log (x * y)| ≤ |Real.log y|) : ∃ v, multiplication w a b = .ok v ∧ logVal v = some (x * y) := by
  have h8 := w.n_pos
  have hn : 12 ≤ w.n := by cases w <;> first | exact absurd rfl hw | decide
  obtain ⟨x', y', hx', hy', e⟩ := logVal_mul ha hb
  obtain rfl := Option.some.inj (hx.symm.trans hx')
  obtain rfl := Option.some.inj (hy.symm.trans hy')
  have e2 : Real.log (x * y) = ((ell a + ell b : ℚ) : ℝ) / 2 := by
    rw [e, ← Real.log_abs, abs_mul, logG_exp, abs_of_pos (Real.exp_pos _)]
    have : |((sg (a.msb ^^ b.msb) : ℚ) : ℝ)| = 1 := by cases (a.msb ^^ b.msb) <;> simp [sg]
    rw [this, one_mul, Real.log_exp]
  rw [e2, log_ell ha hx, abs_div, abs_div, div_le_div_iff_of_pos_right (by norm_num)] at h1
  rw [e2, log_ell hb hy, abs_div, abs_div, div_le_div_iff_of_pos_right (by norm_num)] at h2
  obtain ⟨v, rv, sv, ev⟩ := ell_sum hn ha (a.msb ^^ b.msb) (by exact_mod_cast h1) (by exact_mod_cast h2)
  have lv : logVal v = some (x * y) := by rw [logVal_regular (by omega) rv, sv, ev, e]
  exact ⟨v, product_exact ha hb rv hx hy lv, lv⟩

/-- C105, quotients; multiplication gives the dividend back. -/
theorem quotient_toward_one_exact (w : W) (hw : w ≠ .w8) (a b : T w) (ha : Regular a) (hb : Regular b) (x y : ℝ)
    (hx : logVal a = some x) (hy : logVal b = some y) (h1 : |Real.log (x / y)| ≤ |Real.log x|)
    (h2 : |Real.log (x / y)| ≤ |Real.log y|) :
    ∃ v, division w a b = .ok v ∧ logVal v = some (x / y) ∧ multiplication w v b = .ok a := by
  obtain ⟨i1, i2, i3, i4⟩ := inversion_facts hb
  obtain ⟨x', y', z, hx', hy', hz, hxz, -⟩ := logVal_div ha hb
  obtain rfl := Option.some.inj (hx.symm.trans hx')
  obtain rfl := Option.some.inj (hy.symm.trans hy')
  have y0 : y ≠ 0 := by
    have h8 := w.n_pos
    rw [logVal_regular (by omega) hb, Option.some.injEq] at hy
    rw [← hy]
    have := logG_pos (ell b)
    refine mul_ne_zero ?_ this.ne'
    cases b.msb <;> simp [sg]
  obtain ⟨v, e, hv⟩ := product_toward_one_exact w hw a _ ha i3 x z hx hz (by rw [← hxz]; exact h1) (by
    rw [← hxz, log_ell i3 hz, i4]
    rw [log_ell hb hy] at h2
    rw [Rat.cast_neg, neg_div, abs_neg]; exact h2)
  rw [← hxz] at hv
  obtain ⟨v', e', rv, -⟩ := multiplication_sign w a _ ha i3
  obtain rfl : v = v' := Except.ok.inj (e.symm.trans e')
  refine ⟨v, by rw [division_eq, e], hv, product_exact rv hb ha hv hy ?_⟩
  rw [div_mul_cancel₀ _ y0, hx]

/-- `√e^2.5 / √e^2` is `√e^0.5`, and nothing else than 16 bits is needed. -/
example : ell (0x4c00#16 : T .w16) = 2 ∧ ell (0x4e00#16 : T .w16) = 5 / 2 ∧ division .w16 0x4e00#16 0x4c00#16 = .ok 0x4400#16 ∧
    ell (0x4400#16 : T .w16) = 1 / 2 ∧ multiplication .w16 0x4400#16 0x4c00#16 = .ok 0x4e00#16 := by decide +kernel

end Takum
