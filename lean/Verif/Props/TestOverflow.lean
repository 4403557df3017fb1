import Verif.Props.TestLog
import Verif.Props.TestConstants

/-!
# C90: a case of the 64-bit tests of multiplication and division that is undefined

The product of the two takums is the one below the largest takum, the reference is converted to the
largest one, and the comparison of the two computes the successor of the latter.
-/

namespace Takum.Test
open Takum Spec

theorem sqe_low : (1 + 0.92 / 2 ^ 64) * (363916618873 / 133877442384 + 1 / 10 ^ 20) ≤ sqe x80 ^ 2 := by decide +kernel

/-- The base used by the library is larger than the square root of Euler's number. -/
theorem sqe_log_low : 1 + 0.919 / 2 ^ 64 ≤ 2 * Real.log (sqe x80) := by
  have h1 : (1 + 0.92 / 2 ^ 64) * (363916618873 / 133877442384 + 1 / 10 ^ 20) ≤ ((sqe x80 : ℚ) : ℝ) ^ 2 := by
    have := (Rat.cast_le (K := ℝ)).mpr sqe_low; push_cast at this; exact this
  have he := (abs_le.mp Real.exp_one_near_20).2
  have hs : (0 : ℝ) < sqe x80 := by
    have := (sqe_facts (F := x80) (by tauto)).1
    exact_mod_cast lt_trans one_pos this
  have h2 : (1 + 0.92 / 2 ^ 64) * Real.exp 1 ≤ ((sqe x80 : ℚ) : ℝ) ^ 2 :=
    le_trans (mul_le_mul_of_nonneg_left (by linarith) (by norm_num)) h1
  have h3 := Real.log_le_log (by positivity) h2
  rw [Real.log_mul (by norm_num) (Real.exp_pos 1).ne', Real.log_exp, Real.log_pow] at h3
  have h4 : (0.919 / 2 ^ 64 : ℝ) ≤ Real.log (1 + 0.92 / 2 ^ 64) := by
    have := Real.one_sub_inv_le_log_of_pos (x := 1 + 0.92 / 2 ^ 64) (by norm_num)
    refine le_trans ?_ this
    norm_num
  push_cast at h3
  linarith

/-- The absolute error of rounding a number in `[64, 128)`. -/
theorem rq_half {x : ℝ} (h1 : 64 ≤ x) (h2 : x < 128) : x - 1 / 2 ^ 58 ≤ (x80.rq x : ℝ) := by
  have hx : |x| = x := abs_of_nonneg (by linarith)
  have hl : Int.log 2 |x| = 6 := by
    rw [hx]
    apply le_antisymm
    · by_contra hc
      have h7 : (7 : ℤ) ≤ Int.log 2 x := by omega
      have := (Int.zpow_le_iff_le_log (b := 2) (by norm_num) (by linarith)).mpr h7
      norm_num at this; linarith
    · apply (Int.zpow_le_iff_le_log (b := 2) (by norm_num) (by linarith)).mp
      norm_num; exact h1
  have hj : x80.qexp x = -57 := by
    unfold Fmt.qexp; rw [hl]; decide
  have e : (x80.rq x : ℝ) = (rne (x / (2 : ℝ) ^ (-57 : ℤ)) : ℝ) * (2 : ℝ) ^ (-57 : ℤ) := by
    unfold Fmt.rq; rw [hj]; push_cast; rfl
  have h3 := abs_le.mp (abs_sub_rne (x / (2 : ℝ) ^ (-57 : ℤ)))
  have h4 : x = x / (2 : ℝ) ^ (-57 : ℤ) * (2 : ℝ) ^ (-57 : ℤ) := by field_simp
  rw [e]
  have h5 := mul_le_mul_of_nonneg_right h3.2 (show (0 : ℝ) ≤ (2 : ℝ) ^ (-57 : ℤ) by positivity)
  rw [sub_mul, ← h4] at h5
  have h6 : (1 : ℝ) / 2 * (2 : ℝ) ^ (-57 : ℤ) = 1 / 2 ^ 58 := by norm_num
  rw [h6] at h5
  linarith

/-- A number whose logarithm is half way between those of the two largest takums is converted to the
largest one. -/
theorem tie_up {L : Libm} (hR : RoundedLog L) {f : Fl} {z : ℚ} (hf : f.Is z) (hz : 0 < z) (hi : x80.In z)
    (hv : |Real.log |(z : ℝ)| - ((255 - 3 / 2 ^ 53 : ℚ) : ℝ) * Real.log (sqe x80)| ≤ ((9.0201 / 2 ^ 64 : ℚ) : ℝ)) :
    fromExt L .log .w64 f = .ok 0x7fffffffffffffff#64 := by
  have zr : (0 : ℝ) < z := by exact_mod_cast hz
  rw [abs_of_pos zr, abs_le] at hv
  have hlow := sqe_log_low
  have hup := (abs_le.mp (sqe_log (F := x80) (.inr rfl))).2
  have hk : (kap x80 : ℝ) * (1 + 1 / 2 ^ 49) ≤ 1 / 2 ^ 60 := by norm_num [kap, x80]
  set x := Real.log (z : ℝ) with hxd
  set Λ := Real.log ((sqe x80 : ℚ) : ℝ) with hΛ
  push_cast at hv
  have x1 : 127.5 - 3 / 2 ^ 54 + 108 / 2 ^ 64 ≤ x := by
    have := hv.1
    norm_num at this hlow ⊢
    linarith
  have x2 : x < 128 := by
    have := hv.2
    norm_num at this hup hk ⊢
    linarith
  have hr := rq_half (x := x) (by norm_num at x1 ⊢; linarith) x2
  have hr' : (x80.rq x : ℝ) ≤ 128 := by
    have : x80.rq x ≤ 128 := Fmt.rq_real_le x80 (by decide) ⟨1, 7, by norm_num, by decide, by decide⟩ (by norm_num; exact x2.le)
    exact_mod_cast this
  set r := x80.rq x with hrd
  have zi := hR z hz hi
  have r100 : |r| ≤ 2 ^ 100 := by
    have h1 : (0 : ℝ) ≤ r := by norm_num at x1 hr; linarith
    have h2 : |(r : ℝ)| ≤ 2 ^ 100 := by rw [abs_of_nonneg h1]; linarith [show (128 : ℝ) ≤ 2 ^ 100 by norm_num]
    exact_mod_cast h2
  have rin : x80.In r := ⟨x80.rq_real_rep (by decide) _, lt_of_le_of_lt r100 (by
    rw [← zpow_natCast]; exact zpow_lt_zpow_right₀ (by norm_num) (by decide))⟩
  obtain ⟨l1, l2⟩ := twoLog_is (L := L) (.inr rfl) hf hz.ne' (by rw [abs_of_pos hz]; exact zi) rin r100
  have hb : |2 * r| ≤ 2 ^ 101 := by
    rw [abs_mul, abs_two]; linarith [show (2 : ℚ) * 2 ^ 100 = 2 ^ 101 by norm_num]
  obtain ⟨v, e, c⟩ := logEnc_conv .w64 (decide (z < 0)) l1 l2.1 hb
  have hd : decide (z < 0) = false := by simpa using hz.le
  rw [hd] at c
  have er : fromExt L .log .w64 f = .ok v := by
    show logFrom L .ext .w64 f = _
    rw [logFrom_eq L .ext .w64 hf hz.ne']; exact e
  rw [er]
  congr 1
  have p1 : (255 : ℚ) - 3 / 2 ^ 53 + 80 / 2 ^ 64 ≤ 2 * r := by
    have : ((255 - 3 / 2 ^ 53 + 80 / 2 ^ 64 : ℚ) : ℝ) ≤ ((2 * r : ℚ) : ℝ) := by
      push_cast; norm_num at x1 hr ⊢; linarith
    exact Rat.cast_le.mp this
  have e1 : ell (0x7ffffffffffffffe#64 : T .w64) = 255 - 4 / 2 ^ 53 := by decide +kernel
  have e2 : ell (0x7fffffffffffffff#64 : T .w64) = 255 - 2 / 2 ^ 53 := by decide +kernel
  obtain ⟨-, b2⟩ := toInt_InW v
  have b3 : v.toInt < 2 ^ 63 := b2
  have o1 := (c.next.order 0x7ffffffffffffffe#64 ⟨by decide, by decide⟩ (by decide)).1 (by
    simp only [sg, Bool.false_eq_true, if_false, one_mul]; rw [e1]; norm_num at p1 ⊢; linarith)
  rw [show (0x7ffffffffffffffe#64 : T .w64).toInt = 2 ^ 63 - 2 by decide] at o1
  apply BitVec.eq_of_toInt_eq
  rw [show (0x7fffffffffffffff#64 : BitVec 64).toInt = 2 ^ 63 - 1 by decide]
  by_contra hne
  have hv2 : v = 0x7ffffffffffffffe#64 := BitVec.eq_of_toInt_eq (by
    rw [show (0x7ffffffffffffffe#64 : BitVec 64).toInt = 2 ^ 63 - 2 by decide]; omega)
  have o2 := (c.next.order 0x7fffffffffffffff#64 ⟨by decide, by decide⟩ (by decide)).1
  have p2 : 2 * r < 255 - 2 / 2 ^ 53 := by
    by_contra hc
    have := o2 (by simp only [sg, Bool.false_eq_true, if_false, one_mul]; rw [e2]; linarith)
    rw [show (0x7fffffffffffffff#64 : T .w64).toInt = 2 ^ 63 - 1 by decide] at this
    omega
  have cl := c.close64 rfl 0x7fffffffffffffff#64 ⟨by decide, by decide⟩ (by decide)
  rw [hv2, e1, e2, abs_of_neg (by norm_num at p1 ⊢; linarith), abs_of_pos (by linarith)] at cl
  norm_num at cl p1
  linarith

/-- A reference rounded from a number whose logarithm is nearly half way between. -/
theorem rounded_up {L : Libm} (hR : RoundedLog L) {m : ℚ} (pm : 0 < m) (m1 : (2 : ℚ) ^ (-600 : ℤ) ≤ m)
    (m2 : m ≤ (2 : ℚ) ^ (600 : ℤ)) {raw : Fl} (hr : raw.Is (x80.rq m))
    (h1 : |Real.log (m : ℝ) - ((255 - 3 / 2 ^ 53 : ℚ) : ℝ) * Real.log (sqe x80)| ≤ ((8.02 / 2 ^ 64 : ℚ) : ℝ)) :
    fromExt L .log .w64 raw = .ok 0x7fffffffffffffff#64 := by
  have qge : (2 : ℝ) ^ (-1000 : ℤ) ≤ |(m : ℝ)| := by
    have h2 : (2 : ℚ) ^ (-1000 : ℤ) ≤ (2 : ℚ) ^ (-600 : ℤ) := zpow_le_zpow_right₀ (by norm_num) (by norm_num)
    have := (Rat.cast_le (K := ℝ)).mpr (h2.trans m1)
    rwa [Rat.cast_zpow, Rat.cast_ofNat, ← abs_of_pos pm, Rat.cast_abs] at this
  obtain ⟨x1, x2⟩ := x80_small (q := m) (by rw [abs_of_pos pm]; exact m2)
  obtain ⟨r1, r2, r3⟩ := rq_log qge
  rw [Fmt.rq_cast] at r1 r2 r3
  have zp : 0 < x80.rq m := lt_of_le_of_ne (not_lt.mp fun h => absurd (r2.mp h) (not_lt.mpr (by exact_mod_cast pm.le))) (Ne.symm r1)
  refine tie_up hR hr zp x2 ?_
  rw [← Rat.cast_abs m, abs_of_pos pm] at r3
  have h2 := abs_sub_le (Real.log |((x80.rq m : ℚ) : ℝ)|) (Real.log (m : ℝ))
    (((255 - 3 / 2 ^ 53 : ℚ) : ℝ) * Real.log (sqe x80))
  have h3 : (1.0001 / 2 ^ 64 : ℚ) + (8.02 / 2 ^ 64 : ℚ) ≤ ((9.0201 / 2 ^ 64 : ℚ)) := by norm_num
  have h3' := (Rat.cast_le (K := ℝ)).mpr h3
  rw [Rat.cast_add] at h3'
  linarith

/-- A case whose result is the takum below the largest one, which is the expected one. -/
theorem overflow_case {E : Env} (hE : Clear E) {ref : Fl → Fl → Fl} {f : Kind → (w : W) → T w → T w → C (T w)}
    {a b : T .w64} {x y : Fl} (hx : toExt E.L .log .w64 a = .ok x) (hy : toExt E.L .log .w64 b = .ok y)
    (hu : f .log .w64 a b = .ok 0x7ffffffffffffffe#64)
    (hv : fromExt E.L .log .w64 (ref x y) = .ok 0x7fffffffffffffff#64) :
    ¬ DefinedBinary E ref f .log .w64 a b := by
  rintro ⟨raw, ⟨x', y', hx', hy', rfl⟩, u', r, hu', he, hc'⟩
  rw [hx] at hx'; rw [hy] at hy'; rw [hu] at hu'
  obtain rfl := Except.ok.inj hx'
  obtain rfl := Except.ok.inj hy'
  obtain rfl := Except.ok.inj hu'
  rw [hE] at he
  generalize hf : (false, false) = fl at he
  cases he with
  | tiny _ o h h0 => cases hf; simp at h
  | huge => cases hf
  | negHuge => cases hf
  | regular _ t _ ht =>
    rw [hv] at ht
    obtain rfl := Except.ok.inj ht
    exact (hc' rfl).1 ⟨by decide, by decide⟩

/-- `√e^128` and `√e^(127 - 3/2^53)`: the product is half way between the two largest takums. -/
def factorA : T .w64 := 0x7810000000000000#64
def factorB : T .w64 := 0x77fffffffffffffd#64

theorem factor_facts : Regular factorA ∧ Regular factorB ∧ factorA.msb = false ∧ factorB.msb = false ∧
    ell factorA + ell factorB = 255 - 3 / 2 ^ 53 ∧ multiplication .w64 factorA factorB = .ok 0x7ffffffffffffffe#64 := by
  refine ⟨⟨by decide, by decide⟩, ⟨by decide, by decide⟩, by decide, by decide, by decide +kernel, by decide +kernel⟩

/-- The converted reference of the product. -/
theorem factor_reference {L : Libm} (hL : L.Powers) (hA : L.Accurate) (hR : RoundedLog L) {x y : Fl}
    (hx : toExt L .log .w64 factorA = .ok x) (hy : toExt L .log .w64 factorB = .ok y) :
    fromExt L .log .w64 (multiplicationReference x y) = .ok 0x7fffffffffffffff#64 := by
  obtain ⟨ra, rb, sa, sb, hl, -⟩ := factor_facts
  obtain ⟨f, v, e, i, -, pv, hv, v1, v2⟩ := arg_log hL hA ra
  obtain ⟨g, u, e', i', -, pu, hu, u1, u2⟩ := arg_log hL hA rb
  rw [e] at hx; rw [e'] at hy
  obtain rfl := Except.ok.inj hx; obtain rfl := Except.ok.inj hy
  rw [sa] at i; rw [sb] at i'
  simp only [sg, Bool.false_eq_true, if_false, one_mul] at i i'
  have m1 : (2 : ℚ) ^ (-600 : ℤ) ≤ v * u := by
    rw [show (-600 : ℤ) = -300 + -300 by norm_num, zpow_add₀ (by norm_num)]
    gcongr
  have m2 : v * u ≤ (2 : ℚ) ^ (600 : ℤ) := by
    rw [show (600 : ℤ) = 300 + 300 by norm_num, zpow_add₀ (by norm_num)]
    gcongr
  refine rounded_up hR (mul_pos pv pu) m1 m2 (i.mul i' (x80_small ?_).1) ?_
  · rw [abs_of_pos (mul_pos pv pu)]; exact m2
  rw [Rat.cast_mul, Real.log_mul (by exact_mod_cast pv.ne') (by exact_mod_cast pu.ne'), ← hl]
  refine le_trans (le_of_eq ?_) (two_lams hv hu)
  rw [Rat.cast_add]; exact congrArg abs (by ring)

/-- C90. A case of the test of the 64-bit logarithmic multiplication that is not defined. -/
theorem log_multiplication_refuted {E : Env} (hE : Clear E) (hL : E.L.Powers) (hA : E.L.Accurate) (hR : RoundedLog E.L) :
    ¬ DefinedBinary E multiplicationReference (fun k w => match k with
        | .log => multiplication w
        | .lin => linMultiplication w) .log .w64 factorA factorB := by
  obtain ⟨x, hx⟩ := toExt_ok E.L .log .w64 factorA
  obtain ⟨y, hy⟩ := toExt_ok E.L .log .w64 factorB
  exact overflow_case hE hx hy factor_facts.2.2.2.2.2 (factor_reference hL hA hR hx hy)

/-- `√e^-(127 - 3/2^53)`. -/
def divisorB : T .w64 := 0x0800000000000003#64

theorem divisor_facts : Regular divisorB ∧ divisorB.msb = false ∧
    ell factorA - ell divisorB = 255 - 3 / 2 ^ 53 ∧ division .w64 factorA divisorB = .ok 0x7ffffffffffffffe#64 := by
  refine ⟨⟨by decide, by decide⟩, by decide, by decide +kernel, by decide +kernel⟩

theorem divisor_reference {L : Libm} (hL : L.Powers) (hA : L.Accurate) (hR : RoundedLog L) {x y : Fl}
    (hx : toExt L .log .w64 factorA = .ok x) (hy : toExt L .log .w64 divisorB = .ok y) :
    fromExt L .log .w64 (divisionReference x y) = .ok 0x7fffffffffffffff#64 := by
  obtain ⟨ra, -, sa, -, -, -⟩ := factor_facts
  obtain ⟨rb, sb, hl, -⟩ := divisor_facts
  obtain ⟨f, v, e, i, -, pv, hv, v1, v2⟩ := arg_log hL hA ra
  obtain ⟨g, u, e', i', -, pu, hu, u1, u2⟩ := arg_log hL hA rb
  rw [e] at hx; rw [e'] at hy
  obtain rfl := Except.ok.inj hx; obtain rfl := Except.ok.inj hy
  rw [sa] at i; rw [sb] at i'
  simp only [sg, Bool.false_eq_true, if_false, one_mul] at i i'
  have m1 : (2 : ℚ) ^ (-600 : ℤ) ≤ v / u := by
    rw [le_div_iff₀ pu]
    calc (2 : ℚ) ^ (-600 : ℤ) * u ≤ (2 : ℚ) ^ (-600 : ℤ) * 2 ^ (300 : ℤ) := by gcongr
      _ = (2 : ℚ) ^ (-300 : ℤ) := by rw [← zpow_add₀ (by norm_num)]; norm_num
      _ ≤ v := v1
  have m2 : v / u ≤ (2 : ℚ) ^ (600 : ℤ) := by
    rw [div_le_iff₀ pu]
    calc v ≤ (2 : ℚ) ^ (300 : ℤ) := v2
      _ = (2 : ℚ) ^ (600 : ℤ) * 2 ^ (-300 : ℤ) := by rw [← zpow_add₀ (by norm_num)]; norm_num
      _ ≤ (2 : ℚ) ^ (600 : ℤ) * u := by gcongr
  refine rounded_up hR (div_pos pv pu) m1 m2 (i.div i' pu.ne' (x80_small ?_).1) ?_
  · rw [abs_of_pos (div_pos pv pu)]; exact m2
  rw [Rat.cast_div, Real.log_div (by exact_mod_cast pv.ne') (by exact_mod_cast pu.ne'), ← hl]
  refine le_trans (le_of_eq ?_) (two_lams hv (by rw [← abs_neg] at hu; exact hu))
  rw [Rat.cast_sub]; exact congrArg abs (by ring)

/-- C90. A case of the test of the 64-bit logarithmic division that is not defined. -/
theorem log_division_refuted {E : Env} (hE : Clear E) (hL : E.L.Powers) (hA : E.L.Accurate) (hR : RoundedLog E.L) :
    ¬ DefinedBinary E divisionReference (fun k w => match k with
        | .log => division w
        | .lin => linDivision w) .log .w64 factorA divisorB := by
  obtain ⟨x, hx⟩ := toExt_ok E.L .log .w64 factorA
  obtain ⟨y, hy⟩ := toExt_ok E.L .log .w64 divisorB
  exact overflow_case hE hx hy divisor_facts.2.2.2 (divisor_reference hL hA hR hx hy)

/-- C90. If that pair is drawn, the test program is undefined. -/
theorem multiplication_stops {E : Env} (hE : Clear E) (hL : E.L.Powers) (hA : E.L.Accurate) (hR : RoundedLog E.L)
    {i : ℕ} (hi : i < 2 ^ 22) (h : xys (E.rand .log .w64) .w64 i = (factorA, factorB)) :
    ∃ u, multiplicationMain E = .error (.ub u) := by
  have r := (pair_random_report (E := E) (k := .log) (w := .w64) (M := 2 ^ 22) (by norm_num) (by norm_num) (by decide)
    (DefinedBinary E multiplicationReference (fun k w => match k with
        | .log => multiplication w
        | .lin => linMultiplication w) .log .w64) (PassedBinary E multiplicationReference (fun k w => match k with
        | .log => multiplication w
        | .lin => linMultiplication w) .log .w64) (fun t u => (case_binary t u).1) (fun t u => (case_binary t u).2)).2
    ⟨⟨i, hi⟩, by simp only [h]; exact log_multiplication_refuted hE hL hA hR⟩
  obtain ⟨u, e4⟩ := r
  obtain ⟨_, _, e1⟩ := log_multiplication_passes hE hL hA (w := .w8) (by decide)
  obtain ⟨_, _, e2⟩ := log_multiplication_passes hE hL hA (w := .w16) (by decide)
  obtain ⟨_, _, e3⟩ := log_multiplication_passes hE hL hA (w := .w32) (by decide)
  refine ⟨u, ?_⟩
  unfold multiplicationMain runBlock
  have e4' : runType E multiplicationBlock .log .w64 (2 ^ 22) = .error (.ub u) := e4
  simp only [e1, e2, e3, e4', R_ok_bind]
  rfl

/-- Values of `rand()` that make the generator produce the pair first.  (They exceed the `RAND_MAX` of
usual libraries; from a smaller seed the pair can only come later.) -/
noncomputable def unlucky : Env :=
  ⟨ideal, fun _ _ i => if i = 0 then 0xf020000000000000 else 0xeffffffffffffffb, fun _ _ _ _ => (false, false)⟩

example : inversionMain (plain ideal) = .ok 0 ∧ squareRootMain (plain ideal) = .ok 0 :=
  ⟨inversion_passes (fun _ _ _ _ => rfl) ideal_powers ideal_accurate,
   squareRoot_passes (fun _ _ _ _ => rfl) ideal_powers ideal_accurate⟩

example : ∃ u, multiplicationMain unlucky = .error (.ub u) :=
  multiplication_stops (i := 1) (fun _ _ _ _ => rfl) ideal_powers ideal_accurate ideal_roundedLog (by norm_num)
    (by decide +kernel)

end Takum.Test
