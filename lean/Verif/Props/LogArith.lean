import Verif.Lemmas.Roots
import Verif.Props.BitOps

/-!
# Logarithmic multiplication, division, square root, integer power and root (C22, C24 – C32)
-/

namespace Takum
open Spec

/-! ## Multiplication -/

/-- C24: multiplication is commutative. -/
theorem multiplication_comm (w : W) (a b : T w) : multiplication w a b = multiplication w b a :=
  multiplication_comm' w a b

/-- C24: 1 is the identity, for every bit pattern. -/
theorem multiplication_one (w : W) (t : T w) : multiplication w t (ONE w) = .ok t := by
  obtain ⟨o1, o2, o3, o4⟩ := ONE_facts w
  rcases toL_cases w t with ⟨e, _⟩ | ⟨e, _⟩ | ⟨r, x, _⟩
  · rw [e, multiplication_comm', multiplication_zero o3.2]
  · rw [e, multiplication_comm', multiplication_nar]
  · obtain ⟨l, hl, e⟩ := multiplication_regular r o3
    rw [o4, add_zero, w.lF.rq_of_rep (ell_in w t).1] at hl
    rw [e, o1, Bool.xor_false, enc_of_ell r hl]

/-- C24: NaR absorbs everything, 0 everything else. -/
theorem multiplication_special (w : W) (a : T w) :
    multiplication w a (nar w.n) = .ok (nar w.n) ∧ (a ≠ nar w.n → multiplication w a 0#w.n = .ok 0#w.n) :=
  ⟨multiplication_nar w a, fun h => multiplication_zero h⟩

/-- C24: a product of non-zero numbers is not 0, not NaR, and obeys the rule of signs. -/
theorem multiplication_sign (w : W) (a b : T w) (ha : Regular a) (hb : Regular b) :
    ∃ v : T w, multiplication w a b = .ok v ∧ Regular v ∧ (v.toInt < 0 ↔ (a.toInt < 0 ↔ 0 < b.toInt)) := by
  have h8 := w.n_pos
  obtain ⟨v, e, r, hs⟩ := multiplication_ok ha hb
  refine ⟨v, e, r, ?_⟩
  rw [toInt_neg_iff (by omega) r, toInt_neg_iff (by omega) ha, toInt_pos_iff (by omega) hb, hs]
  cases a.msb <;> cases b.msb <;> simp

example : Regular 0x35#8 ∧ Regular 0xc1#8 ∧ multiplication .w8 0x35#8 0xc1#8 = .ok 0xcc#8 := by
  unfold Regular; decide +kernel

/-- C24: negating a factor negates the product; in particular multiplying by −1 negates.  This holds
for all widths, also for 64 bits. -/
theorem multiplication_neg_left (w : W) (a b : T w) (ha : Regular a) (hb : Regular b) :
    (∃ v : T w, multiplication w a b = .ok v ∧ multiplication w (-a) b = .ok (-v)) ∧
      multiplication w (-ONE w) b = .ok (-b) := by
  refine ⟨multiplication_neg ha hb, ?_⟩
  obtain ⟨o1, o2, o3, o4⟩ := ONE_facts w
  obtain ⟨v, e, e'⟩ := multiplication_neg o3 hb
  rw [multiplication_comm', multiplication_one] at e
  rw [e', ← Except.ok.inj e]

example : Regular (ONE .w64) ∧ Regular 0x123456789abcdef0#64 := by unfold Regular; decide

/-- The product of the represented numbers in terms of `ell`. -/
theorem logVal_mul {w : W} {a b : T w} (ha : Regular a) (hb : Regular b) :
    ∃ x y : ℝ, logVal a = some x ∧ logVal b = some y ∧
      x * y = ((sg (a.msb ^^ b.msb) : ℚ) : ℝ) * logG (ell a + ell b) := by
  have h8 := w.n_pos
  refine ⟨_, _, logVal_regular (by omega) ha, logVal_regular (by omega) hb, ?_⟩
  rw [sg_xor, logG_add]; push_cast; ring

/-- C25 for 8, 16 and 32 bits, and for 64 bits as long as the exact product lies between `√e^-32` and
`√e^32`: the product is the nearest takum.  Missing for C25: the remaining 64-bit products, see
`multiplication_nearest_refuted` and `multiplication_faithful`. -/
theorem multiplication_nearest_partial (w : W) (a b : T w) (ha : Regular a) (hb : Regular b)
    (hw : w ≠ .w64 ∨ |ell a + ell b| < 32) :
    ∃ (x y : ℝ) (v : T w), logVal a = some x ∧ logVal b = some y ∧ multiplication w a b = .ok v ∧
      NearestLog (x * y) v := by
  obtain ⟨x, y, hx, hy, hxy⟩ := logVal_mul ha hb
  obtain ⟨l, hl, e⟩ := multiplication_regular ha hb
  have hr := ell_add_rep a b hw
  rw [w.lF.rq_of_rep hr] at hl
  obtain ⟨v, e', hv⟩ := enc_nearest (w := w) (a.msb ^^ b.msb) hl (lF_rep_encF hr) ((ell_grid a).add (ell_grid b))
  exact ⟨x, y, v, hx, hy, by rw [e, e'], by rw [hxy]; exact nearestLog_of_ell hv⟩

example : Regular 0x3512#16 ∧ Regular 0xc1ab#16 ∧ (W.w16 ≠ .w64 ∨ |ell 0x3512#16 + ell 0xc1ab#16| < 32) :=
  ⟨by unfold Regular; decide, by unfold Regular; decide, Or.inl (by decide)⟩

/-- C25 for all widths, a weaker statement: no takum lies strictly between the exact product and the
result, and exact products are returned exactly. -/
theorem multiplication_faithful (w : W) (a b : T w) (ha : Regular a) (hb : Regular b) :
    ∃ (x y : ℝ) (v : T w), logVal a = some x ∧ logVal b = some y ∧ multiplication w a b = .ok v ∧
      FaithfulLog (x * y) v := by
  obtain ⟨x, y, hx, hy, hxy⟩ := logVal_mul ha hb
  obtain ⟨l, hl, e⟩ := multiplication_regular ha hb
  obtain ⟨v, e', hv⟩ := enc_faithfulLog (w := w) (a.msb ^^ b.msb) hl
  exact ⟨x, y, v, hx, hy, by rw [e, e'], by rw [hxy]; exact hv⟩

theorem not_nearestLog {n : ℕ} {s : Bool} {q : ℚ} {t t' : BitVec n} (h : t'.msb = t.msb) (r : Regular t')
    (hlt : |ell t' - q| < |ell t - q|) : ¬ NearestLog ((sg s : ℚ) * logG q) t := by
  have hp := logG_pos q
  have e : logScale (((sg s : ℚ) : ℝ) * logG q) = q := by
    unfold logScale; rw [abs_mul, abs_of_pos hp]
    have : |((sg s : ℚ) : ℝ)| = 1 := by cases s <;> simp [sg]
    rw [this, one_mul, log_logG]
  rintro ⟨_, _, h3⟩
  have hlt' : |((ell t' : ℚ) : ℝ) - q| < |((ell t : ℚ) : ℝ) - q| := by exact_mod_cast hlt
  have := h3 t' r h
  rw [e] at this
  rcases this with h | ⟨h, _⟩
  · exact absurd hlt' (not_lt.mpr h.le)
  · exact absurd h hlt'.ne'

/-- C25 is false for 64 bits: the sum of the logarithmic values is rounded to `long double` before it
is rounded to a takum.  Here it is `32 + 2^-55 + 2^-59`, rounded to the midpoint `32 + 2^-55` of two
takums and then to the even one, which is not the nearest. -/
theorem multiplication_nearest_refuted :
    ∃ (a b v : T .w64) (x y : ℝ), Regular a ∧ Regular b ∧ logVal a = some x ∧ logVal b = some y ∧
      multiplication .w64 a b = .ok v ∧ ¬ NearestLog (x * y) v := by
  have ha : Regular (0x6840000000000000#64 : T .w64) := by unfold Regular; decide
  have hb : Regular (0x4000000000000011#64 : T .w64) := by unfold Regular; decide
  obtain ⟨x, y, hx, hy, hxy⟩ := logVal_mul (w := .w64) ha hb
  refine ⟨_, _, 0x6840000000000000#64, x, y, ha, hb, hx, hy, by decide +kernel, ?_⟩
  rw [hxy]
  exact not_nearestLog (t' := 0x6840000000000001#64) (by decide) (by unfold Regular; decide) (by decide +kernel)

/-! ## Division -/

/-- C26: division by 0 and NaR, of 0, by 1. -/
theorem division_special (w : W) (a : T w) :
    division w a 0#w.n = .ok (nar w.n) ∧ division w a (nar w.n) = .ok (nar w.n) ∧
      division w (nar w.n) a = .ok (nar w.n) ∧ (Regular a → division w 0#w.n a = .ok 0#w.n) ∧
      division w a (ONE w) = .ok a := by
  obtain ⟨o1, o2, o3, o4⟩ := ONE_facts w
  refine ⟨?_, ?_, ?_, ?_, ?_⟩
  · rw [division_eq, inversion_zero, multiplication_nar]
  · rw [division_eq, inversion_nar, multiplication_nar]
  · rw [division_eq, multiplication_comm', multiplication_nar]
  · intro h
    rw [division_eq, multiplication_comm', multiplication_zero (inversion_facts h).2.2.1.2]
  · rw [division_eq, (inversion_fixed w (ONE w) o3).mpr (Or.inl rfl), multiplication_one]

example : Regular 0x13#8 := by unfold Regular; decide

/-- C26: a quotient is the product with the inverse; the inverse is the quotient of 1; `a / a = 1`. -/
theorem division_inversion (w : W) (a b : T w) :
    division w a b = multiplication w a (inversion w b) ∧ division w (ONE w) b = .ok (inversion w b) ∧
      (Regular a → division w a a = .ok (ONE w)) := by
  refine ⟨division_eq w a b, ?_, ?_⟩
  · rw [division_eq, multiplication_comm', multiplication_one]
  · intro h
    obtain ⟨o1, o2, o3, o4⟩ := ONE_facts w
    obtain ⟨i1, i2, i3, i4⟩ := inversion_facts h
    obtain ⟨l, hl, e⟩ := multiplication_regular h i3
    rw [division_eq, e, i1, Bool.xor_self]
    have hz : w.lF.Rep 0 := Fmt.Rep.zero _
    rw [i4, add_neg_cancel, w.lF.rq_of_rep hz, ← o4] at hl
    have := enc_of_ell o3 hl
    rwa [o1] at this

/-- C26: a quotient of non-zero numbers is not 0, not NaR, and obeys the rule of signs. -/
theorem division_sign (w : W) (a b : T w) (ha : Regular a) (hb : Regular b) :
    ∃ v : T w, division w a b = .ok v ∧ Regular v ∧ (v.toInt < 0 ↔ (a.toInt < 0 ↔ 0 < b.toInt)) := by
  have h8 := w.n_pos
  obtain ⟨i1, i2, i3, i4⟩ := inversion_facts hb
  obtain ⟨v, e, r, hs⟩ := multiplication_sign w a _ ha i3
  rw [division_eq]
  refine ⟨v, e, r, ?_⟩
  rw [hs, toInt_pos_iff (by omega) hb, toInt_pos_iff (by omega) i3, i1]

theorem logVal_div {w : W} {a b : T w} (ha : Regular a) (hb : Regular b) :
    ∃ x y z : ℝ, logVal a = some x ∧ logVal b = some y ∧ logVal (inversion w b) = some z ∧ x / y = x * z ∧
      x / y = ((sg (a.msb ^^ b.msb) : ℚ) : ℝ) * logG (ell a - ell b) := by
  have h8 := w.n_pos
  obtain ⟨i1, i2, i3, i4⟩ := inversion_facts hb
  obtain ⟨⟨y, z, hy, hz, hyz⟩, -⟩ := inversion_exact b hb
  obtain ⟨x, z', hx, hz', hxz⟩ := logVal_mul ha i3
  rw [hz] at hz'
  have := Option.some.inj hz'
  subst this
  have e : x / y = x * z := by
    have h0 : y ≠ 0 := by intro h; rw [h, zero_mul] at hyz; norm_num at hyz
    rw [div_eq_iff h0, mul_assoc, mul_comm z y, hyz, mul_one]
  exact ⟨x, y, z, hx, hy, hz, e, by rw [e, hxz, i1, i4, sub_eq_add_neg]⟩

/-- C27 for 8, 16 and 32 bits, and for 64 bits as long as the exact quotient lies between `√e^-32` and
`√e^32`: the quotient is the nearest takum.  Missing for C27: the remaining 64-bit quotients, see
`division_nearest_refuted` and `division_faithful`. -/
theorem division_nearest_partial (w : W) (a b : T w) (ha : Regular a) (hb : Regular b)
    (hw : w ≠ .w64 ∨ |ell a - ell b| < 32) :
    ∃ (x y : ℝ) (v : T w), logVal a = some x ∧ logVal b = some y ∧ division w a b = .ok v ∧
      NearestLog (x / y) v := by
  obtain ⟨i1, i2, i3, i4⟩ := inversion_facts hb
  obtain ⟨x, y, z, hx, hy, hz, hxz, -⟩ := logVal_div ha hb
  obtain ⟨x', z', v, hx', hz', e, hv⟩ := multiplication_nearest_partial w a _ ha i3
    (by rw [i4, ← sub_eq_add_neg]; exact hw)
  rw [hx] at hx'; rw [hz] at hz'
  rw [← Option.some.inj hx', ← Option.some.inj hz', ← hxz] at hv
  exact ⟨x, y, v, hx, hy, by rw [division_eq, e], hv⟩

example : Regular (0x6840000000000000#64 : T .w64) ∧ Regular (0x6840000000000011#64 : T .w64) ∧
    |ell (0x6840000000000000#64) - ell (0x6840000000000011#64)| < 32 := by
  unfold Regular; decide +kernel

/-- C27 for all widths, a weaker statement: no takum lies strictly between the exact quotient and the
result, and exact quotients are returned exactly. -/
theorem division_faithful (w : W) (a b : T w) (ha : Regular a) (hb : Regular b) :
    ∃ (x y : ℝ) (v : T w), logVal a = some x ∧ logVal b = some y ∧ division w a b = .ok v ∧
      FaithfulLog (x / y) v := by
  obtain ⟨i1, i2, i3, i4⟩ := inversion_facts hb
  obtain ⟨x, y, z, hx, hy, hz, hxz, -⟩ := logVal_div ha hb
  obtain ⟨x', z', v, hx', hz', e, hv⟩ := multiplication_faithful w a _ ha i3
  rw [hx] at hx'; rw [hz] at hz'
  rw [← Option.some.inj hx', ← Option.some.inj hz', ← hxz] at hv
  exact ⟨x, y, v, hx, hy, by rw [division_eq, e], hv⟩

/-- C27 is false for 64 bits, for the same reason as C25. -/
theorem division_nearest_refuted :
    ∃ (a b v : T .w64) (x y : ℝ), Regular a ∧ Regular b ∧ logVal a = some x ∧ logVal b = some y ∧
      division .w64 a b = .ok v ∧ ¬ NearestLog (x / y) v := by
  have ha : Regular (0x6840000000000000#64 : T .w64) := by unfold Regular; decide
  have hb : Regular (0x3fffffffffffffef#64 : T .w64) := by unfold Regular; decide
  obtain ⟨x, y, z, hx, hy, hz, hxz, hxy⟩ := logVal_div (w := .w64) ha hb
  refine ⟨_, _, 0x6840000000000000#64, x, y, ha, hb, hx, hy, by decide +kernel, ?_⟩
  rw [hxy]
  exact not_nearestLog (t' := 0x6840000000000001#64) (by decide) (by unfold Regular; decide) (by decide +kernel)

/-! ## Monotonicity -/

theorem toInt_neg_nar {n : ℕ} (hn : 5 ≤ n) {t : BitVec n} (h : t ≠ nar n) : (-t).toInt = -t.toInt := by
  by_cases h0 : t = 0#n
  · subst h0; simp
  · obtain ⟨m1, m2, m3, m4⟩ := regular_neg hn ⟨h0, h⟩
    have hl := low_lt t
    rw [toInt_mkT (by omega), toInt_mkT (by omega) t, m1, m2]
    push_cast [hl.le]
    cases t.msb <;> simp

theorem mul_mono_pos {w : W} {a b c : T w} (ha : a ≠ nar w.n) (hb : b ≠ nar w.n) (hc : c ≠ nar w.n)
    (h : a.toInt ≤ b.toInt) (h0 : 0 < c.toInt) :
    ∃ u v : T w, multiplication w a c = .ok u ∧ multiplication w b c = .ok v ∧ u.toInt ≤ v.toInt ∧
      u ≠ nar w.n ∧ v ≠ nar w.n := by
  have h8 := w.n_pos
  have hnz := (nar_ne_zero (by omega : 1 ≤ w.n)).symm
  have rc : Regular c := ⟨by intro e; rw [e] at h0; simp at h0, hc⟩
  have mc := (toInt_pos_iff (by omega) rc).mp h0
  by_cases a0 : a = 0#w.n
  · subst a0
    have ea : multiplication w 0#w.n c = .ok 0#w.n := by rw [multiplication_comm', multiplication_zero hc]
    by_cases b0 : b = 0#w.n
    · subst b0; exact ⟨_, _, ea, ea, le_refl _, hnz, hnz⟩
    · have rb : Regular b := ⟨b0, hb⟩
      obtain ⟨v, e, r, hs⟩ := multiplication_ok rb rc
      refine ⟨_, v, ea, e, ?_, hnz, r.2⟩
      rw [BitVec.toInt_zero] at h ⊢
      have : 0 < b.toInt := by
        rcases h.lt_or_eq with h | h
        · exact h
        · exact absurd (BitVec.eq_of_toInt_eq (by rw [← h]; simp)) b0
      apply le_of_lt
      rw [toInt_pos_iff (by omega) r, hs, (toInt_pos_iff (by omega) rb).mp this, mc]; rfl
  have ra : Regular a := ⟨a0, ha⟩
  obtain ⟨u, eu, ru, su⟩ := multiplication_ok ra rc
  have pa := toInt_pos_iff (by omega) ra
  have na := toInt_neg_iff (by omega) ra
  rw [mc, Bool.xor_false] at su
  by_cases b0 : b = 0#w.n
  · subst b0
    have eb : multiplication w 0#w.n c = .ok 0#w.n := by rw [multiplication_comm', multiplication_zero hc]
    refine ⟨u, _, eu, eb, ?_, ru.2, hnz⟩
    rw [BitVec.toInt_zero] at h ⊢
    apply le_of_lt
    rw [toInt_neg_iff (by omega) ru, su]
    cases hm : a.msb
    · have := pa.mpr hm; omega
    · rfl
  have rb : Regular b := ⟨b0, hb⟩
  have pb := toInt_pos_iff (by omega) rb
  have nb := toInt_neg_iff (by omega) rb
  obtain ⟨v, ev, rv, sv⟩ := multiplication_ok rb rc
  rw [mc, Bool.xor_false] at sv
  refine ⟨u, v, eu, ev, ?_, ru.2, rv.2⟩
  by_cases hs : a.msb = b.msb
  · obtain ⟨l, hl, e⟩ := multiplication_regular ra rc
    obtain ⟨l', hl', e'⟩ := multiplication_regular rb rc
    have hle : sg a.msb * w.lF.rq (ell a + ell c) ≤ sg a.msb * w.lF.rq (ell b + ell c) := by
      cases hm : a.msb
      · have : ¬ ell b < ell a := by
          rw [ell_lt_iff_pos (by omega) (by rw [← hs, hm]) hm]; omega
        simp only [sg, Bool.false_eq_true, if_false, one_mul]
        exact lF_mono w (by linarith)
      · have : ¬ ell a < ell b := by
          rw [ell_lt_iff_neg (by omega) hm (by rw [← hs, hm])]; omega
        simp only [sg, if_true, neg_mul, one_mul, neg_le_neg_iff]
        exact lF_mono w (by linarith)
    rw [mc, Bool.xor_false] at e e'
    obtain ⟨t, t', et, et', hh⟩ := enc_mono a.msb hl hl' (lF_rep_encF (lF_rq_rep w _))
      (lF_rep_encF (lF_rq_rep w _)) hle
    rw [← hs] at e'
    rw [eu, et] at e; rw [ev, et'] at e'
    rw [Except.ok.inj e, Except.ok.inj e']; exact hh
  · have nu := toInt_neg_iff (by omega) ru
    have pv := toInt_pos_iff (by omega) rv
    rw [su] at nu; rw [sv] at pv
    cases hm : a.msb <;> cases hm' : b.msb
    · exact absurd (by rw [hm, hm']) hs
    · have := pa.mpr hm; have := nb.mpr hm'; omega
    · have := nu.mpr hm; have := pv.mpr hm'; omega
    · exact absurd (by rw [hm, hm']) hs

/-- C32: multiplication is monotone: multiplying by a positive number keeps, by a negative number
reverses the order; for all widths. -/
theorem multiplication_monotone (w : W) (a b c : T w) (ha : a ≠ nar w.n) (hb : b ≠ nar w.n) (hc : c ≠ nar w.n)
    (h : a.toInt ≤ b.toInt) :
    ∃ u v : T w, multiplication w a c = .ok u ∧ multiplication w b c = .ok v ∧
      (0 < c.toInt → u.toInt ≤ v.toInt) ∧ (c.toInt < 0 → v.toInt ≤ u.toInt) := by
  have h8 := w.n_pos
  rcases lt_trichotomy c.toInt 0 with h0 | h0 | h0
  · have rc : Regular c := ⟨by intro e; rw [e] at h0; simp at h0, hc⟩
    obtain ⟨m1, m2, m3, m4⟩ := regular_neg (by omega) rc
    have en := toInt_neg_nar (by omega) hc
    obtain ⟨u, v, eu, ev, hle, hu, hv⟩ := mul_mono_pos ha hb m3.2 h (by omega)
    have key : ∀ {x y : T w}, x ≠ nar w.n → multiplication w x (-c) = .ok y → multiplication w x c = .ok (-y) := by
      intro x y hx e
      by_cases x0 : x = 0#w.n
      · subst x0
        rw [multiplication_comm', multiplication_zero m3.2] at e
        rw [multiplication_comm', multiplication_zero hc, ← Except.ok.inj e]; simp
      · obtain ⟨v, e1, e2⟩ := multiplication_neg m3 ⟨x0, hx⟩
        rw [multiplication_comm', e] at e1
        rw [BitVec.neg_neg, multiplication_comm'] at e2
        rw [e2, ← Except.ok.inj e1]
    refine ⟨-u, -v, key ha eu, key hb ev, fun h => by omega, fun _ => ?_⟩
    rw [toInt_neg_nar (by omega) hu, toInt_neg_nar (by omega) hv]; omega
  · have c0 : c = 0#w.n := BitVec.eq_of_toInt_eq (by rw [h0]; simp)
    subst c0
    exact ⟨_, _, multiplication_zero ha, multiplication_zero hb, fun h => by omega, fun h => by omega⟩
  · obtain ⟨u, v, eu, ev, hle, -⟩ := mul_mono_pos ha hb hc h h0
    exact ⟨u, v, eu, ev, fun _ => hle, fun h => by omega⟩

example : (0x4123#16 : T .w16) ≠ nar 16 ∧ (0xc123#16 : T .w16) ≠ nar 16 ∧ (0xc123#16).toInt ≤ (0x4123#16).toInt := by
  decide

/-- C32: division by a positive number keeps, by a negative number reverses the order. -/
theorem division_monotone (w : W) (a b c : T w) (ha : a ≠ nar w.n) (hb : b ≠ nar w.n) (hc : c ≠ nar w.n)
    (h0 : c ≠ 0#w.n) (h : a.toInt ≤ b.toInt) :
    ∃ u v : T w, division w a c = .ok u ∧ division w b c = .ok v ∧
      (0 < c.toInt → u.toInt ≤ v.toInt) ∧ (c.toInt < 0 → v.toInt ≤ u.toInt) := by
  have h8 := w.n_pos
  have rc : Regular c := ⟨h0, hc⟩
  obtain ⟨i1, i2, i3, i4⟩ := inversion_facts rc
  obtain ⟨u, v, eu, ev, h1, h2⟩ := multiplication_monotone w a b _ ha hb i3.2 h
  refine ⟨u, v, by rw [division_eq, eu], by rw [division_eq, ev], ?_, ?_⟩
  · intro h; apply h1; rw [toInt_pos_iff (by omega) i3, i1, ← toInt_pos_iff (by omega) rc]; exact h
  · intro h; apply h2; rw [toInt_neg_iff (by omega) i3, i1, ← toInt_neg_iff (by omega) rc]; exact h

/-! ## Sign times absolute value -/

/-- C22: sign times absolute value gives the number back (logarithmic takums; NaR excluded as its
absolute value is undefined for 32 and 64 bits). -/
theorem sign_mul_absolute (w : W) (t : T w) (h : t ≠ nar w.n) :
    ∃ v : T w, absolute w t = .ok v ∧ multiplication w (sign w t) v = .ok t := by
  have h8 := w.n_pos
  refine ⟨_, absolute_spec h, ?_⟩
  obtain ⟨o1, o2, o3, o4⟩ := ONE_facts w
  have hN : t ≠ NAR w.n := by rw [NAR_eq (by omega)]; exact h
  by_cases h0 : t = 0#w.n
  · subst h0
    have : sign w 0#w.n = 0#w.n := by
      unfold sign
      rw [if_neg hN, isNeg_eq, isPos_eq]
      simp
    rw [this]
    simp only [BitVec.msb_zero, Bool.false_eq_true, if_false]
    exact multiplication_zero h
  · have r : Regular t := ⟨h0, h⟩
    obtain ⟨m1, m2, m3, m4⟩ := regular_neg (by omega) r
    unfold sign
    rw [if_neg hN, isNeg_eq, isPos_eq]
    have hz : (t != 0#w.n) = true := by simpa using h0
    rw [hz]
    cases hm : t.msb
    · simp only [Bool.false_eq_true, if_false, Bool.not_false, Bool.true_and, if_true]
      rw [multiplication_comm', multiplication_one]
    · simp only [if_true]
      rw [(multiplication_neg_left w _ _ o3 m3).2, BitVec.neg_neg]

/-! ## Square root -/

theorem isNeg_iff {n : ℕ} (t : BitVec n) : t.toInt < 0 ↔ t.msb = true := by
  rw [← isNeg_eq]; unfold isNeg; rw [BitVec.slt_eq_decide]; simp

theorem ne_nar_of_nonneg {n : ℕ} (hn : 1 ≤ n) {t : BitVec n} (h : t.msb = false) : t ≠ nar n := by
  intro e
  have h1 := nar_toInt (n := n) hn
  have h2 : ¬ t.toInt < 0 := by rw [isNeg_iff, h]; decide
  rw [e, h1] at h2
  have : (0 : ℤ) < 2 ^ (n - 1) := by positivity
  omega

theorem squareRoot_cases (w : W) (t : T w) :
    (t.msb = true ∧ squareRoot w t = .ok (nar w.n)) ∨ (t = 0#w.n ∧ squareRoot w t = .ok 0#w.n) ∨
      (Regular t ∧ t.msb = false ∧ ∃ v : T w, squareRoot w t = .ok v ∧ NearestEll false (ell t / 2) v) := by
  have h8 := w.n_pos
  cases hm : t.msb
  · by_cases h0 : t = 0#w.n
    · right; left
      refine ⟨h0, ?_⟩
      unfold squareRoot
      rw [isNeg_eq, hm, h0, toL_zero, ok_bind]
      exact enc_inf_neg w _
    · right; right
      have r : Regular t := ⟨h0, ne_nar_of_nonneg (by omega) hm⟩
      obtain ⟨l, hl, e⟩ := squareRoot_regular r hm
      obtain ⟨v, e', hv⟩ := enc_nearest false hl (lF_rep_encF (ell_half_rep t)) (OnGrid.half_ell t)
      exact ⟨r, rfl, v, by rw [e, e'], hv⟩
  · left
    refine ⟨rfl, ?_⟩
    unfold squareRoot
    rw [isNeg_eq, hm, NAR_eq (by omega)]; rfl

/-- C28: NaR exactly for negative arguments (which include NaR), 0 exactly for 0. -/
theorem squareRoot_special (w : W) (t : T w) :
    (squareRoot w t = .ok (nar w.n) ↔ t.toInt < 0) ∧ (squareRoot w t = .ok 0#w.n ↔ t = 0#w.n) := by
  have h8 := w.n_pos
  have hnz := nar_ne_zero (by omega : 1 ≤ w.n)
  rw [isNeg_iff]
  rcases squareRoot_cases w t with ⟨h, e⟩ | ⟨h, e⟩ | ⟨r, h, v, e, hv⟩ <;> rw [e, h]
  · exact ⟨by simp, iff_of_false (fun h => hnz (Except.ok.inj h)) (by rintro rfl; simp at h)⟩
  · exact ⟨by simp [hnz.symm], by simp⟩
  · exact ⟨iff_of_false (fun h => hv.1.2 (Except.ok.inj h)) (by decide),
      iff_of_false (fun h => hv.1.1 (Except.ok.inj h)) r.1⟩

/-- C28: the square root of a positive takum is the takum nearest to the square root of its number. -/
theorem squareRoot_nearest (w : W) (t : T w) (h : 0 < t.toInt) :
    ∃ (x : ℝ) (v : T w), logVal t = some x ∧ squareRoot w t = .ok v ∧ NearestLog (Real.sqrt x) v := by
  have h8 := w.n_pos
  rcases squareRoot_cases w t with ⟨hm, e⟩ | ⟨h0, e⟩ | ⟨r, hm, v, e, hv⟩
  · rw [← isNeg_iff] at hm; omega
  · rw [h0, BitVec.toInt_zero] at h; omega
  · refine ⟨_, v, logVal_regular (by omega) r, e, ?_⟩
    have := nearestLog_of_ell hv
    have e2 : ((sg false : ℚ) : ℝ) * logG (ell t / 2) = Real.sqrt (((sg t.msb : ℚ) : ℝ) * logG (ell t)) := by
      rw [hm]
      simp only [sg, Bool.false_eq_true, if_false, Rat.cast_one, one_mul]
      rw [eq_comm, Real.sqrt_eq_iff_mul_self_eq (logG_pos _).le (logG_pos _).le, ← logG_add]
      congr 1; ring
    rwa [e2] at this

example : 0 < (0x4123#16).toInt ∧ squareRoot .w16 0x4123#16 = .ok 0x4092#16 := by decide +kernel

/-- C28: the square root is monotone. -/
theorem squareRoot_monotone (w : W) (a b : T w) (ha : 0 ≤ a.toInt) (h : a.toInt ≤ b.toInt) :
    ∃ u v : T w, squareRoot w a = .ok u ∧ squareRoot w b = .ok v ∧ u.toInt ≤ v.toInt := by
  have h8 := w.n_pos
  rcases squareRoot_cases w a with ⟨hm, e⟩ | ⟨h0, e⟩ | ⟨r, hm, u, e, hu⟩
  · rw [← isNeg_iff] at hm; omega
  · rcases squareRoot_cases w b with ⟨hm', e'⟩ | ⟨h0', e'⟩ | ⟨r', hm', v, e', hv⟩
    · rw [← isNeg_iff] at hm'; omega
    · exact ⟨_, _, e, e', le_refl _⟩
    · refine ⟨_, _, e, e', ?_⟩
      rw [BitVec.toInt_zero]
      exact ((toInt_pos_iff (by omega) hv.1).mpr hv.2.1).le
  · have pa := (toInt_pos_iff (by omega) r).mpr hm
    rcases squareRoot_cases w b with ⟨hm', e'⟩ | ⟨h0', e'⟩ | ⟨r', hm', v, e', hv⟩
    · rw [← isNeg_iff] at hm'; omega
    · rw [h0', BitVec.toInt_zero] at h; omega
    · have hle : ell a ≤ ell b := by
        by_contra hc
        push Not at hc
        have := (ell_lt_iff_pos (by omega) hm' hm).mp hc
        omega
      obtain ⟨l, hl, e1⟩ := squareRoot_regular r hm
      obtain ⟨l', hl', e2⟩ := squareRoot_regular r' hm'
      obtain ⟨t, t', e3, e4, hh⟩ := enc_mono (w := w) false hl hl' (lF_rep_encF (ell_half_rep a)) (lF_rep_encF (ell_half_rep b))
        (by simp only [sg, Bool.false_eq_true, if_false, one_mul]; linarith)
      exact ⟨t, t', by rw [e1, e3], by rw [e2, e4], hh⟩

example : 0 ≤ (0x4123#16).toInt ∧ (0x4123#16).toInt ≤ (0x4124#16).toInt := by decide

/-! ## Integer power (8, 16 and 32 bits) -/

theorem integerPower_eq (L : Libm) {w : W} (hw : w ≠ .w64) (t : T w) (n : BitVec 64) :
    integerPower L w t n = integerPowerL w t n := by
  cases w
  · rfl
  · rfl
  · rfl
  · exact absurd rfl hw

/-- C29: a regular base gives a regular result, negative exactly for a negative base and an odd
exponent. -/
theorem integerPower_regular (L : Libm) (w : W) (hw : w ≠ .w64) (t : T w) (h : Regular t) (n : BitVec 64) :
    ∃ v : T w, integerPower L w t n = .ok v ∧ Regular v ∧
      (v.toInt < 0 ↔ t.toInt < 0 ∧ n.toInt % 2 = 1) := by
  obtain ⟨l, hl, e⟩ := integerPowerL_regular h n
  obtain ⟨v, e', r, hs⟩ := enc_regular (w := w) (t.msb && odd n.toInt) hl (lF_rep_encF (lF_rq_rep w _))
  refine ⟨v, by rw [integerPower_eq L hw, e, e'], r, ?_⟩
  rw [isNeg_iff, isNeg_iff, hs, Bool.and_eq_true, odd_iff]

example : W.w16 ≠ .w64 ∧ Regular (0xb123#16 : T .w16) := by unfold Regular; decide

/-- C29: NaR exactly for NaR and for 0 with a non-positive exponent; `0^n = 0` otherwise. -/
theorem integerPower_special (L : Libm) (w : W) (hw : w ≠ .w64) (t : T w) (n : BitVec 64) :
    (integerPower L w t n = .ok (nar w.n) ↔ t = nar w.n ∨ (t = 0#w.n ∧ n.toInt ≤ 0)) ∧
      (integerPower L w t n = .ok 0#w.n ↔ t = 0#w.n ∧ 0 < n.toInt) := by
  have h8 := w.n_pos
  have hnz := nar_ne_zero (by omega : 1 ≤ w.n)
  by_cases h0 : t = 0#w.n
  · by_cases hn : n.toInt ≤ 0
    · have e : integerPower L w t n = .ok (nar w.n) := by
        rw [integerPower_eq L hw]; unfold integerPowerL
        rw [if_pos ⟨h0, hn⟩, NAR_eq (by omega)]
      rw [e]
      exact ⟨by simp [h0, hn], iff_of_false (fun h => hnz (Except.ok.inj h)) (by omega)⟩
    · have e : integerPower L w t n = .ok 0#w.n := by
        rw [integerPower_eq L hw]; unfold integerPowerL
        rw [if_neg (by tauto), h0, toL_zero, ok_bind]
        obtain ⟨i1, i2, i3, i4⟩ := ofInt_is w n
        have hp := i3 (by omega)
        have : Fl.mul w.lF (.inf true) (Fl.ofInt w.lF n.toInt) = .inf true := by
          rcases i1.cases with ⟨_, h⟩ | ⟨h, _⟩
          · rw [h]
            have : (Fl.num (w.lF.rq (n.toInt : ℚ))).sgn = false := by
              simp only [Fl.sgn, decide_eq_false_iff_not, not_lt]; linarith
            simp only [Fl.mul, this]; rfl
          · linarith
        rw [this, enc_inf_neg]
      rw [e]
      refine ⟨iff_of_false (fun h => hnz (Except.ok.inj h).symm) ?_, by simp [h0]; omega⟩
      rintro (h | ⟨_, h⟩)
      · rw [h0] at h; exact hnz h.symm
      · omega
  by_cases h1 : t = nar w.n
  · have e : integerPower L w t n = .ok (nar w.n) := by
      rw [integerPower_eq L hw]; unfold integerPowerL
      rw [if_neg (by tauto), h1, toL_nar, ok_bind]
      have : Fl.mul w.lF .nan (Fl.ofInt w.lF n.toInt) = .nan := rfl
      rw [this, enc_nan]
    rw [e]
    exact ⟨by simp [h1], iff_of_false (fun h => hnz (Except.ok.inj h)) (by tauto)⟩
  · obtain ⟨v, e, r, -⟩ := integerPower_regular L w hw t ⟨h0, h1⟩ n
    rw [e]
    exact ⟨iff_of_false (fun h => r.2 (Except.ok.inj h)) (by tauto),
      iff_of_false (fun h => r.1 (Except.ok.inj h)) (by tauto)⟩

/-- C29: the powers 0, 1, −1 and 2. -/
theorem integerPower_laws (L : Libm) (w : W) (hw : w ≠ .w64) (t : T w) (h : Regular t) :
    integerPower L w t 0#64 = .ok (ONE w) ∧ integerPower L w t 1#64 = .ok t ∧
      integerPower L w t (-1#64) = .ok (inversion w t) ∧
      integerPower L w t 2#64 = multiplication w t t := by
  have h8 := w.n_pos
  obtain ⟨o1, o2, o3, o4⟩ := ONE_facts w
  obtain ⟨i1, i2, i3, i4⟩ := inversion_facts h
  obtain ⟨q1, q2, q3⟩ := w.lF_prec
  have small : ∀ k : ℤ, |k| ≤ 2 → w.lF.rq (k : ℚ) = k := fun k hk =>
    w.lF.rq_of_rep (Fmt.Rep.int (by omega) (by
      have : (2 : ℤ) ^ 24 ≤ 2 ^ w.lF.prec := pow_le_pow_right₀ (by norm_num) q1
      omega))
  have ell_rq : w.lF.rq (ell t) = ell t := w.lF.rq_of_rep (ell_in w t).1
  refine ⟨?_, ?_, ?_, ?_⟩
  · obtain ⟨l, hl, e⟩ := integerPowerL_regular h 0#64
    rw [show (0#64 : BitVec 64).toInt = 0 from rfl, small 0 (by decide), Int.cast_zero, mul_zero,
      w.lF.rq_of_rep (Fmt.Rep.zero _), ← o4] at hl
    rw [integerPower_eq L hw, e, show odd (0#64 : BitVec 64).toInt = false from rfl, Bool.and_false]
    have := enc_of_ell o3 hl
    rwa [o1] at this
  · obtain ⟨l, hl, e⟩ := integerPowerL_regular h 1#64
    rw [show (1#64 : BitVec 64).toInt = 1 from rfl, small 1 (by decide), Int.cast_one, mul_one, ell_rq] at hl
    rw [integerPower_eq L hw, e, show odd (1#64 : BitVec 64).toInt = true from rfl, Bool.and_true, enc_of_ell h hl]
  · obtain ⟨l, hl, e⟩ := integerPowerL_regular h (-1#64)
    rw [show (-1#64 : BitVec 64).toInt = -1 from rfl, small (-1) (by decide), Int.cast_neg, Int.cast_one,
      mul_neg_one, w.lF.rq_of_rep (ell_in w t).1.neg, ← i4] at hl
    rw [integerPower_eq L hw, e, show odd (-1#64 : BitVec 64).toInt = true from rfl, Bool.and_true, ← i1,
      enc_of_ell i3 hl]
  · obtain ⟨l, hl, e⟩ := integerPowerL_regular h 2#64
    obtain ⟨l', hl', e'⟩ := multiplication_regular h h
    rw [show (2#64 : BitVec 64).toInt = 2 from rfl, small 2 (by decide)] at hl
    rw [show ell t * ((2 : ℤ) : ℚ) = ell t + ell t by push_cast; ring] at hl
    rw [integerPower_eq L hw, e, e', show odd (2#64 : BitVec 64).toInt = false from rfl, Bool.and_false,
      Bool.xor_self]
    exact enc_congr _ hl hl' (lF_rep_encF (lF_rq_rep w _))

/-- The power of the represented number in terms of `ell`. -/
theorem logVal_zpow {w : W} {t : T w} (h : Regular t) (n : ℤ) :
    ∃ x : ℝ, logVal t = some x ∧ x ^ n = ((sg (t.msb && odd n) : ℚ) : ℝ) * logG (ell t * n) := by
  have h8 := w.n_pos
  refine ⟨_, logVal_regular (by omega) h, ?_⟩
  have e : (((sg t.msb : ℚ) : ℝ)) ^ n = ((sg (t.msb && odd n) : ℚ) : ℝ) := by
    cases t.msb
    · simp [sg]
    · cases ho : odd n
      · have : ¬ n % 2 = 1 := by rw [← odd_iff, ho]; decide
        have hev : Even n := by rw [Int.even_iff]; omega
        simp [sg, hev.neg_one_zpow]
      · have hod : Odd n := by rw [Int.odd_iff]; exact (odd_iff n).mp ho
        simp [sg, hod.neg_one_zpow]
  rw [mul_zpow, e, logG_exp, logG_exp, ← Real.rpow_intCast, ← Real.exp_mul]
  congr 2; push_cast; ring

/-- C29, accuracy: exponents up to `2^24` (8 and 16 bits) or `2^53` (32 bits) are exact in the type
computed in, and the power is then rounded faithfully. -/
theorem integerPower_faithful (L : Libm) (w : W) (hw : w ≠ .w64) (t : T w) (h : Regular t) (n : BitVec 64)
    (hn : |n.toInt| ≤ 2 ^ (if w = .w32 then 53 else 24)) :
    ∃ (x : ℝ) (v : T w), logVal t = some x ∧ integerPower L w t n = .ok v ∧ FaithfulLog (x ^ n.toInt) v := by
  obtain ⟨x, hx, hp⟩ := logVal_zpow h n.toInt
  obtain ⟨l, hl, e⟩ := integerPowerL_regular h n
  have hr : w.lF.Rep (n.toInt : ℚ) := by
    have hb : |n.toInt| ≤ 2 ^ w.lF.prec := by
      cases w
      · exact hn
      · exact hn
      · exact hn
      · exact absurd rfl hw
    obtain ⟨q1, q2, q3⟩ := w.lF_prec
    rcases hb.lt_or_eq with hb | hb
    · exact Fmt.Rep.int (by omega) hb
    · have := Fmt.Rep.zpow (F := w.lF) (by omega) (k := w.lF.prec) (by omega)
      rw [zpow_natCast] at this
      rcases abs_choice n.toInt with h' | h' <;> rw [h'] at hb
      · rw [hb]; push_cast; exact this
      · rw [show n.toInt = -2 ^ w.lF.prec by omega]; push_cast; exact this.neg
  rw [w.lF.rq_of_rep hr] at hl
  obtain ⟨v, e', hv⟩ := enc_faithfulLog (w := w) (t.msb && odd n.toInt) hl
  exact ⟨x, v, hx, by rw [integerPower_eq L hw, e, e'], by rw [hp]; exact hv⟩

example : W.w16 ≠ .w64 ∧ Regular (0xb123#16 : T .w16) ∧ |(-17#64).toInt| ≤ 2 ^ (if W.w16 = .w32 then 53 else 24) := by
  unfold Regular; decide

/-! ## Root -/

/-- C30: a regular radicand with non-zero index, odd for negative radicands, has a regular root of
the same sign. -/
theorem root_sign (w : W) (t : T w) (h : Regular t) (n : BitVec 64) (hn : n ≠ 0#64)
    (ho : t.toInt < 0 → n.toInt % 2 = 1) :
    ∃ v : T w, root w t n = .ok v ∧ Regular v ∧ (v.toInt < 0 ↔ t.toInt < 0) := by
  rw [isNeg_iff] at ho
  obtain ⟨l, hl, e⟩ := root_regular h hn ho
  obtain ⟨v, e', r, hs⟩ := enc_regular (w := w) t.msb hl (lF_rep_encF (lF_rq_rep w _))
  refine ⟨v, by rw [e, e'], r, ?_⟩
  rw [isNeg_iff, isNeg_iff, hs]

example : Regular (0xb123#16 : T .w16) ∧ -3#64 ≠ 0#64 ∧ (-3#64).toInt % 2 = 1 := by unfold Regular; decide

/-- C30: the arguments with result NaR and 0. -/
theorem root_special (w : W) (t : T w) (n : BitVec 64) :
    (root w t n = .ok (nar w.n) ↔
      t = nar w.n ∨ n = 0#64 ∨ (t.toInt < 0 ∧ n.toInt % 2 = 0) ∨ (t = 0#w.n ∧ n.toInt < 0)) ∧
    (root w t n = .ok 0#w.n ↔ t = 0#w.n ∧ 0 < n.toInt) := by
  have h8 := w.n_pos
  have hnz := nar_ne_zero (by omega : 1 ≤ w.n)
  have e0 : n = 0#64 ↔ n.toInt = 0 := by
    constructor
    · rintro rfl; rfl
    · intro h; exact BitVec.eq_of_toInt_eq (by rw [h]; rfl)
  have hod : ¬ odd n.toInt = true ↔ n.toInt % 2 = 0 := by rw [odd_iff]; omega
  by_cases hc : n = 0#64 ∨ (isNeg t = true ∧ ¬ odd n.toInt = true) ∨ (t = 0#w.n ∧ n.toInt < 0)
  · have e : root w t n = .ok (nar w.n) := by
      unfold root; rw [if_pos hc, NAR_eq (by omega)]
    rw [e]
    rw [isNeg_eq, ← isNeg_iff, hod] at hc
    refine ⟨iff_of_true rfl (Or.inr hc), iff_of_false (fun h => hnz (Except.ok.inj h)) ?_⟩
    rintro ⟨h1, h2⟩
    rw [h1, BitVec.toInt_zero, e0] at hc
    omega
  · have hc' := hc
    rw [isNeg_eq, ← isNeg_iff, hod] at hc'
    push Not at hc'
    obtain ⟨c1, c2, c3⟩ := hc'
    have ho : t.toInt < 0 → n.toInt % 2 = 1 := fun h => by have := c2 h; omega
    by_cases h0 : t = 0#w.n
    · have hp : 0 < n.toInt := by have := c3 h0; rw [ne_eq, e0] at c1; omega
      have e : root w t n = .ok 0#w.n := by
        unfold root
        rw [if_neg hc, h0, toL_zero, ok_bind]
        obtain ⟨i1, i2, i3, i4⟩ := ofInt_is w n
        have hp := i3 (by omega)
        have : Fl.div w.lF (.inf true) (Fl.ofInt w.lF n.toInt) = .inf true := by
          rcases i1.cases with ⟨_, h⟩ | ⟨h, _⟩
          · rw [h]
            have : (Fl.num (w.lF.rq (n.toInt : ℚ))).sgn = false := by
              simp only [Fl.sgn, decide_eq_false_iff_not, not_lt]; linarith
            simp only [Fl.div, this]; rfl
          · linarith
        rw [this, enc_inf_neg]
      rw [e]
      refine ⟨iff_of_false (fun h => hnz (Except.ok.inj h).symm) ?_, by simp [h0, hp]⟩
      rintro (h | h | ⟨h, h'⟩ | ⟨h, h'⟩)
      · rw [h0] at h; exact hnz h.symm
      · exact c1 h
      · exact c2 h h'
      · omega
    by_cases h1 : t = nar w.n
    · have e : root w t n = .ok (nar w.n) := by
        unfold root
        rw [if_neg hc, h1, toL_nar, ok_bind]
        have : Fl.div w.lF .nan (Fl.ofInt w.lF n.toInt) = .nan := rfl
        rw [this, enc_nan]
      rw [e]
      exact ⟨iff_of_true rfl (Or.inl h1), iff_of_false (fun h => hnz (Except.ok.inj h)) (by tauto)⟩
    · obtain ⟨v, e, r, -⟩ := root_sign w t ⟨h0, h1⟩ n c1 ho
      rw [e]
      refine ⟨iff_of_false (fun h => r.2 (Except.ok.inj h)) ?_,
        iff_of_false (fun h => r.1 (Except.ok.inj h)) (by tauto)⟩
      rintro (h | h | ⟨h, h'⟩ | ⟨h, h'⟩)
      · exact h1 h
      · exact c1 h
      · exact c2 h h'
      · exact h0 h

/-- C30: the roots of index 1, −1 and 2. -/
theorem root_laws (w : W) (t : T w) :
    root w t 1#64 = .ok t ∧ root w t (-1#64) = .ok (inversion w t) ∧ root w t 2#64 = squareRoot w t := by
  have h8 := w.n_pos
  obtain ⟨q1, q2, q3⟩ := w.lF_prec
  have small : ∀ k : ℤ, |k| ≤ 2 → w.lF.rq (k : ℚ) = k := fun k hk =>
    w.lF.rq_of_rep (Fmt.Rep.int (by omega) (by
      have : (2 : ℤ) ^ 24 ≤ 2 ^ w.lF.prec := pow_le_pow_right₀ (by norm_num) q1
      omega))
  have ell_rq : w.lF.rq (ell t) = ell t := w.lF.rq_of_rep (ell_in w t).1
  have s1 := root_special w t 1#64
  have s2 := root_special w t (-1#64)
  have s3 := root_special w t 2#64
  have q := squareRoot_special w t
  have d1 : (1#64 : BitVec 64).toInt = 1 := rfl
  have d2 : (-1#64 : BitVec 64).toInt = -1 := rfl
  have d3 : (2#64 : BitVec 64).toInt = 2 := rfl
  rw [d1] at s1; rw [d2] at s2; rw [d3] at s3
  by_cases h0 : t = 0#w.n
  · refine ⟨?_, ?_, ?_⟩
    · rw [s1.2.mpr ⟨h0, by decide⟩, h0]
    · rw [s2.1.mpr (Or.inr (Or.inr (Or.inr ⟨h0, by decide⟩))), h0, inversion_zero]
    · rw [s3.2.mpr ⟨h0, by decide⟩, q.2.mpr h0]
  by_cases h1 : t = nar w.n
  · refine ⟨?_, ?_, ?_⟩
    · rw [s1.1.mpr (Or.inl h1), h1]
    · rw [s2.1.mpr (Or.inl h1), h1, inversion_nar]
    · rw [s3.1.mpr (Or.inl h1), q.1.mpr]
      rw [h1, nar_toInt (by omega)]
      have : (0 : ℤ) < 2 ^ (w.n - 1) := by positivity
      omega
  have h : Regular t := ⟨h0, h1⟩
  obtain ⟨i1, i2, i3, i4⟩ := inversion_facts h
  refine ⟨?_, ?_, ?_⟩
  · obtain ⟨l, hl, e⟩ := root_regular h (n := 1#64) (by decide) (fun _ => by decide)
    rw [d1, small 1 (by decide), Int.cast_one, div_one, ell_rq] at hl
    rw [e, enc_of_ell h hl]
  · obtain ⟨l, hl, e⟩ := root_regular h (n := -1#64) (by decide) (fun _ => by decide)
    rw [d2, small (-1) (by decide), Int.cast_neg, Int.cast_one, div_neg, div_one,
      w.lF.rq_of_rep (ell_in w t).1.neg, ← i4] at hl
    rw [e, ← i1, enc_of_ell i3 hl]
  · cases hm : t.msb
    · obtain ⟨l, hl, e⟩ := root_regular h (n := 2#64) (by decide) (fun h => by rw [hm] at h; simp at h)
      obtain ⟨l', hl', e'⟩ := squareRoot_regular h hm
      rw [d3, small 2 (by decide), Int.cast_ofNat, w.lF.rq_of_rep (ell_half_rep t)] at hl
      rw [e, e', hm]
      exact enc_congr _ hl hl' (lF_rep_encF (ell_half_rep t))
    · have hn := (isNeg_iff t).mpr hm
      rw [q.1.mpr hn, s3.1.mpr (Or.inr (Or.inr (Or.inl ⟨hn, by decide⟩)))]

/-- C30, accuracy: an index of magnitude up to `2^24` (8 and 16 bits), `2^53` (32 bits) or any index (64
bits) is exact in the type computed in, and the root is then rounded faithfully. -/
theorem root_faithful (w : W) (t : T w) (h : Regular t) (n : BitVec 64) (hn : n ≠ 0#64)
    (ho : t.toInt < 0 → n.toInt % 2 = 1)
    (hb : |n.toInt| ≤ 2 ^ (match w with | .w8 => 24 | .w16 => 24 | .w32 => 53 | .w64 => 64)) :
    ∃ (x : ℝ) (v : T w), logVal t = some x ∧ root w t n = .ok v ∧
      FaithfulLog ((if x < 0 then -1 else 1) * |x| ^ (1 / (n.toInt : ℝ))) v := by
  have h8 := w.n_pos
  rw [isNeg_iff] at ho
  obtain ⟨l, hl, e⟩ := root_regular h hn ho
  have hr : w.lF.Rep (n.toInt : ℚ) := by
    have hb : |n.toInt| ≤ 2 ^ w.lF.prec := by
      cases w <;> exact hb
    obtain ⟨q1, q2, q3⟩ := w.lF_prec
    rcases hb.lt_or_eq with hb | hb
    · exact Fmt.Rep.int (by omega) hb
    · have := Fmt.Rep.zpow (F := w.lF) (by omega) (k := w.lF.prec) (by omega)
      rw [zpow_natCast] at this
      rcases abs_choice n.toInt with h' | h' <;> rw [h'] at hb
      · rw [hb]; push_cast; exact this
      · rw [show n.toInt = -2 ^ w.lF.prec by omega]; push_cast; exact this.neg
  rw [w.lF.rq_of_rep hr] at hl
  obtain ⟨v, e', hv⟩ := enc_faithfulLog (w := w) t.msb hl
  refine ⟨_, v, logVal_regular (by omega) h, by rw [e, e'], ?_⟩
  have hp := logG_pos (ell t)
  have e1 : (if ((sg t.msb : ℚ) : ℝ) * logG (ell t) < 0 then (-1 : ℝ) else 1) = ((sg t.msb : ℚ) : ℝ) := by
    cases t.msb <;> simp [sg, hp, hp.le]
  have e2 : |((sg t.msb : ℚ) : ℝ) * logG (ell t)| = logG (ell t) := by
    rw [abs_mul, abs_of_pos hp]; cases t.msb <;> simp [sg]
  have e3 : logG (ell t) ^ (1 / (n.toInt : ℝ)) = logG (ell t / n.toInt) := by
    rw [logG_exp, logG_exp, ← Real.exp_mul]; congr 1; push_cast; ring
  rw [e1, e2, e3]; exact hv

example : Regular (0xb123#16 : T .w16) ∧ -3#64 ≠ 0#64 ∧ (-3#64).toInt % 2 = 1 ∧ |(-3#64).toInt| ≤ 2 ^ 24 := by
  unfold Regular; decide

/-- C31 for 8, 16 and 32 bits: odd roots are odd functions.  Missing for C31: 64 bits, where it is
false (`root_odd_refuted`). -/
theorem root_odd_partial (w : W) (hw : w ≠ .w64) (t : T w) (n : BitVec 64) (ho : n.toInt % 2 = 1) :
    ∃ v : T w, root w t n = .ok v ∧ root w (-t) n = .ok (-v) := by
  have h8 := w.n_pos
  have hn : n ≠ 0#64 := by rintro rfl; simp at ho
  by_cases h0 : t = 0#w.n
  · have : -t = t := by rw [h0]; simp
    rw [this]
    obtain ⟨s1, s2⟩ := root_special w t n
    rcases lt_or_ge n.toInt 0 with hneg | hpos
    · have e := s1.mpr (Or.inr (Or.inr (Or.inr ⟨h0, hneg⟩)))
      refine ⟨_, e, ?_⟩
      rw [e, (neg_value (by omega) (nar w.n)).2.2.mpr (Or.inr rfl)]
    · have e := s2.mpr ⟨h0, by omega⟩
      refine ⟨_, e, ?_⟩
      rw [e]; simp
  by_cases h1 : t = nar w.n
  · have hneg := (neg_value (by omega) (nar w.n)).2.2.mpr (Or.inr rfl)
    have : -t = t := by rw [h1, hneg]
    rw [this]
    have e := (root_special w t n).1.mpr (Or.inl h1)
    exact ⟨_, e, by rw [e, hneg]⟩
  have h : Regular t := ⟨h0, h1⟩
  obtain ⟨m1, m2, m3, m4⟩ := regular_neg (by omega) h
  obtain ⟨l, hl, e⟩ := root_regular h hn (fun _ => ho)
  obtain ⟨l', hl', e'⟩ := root_regular m3 hn (fun _ => ho)
  rw [m4] at hl'
  rw [e, e', m1, ← enc_congr (!t.msb) hl hl' (lF_rep_encF (lF_rq_rep w _))]
  have hrep := lF_rq_rep w (ell t / w.lF.rq (n.toInt : ℚ))
  cases w
  · exact enc_neg_8 _ hl hrep
  · exact enc_neg_16 _ hl hrep
  · obtain ⟨a, ha⟩ := ell_multiple t
    obtain ⟨N, hN⟩ := b64.rq_multiple (x := (n.toInt : ℚ)) (e := 0) (j := n.toInt) (by simp)
    rw [zpow_zero, mul_one] at hN
    have hN0 : N ≠ 0 := by
      intro h0
      obtain ⟨i1, i2, i3, i4⟩ := ofInt_is .w32 n
      have hN' : W.w32.lF.rq (n.toInt : ℚ) = 0 := by
        show b64.rq (n.toInt : ℚ) = 0
        rw [hN, h0]; simp
      rw [hN'] at i3 i4
      rcases lt_trichotomy n.toInt 0 with h | h | h
      · have := i4 (by omega); norm_num at this
      · omega
      · have := i3 (by omega); norm_num at this
    have hab : |a| < 2 ^ 35 := by
      have := abs_ell_lt t
      rw [ha, abs_mul] at this
      have e27 : (2 : ℚ) ^ (-((len W.w32.n - 5 : ℕ) : ℤ)) = 1 / 2 ^ 27 := by
        norm_num [len]
      rw [e27, abs_of_pos (show (0 : ℚ) < 1 / 2 ^ 27 by norm_num)] at this
      have : |(a : ℚ)| < 2 ^ 35 := by linarith
      exact_mod_cast this
    apply enc_neg_32 _ hab hN0
    have e27 : (-27 : ℤ) = -((len W.w32.n - 5 : ℕ) : ℤ) := by decide
    rw [e27, ← ha, ← hN]
    exact hl
  · exact absurd rfl hw

example : W.w32 ≠ .w64 ∧ (-3#64).toInt % 2 = 1 := by decide

/-- C31 is false for 64 bits: `m = fract(l)` is rounded differently for the two signs. -/
theorem root_odd_refuted :
    ∃ (t v v' : T .w64) (n : BitVec 64), n.toInt % 2 = 1 ∧ root .w64 t n = .ok v ∧ root .w64 (-t) n = .ok v' ∧
      v' ≠ -v :=
  ⟨0x400000000000000b#64, 0x4000000000000000#64, 0xbfffffffffffffff#64, 21#64, by decide, by decide +kernel,
    by decide +kernel, by decide⟩

end Takum
