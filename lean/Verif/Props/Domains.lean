import Verif.Lemmas.Domain
import Verif.Lemmas.IdealInv
import Verif.Props.NaR

/-!
# C42, C43, C44, C53, C59: where the elementary functions return NaR, and the sign of their results

All theorems are about the functions of both families (`k`), all four widths (`w`), and any math library
`L` satisfying the hypotheses of `LibmSpec.lean` (`ideal` does, `ideal_conforming`).
-/

namespace Takum
open Spec

theorem call_fin {L : Libm} (hL : L.Logs) {u : UFun} {k : Kind} {w : W} {t : T w} {r : Fl} {z : ℚ} (e : kTo L k w t = .ok r)
    (h : (u.fix r (u.ev L (kF k w) r)).Is z) (hi : (kF k w).In z) :
    ∃ y, u.call L k w t = .ok y ∧ y ≠ nar w.n ∧ (y = 0#w.n ↔ z = 0) ∧ (y.toInt < 0 ↔ z < 0) := by
  rw [call_eq e]; exact kFrom_fin hL h hi

theorem toInt_zero {w : W} {y : T w} : y.toInt = 0 ↔ y = 0#w.n := by
  rw [← BitVec.toInt_inj]; simp

/-- C59.  A covered function returns NaR exactly for NaR and for the arguments that its manual page excludes
(`arcoth` of the 64-bit types is treated below). -/
theorem documented_domain {L : Libm} (hL : L.Conforming) (u : UFun) (hu : Covered u = true) (k : Kind) (w : W)
    (hw : u = .arcoth → w ≠ .w64) (t : T w) :
    ∃ y, u.call L k w t = .ok y ∧ (y = nar w.n ↔ value k t = none ∨ ∃ x, value k t = some x ∧ Excluded u x) := by
  cases hx : value k t with
  | none =>
    rw [value_none] at hx
    subst hx
    refine ⟨nar w.n, ?_, by simp⟩
    cases k
    · exact (nar_unary L hL.nans u w).1
    · exact (nar_unary L hL.nans u w).2
  | some x =>
    obtain ⟨r, v, e, a⟩ := kTo_arg hL.powers hL.accurate hL.specials k w hx
    obtain ⟨h1, h2⟩ := domain_core hL hu hw (kF_std k w) a
    rw [← excluded_iff a] at h1 h2
    by_cases he : Excluded u x
    · refine ⟨nar w.n, ?_, by simp [he]⟩
      rw [call_eq e]; exact kFrom_bad (h1 he)
    · obtain ⟨z, i, n⟩ := h2 he
      obtain ⟨y, ey, yn, -⟩ := call_fin hL.logs e i n
      exact ⟨y, ey, by simp [yn, he]⟩

/-- C43.  `ln`, `lb` and `lg` return NaR exactly for NaR and arguments `≤ 0`, the `1_plus` versions exactly for
NaR and arguments `≤ -1`. -/
theorem logarithm_domain {L : Libm} (hL : L.Conforming) (k : Kind) (w : W) (t : T w) :
    (∀ u ∈ [UFun.ln, .lb, .lg], ∃ y, u.call L k w t = .ok y ∧
      (y = nar w.n ↔ value k t = none ∨ ∃ x, value k t = some x ∧ x ≤ 0)) ∧
    (∀ u ∈ [UFun.ln_1_plus, .lb_1_plus, .lg_1_plus], ∃ y, u.call L k w t = .ok y ∧
      (y = nar w.n ↔ value k t = none ∨ ∃ x, value k t = some x ∧ x ≤ -1)) := by
  constructor
  · intro u hu
    simp only [List.mem_cons, List.not_mem_nil, or_false] at hu
    rcases hu with rfl | rfl | rfl <;> exact documented_domain hL _ rfl k w (by simp) t
  · intro u hu
    simp only [List.mem_cons, List.not_mem_nil, or_false] at hu
    rcases hu with rfl | rfl | rfl <;> exact documented_domain hL _ rfl k w (by simp) t

/-- C42.  `exp`, `2_raised` and `10_raised` of anything but NaR are positive. -/
theorem exponential_positive {L : Libm} (hP : L.Powers) (hL : L.Logs) (hE : L.Exps) (u : UFun)
    (hu : u = .exp ∨ u = .two_raised ∨ u = .ten_raised) (k : Kind) (w : W) (t : T w) (ht : t ≠ nar w.n) :
    ∃ y, u.call L k w t = .ok y ∧ y ≠ nar w.n ∧ 0 < y.toInt := by
  obtain ⟨r, v, e, hv⟩ : ∃ r v, kTo L k w t = .ok r ∧ r.Is v := by
    cases k
    · obtain ⟨f, v, e, i, -⟩ := logTo_ext hP w ht
      exact ⟨f, v, e, i⟩
    · obtain ⟨r, e, i⟩ := linTo_src w ht
      exact ⟨r, _, e, i⟩
  obtain ⟨z, i, n, p⟩ := exp_core hE hu (kF_std k w) hv.isfinite (Is_ne hv)
  obtain ⟨y, ey, yn, y0, ys⟩ := call_fin hL e i n
  refine ⟨y, ey, yn, ?_⟩
  have h0 : ¬y.toInt < 0 := by rw [ys]; linarith
  have h1 : y.toInt ≠ 0 := by rw [Ne, toInt_zero, y0]; exact p.ne'
  omega

/-- C44.  `sinh` and `tanh` have the sign of the argument and are zero only for zero; `cosh` and `sech` are
positive; `csch` and `coth` are NaR only for 0 (and NaR) and have the sign of the argument; `exp_minus_1` is
not NaR. -/
theorem hyperbolic {L : Libm} (hP : L.Powers) (hA : L.Accurate) (hS : L.Specials) (hL : L.Logs) (hE : L.Exps) (hH : L.Hyperbolics)
    (k : Kind) (w : W) (t : T w) (ht : t ≠ nar w.n) :
    (∀ u, u = UFun.sinh ∨ u = .tanh → ∃ y, u.call L k w t = .ok y ∧ y ≠ nar w.n ∧ y.toInt.sign = t.toInt.sign) ∧
    (∀ u, u = UFun.cosh ∨ u = .sech → ∃ y, u.call L k w t = .ok y ∧ y ≠ nar w.n ∧ 0 < y.toInt) ∧
    (∀ u, u = UFun.csch ∨ u = .coth → (t = 0#w.n → u.call L k w t = .ok (nar w.n)) ∧
      (t ≠ 0#w.n → ∃ y, u.call L k w t = .ok y ∧ y ≠ nar w.n ∧ y.toInt.sign = t.toInt.sign)) ∧
    ∃ y, UFun.exp_minus_1.call L k w t = .ok y ∧ y ≠ nar w.n := by
  have h8 := w.n_pos
  cases hx : value k t with
  | none => exact absurd (value_none.mp hx) ht
  | some x =>
    obtain ⟨r, v, e, a⟩ := kTo_arg hP hA hS k w hx
    have hF := kF_std k w
    -- sign of the argument
    have tv : (t = 0#w.n ↔ v = 0) ∧ (t.toInt < 0 ↔ v < 0) := by
      rw [← a.zero, ← a.neg]
      by_cases h0 : t = 0#w.n
      · have : x = 0 := by
          subst h0
          cases k
          · change logVal _ = _ at hx; unfold logVal at hx; rw [if_neg ht, if_pos rfl] at hx; simpa using hx.symm
          · change (linVal _).map _ = _ at hx; unfold linVal at hx; rw [if_neg ht, if_pos rfl] at hx; simpa using hx.symm
        simp [h0, this]
      · have rt : Regular t := ⟨h0, ht⟩
        have : (x ≠ 0) ∧ (x < 0 ↔ t.msb = true) := by
          cases k
          · change logVal _ = _ at hx
            rw [logVal_regular (by omega : 1 ≤ w.n) rt] at hx
            have := logG_pos (ell t)
            obtain rfl : _ = x := by simpa using hx
            cases t.msb
            · simp [sg, this.ne', this.le]
            · simp [sg, this.ne', this]
          · change (linVal _).map _ = _ at hx
            rw [linVal_qv ht, qv_regular rt] at hx
            obtain rfl : _ = x := by simpa using hx
            exact ⟨by exact_mod_cast lv_ne t, by rw [← lv_neg_iff]; exact_mod_cast Iff.rfl⟩
        rw [toInt_neg_iff (by omega) rt]
        simp [h0, this.1, this.2]
    have sgn : ∀ {y : T w} {z : ℚ}, (y = 0#w.n ↔ z = 0) → (y.toInt < 0 ↔ z < 0) → (z = 0 ↔ v = 0) → (z < 0 ↔ v < 0) →
        y.toInt.sign = t.toInt.sign := by
      intro y z h1 h2 h3 h4
      rw [h3, ← tv.1, ← toInt_zero, ← toInt_zero] at h1
      rw [h4, ← tv.2] at h2
      rcases lt_trichotomy t.toInt 0 with h | h | h
      · rw [Int.sign_eq_neg_one_of_neg h, Int.sign_eq_neg_one_of_neg (h2.mpr h)]
      · rw [h, h1.mpr h]
      · have : 0 < y.toInt := by omega
        rw [Int.sign_eq_one_of_pos h, Int.sign_eq_one_of_pos this]
    have pos : ∀ {u : UFun} {z : ℚ}, (u.fix r (u.ev L (kF k w) r)).Is z → (kF k w).In z → 0 < z →
        ∃ y, u.call L k w t = .ok y ∧ y ≠ nar w.n ∧ 0 < y.toInt := by
      intro u z i n p
      obtain ⟨y, ey, yn, y0, ys⟩ := call_fin hL e i n
      refine ⟨y, ey, yn, ?_⟩
      have h0 : ¬y.toInt < 0 := by rw [ys]; linarith
      have h1 : y.toInt ≠ 0 := by rw [Ne, toInt_zero, y0]; exact p.ne'
      omega
    refine ⟨?_, ?_, ?_, ?_⟩
    · rintro u (rfl | rfl)
      · obtain ⟨z, i, n, z0, zs⟩ := sinh_core hH hF a
        obtain ⟨y, ey, yn, y0, ys⟩ := call_fin (u := .sinh) hL e i n
        exact ⟨y, ey, yn, sgn y0 ys z0 zs⟩
      · obtain ⟨z, i, n, z0, zs⟩ := tanh_core hH hF a
        obtain ⟨y, ey, yn, y0, ys⟩ := call_fin (u := .tanh) hL e i n
        exact ⟨y, ey, yn, sgn y0 ys z0 zs⟩
    · rintro u (rfl | rfl)
      · obtain ⟨z, i, n, p⟩ := cosh_core hH hF a
        exact pos (u := .cosh) i n p
      · obtain ⟨z, i, n, p⟩ := sech_core hH hF a
        exact pos (u := .sech) i n p
    · rintro u (rfl | rfl)
      · obtain ⟨h1, h2⟩ := csch_core hH hF a
        refine ⟨fun h => ?_, fun h => ?_⟩
        · rw [call_eq e]; exact kFrom_bad (h1 (tv.1.mp h))
        · have hv : v ≠ 0 := fun h' => h (tv.1.mpr h')
          obtain ⟨z, i, n, z0, zs⟩ := h2 hv
          obtain ⟨y, ey, yn, y0, ys⟩ := call_fin (u := .csch) hL e i n
          exact ⟨y, ey, yn, sgn y0 ys (by simp [z0, hv]) zs⟩
      · obtain ⟨h1, h2⟩ := coth_core hH hF a
        refine ⟨fun h => ?_, fun h => ?_⟩
        · rw [call_eq e]; exact kFrom_bad (h1 (tv.1.mp h))
        · have hv : v ≠ 0 := fun h' => h (tv.1.mpr h')
          obtain ⟨z, i, n, z0, zs⟩ := h2 hv
          obtain ⟨y, ey, yn, y0, ys⟩ := call_fin (u := .coth) hL e i n
          exact ⟨y, ey, yn, sgn y0 ys (by simp [z0, hv]) zs⟩
    · obtain ⟨z, i, n⟩ := expm1_core hE (u := .exp_minus_1) (by simp) hF a.is.isfinite (Is_ne a.is)
      obtain ⟨y, ey, yn, -⟩ := call_fin (u := .exp_minus_1) hL e i n
      exact ⟨y, ey, yn⟩

/-! ## `arcoth` of the 64-bit types -/

theorem arcoth_bad {L : Libm} (hI : L.Inverses) {F : Fmt} (hF : F = b64 ∨ F = x80) {r : Fl} {v : ℚ} (hr : r.Is v) (hv : v ≠ 0)
    (hx : x80.In (x80.rq (1 / v))) (h : |b64.rq (x80.rq (1 / v))| = 1) : (UFun.arcoth.fix r (UFun.arcoth.ev L F r)).isfinite = false := by
  have i1 : (Fl.div x80 (.num 1) r).Is (x80.rq (1 / v)) := (Fl.Is.num (by norm_num)).div hr hv hx.2
  have i2 : (Fl.cast b64 (Fl.div x80 (.num 1) r)).Is (b64.rq (x80.rq (1 / v))) := i1.cast (by rw [h]; decide +kernel)
  show (UFun.arcoth.ev L F r).isfinite = false
  apply ev_bad rfl hF
  show (L.atanh b64 _).isfinite = false
  rw [hI.atanh_one b64 (Or.inl rfl) _ _ i2 h]; rfl

/-- C53 is false: the `takum_linear64` number `1 + 2^-59` is outside of `[-1, 1]`, but its `arcoth` is NaR, for
every math library with `atanh(1) = ∞`: `arcothl` calls `atanh` instead of `atanhl`, and the argument becomes
`1.0` when converted to `double`. -/
theorem arcoth_refuted {L : Libm} (hI : L.Inverses) :
    value .lin (0x4000000000000001#64) = some (1 + 1 / 2 ^ 59) ∧
    UFun.arcoth.call L .lin .w64 (0x4000000000000001#64) = .ok (nar 64) := by
  have hq : linVal (0x4000000000000001#64) = some (1 + 1 / 2 ^ 59) := by decide +kernel
  refine ⟨by rw [value_lin hq]; push_cast; rfl, ?_⟩
  have ht : (0x4000000000000001#64) ≠ nar 64 := by decide
  obtain ⟨r, e, i⟩ := linTo_src .w64 (t := 0x4000000000000001#64) ht
  have hv : qv (0x4000000000000001#64) = 1 + 1 / 2 ^ 59 := by
    have := linVal_qv (w := .w64) ht
    rw [hq] at this; exact (Option.some.inj this).symm
  rw [hv] at i
  have e' : kTo L .lin .w64 (0x4000000000000001#64) = .ok r := e
  rw [call_eq e']
  exact kFrom_bad (arcoth_bad hI (kF_std .lin .w64) i (by norm_num) ⟨x80.rq_rep (by decide) _, by decide +kernel⟩ (by decide +kernel))

/-- What holds of C53: `arcoth` is NaR exactly for NaR and arguments in `[-1, 1]` for 8, 16 and 32 bits; for 64
bits it is NaR for those arguments, and not NaR for linear takums of magnitude at least `1 + 2^-52`.  Missing:
64-bit arguments between 1 and `1 + 2^-52`, where the claim is false at least for `1 + 2^-59`, and logarithmic
64-bit takums above 1. -/
theorem arcoth_partial {L : Libm} (hL : L.Conforming) :
    (∀ (k : Kind) (w : W), w ≠ .w64 → ∀ t : T w, ∃ y, UFun.arcoth.call L k w t = .ok y ∧
      (y = nar w.n ↔ value k t = none ∨ ∃ x, value k t = some x ∧ |x| ≤ 1)) ∧
    (∀ (k : Kind) (t : T .w64), (value k t = none ∨ ∃ x, value k t = some x ∧ |x| ≤ 1) →
      UFun.arcoth.call L k .w64 t = .ok (nar 64)) ∧
    (∀ (t : T .w64) (x : ℝ), value .lin t = some x → 1 + 1 / 2 ^ 52 ≤ |x| →
      ∃ y, UFun.arcoth.call L .lin .w64 t = .ok y ∧ y ≠ nar 64) := by
  refine ⟨fun k w hw t => documented_domain hL .arcoth rfl k w (fun _ => hw) t, ?_, ?_⟩
  · rintro k t (h | ⟨x, hx, h⟩)
    · rw [value_none] at h
      subst h
      cases k
      · exact (nar_unary L hL.nans .arcoth .w64).1
      · exact (nar_unary L hL.nans .arcoth .w64).2
    · obtain ⟨r, v, e, a⟩ := kTo_arg hL.powers hL.accurate hL.specials k .w64 hx
      rw [call_eq e]
      apply kFrom_bad
      rw [← not_lt] at h
      have hv : |v| ≤ 1 := by
        have := (excluded_iff a .arcoth).mp (show |x| ≤ 1 from not_lt.mp h)
        exact this
      show (UFun.arcoth.ev L (kF k .w64) r).isfinite = false
      apply ev_bad rfl (kF_std k .w64)
      show (L.atanh b64 (Fl.cast b64 _)).isfinite = false
      rcases arg_cases a with ⟨-, s, e⟩ | hv0
      · rw [e]; show (L.atanh b64 (.inf s)).isfinite = false; rw [hL.inverses.atanh_inf]; rfl
      · have h1 := (div1_cmp a hv0).2.2.1 hv
        obtain ⟨i, -⟩ := ((div1 a hv0).1.cast_within (F := b64) (Or.inl rfl) (k := 300) (by norm_num) (div1 a hv0).2.2.1)
        have h2 : 1 ≤ |b64.rq (x80.rq (1 / v))| := by
          rw [← Fmt.abs_rq]; exact b64.le_rq (by decide) (one_in (F := b64) (by simp)).1 h1
        rcases lt_or_eq_of_le h2 with h2 | h2
        · rw [hL.inverses.atanh_out b64 (Or.inl rfl) _ _ i h2]; rfl
        · rw [hL.inverses.atanh_one b64 (Or.inl rfl) _ _ i h2.symm]; rfl
  · intro t x hx h
    obtain ⟨r, v, e, a⟩ := kTo_arg hL.powers hL.accurate hL.specials .lin .w64 hx
    have ht : t ≠ nar 64 := by rw [Ne, ← value_none (k := .lin), hx]; simp
    have hv : v = qv t := by
      obtain ⟨r', e', i⟩ := linTo_src .w64 ht
      have : kTo L .lin .w64 t = .ok r' := e'
      rw [e] at this
      have : r = r' := by injection this
      subst this
      exact a.is.unique i
    have hxv : x = (v : ℝ) := by
      change (linVal _).map _ = _ at hx
      rw [linVal_qv (w := .w64) ht, ← hv] at hx
      simpa using hx.symm
    have hb : 1 + 1 / 2 ^ 52 ≤ |v| := by
      rw [hxv] at h
      apply (Rat.cast_le (K := ℝ)).mp; push_cast; exact h
    have hv0 : v ≠ 0 := by rintro rfl; norm_num at hb
    have hvp := abs_pos.mpr hv0
    obtain ⟨i1, n1, b1, -⟩ := div1 a hv0
    obtain ⟨i2, -⟩ := i1.cast_within (F := b64) (Or.inl rfl) (k := 300) (by norm_num) b1
    obtain ⟨-, n2⟩ := rq_pow (F := b64) (Or.inl rfl) (k := 300) (by norm_num) b1
    have h1 : |1 / v| ≤ 1 - 1 / 2 ^ 53 := by
      rw [abs_div, abs_one, div_le_iff₀ hvp]; nlinarith
    have h2 : |x80.rq (1 / v)| ≤ 1 - 1 / 2 ^ 53 :=
      x80.abs_rq_le (by decide) ⟨2 ^ 53 - 1, -53, by decide +kernel, by decide, by decide⟩ h1
    have h3 : |b64.rq (x80.rq (1 / v))| ≤ 1 - 1 / 2 ^ 53 :=
      b64.abs_rq_le (by decide) ⟨2 ^ 53 - 1, -53, by decide +kernel, by decide, by decide⟩ h2
    have h4 : |b64.rq (x80.rq (1 / v))| < 1 := lt_of_le_of_lt h3 (by norm_num)
    have w1 : (UFun.arcoth.evl L r).Within x80 (2 ^ 100) :=
      within_x80 (Or.inl rfl) (hL.inverses.atanh b64 (Or.inl rfl) _ _ i2 n2 h4)
    obtain ⟨z, i, n⟩ := (ev_within (u := .arcoth) rfl (kF_std .lin .w64) (by norm_num) w1).fin
    obtain ⟨y, ey, yn, -⟩ := call_fin (u := .arcoth) hL.logs e i n
    exact ⟨y, ey, yn⟩

/-! ## The hypotheses can be met -/

example : ideal.Conforming := ideal_conforming
/-- An argument that `ln` excludes, and one that it does not. -/
example : (∃ x, value .lin (0xC0#8) = some x ∧ Excluded UFun.ln x) ∧ ∃ x, value .lin (0x48#8) = some x ∧ ¬Excluded UFun.ln x := by
  have h1 : linVal (0xC0#8) = some (-1) := by decide +kernel
  have h2 : linVal (0x48#8) = some 2 := by decide +kernel
  refine ⟨⟨-1, ?_, ?_⟩, 2, ?_, ?_⟩
  · rw [value_lin h1]; push_cast; rfl
  · show (-1 : ℝ) ≤ 0; norm_num
  · rw [value_lin h2]; push_cast; rfl
  · show ¬(2 : ℝ) ≤ 0; norm_num
/-- A saturating argument of `exp`: a takum of value at least `2^100`. -/
example : (0x7e#8 : T .w8) ≠ nar 8 ∧ ∃ x, value .lin (0x7e#8) = some x ∧ (2 : ℝ) ^ 100 ≤ x := by
  have h1 : linVal (0x7e#8) = some (2 ^ 223) := by decide +kernel
  refine ⟨by decide, 2 ^ 223, ?_, by norm_num⟩
  rw [value_lin h1]; push_cast; rfl
/-- A 64-bit argument of the third part of `arcoth_partial`. -/
example : ∃ x, value .lin (0x4000000000000100#64) = some x ∧ 1 + 1 / 2 ^ 52 ≤ |x| := by
  have h1 : linVal (0x4000000000000100#64) = some (1 + 1 / 2 ^ 51) := by decide +kernel
  refine ⟨1 + 1 / 2 ^ 51, ?_, by rw [abs_of_pos (by positivity)]; norm_num⟩
  rw [value_lin h1]; push_cast; rfl

end Takum
