import Verif.Props.Domains
import Verif.Lemmas.ElemArg
import Verif.Lemmas.ConstIv

/-!
# C53: for which 64-bit arguments `arcoth` is NaR
-/

namespace Takum
open Spec

/-- The boundary between `1 + 32·2^-59` and `1 + 33·2^-59`. -/
theorem arcoth_near {v : ℚ} (hv : 1 < |v|) (h : |v| ≤ 1 + 1 / 2 ^ 54) : |b64.rq (x80.rq (1 / v))| = 1 := by
  have hp : 0 < |v| := by linarith
  have e : |b64.rq (x80.rq (1 / v))| = b64.rq (x80.rq (1 / |v|)) := by rw [← Fmt.abs_rq, ← Fmt.abs_rq, abs_div, abs_one]
  have i1 : 1 / |v| ≤ 1 := by rw [div_le_iff₀ hp]; linarith
  have i2 : 1 - 1 / 2 ^ 54 ≤ 1 / |v| := by rw [le_div_iff₀ hp]; nlinarith
  have o8 : x80.Rep (1 : ℚ) := (one_in (F := x80) (by simp)).1
  have o6 : b64.Rep (1 : ℚ) := (one_in (F := b64) (by simp)).1
  have k1 := b64.rq_le (by decide) o6 (x80.rq_le (by decide) o8 i1)
  have k2 : (1 - 1 / 2 ^ 54 : ℚ) ≤ x80.rq (1 / |v|) :=
    x80.le_rq (by decide) ⟨2 ^ 54 - 1, -54, by decide +kernel, by decide, by decide⟩ i2
  have k3 := b64.rq_mono (by decide) k2
  rw [show b64.rq (1 - 1 / 2 ^ 54 : ℚ) = 1 by decide +kernel] at k3
  rw [e]; exact le_antisymm k1 k3

theorem arcoth_far {v : ℚ} (h : 1 + 33 / 2 ^ 59 ≤ |v|) : |b64.rq (x80.rq (1 / v))| < 1 := by
  have hp : 0 < |v| := lt_of_lt_of_le (by norm_num) h
  have e : |b64.rq (x80.rq (1 / v))| = b64.rq (x80.rq (1 / |v|)) := by rw [← Fmt.abs_rq, ← Fmt.abs_rq, abs_div, abs_one]
  have i1 : 1 / |v| ≤ 1 - 33 / 2 ^ 59 + 1 / 2 ^ 64 := by rw [div_le_iff₀ hp]; norm_num at h ⊢; linarith
  have k1 := x80.rq_le (by decide) ⟨2 ^ 64 - 33 * 32 + 1, -64, by decide +kernel, by decide, by decide⟩ i1
  have k2 := b64.rq_mono (by decide) k1
  rw [e]
  refine lt_of_le_of_lt k2 ?_
  decide +kernel

/-- `arcoth` of a 64-bit takum of either kind, by the number it is converted to. -/
theorem arcoth_cases {L : Libm} (hL : L.Conforming) (k : Kind) {t : T .w64} {r : Fl} {v : ℚ} {x : ℝ} (e : kTo L k .w64 t = .ok r)
    (a : Arg' k .w64 r v x) :
    (|v| ≤ 1 + 1 / 2 ^ 54 → UFun.arcoth.call L k .w64 t = .ok (nar 64)) ∧
    (1 + 33 / 2 ^ 59 ≤ |v| → ∃ y, UFun.arcoth.call L k .w64 t = .ok y ∧ y ≠ nar 64) := by
  constructor
  · intro h
    by_cases h1 : 1 < |v|
    · have hv0 : v ≠ 0 := by rintro rfl; norm_num at h1
      obtain ⟨i1, n1, b1, -⟩ := div1 a.toArg hv0
      rw [call_eq e]
      exact kFrom_bad (arcoth_bad hL.inverses (kF_std k .w64) a.is hv0 n1 (arcoth_near h1 h))
    · rw [call_eq e]
      apply kFrom_bad
      show (UFun.arcoth.ev L (kF k .w64) r).isfinite = false
      apply ev_bad rfl (kF_std k .w64)
      show (L.atanh b64 (Fl.cast b64 _)).isfinite = false
      rcases arg_cases a.toArg with ⟨-, s, e⟩ | hv0
      · rw [e]; show (L.atanh b64 (.inf s)).isfinite = false; rw [hL.inverses.atanh_inf]; rfl
      · have h1 := (div1_cmp a.toArg hv0).2.2.1 (not_lt.mp h1)
        obtain ⟨i, -⟩ := ((div1 a.toArg hv0).1.cast_within (F := b64) (Or.inl rfl) (k := 300) (by norm_num) (div1 a.toArg hv0).2.2.1)
        have h2 : 1 ≤ |b64.rq (x80.rq (1 / v))| := by
          rw [← Fmt.abs_rq]; exact b64.le_rq (by decide) (one_in (F := b64) (by simp)).1 h1
        rcases lt_or_eq_of_le h2 with h2 | h2
        · rw [hL.inverses.atanh_out b64 (Or.inl rfl) _ _ i h2]; rfl
        · rw [hL.inverses.atanh_one b64 (Or.inl rfl) _ _ i h2.symm]; rfl
  · intro h
    have hv0 : v ≠ 0 := by rintro rfl; norm_num at h
    obtain ⟨i1, n1, b1, -⟩ := div1 a.toArg hv0
    obtain ⟨i2, -⟩ := i1.cast_within (F := b64) (Or.inl rfl) (k := 300) (by norm_num) b1
    obtain ⟨-, n2⟩ := rq_pow (F := b64) (Or.inl rfl) (k := 300) (by norm_num) b1
    have w1 : (UFun.arcoth.evl L r).Within x80 (2 ^ 100) :=
      within_x80 (Or.inl rfl) (hL.inverses.atanh b64 (Or.inl rfl) _ _ i2 n2 (arcoth_far h))
    obtain ⟨z, i, n⟩ := (ev_within (u := .arcoth) rfl (kF_std k .w64) (by norm_num) w1).fin
    obtain ⟨y, ey, yn, -⟩ := call_fin (u := .arcoth) hL.logs e i n
    exact ⟨y, ey, yn⟩

/-- Magnitudes of 64-bit linear takums beyond `1 + 32·2^-59` are at least `1 + 33·2^-59`. -/
theorem lin64_step {t : T .w64} {v : ℚ} (h : linVal t = some v) (hv : 1 + 1 / 2 ^ 54 < |v|) : 1 + 33 / 2 ^ 59 ≤ |v| := by
  have key : ∀ {t : T .w64}, t ≠ nar 64 → 1 + 1 / 2 ^ 54 < qv t → 1 + 33 / 2 ^ 59 ≤ qv t := by
    intro t hn h
    have n1 : (0x4000000000000020#64 : T .w64) ≠ nar 64 := by decide
    have n2 : (0x4000000000000021#64 : T .w64) ≠ nar 64 := by decide
    have e1 : qv (0x4000000000000020#64 : T .w64) = 1 + 1 / 2 ^ 54 := by
      have := linVal_qv (w := .w64) n1
      rw [show linVal (0x4000000000000020#64 : T .w64) = some (1 + 1 / 2 ^ 54) by decide +kernel] at this
      exact (Option.some.inj this).symm
    have e2 : qv (0x4000000000000021#64 : T .w64) = 1 + 33 / 2 ^ 59 := by
      have := linVal_qv (w := .w64) n2
      rw [show linVal (0x4000000000000021#64 : T .w64) = some (1 + 33 / 2 ^ 59) by decide +kernel] at this
      exact (Option.some.inj this).symm
    have h1 := (qv_le_iff hn n1).not.mp (by rw [e1]; linarith)
    have a1 : (0x4000000000000020#64 : T .w64).toInt = 0x4000000000000020 := by decide
    have a2 : (0x4000000000000021#64 : T .w64).toInt = 0x4000000000000021 := by decide
    rw [a1] at h1
    rw [← e2]
    exact (qv_le_iff n2 hn).mpr (by rw [a2]; omega)
  have hn : t ≠ nar 64 := by rintro rfl; simp [linVal] at h
  have e : qv t = v := Option.some.inj ((linVal_qv hn).symm.trans h)
  rcases lt_abs.mp hv with h' | h'
  · rw [← e] at h' ⊢
    exact (key hn h').trans (le_abs_self _)
  · have := key (neg_ne_nar hn) (by rw [qv_neg hn, e]; exact h')
    rw [qv_neg hn, e] at this
    exact this.trans (neg_le_abs v)

/-- C53 for the linear type of 64 bits: `arcoth` is NaR exactly for NaR and the arguments from `-1 - 2^-54` to
`1 + 2^-54`.  Missing for C53: the 32 takums above 1 and the 32 below -1 that are among them. -/
theorem arcoth_lin64_partial {L : Libm} (hL : L.Conforming) (t : T .w64) :
    ∃ y, UFun.arcoth.call L .lin .w64 t = .ok y ∧
      (y = nar 64 ↔ linVal t = none ∨ ∃ v, linVal t = some v ∧ |v| ≤ 1 + 1 / 2 ^ 54) := by
  by_cases hn : t = nar 64
  · subst hn
    exact ⟨_, (nar_unary L hL.nans .arcoth .w64).2, by simp [linVal]⟩
  have hq := linVal_qv hn
  obtain ⟨r, v, e, a⟩ := kTo_acc hL .lin .w64 (value_lin hq)
  obtain ⟨r', e', i⟩ := linTo_src .w64 hn
  obtain rfl : r' = r := Except.ok.inj (e'.symm.trans e)
  have hv : v = qv t := a.is.unique i
  rw [← hv] at hq
  obtain ⟨c1, c2⟩ := arcoth_cases hL .lin e a
  by_cases h : |v| ≤ 1 + 1 / 2 ^ 54
  · exact ⟨_, c1 h, by simp only [true_iff]; exact Or.inr ⟨v, hq, h⟩⟩
  · obtain ⟨y, ey, hy⟩ := c2 (lin64_step hq (not_le.mp h))
    refine ⟨y, ey, ?_⟩
    rw [hq]
    simp only [hy, false_iff, reduceCtorEq, false_or, not_exists, not_and, Option.some.injEq]
    rintro _ rfl
    exact h

example : linVal (0x4000000000000020#64 : T .w64) = some (1 + 1 / 2 ^ 54) ∧ linVal (0x4000000000000021#64 : T .w64) = some (1 + 33 / 2 ^ 59) := by
  decide +kernel

/-- C53 for the logarithmic type of 64 bits: `arcoth` is NaR for all numbers of magnitude at most `1 + 2^-55`, and not NaR
from `1 + 2^-53` on.  Missing: the numbers between, for which it depends on the rounding errors of the math library. -/
theorem arcoth_log64_partial {L : Libm} (hL : L.Conforming) (t : T .w64) (x : ℝ) (hx : logVal t = some x) :
    (|x| ≤ 1 + 1 / 2 ^ 55 → UFun.arcoth.call L .log .w64 t = .ok (nar 64)) ∧
    (1 + 1 / 2 ^ 53 ≤ |x| → ∃ y, UFun.arcoth.call L .log .w64 t = .ok y ∧ y ≠ nar 64) := by
  obtain ⟨r, v, e, a⟩ := kTo_acc hL .log .w64 (t := t) hx
  obtain ⟨c1, c2⟩ := arcoth_cases hL .log e a
  have cl := a.close
  have h1 := abs_sub_abs_le_abs_sub (v : ℝ) x
  have h2 := abs_sub_abs_le_abs_sub x (v : ℝ)
  rw [abs_sub_comm x] at h2
  simp only [inTol] at cl
  constructor
  · intro h
    apply c1
    apply (Rat.cast_le (K := ℝ)).mp
    push_cast
    norm_num at *
    linarith
  · intro h
    apply c2
    apply (Rat.cast_le (K := ℝ)).mp
    push_cast
    norm_num at *
    linarith

/-- The takum after 1 is among the first, and 2^10 units above 1 is among the second. -/
example : (∃ x, logVal (0x4000000000000001#64 : T .w64) = some x ∧ |x| ≤ 1 + 1 / 2 ^ 55) ∧
    ∃ x, logVal (0x4000000000000400#64 : T .w64) = some x ∧ 1 + 1 / 2 ^ 53 ≤ |x| := by
  refine ⟨⟨_, logVal_pos (w := .w64) (by decide), ?_⟩, _, logVal_pos (w := .w64) (by decide), ?_⟩
  · rw [show ell (0x4000000000000001#64 : T .w64) = 1 / 2 ^ 59 by decide +kernel, abs_of_pos (Real.exp_pos _)]
    have h := Real.add_one_le_exp (-((1 / 2 ^ 59 / 2 : ℚ) : ℝ))
    rw [Real.exp_neg, le_inv_comm₀ (by norm_num) (Real.exp_pos _)] at h
    refine h.trans ?_
    norm_num
  · rw [show ell (0x4000000000000400#64 : T .w64) = 1 / 2 ^ 49 by decide +kernel, abs_of_pos (Real.exp_pos _)]
    refine le_trans ?_ (Real.add_one_le_exp _)
    norm_num

end Takum
