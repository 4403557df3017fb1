import Verif.Lemmas.TestPair
import Verif.Props.TestInt

/-! # What the functions put in place of infinite and zero results -/

namespace Takum.Test
open Takum Spec

theorem approx_inf {F : Fmt} {y : ℝ} {s : Bool} (h : Approx F y (.inf s)) : s = decide (y < 0) := by
  have no : ∀ {z : ℚ}, ¬ (Fl.inf s).Is z := fun hz => by have := hz.isfinite; simp [Fl.isfinite] at this
  by_cases h0 : y = 0
  · exact absurd (h.zero h0) no
  rcases lt_or_ge |y| ((2 : ℝ) ^ (-1000 : ℤ)) with h1 | h1
  · obtain ⟨z, hz, -⟩ := h.tiny h0 h1; exact absurd hz no
  rcases lt_or_ge ((2 : ℝ) ^ (1000 : ℤ)) |y| with h2 | h2
  · rcases h.huge h2 with e | ⟨z, e, -⟩
    · exact Fl.inf.inj e
    · cases e
  · obtain ⟨z, hz, -⟩ := h.mid h1 h2; exact absurd hz no

/-- What the function makes of an infinite or zero result. -/
structure Fixes (u : UFun) (a raw : Fl) : Prop where
  inf : ∀ s, raw = .inf s → u.fix a raw = if Grows u then (if s then DBL_MAX.neg else DBL_MAX) else .inf s
  zero : raw.isfinite = true → raw.toQ = 0 → u.fix a raw = if NoZero u then (if raw.sgn then DBL_MIN.neg else DBL_MIN) else raw

theorem Is_or_inf {x : Fl} {z : ℚ} (h : x.Is z) {s : Bool} : x ≠ .inf s := by
  rintro rfl; have := h.isfinite; simp [Fl.isfinite] at this

theorem fixes_noFix {u : UFun} (h : u.fix = noFix) (hg : Grows u = false) (hn : NoZero u = false) (a raw : Fl) : Fixes u a raw := by
  constructor
  · rintro s rfl; rw [h, hg]; rfl
  · intro _ _; rw [h, hn]; rfl

theorem fixes_exp {u : UFun} (h : u.fix = fixExp) (hg : Grows u = true) (hn : NoZero u = true) (a : Fl) {raw : Fl} (hs : raw.sgn = false) :
    Fixes u a raw := by
  constructor
  · rintro s rfl
    obtain rfl : s = false := hs
    rw [h, hg]; rfl
  · intro h1 h2
    rw [h, hn, hs]; unfold fixExp; rw [if_pos ((Fl.eq_zero_iff _).mpr ⟨h1, h2⟩)]; rfl

theorem fixInf_finite {a raw : Fl} (h : raw.isfinite = true) : fixInf a raw = raw ∧ fixLog a raw = raw ∧ fixSinh a raw = raw := by
  cases raw <;> first | exact ⟨rfl, rfl, rfl⟩ | simp [Fl.isfinite] at h

theorem fixes_inf {u : UFun} (h : u.fix = fixInf) (hg : Grows u = true) (hn : NoZero u = false) (a : Fl) {raw : Fl}
    (hs : raw ≠ .inf true) : Fixes u a raw := by
  constructor
  · rintro s rfl
    obtain rfl : s = false := by cases s <;> simp_all
    rw [h, hg]; rfl
  · intro h1 h2
    rw [h, hn]; exact (fixInf_finite h1).1

theorem fixes_log {u : UFun} (h : u.fix = fixLog) (hg : Grows u = false) (hn : NoZero u = false) (a : Fl) {raw : Fl}
    (hs : raw ≠ .inf false) : Fixes u a raw := by
  constructor
  · rintro s rfl
    obtain rfl : s = true := by cases s <;> simp_all
    rw [h, hg]; rfl
  · intro h1 h2
    rw [h, hn]; exact (fixInf_finite h1).2.1

theorem loglike_inf {c : ℚ} {f : Fmt → Fl → Fl} (h : LogLike c f) {a : Fl} {v : ℚ} (ha : a.Is v) (hv : x80.In v) : f x80 a ≠ .inf false := by
  rcases lt_trichotomy v c with h1 | h1 | h1
  · rw [h.below x80 (Or.inr rfl) a v ha h1]; simp
  · rw [h.pole x80 (Or.inr rfl) a (h1 ▸ ha)]; simp
  · obtain ⟨r, hr, -⟩ := h.above x80 (Or.inr rfl) a v ha h1 hv; exact Is_or_inf hr

theorem mul_log1p {L : Libm} (hL : L.Conforming) {c : ℚ} (hc : 0 < c) (hc1 : c ≤ 4) {a : Fl} {v : ℚ} (ha : a.Is v) (hv : x80.In v) :
    Fl.mul x80 (.num c) (L.log1p x80 a) ≠ .inf false := by
  have h := hL.logarithms.log1p
  rcases lt_trichotomy v (-1) with h1 | h1 | h1
  · rw [h.below x80 (Or.inr rfl) a v ha h1]; simp [Fl.mul]
  · rw [h.pole x80 (Or.inr rfl) a (h1 ▸ ha)]
    have : ¬ c < 0 := by linarith
    simp [Fl.mul, Fl.sgn, this]
  · obtain ⟨r, hr, i, b⟩ := h.above x80 (Or.inr rfl) a v ha h1 hv
    have hb : |c * r| ≤ 2 ^ 102 := by
      rw [abs_mul, abs_of_pos hc, show (2 : ℚ) ^ 102 = 2 ^ 100 * 4 by norm_num, mul_comm]
      exact mul_le_mul b hc1 hc.le (by positivity)
    exact Is_or_inf ((Fl.Is.num hc.ne').mul hr (rq_pow (F := x80) (Or.inr rfl) (by norm_num) hb).2.2)

theorem fixes_all {L : Libm} (hL : L.Conforming) (hA : L.Approximates) (u : UFun) {w : W} {a : Fl} {v : ℚ} {x : ℝ}
    (h : Arg x80 w a v x) : Fixes u a (u.evl L a) := by
  have e : x80 = b64 ∨ x80 = x80 := Or.inr rfl
  have af := h.is.isfinite
  have an := Is_ne h.is
  have sc : ∀ {ε y : ℝ} {x : Fl}, Sc x80 ε y x → x ≠ .inf true := by
    rintro ε y x (⟨-, z, i, -⟩ | ⟨-, rfl | ⟨z, rfl, -⟩⟩)
    · exact Is_or_inf i
    · simp
    · simp
  have pos : ∀ {y : ℝ} {x : Fl}, Approx x80 y x → -1 < y → x ≠ .inf true := by
    rintro y x hx hy rfl
    have := approx_inf hx
    have hn : y < 0 := by simpa using this.symm
    have b : |y| ≤ (2 : ℝ) ^ (1000 : ℤ) := by
      have : (1 : ℝ) ≤ (2 : ℝ) ^ (1000 : ℤ) := one_le_zpow₀ (by norm_num) (by norm_num)
      exact (abs_le.mpr ⟨hy.le, by linarith⟩ : |y| ≤ 1).trans this
    rcases lt_or_ge |y| ((2 : ℝ) ^ (-1000 : ℤ)) with h1 | h1
    · obtain ⟨z, hz, -⟩ := hx.tiny hn.ne h1; exact Is_or_inf hz rfl
    · obtain ⟨z, hz, -⟩ := hx.mid h1 b; exact Is_or_inf hz rfl
  cases u
  case ten_raised => exact fixes_exp rfl rfl rfl a (hL.exps.pow10 a af an).2.1
  case two_raised => exact fixes_exp rfl rfl rfl a (hL.exps.exp2 x80 e a af an).2.1
  case exp => exact fixes_exp rfl rfl rfl a (hL.exps.exp x80 e a af an).2.1
  case ten_raised_minus_1 => exact fixes_inf rfl rfl rfl a (sc (sub1_sc (by positivity) (pow10_approx hA e h).ext))
  case two_raised_minus_1 => exact fixes_inf rfl rfl rfl a (sc (sub1_sc (by positivity) (hA.exp2 x80 e a v h.is h.isIn).ext))
  case exp_minus_1 => exact fixes_inf rfl rfl rfl a (pos (hA.expm1 x80 e a v h.is h.isIn) (by linarith [Real.exp_pos v]))
  case cosh => exact fixes_inf rfl rfl rfl a (pos (hA.cosh x80 e a v h.is h.isIn) (by linarith [Real.one_le_cosh v]))
  case ln => exact fixes_log rfl rfl rfl a (loglike_inf hL.logarithms.log h.is h.isIn)
  case ln_1_plus => exact fixes_log rfl rfl rfl a (loglike_inf hL.logarithms.log1p h.is h.isIn)
  case lb => exact fixes_log rfl rfl rfl a (loglike_inf hL.logarithms.log2 h.is h.isIn)
  case lg => exact fixes_log rfl rfl rfl a (loglike_inf hL.logarithms.log10 h.is h.isIn)
  case lb_1_plus =>
    obtain ⟨c, ec, c1, c2⟩ := lbe
    refine fixes_log rfl rfl rfl a ?_
    show Fl.mul x80 LB_E _ ≠ _
    rw [ec]; exact mul_log1p hL c1 c2 h.is h.isIn
  case lg_1_plus =>
    obtain ⟨c, ec, c1, c2⟩ := lge
    refine fixes_log rfl rfl rfl a ?_
    show Fl.mul x80 LG_E _ ≠ _
    rw [ec]; exact mul_log1p hL c1 c2 h.is h.isIn
  case arcosh =>
    have ni : ∀ s, L.acosh x80 a ≠ .inf s := by
      intro s
      rcases lt_or_ge v 1 with h1 | h1
      · rw [hL.inverses.acosh_out x80 e a v h.is h1]; simp
      · obtain ⟨r, hr, -⟩ := hL.inverses.acosh x80 e a v h.is h.isIn h1; exact Is_or_inf hr
    exact ⟨fun s hs => absurd hs (ni s), fun h1 _ => (fixInf_finite (a := a) h1).1⟩
  case arsinh =>
    obtain ⟨r, hr, -⟩ := hL.inverses.asinh x80 e a v h.is h.isIn
    exact ⟨fun s hs => absurd hs (Is_or_inf hr), fun h1 _ => (fixInf_finite (a := a) h1).2.2⟩
  case sinh =>
    refine ⟨fun s hs => ?_, fun h1 _ => (fixInf_finite (a := a) h1).2.2⟩
    rw [hs]; cases s <;> rfl
  case sech =>
    constructor
    · intro s hs; rw [hs]; rfl
    · intro h1 h2
      have hs : (UFun.sech.evl L a).sgn = false := by
        show (Fl.div x80 (.num 1) (L.cosh x80 a)).sgn = false
        rcases hL.hyperbolics.cosh x80 e a v h.is h.isIn with e | ⟨z, e, -, hz⟩
        · rw [e]; decide
        · rw [e]
          have z0 : ¬ 1 / z < 0 := by rw [one_div_neg]; linarith
          show (Fl.round x80 _ (1 / z)).sgn = false
          have z1 : 1 / z ≠ 0 := by have : 0 < z := by linarith
                                    positivity
          unfold Fl.round Fl.mk
          rw [if_neg z1]
          split_ifs
          · simpa [Fl.sgn] using z0
          · simpa [Fl.sgn] using z0
          · have := x80.rq_nonneg (not_lt.mp z0)
            simpa [Fl.sgn] using this
      rw [hs]
      show fixSech a _ = _
      unfold fixSech
      rw [if_pos ((Fl.eq_zero_iff _).mpr ⟨h1, h2⟩)]; rfl
  case csch =>
    constructor
    · intro s hs; rw [hs]; rfl
    · intro h1 h2
      have hz := (Fl.eq_zero_iff _).mpr ⟨h1, h2⟩
      have key : (UFun.csch.evl L a).sgn = Fl.lt a (.zero false) := by
        change (Fl.div x80 (.num 1) (L.sinh x80 a)).isfinite = true at h1
        change (Fl.div x80 (.num 1) (L.sinh x80 a)).toQ = 0 at h2
        show (Fl.div x80 (.num 1) (L.sinh x80 a)).sgn = _
        rcases h.is.cases with ⟨hv, rfl⟩ | ⟨-, s, rfl⟩
        · have el : Fl.lt (.num v) (.zero false) = decide (v < 0) := rfl
          rw [el]
          rcases hL.hyperbolics.sinh x80 e v hv h.isIn with e | ⟨z, e, -, hb, hs⟩
          · rw [e]; show (Bool.xor (decide ((1 : ℚ) < 0)) (decide (v < 0))) = _
            rw [show decide ((1 : ℚ) < 0) = false by decide +kernel, Bool.false_xor]
          · have hz : z ≠ 0 := by
              rintro rfl
              have := abs_pos.mpr hv
              rw [abs_zero] at hb; linarith
            rw [e] at h1 h2 ⊢
            change (Fl.round x80 _ (1 / z)).isfinite = true at h1
            change (Fl.round x80 _ (1 / z)).toQ = 0 at h2
            show (Fl.round x80 _ (1 / z)).sgn = _
            have z1 : 1 / z ≠ 0 := one_div_ne_zero hz
            have hd : decide (1 / z < 0) = decide (v < 0) := by
              rw [Bool.eq_iff_iff, decide_eq_true_iff, decide_eq_true_iff, one_div_neg, hs]
            unfold Fl.round Fl.mk at h1 h2 ⊢
            rw [if_neg z1] at h1 h2 ⊢
            split_ifs at h1 h2 ⊢ with c1 c2
            · simp [Fl.isfinite] at h1
            · exact hd
            · exact absurd h2 c2
        · rw [hL.hyperbolics.sinh_zero, div1_zero] at h1
          simp [Fl.isfinite] at h1
      rw [key]
      show fixCsch a _ = _
      unfold fixCsch
      rw [if_pos hz]; rfl
  all_goals exact fixes_noFix rfl rfl rfl _ _

/-- The value a test expects is the converted result `y` of the function in `long double` if infinite results are
replaced by `DBL_MAX` if `G`, zeros by `DBL_MIN` if `N`, and others are kept, and the flags are raised accordingly. -/
theorem expected_gen {L : Libm} (hL : L.Conforming) {k : Kind} {w : W} {y raw : Fl} {G N : Bool} {fl : Bool × Bool}
    (h1 : fl.2 = true → (raw.isinf = true ∧ G = true) ∨ (raw.isfinite = true ∧ raw.toQ = 0 ∧ N = true))
    (h2 : raw.isinf = true → G = true → fl.2 = true)
    (h3 : raw.isfinite = true → raw.toQ = 0 → if N then fl.1 = true ∨ fl.2 = true else fl.1 = false)
    (hG : G = true → ∀ s, raw = .inf s → y = if s then DBL_MAX.neg else DBL_MAX)
    (hN : N = true → raw.isfinite = true → raw.toQ = 0 → y = if raw.sgn then DBL_MIN.neg else DBL_MIN)
    (he : ¬(raw.isinf = true ∧ G = true) → ¬(raw.isfinite = true ∧ raw.toQ = 0 ∧ N = true) → fromExt L k w y = fromExt L k w raw) :
    ∃ v : T w, fromExt L k w y = .ok v ∧ Expected L k w raw fl v.toInt := by
  obtain ⟨f1, f2⟩ := fl
  simp only at h1 h2 h3
  obtain ⟨M, eM, pM, iM⟩ := dbl_max' (F := x80) (Or.inr rfl)
  obtain ⟨m, em, pm, qm, im⟩ := dbl_min' (F := x80) (Or.inr rfl)
  have M0 : 0 < M := lt_of_lt_of_le (by positivity) pM
  by_cases hi : raw.isinf = true ∧ G = true
  · obtain ⟨hi, g⟩ := hi
    obtain rfl := h2 hi g
    cases raw with
    | inf s =>
      rw [hG g s rfl, eM]
      cases s
      · obtain ⟨v, ev, hv, -⟩ := from_huge hL k w (Fl.Is.num M0.ne') iM
        exact ⟨v, ev, by rw [hv pM]; exact .huge _ _ (.inl rfl)⟩
      · obtain ⟨v, ev, -, hv, -⟩ := from_huge hL k w (Fl.Is.num M0.ne').neg (In_neg iM)
        exact ⟨v, ev, by rw [hv (by linarith)]; exact .negHuge _ _ (.inr (.inl rfl))⟩
    | _ => simp [Fl.isinf] at hi
  by_cases hz : raw.isfinite = true ∧ raw.toQ = 0 ∧ N = true
  · obtain ⟨z1, z2, n⟩ := hz
    have h3 := h3 z1 z2
    rw [if_pos n] at h3
    have ex := Expected.tiny (L := L) (k := k) (w := w) raw f1 f2 h3 ⟨z1, z2⟩
    rw [hN n z1 z2, em]
    cases hs : raw.sgn <;> rw [hs] at ex
    · obtain ⟨v, ev, -, -, hv, -⟩ := from_huge hL k w (Fl.Is.num pm.ne') im
      exact ⟨v, ev, by rw [hv pm qm]; exact ex⟩
    · obtain ⟨v, ev, -, -, -, hv⟩ := from_huge hL k w (Fl.Is.num pm.ne').neg (In_neg im)
      exact ⟨v, ev, by rw [hv (by linarith) (by linarith)]; exact ex⟩
  · obtain rfl : f2 = false := by
      rw [← Bool.not_eq_true]
      intro h
      rcases h1 h with h | h
      · exact hi h
      · exact hz h
    obtain ⟨v, hv⟩ := fromExt_ok L k w raw
    refine ⟨v, by rw [he hi hz]; exact hv, .regular _ _ _ ?_ hv⟩
    by_cases h : raw.isfinite = true ∧ raw.toQ = 0
    · left
      have := h3 h.1 h.2
      rwa [if_neg (fun n => hz ⟨h.1, h.2, n⟩)] at this
    · exact .inr h

end Takum.Test
