import Verif.Lemmas.Call
import Verif.Manual

/-! # Where the elementary functions are finite -/

namespace Takum
open Spec

/-- A finite number of the type. -/
def Fl.Fin (F : Fmt) (x : Fl) : Prop := ∃ r, Fl.Is x r ∧ F.In r

theorem Fl.Within.fin {F : Fmt} {b : ℚ} {x : Fl} (h : x.Within F b) : x.Fin F := by
  obtain ⟨r, h1, h2, -⟩ := h; exact ⟨r, h1, h2⟩

/-- Not NaN, and a value of the type. -/
def Fl.Tame (F : Fmt) (x : Fl) : Prop := x ≠ .nan ∧ x.In F

theorem std_facts {F : Fmt} (hF : F = b64 ∨ F = x80) : 53 ≤ F.prec ∧ F.emin ≤ -1074 ∧ 1024 ≤ F.emax := by
  rcases hF with rfl | rfl <;> decide

theorem rq_pow {F : Fmt} (hF : F = b64 ∨ F = x80) {q : ℚ} {k : ℕ} (hk : k ≤ 1000) (h : |q| ≤ 2 ^ k) :
    |F.rq q| ≤ 2 ^ k ∧ F.In (F.rq q) := by
  obtain ⟨h1, h2, h3⟩ := std_facts hF
  have hr : F.Rep ((2 : ℚ) ^ (k : ℤ)) := Fmt.Rep.zpow (by omega) (by omega)
  have a : |F.rq q| ≤ (2 : ℚ) ^ (k : ℤ) := F.abs_rq_le (by omega) hr (by exact_mod_cast h)
  exact ⟨by exact_mod_cast a, F.rq_rep (by omega) q, lt_of_le_of_lt a (zpow_lt_zpow_right₀ (by norm_num) (by omega))⟩

theorem Fl.Is.cast_within {F : Fmt} (hF : F = b64 ∨ F = x80) {x : Fl} {q : ℚ} {k : ℕ} (hk : k ≤ 1000) (hx : x.Is q) (h : |q| ≤ 2 ^ k) :
    (Fl.cast F x).Is (F.rq q) ∧ (Fl.cast F x).Within F (2 ^ k) := by
  obtain ⟨a, b⟩ := rq_pow hF hk h
  exact ⟨hx.cast b.2, _, hx.cast b.2, b, a⟩

theorem Fl.Within.cast {F : Fmt} (hF : F = b64 ∨ F = x80) {x : Fl} {k : ℕ} (hk : k ≤ 1000) (h : x.Within x80 (2 ^ k)) :
    (Fl.cast F x).Within F (2 ^ k) := by
  obtain ⟨r, h1, -, h3⟩ := h
  exact (h1.cast_within hF hk h3).2

theorem cast_bad {F : Fmt} {x : Fl} (h : x.isfinite = false) : (Fl.cast F x).isfinite = false := by
  cases x <;> simp_all [Fl.isfinite, Fl.cast]

/-- The functions whose `double` version is the `long double` version with the result converted. -/
def CastFun : UFun → Bool
  | .two_raised | .exp | .exp_minus_1 | .ln | .ln_1_plus | .lb | .lg | .sin | .cos | .tan | .arcsin | .arccos | .arctan
  | .sinh | .cosh | .tanh | .arsinh | .arcosh | .artanh | .sech => false
  | _ => true

theorem evd_cast (L : Libm) {u : UFun} (h : CastFun u = true) (f : Fl) : u.evd L f = Fl.cast b64 (u.evl L f) := by
  cases u <;> first | rfl | simp [CastFun] at h

theorem ev_within {L : Libm} {u : UFun} (hu : CastFun u = true) {F : Fmt} (hF : F = b64 ∨ F = x80) {r : Fl} {k : ℕ} (hk : k ≤ 1000)
    (h : (u.evl L r).Within x80 (2 ^ k)) : (u.ev L F r).Within F (2 ^ k) := by
  rcases hF with rfl | rfl
  · rw [ev_b64, evd_cast L hu]; exact h.cast (Or.inl rfl) hk
  · rw [ev_x80]; exact h

theorem ev_bad {L : Libm} {u : UFun} (hu : CastFun u = true) {F : Fmt} (hF : F = b64 ∨ F = x80) {r : Fl}
    (h : (u.evl L r).isfinite = false) : (u.ev L F r).isfinite = false := by
  rcases hF with rfl | rfl
  · rw [ev_b64, evd_cast L hu]; exact cast_bad h
  · rw [ev_x80]; exact h

theorem tame_round {F : Fmt} (hF : F = b64 ∨ F = x80) (z : Bool) (q : ℚ) : (Fl.round F z q).Tame F := by
  have hp := (std_facts hF).1
  unfold Fl.round Fl.mk
  split_ifs with h1 h2 h3
  · exact ⟨by simp, trivial⟩
  · exact ⟨by simp, trivial⟩
  · exact ⟨by simp, trivial⟩
  · exact ⟨by simp, h3, F.rq_rep (by omega) q, not_le.mp h2⟩

theorem tame_cast {F : Fmt} (hF : F = b64 ∨ F = x80) {x : Fl} (h : x ≠ .nan) : (Fl.cast F x).Tame F := by
  cases x with
  | nan => exact absurd rfl h
  | inf s => exact ⟨by simp [Fl.cast], trivial⟩
  | zero s => exact ⟨by simp [Fl.cast], trivial⟩
  | num q => exact tame_round hF _ _

theorem ev_tame {L : Libm} {u : UFun} (hu : CastFun u = true) {F : Fmt} (hF : F = b64 ∨ F = x80) {r : Fl}
    (h : (u.evl L r).Tame x80) : (u.ev L F r).Tame F := by
  rcases hF with rfl | rfl
  · rw [ev_b64, evd_cast L hu]; exact tame_cast (Or.inl rfl) h.1
  · rw [ev_x80]; exact h

theorem Fl.Tame.fin {F : Fmt} {x : Fl} (h : x.Tame F) (hi : x.isinf = false) : x.Fin F := by
  cases x with
  | nan => exact absurd rfl h.1
  | inf s => simp [Fl.isinf] at hi
  | zero s => exact ⟨0, Fl.Is.zero s, Fmt.Rep.zero F, by rw [abs_zero]; positivity⟩
  | num q => exact ⟨q, Fl.Is.num h.2.1, h.2.2⟩

theorem Fl.Fin.tame {F : Fmt} {x : Fl} (h : x.Fin F) : x.Tame F := by
  obtain ⟨r, h1, h2⟩ := h
  rcases h1.cases with ⟨h, rfl⟩ | ⟨h, s, rfl⟩
  · exact ⟨by simp, h, h2⟩
  · exact ⟨by simp, trivial⟩

theorem dbl_max {F : Fmt} (hF : F = b64 ∨ F = x80) : ∃ q : ℚ, DBL_MAX = .num q ∧ 0 < q ∧ F.In q := by
  have hb : b64.In ((2 - 1 / 2 ^ 52) * 2 ^ 1023) := by
    refine ⟨⟨2 ^ 53 - 1, 971, by decide +kernel, by decide, by decide⟩, by decide +kernel⟩
  refine ⟨_, rfl, by decide +kernel, ?_⟩
  rcases hF with rfl | rfl
  · exact hb
  · exact Fmt.b64_x80 hb

theorem dbl_min {F : Fmt} (hF : F = b64 ∨ F = x80) : ∃ q : ℚ, DBL_MIN = .num q ∧ 0 < q ∧ F.In q := by
  have hb : b64.In (1 / 2 ^ 1022) := by
    refine ⟨⟨1, -1022, by decide +kernel, by decide, by decide⟩, by decide +kernel⟩
  refine ⟨_, rfl, by decide +kernel, ?_⟩
  rcases hF with rfl | rfl
  · exact hb
  · exact Fmt.b64_x80 hb

/-! ## Exponentials -/

/-- Result of `fixExp`. -/
theorem fixExp_pos {F : Fmt} (hF : F = b64 ∨ F = x80) (a : Fl) {x : Fl} (h : x.Tame F) (hs : x.sgn = false) :
    ∃ z, (fixExp a x).Is z ∧ F.In z ∧ 0 < z := by
  obtain ⟨M, e1, p1, i1⟩ := dbl_max hF
  obtain ⟨m, e2, p2, i2⟩ := dbl_min hF
  cases x with
  | nan => exact absurd rfl h.1
  | inf s => exact ⟨M, by show DBL_MAX.Is M; rw [e1]; exact Fl.Is.num p1.ne', i1, p1⟩
  | zero s => exact ⟨m, by show DBL_MIN.Is m; rw [e2]; exact Fl.Is.num p2.ne', i2, p2⟩
  | num q =>
    have hq : q ≠ 0 := h.2.1
    have : fixExp a (.num q) = .num q := by simp [fixExp, Fl.eq, Fl.toQ, hq, Fl.isinf]
    rw [this]
    refine ⟨q, Fl.Is.num hq, h.2.2, ?_⟩
    simp [Fl.sgn] at hs
    exact lt_of_le_of_ne hs (Ne.symm hq)

theorem sgn_cast_tame {F : Fmt} {x : Fl} (h : x.Tame F) (G : Fmt) (hs : x.sgn = false) : (Fl.cast G x).sgn = false := by
  have h1 : x.isnan = false := by cases x <;> simp_all [Fl.isnan, Fl.Tame]
  have h2 : x ≠ .num 0 := by rintro rfl; exact h.2.1 rfl
  rw [(sgn_cast G h1 h2).1, hs]

theorem exp_core {L : Libm} (hL : L.Exps) {u : UFun} (hu : u = .exp ∨ u = .two_raised ∨ u = .ten_raised) {F : Fmt} (hF : F = b64 ∨ F = x80)
    {r : Fl} (hr : r.isfinite = true) (h0 : r ≠ .num 0) : ∃ z, (u.fix r (u.ev L F r)).Is z ∧ F.In z ∧ 0 < z := by
  rcases hu with rfl | rfl | rfl
  · obtain ⟨a, b, c⟩ := hL.exp F hF r hr h0
    rcases hF with rfl | rfl
    · exact fixExp_pos (Or.inl rfl) r ⟨a, c⟩ b
    · rw [ev_x80]; exact fixExp_pos (Or.inr rfl) r ⟨a, c⟩ b
  · obtain ⟨a, b, c⟩ := hL.exp2 F hF r hr h0
    rcases hF with rfl | rfl
    · exact fixExp_pos (Or.inl rfl) r ⟨a, c⟩ b
    · rw [ev_x80]; exact fixExp_pos (Or.inr rfl) r ⟨a, c⟩ b
  · obtain ⟨a, b, c⟩ := hL.pow10 r hr h0
    rcases hF with rfl | rfl
    · exact fixExp_pos (Or.inl rfl) r (tame_cast (Or.inl rfl) a) (sgn_cast_tame (F := x80) ⟨a, c⟩ _ b)
    · rw [ev_x80]; exact fixExp_pos (Or.inr rfl) r ⟨a, c⟩ b

theorem fixInf_fin {F : Fmt} (hF : F = b64 ∨ F = x80) (a : Fl) {x : Fl} (h : x.Tame F) : (fixInf a x).Fin F := by
  obtain ⟨M, e1, p1, i1⟩ := dbl_max hF
  unfold fixInf
  split_ifs with hi
  · exact ⟨M, by rw [e1]; exact Fl.Is.num p1.ne', i1⟩
  · exact h.fin (by simpa using hi)

theorem sub_one_tame {x : Fl} (h : x.Tame x80) : (Fl.sub x80 x (.num 1)).Tame x80 := by
  cases x with
  | nan => exact absurd rfl h.1
  | inf s => exact ⟨by simp [Fl.sub, Fl.neg, Fl.add], trivial⟩
  | zero s => exact tame_round (Or.inr rfl) _ _
  | num q => exact tame_round (Or.inr rfl) _ _

theorem expm1_core {L : Libm} (hL : L.Exps) {u : UFun} (hu : u = .exp_minus_1 ∨ u = .two_raised_minus_1 ∨ u = .ten_raised_minus_1)
    {F : Fmt} (hF : F = b64 ∨ F = x80) {r : Fl} (hr : r.isfinite = true) (h0 : r ≠ .num 0) : (u.fix r (u.ev L F r)).Fin F := by
  rcases hu with rfl | rfl | rfl
  · obtain ⟨a, c⟩ := hL.expm1 F hF r hr h0
    rcases hF with rfl | rfl
    · exact fixInf_fin (Or.inl rfl) r ⟨a, c⟩
    · rw [ev_x80]; exact fixInf_fin (Or.inr rfl) r ⟨a, c⟩
  · obtain ⟨a, b, c⟩ := hL.exp2 x80 (Or.inr rfl) r hr h0
    exact fixInf_fin hF r (ev_tame rfl hF (sub_one_tame ⟨a, c⟩))
  · obtain ⟨a, b, c⟩ := hL.pow10 r hr h0
    exact fixInf_fin hF r (ev_tame rfl hF (sub_one_tame ⟨a, c⟩))

/-! ## Logarithms -/

theorem fixLog_fin {F : Fmt} (a : Fl) {x : Fl} (h : x.Fin F) : (fixLog a x).Fin F := by
  obtain ⟨r, h1, h2⟩ := h
  unfold fixLog
  rw [h1.isinf]
  exact ⟨r, h1, h2⟩

theorem fixLog_nan (a : Fl) : (fixLog a .nan).isfinite = false := rfl
theorem fixLog_inf (a : Fl) : (fixLog a (.inf true)).isfinite = false := rfl

theorem loglike_core {f : Fmt → Fl → Fl} {c : ℚ} (hf : LogLike c f) {F : Fmt} (hF : F = b64 ∨ F = x80) {r : Fl} {v : ℚ}
    (hr : r.Is v) (hv : F.In v) : (v ≤ c → f F r = .nan ∨ f F r = .inf true) ∧ (c < v → (f F r).Within F (2 ^ 100)) := by
  refine ⟨fun h => ?_, fun h => hf.above F hF r v hr h hv⟩
  rcases lt_or_eq_of_le h with h | rfl
  · exact Or.inl (hf.below F hF r v hr h)
  · exact Or.inr (hf.pole F hF r hr)

theorem fix_bad {a x : Fl} (h : x = .nan ∨ x = .inf true) : (fixLog a x).isfinite = false := by
  rcases h with rfl | rfl <;> rfl

theorem mul_within {c : ℚ} (hc : 0 < c) (hc2 : c ≤ 4) {x : Fl} {k : ℕ} (hk : k ≤ 900) (h : x.Within x80 (2 ^ k)) :
    (Fl.mul x80 (.num c) x).Within x80 (2 ^ (k + 2)) := by
  obtain ⟨r, h1, h2, h3⟩ := h
  have hb : |c * r| ≤ 2 ^ (k + 2) := by
    rw [abs_mul, abs_of_pos hc, pow_add]
    have : (0 : ℚ) ≤ |r| := abs_nonneg r
    nlinarith
  obtain ⟨a, b⟩ := rq_pow (F := x80) (Or.inr rfl) (by omega) hb
  exact ⟨_, (Fl.Is.num hc.ne').mul h1 b.2, b, a⟩

theorem mul_bad {c : ℚ} (hc : 0 < c) {x : Fl} (h : x = .nan ∨ x = .inf true) :
    Fl.mul x80 (.num c) x = .nan ∨ Fl.mul x80 (.num c) x = .inf true := by
  rcases h with rfl | rfl
  · exact Or.inl rfl
  · right; simp [Fl.mul, Fl.sgn, hc.le]

theorem lbe : ∃ c : ℚ, LB_E = .num c ∧ 0 < c ∧ c ≤ 4 := ⟨_, rfl, by decide +kernel, by decide +kernel⟩
theorem lge : ∃ c : ℚ, LG_E = .num c ∧ 0 < c ∧ c ≤ 4 := ⟨_, rfl, by decide +kernel, by decide +kernel⟩
theorem pie : ∃ c : ℚ, PI = .num c ∧ 3 ≤ c ∧ c ≤ 4 := ⟨_, rfl, by decide +kernel, by decide +kernel⟩

/-! ## Division by the argument -/

/-- `1.0L / f`. -/
theorem div1 {w : W} {F : Fmt} {r : Fl} {v : ℚ} {x : ℝ} (h : Arg F w r v x) (hv : v ≠ 0) :
    (Fl.div x80 (.num 1) r).Is (x80.rq (1 / v)) ∧ x80.In (x80.rq (1 / v)) ∧ |x80.rq (1 / v)| ≤ 2 ^ 300 ∧
      (0 < v → 0 < x80.rq (1 / v)) ∧ (v < 0 → x80.rq (1 / v) < 0) := by
  have hb : |1 / v| ≤ 2 ^ 300 := by
    rw [abs_div, abs_one, div_le_iff₀ (abs_pos.mpr hv)]
    have := h.ge hv
    calc (1 : ℚ) = 2 ^ 300 * (2 : ℚ) ^ (-300 : ℤ) := by decide +kernel
      _ ≤ 2 ^ 300 * |v| := by gcongr
  obtain ⟨a, b⟩ := rq_pow (F := x80) (Or.inr rfl) (by norm_num) hb
  have hge : (2 : ℚ) ^ (-300 : ℤ) ≤ |1 / v| := by
    rw [abs_div, abs_one, le_div_iff₀ (abs_pos.mpr hv)]
    calc (2 : ℚ) ^ (-300 : ℤ) * |v| ≤ (2 : ℚ) ^ (-300 : ℤ) * (2 : ℚ) ^ (300 : ℤ) := by gcongr; exact h.le
      _ = 1 := by decide +kernel
  have pos : ∀ y : ℚ, (2 : ℚ) ^ (-300 : ℤ) ≤ y → 0 < x80.rq y := fun y hy =>
    lt_of_lt_of_le (by positivity) (x80.le_rq (by decide) (Fmt.Rep.zpow (by decide) (by decide)) hy)
  refine ⟨(Fl.Is.num (by norm_num)).div h.is hv b.2, b, a, fun hp => ?_, fun hn => ?_⟩
  · rw [abs_of_pos (by positivity)] at hge; exact pos _ hge
  · have : 1 / v < 0 := one_div_neg.mpr hn
    rw [abs_of_neg this] at hge
    have := pos _ hge
    rw [x80.rq_neg] at this; linarith

/-- Comparison of `1.0L / f` with one. -/
theorem div1_cmp {w : W} {F : Fmt} {r : Fl} {v : ℚ} {x : ℝ} (h : Arg F w r v x) (hv : v ≠ 0) :
    (1 ≤ |v| → |x80.rq (1 / v)| ≤ 1) ∧ (|v| < 1 → 1 < |x80.rq (1 / v)|) ∧ (|v| ≤ 1 → 1 ≤ |x80.rq (1 / v)|) ∧
    (1 < |v| → |x80.rq (1 / v)| ≤ 1 - 1 / 2 ^ (w.n - 2)) := by
  have e : |x80.rq (1 / v)| = x80.rq (1 / |v|) := by rw [← Fmt.abs_rq, abs_div, abs_one]
  rw [e]
  have hp := abs_pos.mpr hv
  obtain ⟨s1, s2, s3⟩ := sep_pow w
  have h1 : x80.Rep (1 : ℚ) := (one_in (F := x80) (by simp)).1
  have hm : (2 : ℚ) ^ (w.n - 2) = 8 * 2 ^ (w.n - 5) ∧ (2 : ℚ) ^ (w.n - 3) = 4 * 2 ^ (w.n - 5) := by cases w <;> decide +kernel
  have hd0 : (0 : ℚ) < 1 / 2 ^ (w.n - 5) := by positivity
  have hd8 : (1 : ℚ) / 2 ^ (w.n - 5) ≤ 1 / 8 := one_div_le_one_div_of_le (by norm_num) s2
  have e3 : (1 : ℚ) / 2 ^ (w.n - 3) = 1 / 2 ^ (w.n - 5) / 4 := by rw [hm.2]; field_simp
  have e2 : (1 : ℚ) / 2 ^ (w.n - 2) = 1 / 2 ^ (w.n - 5) / 8 := by rw [hm.1]; field_simp
  refine ⟨fun h' => ?_, fun h' => ?_, fun h' => ?_, fun h' => ?_⟩
  · exact x80.rq_le (by decide) h1 (by rw [div_le_one hp]; exact h')
  · have hb := h.below h'
    have hr : x80.Rep (1 + 1 / 2 ^ (w.n - 3)) := by
      cases w
      · exact ⟨2 ^ 5 + 1, -5, by decide +kernel, by decide, by decide⟩
      · exact ⟨2 ^ 13 + 1, -13, by decide +kernel, by decide, by decide⟩
      · exact ⟨2 ^ 29 + 1, -29, by decide +kernel, by decide, by decide⟩
      · exact ⟨2 ^ 61 + 1, -61, by decide +kernel, by decide, by decide⟩
    have : 1 + 1 / 2 ^ (w.n - 3) ≤ 1 / |v| := by
      rw [le_div_iff₀ hp, e3]
      rw [e3] at hb
      generalize (1 : ℚ) / 2 ^ (w.n - 5) = d at *
      nlinarith
    have := x80.le_rq (by decide) hr this
    have : (0 : ℚ) < 1 / 2 ^ (w.n - 3) := by positivity
    linarith
  · exact x80.le_rq (by decide) h1 (by rw [le_div_iff₀ hp]; linarith)
  · have hb := h.above h'
    have hr : x80.Rep (1 - 1 / 2 ^ (w.n - 2)) := by
      cases w
      · exact ⟨2 ^ 6 - 1, -6, by decide +kernel, by decide, by decide⟩
      · exact ⟨2 ^ 14 - 1, -14, by decide +kernel, by decide, by decide⟩
      · exact ⟨2 ^ 30 - 1, -30, by decide +kernel, by decide, by decide⟩
      · exact ⟨2 ^ 62 - 1, -62, by decide +kernel, by decide, by decide⟩
    apply x80.rq_le (by decide) hr
    rw [div_le_iff₀ hp, e2]
    rw [e3] at hb
    generalize (1 : ℚ) / 2 ^ (w.n - 5) = d at *
    nlinarith

theorem div1_zero {s : Bool} : Fl.div x80 (.num 1) (.zero s) = .inf (xor false s) := by
  cases s <;> rfl

theorem div_pi_within {x : Fl} {k : ℕ} (hk : k ≤ 900) (h : x.Within x80 (2 ^ k)) : (Fl.div x80 x PI).Within x80 (2 ^ k) := by
  obtain ⟨c, e, c1, c2⟩ := pie
  obtain ⟨r, h1, h2, h3⟩ := h
  have hb : |r / c| ≤ 2 ^ k := by
    rw [abs_div, abs_of_pos (by linarith : 0 < c), div_le_iff₀ (by linarith)]
    have : (0 : ℚ) < 2 ^ k := by positivity
    nlinarith
  obtain ⟨a, b⟩ := rq_pow (F := x80) (Or.inr rfl) (by omega) hb
  rw [e]
  exact ⟨_, h1.div (Fl.Is.num (by linarith : 0 < c).ne') (by linarith : 0 < c).ne' b.2, b, a⟩

theorem div_pi_bad {x : Fl} (h : x = .nan) : (Fl.div x80 x PI).isfinite = false := by
  subst h; rfl

theorem add_within {x y : Fl} {k : ℕ} (hk : k ≤ 900) (h : x.Within x80 (2 ^ k)) (h' : y.Within x80 (2 ^ k)) :
    (Fl.add x80 x y).Within x80 (2 ^ (k + 1)) := by
  obtain ⟨r, h1, h2, h3⟩ := h
  obtain ⟨q, g1, g2, g3⟩ := h'
  have hb : |r + q| ≤ 2 ^ (k + 1) := by
    rw [pow_succ]; linarith [abs_add_le r q]
  obtain ⟨a, b⟩ := rq_pow (F := x80) (Or.inr rfl) (by omega) hb
  exact ⟨_, h1.add g1 b.2, b, a⟩

theorem pi_within : PI.Within x80 (2 ^ 2) := by
  obtain ⟨c, e, c1, c2⟩ := pie
  have hr : x80.In c := by
    have : c = x80.rq (3.1415926535897932384626433832795028841972 : ℚ) := by
      unfold PI at e; injection e with e; exact e.symm
    refine ⟨by rw [this]; exact x80.rq_rep (by decide) _, ?_⟩
    rw [abs_of_pos (by linarith)]
    exact lt_of_le_of_lt c2 (by decide +kernel)
  exact ⟨c, by rw [e]; exact Fl.Is.num (by linarith : 0 < c).ne', hr, by rw [abs_of_pos (by linarith)]; linarith⟩

/-! ## All functions -/

theorem ev_direct {L : Libm} {u : UFun} {f : Fmt → Fl → Fl} (h1 : u.evd L = f b64) (h2 : u.evl L = f x80) {F : Fmt}
    (hF : F = b64 ∨ F = x80) (r : Fl) : u.ev L F r = f F r := by
  rcases hF with rfl | rfl
  · rw [ev_b64, h1]
  · rw [ev_x80, h2]

theorem Is_ne {r : Fl} {v : ℚ} (h : r.Is v) : r ≠ .num 0 := by
  rcases h.cases with ⟨h, rfl⟩ | ⟨h, s, rfl⟩
  · intro e; injection e with e; exact ‹v ≠ 0› e
  · simp

theorem domain_log {L : Libm} {u : UFun} {f : Fmt → Fl → Fl} {c : ℚ} (hf : LogLike c f) (h1 : u.evd L = f b64) (h2 : u.evl L = f x80)
    (h3 : u.fix = fixLog) {F : Fmt} (hF : F = b64 ∨ F = x80) {r : Fl} {v : ℚ} (hr : r.Is v) (hv : F.In v) :
    (v ≤ c → (u.fix r (u.ev L F r)).isfinite = false) ∧ (¬v ≤ c → (u.fix r (u.ev L F r)).Fin F) := by
  rw [h3, ev_direct h1 h2 hF]
  obtain ⟨a, b⟩ := loglike_core hf hF hr hv
  exact ⟨fun h => fix_bad (a h), fun h => fixLog_fin _ (b (not_le.mp h)).fin⟩

theorem in_x80 {F : Fmt} (hF : F = b64 ∨ F = x80) {v : ℚ} (h : F.In v) : x80.In v := by
  rcases hF with rfl | rfl
  · exact Fmt.b64_x80 h
  · exact h

theorem domain_log1p {L : Libm} {u : UFun} (hL : LogLike (-1) L.log1p) {K : Fl} (hK : ∃ c : ℚ, K = .num c ∧ 0 < c ∧ c ≤ 4)
    (hu : CastFun u = true) (h2 : u.evl L = fun f => Fl.mul x80 K (L.log1p x80 f))
    (h3 : u.fix = fixLog) {F : Fmt} (hF : F = b64 ∨ F = x80) {r : Fl} {v : ℚ} (hr : r.Is v) (hv : F.In v) :
    (v ≤ -1 → (u.fix r (u.ev L F r)).isfinite = false) ∧ (¬v ≤ -1 → (u.fix r (u.ev L F r)).Fin F) := by
  obtain ⟨c, rfl, c1, c2⟩ := hK
  rw [h3]
  obtain ⟨a, b⟩ := loglike_core hL (Or.inr rfl) hr (in_x80 hF hv)
  refine ⟨fun h => ?_, fun h => ?_⟩
  · have h := mul_bad c1 (a h)
    apply fix_bad
    rcases hF with rfl | rfl
    · rw [ev_b64, evd_cast L hu, h2]
      rcases h with h | h
      · left; show Fl.cast b64 (Fl.mul x80 _ _) = _; rw [h]; rfl
      · right; show Fl.cast b64 (Fl.mul x80 _ _) = _; rw [h]; rfl
    · rw [ev_x80, h2]; exact h
  · apply fixLog_fin
    have := mul_within c1 c2 (by norm_num) (b (not_le.mp h))
    exact (ev_within hu hF (k := 102) (by norm_num) (by rw [h2]; exact this)).fin

/-- A function of the quotient `1.0L / f` without result fixer. -/
theorem domain_inv {L : Libm} {u : UFun} (hu : CastFun u = true) (h3 : u.fix = noFix) {F : Fmt} (hF : F = b64 ∨ F = x80) {r : Fl}
    {P : Prop} {k : ℕ} (hk : k ≤ 900) (h1 : P → (u.evl L r).isfinite = false) (h2 : ¬P → (u.evl L r).Within x80 (2 ^ k)) :
    (P → (u.fix r (u.ev L F r)).isfinite = false) ∧ (¬P → (u.fix r (u.ev L F r)).Fin F) := by
  rw [h3]
  exact ⟨fun h => ev_bad hu hF (h1 h), fun h => (ev_within hu hF (by omega) (h2 h)).fin⟩

theorem arg_cases {w : W} {F : Fmt} {r : Fl} {v : ℚ} {x : ℝ} (h : Arg F w r v x) :
    v = 0 ∧ (∃ s, Fl.div x80 (.num 1) r = .inf s) ∨ v ≠ 0 := by
  by_cases hv : v = 0
  · left; refine ⟨hv, ?_⟩
    rcases h.is.cases with ⟨h, _⟩ | ⟨_, s, rfl⟩
    · exact absurd hv h
    · exact ⟨_, div1_zero⟩
  · exact Or.inr hv

theorem within_x80 {F : Fmt} {x : Fl} {k : ℕ} (hF : F = b64 ∨ F = x80) (h : x.Within F (2 ^ k)) : x.Within x80 (2 ^ k) := by
  obtain ⟨r, a, b, c⟩ := h
  exact ⟨r, a, in_x80 hF b, c⟩

theorem four : ((4 : ℚ)) = 2 ^ 2 := by norm_num
theorem onep : ((1 : ℚ)) = 2 ^ 0 := by norm_num

/-! ## Hyperbolic functions -/

theorem rq_lt_zero (F : Fmt) {y : ℚ} (h : F.rq y ≠ 0) : F.rq y < 0 ↔ y < 0 := by
  constructor
  · intro h'
    by_contra hc
    exact absurd (F.rq_nonneg (not_lt.mp hc)) (not_le.mpr h')
  · intro h'
    have := F.rq_nonneg (x := -y) (by linarith)
    rw [F.rq_neg] at this
    exact lt_of_le_of_ne (by linarith) h

theorem sinh_core {L : Libm} (hL : L.Hyperbolics) {w : W} {F : Fmt} (hF : F = b64 ∨ F = x80) {r : Fl} {v : ℚ} {x : ℝ}
    (h : Arg F w r v x) : ∃ z, (fixSinh r (UFun.sinh.ev L F r)).Is z ∧ F.In z ∧ (z = 0 ↔ v = 0) ∧ (z < 0 ↔ v < 0) := by
  rw [ev_direct (f := L.sinh) rfl rfl hF]
  obtain ⟨M, e1, p1, i1⟩ := dbl_max hF
  rcases h.is.cases with ⟨hv, rfl⟩ | ⟨hv, s, rfl⟩
  · rcases hL.sinh F hF v hv h.isIn with e | ⟨z, e, hi, hb, hs⟩
    · rw [e]
      by_cases hn : v < 0
      · refine ⟨-M, ?_, In_neg i1, ?_, ?_⟩
        · have : fixSinh (.num v) (.inf (decide (v < 0))) = DBL_MAX.neg := by simp [fixSinh, hn, Fl.isinf, Fl.le, Fl.lt, Fl.eq]
          rw [this, e1]; exact (Fl.Is.num p1.ne').neg
        · simp [p1.ne', hv]
        · simp [p1, hn]
      · refine ⟨M, ?_, i1, ?_, ?_⟩
        · have : fixSinh (.num v) (.inf (decide (v < 0))) = DBL_MAX := by simp [fixSinh, hn, Fl.isinf, Fl.le, Fl.lt]
          rw [this, e1]; exact Fl.Is.num p1.ne'
        · simp [p1.ne', hv]
        · simp [p1.le, hn]
    · have hz : z ≠ 0 := by
        rintro rfl
        have := abs_pos.mpr hv
        rw [abs_zero] at hb; linarith
      rw [e]
      exact ⟨z, by show (Fl.num z).Is z; exact Fl.Is.num hz, hi, by simp [hz, hv], hs⟩
  · subst hv
    rw [hL.sinh_zero]
    exact ⟨0, Fl.Is.zero s, h.isIn, Iff.rfl, Iff.rfl⟩

theorem cosh_core {L : Libm} (hL : L.Hyperbolics) {w : W} {F : Fmt} (hF : F = b64 ∨ F = x80) {r : Fl} {v : ℚ} {x : ℝ}
    (h : Arg F w r v x) : ∃ z, (fixInf r (UFun.cosh.ev L F r)).Is z ∧ F.In z ∧ 0 < z := by
  rw [ev_direct (f := L.cosh) rfl rfl hF]
  obtain ⟨M, e1, p1, i1⟩ := dbl_max hF
  rcases hL.cosh F hF r v h.is h.isIn with e | ⟨z, e, hi, hz⟩
  · rw [e]
    exact ⟨M, by show DBL_MAX.Is M; rw [e1]; exact Fl.Is.num p1.ne', i1, p1⟩
  · rw [e]
    exact ⟨z, by show (Fl.num z).Is z; exact Fl.Is.num (by linarith : 0 < z).ne', hi, by linarith⟩

theorem tanh_core {L : Libm} (hL : L.Hyperbolics) {w : W} {F : Fmt} (hF : F = b64 ∨ F = x80) {r : Fl} {v : ℚ} {x : ℝ}
    (h : Arg F w r v x) : ∃ z, (UFun.tanh.ev L F r).Is z ∧ F.In z ∧ (z = 0 ↔ v = 0) ∧ (z < 0 ↔ v < 0) := by
  rw [ev_direct (f := L.tanh) rfl rfl hF]
  rcases h.is.cases with ⟨hv, rfl⟩ | ⟨hv, s, rfl⟩
  · obtain ⟨z, e, hi, hb, -, hs⟩ := hL.tanh F hF v (h.ge hv) h.isIn
    have hz : z ≠ 0 := by
      rintro rfl
      have : 0 < min |v| 1 := lt_min (abs_pos.mpr hv) (by norm_num)
      rw [abs_zero] at hb; linarith
    rw [e]
    exact ⟨z, Fl.Is.num hz, hi, by simp [hz, hv], hs⟩
  · subst hv
    rw [hL.tanh_zero]
    exact ⟨0, Fl.Is.zero s, h.isIn, Iff.rfl, Iff.rfl⟩

theorem sech_core {L : Libm} (hL : L.Hyperbolics) {w : W} {F : Fmt} (hF : F = b64 ∨ F = x80) {r : Fl} {v : ℚ} {x : ℝ}
    (h : Arg F w r v x) : ∃ z, (fixSech r (UFun.sech.ev L F r)).Is z ∧ F.In z ∧ 0 < z := by
  rw [ev_direct (f := fun F f => Fl.div F (.num 1) (L.cosh F f)) rfl rfl hF]
  obtain ⟨m, e2, p2, i2⟩ := dbl_min hF
  rcases hL.cosh F hF r v h.is h.isIn with e | ⟨z, e, hi, hz⟩
  · rw [e]
    exact ⟨m, by show DBL_MIN.Is m; rw [e2]; exact Fl.Is.num p2.ne', i2, p2⟩
  · have z0 : 0 < z := by linarith
    have hb : |1 / z| ≤ 2 ^ 0 := by
      rw [abs_of_pos (by positivity), pow_zero, div_le_one z0]; exact hz
    obtain ⟨a, b⟩ := rq_pow hF (by norm_num) hb
    have i : (Fl.div F (.num 1) (L.cosh F r)).Is (F.rq (1 / z)) := by
      rw [e]; exact (Fl.Is.num (by norm_num)).div (Fl.Is.num z0.ne') z0.ne' b.2
    have hn : 0 ≤ F.rq (1 / z) := F.rq_nonneg (by positivity)
    show ∃ z, (fixSech r (Fl.div F (.num 1) (L.cosh F r))).Is z ∧ F.In z ∧ 0 < z
    unfold fixSech
    split_ifs with hc
    · exact ⟨m, by rw [e2]; exact Fl.Is.num p2.ne', i2, p2⟩
    · rw [Fl.eq_iff i (Fl.Is.zero false)] at hc
      exact ⟨_, i, b, lt_of_le_of_ne hn (Ne.symm hc)⟩

theorem csch_core {L : Libm} (hL : L.Hyperbolics) {w : W} {F : Fmt} (hF : F = b64 ∨ F = x80) {r : Fl} {v : ℚ} {x : ℝ}
    (h : Arg F w r v x) : (v = 0 → (fixCsch r (UFun.csch.ev L F r)).isfinite = false) ∧
    (v ≠ 0 → ∃ z, (fixCsch r (UFun.csch.ev L F r)).Is z ∧ F.In z ∧ z ≠ 0 ∧ (z < 0 ↔ v < 0)) := by
  have hx : x80 = b64 ∨ x80 = x80 := Or.inr rfl
  obtain ⟨m, e2, p2, i2⟩ := dbl_min hF
  have hmin : ∀ r : Fl, r.Is v → v ≠ 0 → ∀ y : Fl, y.Is 0 → ∃ z, (fixCsch r y).Is z ∧ F.In z ∧ z ≠ 0 ∧ (z < 0 ↔ v < 0) := by
    intro r hr hv y hy
    unfold fixCsch
    rw [if_pos ((Fl.eq_iff hy (Fl.Is.zero false)).mpr rfl)]
    split_ifs with hc
    · rw [Fl.lt_iff hr (Fl.Is.zero false)] at hc
      exact ⟨-m, by rw [e2]; exact (Fl.Is.num p2.ne').neg, In_neg i2, by simp [p2.ne'], by simp [p2, hc]⟩
    · rw [Fl.lt_iff hr (Fl.Is.zero false)] at hc
      exact ⟨m, by rw [e2]; exact Fl.Is.num p2.ne', i2, p2.ne', by simp [p2.le, hc]⟩
  have hmid : ∀ r : Fl, r.Is v → v ≠ 0 → ∀ (y : Fl) (q : ℚ), y.Is q → F.In q → (q ≠ 0 → (q < 0 ↔ v < 0)) →
      ∃ z, (fixCsch r y).Is z ∧ F.In z ∧ z ≠ 0 ∧ (z < 0 ↔ v < 0) := by
    intro r hr hv y q hy hq hs
    by_cases hq0 : q = 0
    · subst hq0; exact hmin r hr hv y hy
    · have : fixCsch r y = y := by
        unfold fixCsch
        rw [if_neg]; rw [Fl.eq_iff hy (Fl.Is.zero false)]; exact hq0
      rw [this]; exact ⟨q, hy, hq, hq0, hs hq0⟩
  refine ⟨fun hv => ?_, fun hv => ?_⟩
  · rcases h.is.cases with ⟨h, _⟩ | ⟨_, s, rfl⟩
    · exact absurd hv h
    have : UFun.csch.ev L F (.zero s) = .inf s := by
      have e : UFun.csch.evl L (.zero s) = .inf s := by
        show Fl.div x80 (.num 1) (L.sinh x80 (.zero s)) = _
        rw [hL.sinh_zero, div1_zero]; simp
      rcases hF with rfl | rfl
      · rw [ev_b64, evd_cast L rfl, e]; rfl
      · rw [ev_x80, e]
    rw [this]; rfl
  · have hr := h.is.eq_num hv
    subst hr
    have evl : (∃ s, UFun.csch.evl L (.num v) = .zero s) ∨
        ∃ q, (UFun.csch.evl L (.num v)).Is q ∧ |q| ≤ 2 ^ 302 ∧ x80.In q ∧ (q ≠ 0 → (q < 0 ↔ v < 0)) := by
      rcases hL.sinh x80 hx v hv (in_x80 hF h.isIn) with e | ⟨z, e, hi, hb, hs⟩
      · left
        refine ⟨xor (Fl.num 1).sgn (decide (v < 0)), ?_⟩
        show Fl.div x80 (.num 1) (L.sinh x80 (.num v)) = _
        rw [e]; rfl
      · right
        have hvp := abs_pos.mpr hv
        have hz : z ≠ 0 := by
          rintro rfl
          rw [abs_zero] at hb; linarith
        have hb' : |1 / z| ≤ 2 ^ 302 := by
          rw [abs_div, abs_one, div_le_iff₀ (abs_pos.mpr hz)]
          have h1 := h.ge hv
          calc (1 : ℚ) = 2 ^ 300 * (2 : ℚ) ^ (-300 : ℤ) := by decide +kernel
            _ ≤ 2 ^ 300 * |v| := by gcongr
            _ ≤ 2 ^ 300 * (2 * |z|) := by gcongr; linarith
            _ ≤ 2 ^ 302 * |z| := by
              have := abs_nonneg z
              have e : (2 : ℚ) ^ 302 = 4 * 2 ^ 300 := by rw [show 302 = 2 + 300 by norm_num, pow_add]; norm_num
              rw [e]
              clear e
              have : (0 : ℚ) ≤ 2 ^ 300 := by positivity
              generalize (2 : ℚ) ^ 300 = B at *
              nlinarith
        obtain ⟨a, b⟩ := rq_pow hx (by norm_num) hb'
        refine ⟨x80.rq (1 / z), ?_, a, b, fun hq => ?_⟩
        · show (Fl.div x80 (.num 1) (L.sinh x80 (.num v))).Is _
          rw [e]; exact (Fl.Is.num (by norm_num)).div (Fl.Is.num hz) hz b.2
        · rw [rq_lt_zero _ hq, one_div_neg]; exact hs
    rcases hF with rfl | rfl
    · rw [ev_b64, evd_cast L rfl]
      rcases evl with ⟨s, e⟩ | ⟨q, hq, hb, -, hs⟩
      · rw [e]; exact hmin _ h.is hv _ (Fl.Is.zero s)
      · obtain ⟨a, b⟩ := rq_pow (F := b64) (Or.inl rfl) (by norm_num) hb
        refine hmid _ h.is hv _ _ (hq.cast b.2) b fun hq0 => ?_
        rw [rq_lt_zero _ hq0]
        refine hs ?_
        rintro rfl
        rw [b64.rq_of_rep (Fmt.Rep.zero _)] at hq0; exact hq0 rfl
    · rw [ev_x80]
      rcases evl with ⟨s, e⟩ | ⟨q, hq, -, hi, hs⟩
      · rw [e]; exact hmin _ h.is hv _ (Fl.Is.zero s)
      · exact hmid _ h.is hv _ _ hq hi hs

theorem coth_core {L : Libm} (hL : L.Hyperbolics) {w : W} {F : Fmt} (hF : F = b64 ∨ F = x80) {r : Fl} {v : ℚ} {x : ℝ}
    (h : Arg F w r v x) : (v = 0 → (UFun.coth.ev L F r).isfinite = false) ∧
    (v ≠ 0 → ∃ z, (UFun.coth.ev L F r).Is z ∧ F.In z ∧ z ≠ 0 ∧ (z < 0 ↔ v < 0)) := by
  have hx : x80 = b64 ∨ x80 = x80 := Or.inr rfl
  refine ⟨fun hv => ?_, fun hv => ?_⟩
  · rcases h.is.cases with ⟨h, _⟩ | ⟨_, s, rfl⟩
    · exact absurd hv h
    apply ev_bad rfl hF
    show (Fl.div x80 (.num 1) (L.tanh x80 (.zero s))).isfinite = false
    rw [hL.tanh_zero, div1_zero]; rfl
  · have hr := h.is.eq_num hv
    subst hr
    obtain ⟨z, e, hi, hb, h1, hs⟩ := hL.tanh x80 hx v (h.ge hv) (in_x80 hF h.isIn)
    have hvp := abs_pos.mpr hv
    have hz : z ≠ 0 := by
      rintro rfl
      have : 0 < min |v| 1 := lt_min hvp (by norm_num)
      rw [abs_zero] at hb; linarith
    have hzp := abs_pos.mpr hz
    have hm : (2 : ℚ) ^ (-300 : ℤ) ≤ min |v| 1 := le_min (h.ge hv) (by decide +kernel)
    have hb' : |1 / z| ≤ 2 ^ 302 := by
      rw [abs_div, abs_one, div_le_iff₀ hzp]
      calc (1 : ℚ) = 2 ^ 302 * ((2 : ℚ) ^ (-300 : ℤ) / 4) := by decide +kernel
        _ ≤ 2 ^ 302 * |z| := by gcongr; linarith
    have hge : 1 ≤ |1 / z| := by rw [abs_div, abs_one, le_div_iff₀ hzp]; linarith
    have i : (UFun.coth.evl L (.num v)).Is (x80.rq (1 / z)) := by
      show (Fl.div x80 (.num 1) (L.tanh x80 (.num v))).Is _
      rw [e]; exact (Fl.Is.num (by norm_num)).div (Fl.Is.num hz) hz (rq_pow hx (by norm_num) hb').2.2
    have g1 : 1 ≤ |x80.rq (1 / z)| := by rw [← Fmt.abs_rq]; exact x80.le_rq (by decide) (one_in (F := x80) (by simp)).1 hge
    have n1 : x80.rq (1 / z) ≠ 0 := by intro h; rw [h] at g1; norm_num at g1
    have s1 : x80.rq (1 / z) < 0 ↔ v < 0 := by rw [rq_lt_zero _ n1, one_div_neg]; exact hs
    obtain ⟨a1, b1⟩ := rq_pow hx (by norm_num) hb'
    rcases hF with rfl | rfl
    · rw [ev_b64, evd_cast L rfl]
      obtain ⟨a, b⟩ := rq_pow (F := b64) (Or.inl rfl) (by norm_num) a1
      have g2 : 1 ≤ |b64.rq (x80.rq (1 / z))| := by rw [← Fmt.abs_rq]; exact b64.le_rq (by decide) (one_in (F := b64) (by simp)).1 g1
      have n2 : b64.rq (x80.rq (1 / z)) ≠ 0 := by intro h; rw [h] at g2; norm_num at g2
      exact ⟨_, i.cast b.2, b, n2, by rw [rq_lt_zero _ n2]; exact s1⟩
    · rw [ev_x80]; exact ⟨_, i, b1, n1, s1⟩

theorem domain_core {L : Libm} (hL : L.Conforming) {u : UFun} (hu : Covered u = true) {w : W} (hw : u = .arcoth → w ≠ .w64)
    {F : Fmt} (hF : F = b64 ∨ F = x80) {r : Fl} {v : ℚ} {x : ℝ} (h : Arg F w r v x) :
    (Excluded u v → (u.fix r (u.ev L F r)).isfinite = false) ∧ (¬Excluded u v → (u.fix r (u.ev L F r)).Fin F) := by
  have hx : x80 = b64 ∨ x80 = x80 := Or.inr rfl
  have hi80 := in_x80 hF h.isIn
  have iv := hL.inverses
  cases u
  case ten_raised => exact ⟨fun h => h.elim, fun _ => by
    obtain ⟨z, a, b, -⟩ := exp_core hL.exps (u := .ten_raised) (by simp) hF h.is.isfinite (Is_ne h.is); exact ⟨z, a, b⟩⟩
  case two_raised => exact ⟨fun h => h.elim, fun _ => by
    obtain ⟨z, a, b, -⟩ := exp_core hL.exps (u := .two_raised) (by simp) hF h.is.isfinite (Is_ne h.is); exact ⟨z, a, b⟩⟩
  case exp => exact ⟨fun h => h.elim, fun _ => by
    obtain ⟨z, a, b, -⟩ := exp_core hL.exps (u := .exp) (by simp) hF h.is.isfinite (Is_ne h.is); exact ⟨z, a, b⟩⟩
  case ten_raised_minus_1 => exact ⟨fun h => h.elim, fun _ => expm1_core hL.exps (by simp) hF h.is.isfinite (Is_ne h.is)⟩
  case two_raised_minus_1 => exact ⟨fun h => h.elim, fun _ => expm1_core hL.exps (by simp) hF h.is.isfinite (Is_ne h.is)⟩
  case exp_minus_1 => exact ⟨fun h => h.elim, fun _ => expm1_core hL.exps (by simp) hF h.is.isfinite (Is_ne h.is)⟩
  case ln => exact domain_log hL.logarithms.log rfl rfl rfl hF h.is h.isIn
  case lb => exact domain_log hL.logarithms.log2 rfl rfl rfl hF h.is h.isIn
  case lg => exact domain_log hL.logarithms.log10 rfl rfl rfl hF h.is h.isIn
  case ln_1_plus => exact domain_log hL.logarithms.log1p rfl rfl rfl hF h.is h.isIn
  case lb_1_plus => exact domain_log1p hL.logarithms.log1p lbe rfl rfl rfl hF h.is h.isIn
  case lg_1_plus => exact domain_log1p hL.logarithms.log1p lge rfl rfl rfl hF h.is h.isIn
  case sin =>
    refine ⟨fun h => h.elim, fun _ => ?_⟩
    show (UFun.sin.ev L F r).Fin F
    rw [ev_direct (f := L.sin) rfl rfl hF]; exact (hL.circular.sin F hF r v h.is h.isIn).fin
  case cos =>
    refine ⟨fun h => h.elim, fun _ => ?_⟩
    show (UFun.cos.ev L F r).Fin F
    rw [ev_direct (f := L.cos) rfl rfl hF]; exact (hL.circular.cos F hF r v h.is h.isIn).fin
  case sin_pi_times =>
    refine domain_inv rfl rfl hF (P := False) (k := 0) (by norm_num) False.elim fun _ => ?_
    have h1 : (Fl.num 1).Within x80 (2 ^ 0) := ⟨1, Fl.Is.num (by norm_num), one_in (by simp), by norm_num⟩
    have h2 : (Fl.num (-1)).Within x80 (2 ^ 0) := ⟨-1, Fl.Is.num (by norm_num), In_neg (one_in (by simp)), by norm_num⟩
    have h0 : (Fl.zero false).Within x80 (2 ^ 0) := ⟨0, Fl.Is.zero _, ⟨Fmt.Rep.zero _, by rw [abs_zero]; positivity⟩, by norm_num⟩
    show (sinpil L r).Within _ _
    unfold sinpil
    dsimp only
    split_ifs
    · exact h0
    · exact h1
    · exact h0
    · exact h2
    · obtain ⟨c, e, c1, c2⟩ := pie
      obtain ⟨q, a, b, -⟩ := mul_within (c := c) (by linarith) c2 (k := 300) (by norm_num) ⟨v, h.is, hi80, by exact_mod_cast h.le⟩
      rw [e, ← onep]; exact hL.circular.sin x80 hx _ _ a b
  case cos_pi_times =>
    refine domain_inv rfl rfl hF (P := False) (k := 0) (by norm_num) False.elim fun _ => ?_
    have h1 : (Fl.num 1).Within x80 (2 ^ 0) := ⟨1, Fl.Is.num (by norm_num), one_in (by simp), by norm_num⟩
    have h2 : (Fl.num (-1)).Within x80 (2 ^ 0) := ⟨-1, Fl.Is.num (by norm_num), In_neg (one_in (by simp)), by norm_num⟩
    have h0 : (Fl.zero false).Within x80 (2 ^ 0) := ⟨0, Fl.Is.zero _, ⟨Fmt.Rep.zero _, by rw [abs_zero]; positivity⟩, by norm_num⟩
    show (cospil L r).Within _ _
    unfold cospil
    dsimp only
    split_ifs
    · exact h1
    · exact h0
    · exact h2
    · exact h0
    · obtain ⟨c, e, c1, c2⟩ := pie
      obtain ⟨q, a, b, -⟩ := mul_within (c := c) (by linarith) c2 (k := 300) (by norm_num) ⟨v, h.is, hi80, by exact_mod_cast h.le⟩
      rw [e, ← onep]; exact hL.circular.cos x80 hx _ _ a b
  case arcsin =>
    show (1 < |v| → (UFun.arcsin.ev L F r).isfinite = false) ∧ (¬1 < |v| → (UFun.arcsin.ev L F r).Fin F)
    rw [ev_direct (f := L.asin) rfl rfl hF]
    exact ⟨fun h' => by rw [iv.asin_out F hF r v h.is h']; rfl, fun h' => (iv.asin F hF r v h.is h.isIn (not_lt.mp h')).fin⟩
  case arccos =>
    show (1 < |v| → (UFun.arccos.ev L F r).isfinite = false) ∧ (¬1 < |v| → (UFun.arccos.ev L F r).Fin F)
    rw [ev_direct (f := L.acos) rfl rfl hF]
    exact ⟨fun h' => by rw [iv.acos_out F hF r v h.is h']; rfl, fun h' => (iv.acos F hF r v h.is h.isIn (not_lt.mp h')).fin⟩
  case arctan =>
    refine ⟨fun h => h.elim, fun _ => ?_⟩
    show (UFun.arctan.ev L F r).Fin F
    rw [ev_direct (f := L.atan) rfl rfl hF]; exact (iv.atan F hF r v h.is h.isIn).fin
  case arcsin_over_pi =>
    refine domain_inv rfl rfl hF (P := 1 < |v|) (k := 2) (by norm_num) (fun h' => ?_) fun h' => ?_
    · exact div_pi_bad (iv.asin_out x80 hx r v h.is h')
    · have := iv.asin x80 hx r v h.is hi80 (not_lt.mp h')
      rw [four] at this; exact div_pi_within (by norm_num) this
  case arccos_over_pi =>
    refine domain_inv rfl rfl hF (P := 1 < |v|) (k := 2) (by norm_num) (fun h' => ?_) fun h' => ?_
    · exact div_pi_bad (iv.acos_out x80 hx r v h.is h')
    · have := iv.acos x80 hx r v h.is hi80 (not_lt.mp h')
      rw [four] at this; exact div_pi_within (by norm_num) this
  case arctan_over_pi =>
    refine domain_inv rfl rfl hF (P := False) (k := 2) (by norm_num) False.elim fun _ => ?_
    have := iv.atan x80 hx r v h.is hi80
    rw [four] at this; exact div_pi_within (by norm_num) this
  case arccsc =>
    refine domain_inv rfl rfl hF (P := |v| < 1) (k := 2) (by norm_num) (fun h' => ?_) fun h' => ?_
    all_goals rcases arg_cases h with ⟨hv, s, e⟩ | hv
    · show (L.asin x80 _).isfinite = false; rw [e, iv.asin_inf]; rfl
    · show (L.asin x80 _).isfinite = false; rw [iv.asin_out x80 hx _ _ (div1 h hv).1 ((div1_cmp h hv).2.1 h')]; rfl
    · rw [hv] at h'; norm_num at h'
    · rw [← four]; exact iv.asin x80 hx _ _ (div1 h hv).1 (div1 h hv).2.1 ((div1_cmp h hv).1 (not_lt.mp h'))
  case arcsec =>
    refine domain_inv rfl rfl hF (P := |v| < 1) (k := 2) (by norm_num) (fun h' => ?_) fun h' => ?_
    all_goals rcases arg_cases h with ⟨hv, s, e⟩ | hv
    · show (L.acos x80 _).isfinite = false; rw [e, iv.acos_inf]; rfl
    · show (L.acos x80 _).isfinite = false; rw [iv.acos_out x80 hx _ _ (div1 h hv).1 ((div1_cmp h hv).2.1 h')]; rfl
    · rw [hv] at h'; norm_num at h'
    · rw [← four]; exact iv.acos x80 hx _ _ (div1 h hv).1 (div1 h hv).2.1 ((div1_cmp h hv).1 (not_lt.mp h'))
  case arccsc_over_pi =>
    refine domain_inv rfl rfl hF (P := |v| < 1) (k := 2) (by norm_num) (fun h' => ?_) fun h' => ?_
    all_goals rcases arg_cases h with ⟨hv, s, e⟩ | hv
    · exact div_pi_bad (by rw [e, iv.asin_inf])
    · exact div_pi_bad (iv.asin_out x80 hx _ _ (div1 h hv).1 ((div1_cmp h hv).2.1 h'))
    · rw [hv] at h'; norm_num at h'
    · have := iv.asin x80 hx _ _ (div1 h hv).1 (div1 h hv).2.1 ((div1_cmp h hv).1 (not_lt.mp h'))
      rw [four] at this; exact div_pi_within (by norm_num) this
  case arcsec_over_pi =>
    refine domain_inv rfl rfl hF (P := |v| < 1) (k := 2) (by norm_num) (fun h' => ?_) fun h' => ?_
    all_goals rcases arg_cases h with ⟨hv, s, e⟩ | hv
    · exact div_pi_bad (by rw [e, iv.acos_inf])
    · exact div_pi_bad (iv.acos_out x80 hx _ _ (div1 h hv).1 ((div1_cmp h hv).2.1 h'))
    · rw [hv] at h'; norm_num at h'
    · have := iv.acos x80 hx _ _ (div1 h hv).1 (div1 h hv).2.1 ((div1_cmp h hv).1 (not_lt.mp h'))
      rw [four] at this; exact div_pi_within (by norm_num) this
  case arccot =>
    refine domain_inv rfl rfl hF (P := False) (k := 3) (by norm_num) False.elim fun _ => ?_
    have key : (L.atan x80 (Fl.div x80 (.num 1) r)).Within x80 (2 ^ 2) := by
      rw [← four]
      rcases arg_cases h with ⟨hv, s, e⟩ | hv
      · rw [e]; exact iv.atan_inf x80 hx s
      · exact iv.atan x80 hx _ _ (div1 h hv).1 (div1 h hv).2.1
    show (arccotl L r).Within _ _
    unfold arccotl
    split_ifs
    · obtain ⟨q, a, b, c⟩ := key
      exact ⟨q, a, b, c.trans (by norm_num)⟩
    · exact add_within (by norm_num) key pi_within
  case arccot_over_pi =>
    refine domain_inv rfl rfl hF (P := False) (k := 3) (by norm_num) False.elim fun _ => ?_
    have key : (Fl.div x80 (L.atan x80 (Fl.div x80 (.num 1) r)) PI).Within x80 (2 ^ 2) := by
      apply div_pi_within (by norm_num)
      rw [← four]
      rcases arg_cases h with ⟨hv, s, e⟩ | hv
      · rw [e]; exact iv.atan_inf x80 hx s
      · exact iv.atan x80 hx _ _ (div1 h hv).1 (div1 h hv).2.1
    show (arccotOverPil L r).Within _ _
    unfold arccotOverPil
    split_ifs
    · obtain ⟨q, a, b, c⟩ := key
      exact ⟨q, a, b, c.trans (by norm_num)⟩
    · exact add_within (by norm_num) key ⟨1, Fl.Is.num (by norm_num), one_in (by simp), by norm_num⟩
  case arsinh =>
    refine ⟨fun h => h.elim, fun _ => ?_⟩
    show (fixSinh r (UFun.arsinh.ev L F r)).Fin F
    rw [ev_direct (f := L.asinh) rfl rfl hF]
    obtain ⟨q, a, b, -⟩ := iv.asinh F hF r v h.is h.isIn
    unfold fixSinh; rw [a.isinf]; exact ⟨q, a, b⟩
  case arcosh =>
    show (v < 1 → (fixInf r (UFun.arcosh.ev L F r)).isfinite = false) ∧ (¬v < 1 → (fixInf r (UFun.arcosh.ev L F r)).Fin F)
    rw [ev_direct (f := L.acosh) rfl rfl hF]
    refine ⟨fun h' => by rw [iv.acosh_out F hF r v h.is h']; rfl, fun h' => ?_⟩
    obtain ⟨q, a, b, -⟩ := iv.acosh F hF r v h.is h.isIn (not_lt.mp h')
    unfold fixInf; rw [a.isinf]; exact ⟨q, a, b⟩
  case artanh =>
    show (1 ≤ |v| → (UFun.artanh.ev L F r).isfinite = false) ∧ (¬1 ≤ |v| → (UFun.artanh.ev L F r).Fin F)
    rw [ev_direct (f := L.atanh) rfl rfl hF]
    refine ⟨fun h' => ?_, fun h' => (iv.atanh F hF r v h.is h.isIn (not_le.mp h')).fin⟩
    rcases lt_or_eq_of_le h' with h' | h'
    · rw [iv.atanh_out F hF r v h.is h']; rfl
    · rw [iv.atanh_one F hF r v h.is h'.symm]; rfl
  case arcsch =>
    refine domain_inv rfl rfl hF (P := v = 0) (k := 100) (by norm_num) (fun h' => ?_) fun h' => ?_
    all_goals rcases arg_cases h with ⟨hv, s, e⟩ | hv
    · show (L.asinh b64 (Fl.cast b64 _)).isfinite = false
      rw [e]; show (L.asinh b64 (.inf s)).isfinite = false; rw [iv.asinh_inf]; rfl
    · exact absurd h' hv
    · exact absurd hv h'
    · obtain ⟨q, a, b, -⟩ := ((div1 h hv).1.cast_within (F := b64) (Or.inl rfl) (k := 300) (by norm_num) (div1 h hv).2.2.1).2
      exact within_x80 (Or.inl rfl) (iv.asinh b64 (Or.inl rfl) _ _ a b)
  case arsech =>
    refine domain_inv rfl rfl hF (P := v ≤ 0 ∨ 1 < v) (k := 100) (by norm_num) (fun h' => ?_) fun h' => ?_
    all_goals rcases arg_cases h with ⟨hv, s, e⟩ | hv
    · show (L.acosh x80 _).isfinite = false; rw [e]; exact iv.acosh_inf _ _
    · show (L.acosh x80 _).isfinite = false
      rw [iv.acosh_out x80 hx _ _ (div1 h hv).1 ?_]; · rfl
      rcases h' with h' | h'
      · have := (div1 h hv).2.2.2.2 (lt_of_le_of_ne h' hv); linarith
      · have h1 := (div1_cmp h hv).2.2.2 (by rw [abs_of_pos (by linarith)]; exact h')
        have h2 : (0 : ℚ) < 1 / 2 ^ (w.n - 2) := by positivity
        linarith [le_abs_self (x80.rq (1 / v))]
    · rw [hv] at h'; norm_num at h'
    · push Not at h'
      refine iv.acosh x80 hx _ _ (div1 h hv).1 (div1 h hv).2.1 ?_
      have h1 := (div1_cmp h hv).2.2.1 (by rw [abs_of_pos h'.1]; exact h'.2)
      rwa [abs_of_pos ((div1 h hv).2.2.2.1 h'.1)] at h1
  case arcoth =>
    refine domain_inv rfl rfl hF (P := |v| ≤ 1) (k := 100) (by norm_num) (fun h' => ?_) fun h' => ?_
    all_goals rcases arg_cases h with ⟨hv, s, e⟩ | hv
    · show (L.atanh b64 (Fl.cast b64 _)).isfinite = false
      rw [e]; show (L.atanh b64 (.inf s)).isfinite = false; rw [iv.atanh_inf]; rfl
    · have h1 := (div1_cmp h hv).2.2.1 h'
      obtain ⟨i, -⟩ := ((div1 h hv).1.cast_within (F := b64) (Or.inl rfl) (k := 300) (by norm_num) (div1 h hv).2.2.1)
      have h2 : 1 ≤ |b64.rq (x80.rq (1 / v))| := by
        rw [← Fmt.abs_rq]; exact b64.le_rq (by decide) (one_in (F := b64) (by simp)).1 h1
      show (L.atanh b64 (Fl.cast b64 _)).isfinite = false
      rcases lt_or_eq_of_le h2 with h2 | h2
      · rw [iv.atanh_out b64 (Or.inl rfl) _ _ i h2]; rfl
      · rw [iv.atanh_one b64 (Or.inl rfl) _ _ i h2.symm]; rfl
    · rw [hv] at h'; norm_num at h'
    · have h1 := (div1_cmp h hv).2.2.2 (not_le.mp h')
      obtain ⟨i, -⟩ := ((div1 h hv).1.cast_within (F := b64) (Or.inl rfl) (k := 300) (by norm_num) (div1 h hv).2.2.1)
      have hr : b64.Rep (1 - 1 / 2 ^ (w.n - 2)) := by
        cases w
        · exact ⟨2 ^ 6 - 1, -6, by decide +kernel, by decide, by decide⟩
        · exact ⟨2 ^ 14 - 1, -14, by decide +kernel, by decide, by decide⟩
        · exact ⟨2 ^ 30 - 1, -30, by decide +kernel, by decide, by decide⟩
        · exact absurd rfl (hw rfl)
      have h2 : |b64.rq (x80.rq (1 / v))| < 1 := by
        rw [← Fmt.abs_rq]
        have := b64.rq_le (by decide) hr h1
        have : (0 : ℚ) < 1 / 2 ^ (w.n - 2) := by positivity
        linarith
      obtain ⟨-, b⟩ := rq_pow (F := b64) (Or.inl rfl) (k := 300) (by norm_num) (div1 h hv).2.2.1
      exact within_x80 (Or.inl rfl) (iv.atanh b64 (Or.inl rfl) _ _ i b h2)
  case sinh => exact ⟨fun h => h.elim, fun _ => by obtain ⟨z, a, b, -⟩ := sinh_core hL.hyperbolics hF h; exact ⟨z, a, b⟩⟩
  case cosh => exact ⟨fun h => h.elim, fun _ => by obtain ⟨z, a, b, -⟩ := cosh_core hL.hyperbolics hF h; exact ⟨z, a, b⟩⟩
  case tanh => exact ⟨fun h => h.elim, fun _ => by obtain ⟨z, a, b, -⟩ := tanh_core hL.hyperbolics hF h; exact ⟨z, a, b⟩⟩
  case sech => exact ⟨fun h => h.elim, fun _ => by obtain ⟨z, a, b, -⟩ := sech_core hL.hyperbolics hF h; exact ⟨z, a, b⟩⟩
  case csch =>
    obtain ⟨h1, h2⟩ := csch_core hL.hyperbolics hF h
    exact ⟨h1, fun h' => by obtain ⟨z, a, b, -⟩ := h2 h'; exact ⟨z, a, b⟩⟩
  case coth =>
    obtain ⟨h1, h2⟩ := coth_core hL.hyperbolics hF h
    exact ⟨h1, fun h' => by obtain ⟨z, a, b, -⟩ := h2 h'; exact ⟨z, a, b⟩⟩
  all_goals simp [Covered] at hu

theorem excluded_iff {w : W} {F : Fmt} {r : Fl} {v : ℚ} {x : ℝ} (h : Arg F w r v x) (u : UFun) : Excluded u x ↔ Excluded u v := by
  have z := h.zero
  have n := h.neg
  have o := h.one
  have s := h.small
  have le : x ≤ 0 ↔ v ≤ 0 := by rw [le_iff_lt_or_eq, le_iff_lt_or_eq (a := v), n, z]
  have big : 1 < |x| ↔ 1 < |v| := by
    rw [← not_le, ← not_le, le_iff_lt_or_eq, le_iff_lt_or_eq (a := |v|), o, s]
  have ge : 1 ≤ |x| ↔ 1 ≤ |v| := by rw [← not_lt, ← not_lt, s]
  have lone : |x| ≤ 1 ↔ |v| ≤ 1 := by rw [← not_lt, ← not_lt, big]
  have e1 : ∀ {K : Type} [Field K] [LinearOrder K] [IsStrictOrderedRing K] (y : K), y ≤ -1 ↔ y < 0 ∧ 1 ≤ |y| := by
    intro K _ _ _ y
    constructor
    · intro h; exact ⟨by linarith, by rw [abs_of_neg (by linarith)]; linarith⟩
    · rintro ⟨h1, h2⟩; rw [abs_of_neg h1] at h2; linarith
  have e2 : ∀ {K : Type} [Field K] [LinearOrder K] [IsStrictOrderedRing K] (y : K), y < 1 ↔ y ≤ 0 ∨ |y| < 1 := by
    intro K _ _ _ y
    constructor
    · intro h
      rcases le_or_gt y 0 with h' | h'
      · exact Or.inl h'
      · right; rwa [abs_of_pos h']
    · rintro (h | h)
      · linarith
      · exact (abs_lt.mp h).2
  have e3 : ∀ {K : Type} [Field K] [LinearOrder K] [IsStrictOrderedRing K] (y : K), (y ≤ 0 ∨ 1 < y) ↔ (y ≤ 0 ∨ 1 < |y|) := by
    intro K _ _ _ y
    rcases le_or_gt y 0 with h' | h'
    · simp [h']
    · rw [abs_of_pos h']
  have m1 : x ≤ -1 ↔ v ≤ -1 := by rw [e1, e1 v, n, ge]
  have l1 : x < 1 ↔ v < 1 := by rw [e2, e2 v, le, s]
  have r1 : (x ≤ 0 ∨ 1 < x) ↔ (v ≤ 0 ∨ 1 < v) := by rw [e3, e3 v, le, big]
  cases u <;> first | exact Iff.rfl | exact le | exact m1 | exact big | exact s | exact z | exact l1 | exact ge | exact r1 | exact lone

end Takum
