import Verif.ElemSpec
import Verif.LibmAcc
import Verif.Lemmas.Domain
import Verif.Props.Widths
import Verif.Props.LinFloat

/-! # Faithful results of the elementary functions -/

namespace Takum
open Spec

/-- The value of a regular takum. -/
theorem value_regular {w : W} (k : Kind) {t : T w} (h : Regular t) :
    ∃ g : ℝ, 0 < g ∧ (2 : ℝ) ^ (-256 : ℤ) ≤ g ∧ g ≤ (2 : ℝ) ^ (256 : ℤ) ∧ (k = .log → |Real.log g| ≤ 127.5) ∧
      value k t = some ((sg t.msb : ℚ) * g) := by
  have h8 := w.n_pos
  cases k
  · have hl : |Real.log (logG (ell t))| ≤ 127.5 := by
      rw [logG_exp, Real.log_exp, abs_div, abs_two]
      have := abs_ell_le t
      have : |((ell t : ℚ) : ℝ)| ≤ 255 := by exact_mod_cast this
      linarith
    have l2 : (0.6931 : ℝ) < Real.log 2 := lt_trans (by norm_num) Real.log_two_gt_d9
    have hp := logG_pos (ell t)
    rw [abs_le] at hl
    refine ⟨logG (ell t), hp, ?_, ?_, fun _ => abs_le.mpr hl, logVal_regular (by omega) h⟩
    · rw [← Real.log_le_log_iff (by positivity) hp, Real.log_zpow]; push_cast; linarith [hl.1]
    · rw [← Real.log_le_log_iff hp (by positivity), Real.log_zpow]; push_cast; linarith [hl.2]
  · obtain ⟨b1, b2⟩ := lv_bounds t
    rw [lv_abs] at b1 b2
    refine ⟨((lam (ell t) : ℚ) : ℝ), by exact_mod_cast lam_pos _, ?_, ?_, by simp, ?_⟩
    · have : (2 : ℚ) ^ (-256 : ℤ) ≤ lam (ell t) := le_trans (by decide +kernel) b1
      have := (Rat.cast_le (K := ℝ)).mpr this; push_cast at this; exact this
    · have := (Rat.cast_le (K := ℝ)).mpr b2.le; rw [Rat.cast_zpow] at this; exact this
    · rw [value_lin (linVal_sg (by omega) h)]; push_cast; rfl

theorem value_zero {w : W} (k : Kind) : value k (0#w.n) = some 0 := by
  have h := zero_ne_nar w
  cases k
  · show logVal _ = _; unfold logVal; rw [if_neg h, if_pos rfl]
  · show (linVal _).map _ = _; unfold linVal; rw [if_neg h, if_pos rfl]; simp

theorem value_cases {w : W} {k : Kind} {t : T w} {v : ℝ} (h : value k t = some v) :
    (t = 0#w.n ∧ v = 0) ∨ (Regular t ∧ t.msb = false ∧ 0 < t.toInt ∧ (2 : ℝ) ^ (-256 : ℤ) ≤ v ∧ v ≤ (2 : ℝ) ^ (256 : ℤ) ∧
        (k = .log → |Real.log (|v|)| ≤ 127.5)) ∨
      (Regular t ∧ t.msb = true ∧ t.toInt < 0 ∧ v ≤ -(2 : ℝ) ^ (-256 : ℤ) ∧ -(2 : ℝ) ^ (256 : ℤ) ≤ v ∧
        (k = .log → |Real.log (|v|)| ≤ 127.5)) := by
  have h8 := w.n_pos
  by_cases h0 : t = 0#w.n
  · subst h0; rw [value_zero] at h; left; exact ⟨rfl, by simpa using h.symm⟩
  right
  have hn : t ≠ nar w.n := by rw [Ne, ← value_none (k := k), h]; simp
  have r : Regular t := ⟨h0, hn⟩
  obtain ⟨g, g0, g1, g2, g3, e⟩ := value_regular k r
  rw [e] at h
  have h := Option.some.inj h
  cases hm : t.msb
  · left
    rw [hm] at h; simp [sg] at h; subst h
    exact ⟨r, rfl, (toInt_pos_iff (by omega) r).mpr hm, g1, g2, by rwa [abs_of_pos g0]⟩
  · right
    rw [hm] at h; simp [sg] at h; subst h
    exact ⟨r, rfl, (toInt_neg_iff (by omega) r).mpr hm, by linarith, by linarith, by rwa [abs_neg, abs_of_pos g0]⟩

theorem Spec.Faithful.zero {w : W} (k : Kind) : Faithful k 0 (0#w.n) := by
  refine ⟨zero_ne_nar w, by simp, fun s v hv => ?_⟩
  have p : (0 : ℝ) < 2 ^ (-256 : ℤ) := by positivity
  rw [BitVec.toInt_zero]
  rcases value_cases hv with ⟨rfl, rfl⟩ | ⟨-, -, h1, h2, -⟩ | ⟨-, -, h1, h2, -⟩
  · simp
  · exact ⟨fun h => by linarith, fun _ => h1.le⟩
  · exact ⟨fun _ => h1.le, fun h => by linarith⟩

/-- From a comparison with the regular takums. -/
theorem Spec.Faithful.of_regular {w : W} {k : Kind} {y : ℝ} {t : T w} (hy : y ≠ 0) (hr : Regular t) (hs : t.msb = true ↔ y < 0)
    (h : ∀ (s : T w) (v : ℝ), Regular s → value k s = some v → (v ≤ y → s.toInt ≤ t.toInt) ∧ (y ≤ v → t.toInt ≤ s.toInt)) :
    Faithful k y t := by
  have h8 := w.n_pos
  refine ⟨hr.2, by simp [hr.1, hy], fun s v hv => ?_⟩
  by_cases h0 : s = 0#w.n
  · subst h0
    rw [value_zero] at hv
    have : v = 0 := by simpa using hv.symm
    subst this
    have a1 := toInt_pos_iff (by omega) hr
    have a2 := toInt_neg_iff (by omega) hr
    rw [BitVec.toInt_zero]
    constructor
    · intro h'
      have : t.msb = false := by
        cases hm : t.msb
        · rfl
        · have := hs.mp hm; linarith
      exact (a1.mpr this).le
    · intro h'
      exact (a2.mpr (hs.mpr (lt_of_le_of_ne h' hy))).le
  · have hn : s ≠ nar w.n := by rw [Ne, ← value_none (k := k), hv]; simp
    exact h s v ⟨h0, hn⟩ hv

theorem Spec.FaithfulLog.faithful {w : W} {y : ℝ} {t : T w} (hy : y ≠ 0) (h : FaithfulLog y t) : Faithful .log y t :=
  .of_regular hy h.1 h.2.1 fun s v hs hv => h.2.2 s v hs hv

theorem Spec.FaithfulLin.faithful {w : W} {y : ℝ} {t : T w} (hy : y ≠ 0) (h : FaithfulLin y t) : Faithful .lin y t := by
  refine .of_regular hy h.1 h.2.1 fun s v hs hv => ?_
  obtain ⟨q, hq, rfl⟩ : ∃ q : ℚ, linVal s = some q ∧ (q : ℝ) = v := by
    change (linVal s).map _ = _ at hv; simpa using hv
  exact h.2.2 s q hs hq

/-- Two numbers that are not separated by takums. -/
def Same (w : W) (k : Kind) (y y' : ℝ) : Prop :=
  (y = 0 ↔ y' = 0) ∧ ∀ (s : T w) (v : ℝ), value k s = some v → (v ≤ y ↔ v ≤ y') ∧ (y ≤ v ↔ y' ≤ v)

theorem Spec.Faithful.congr {w : W} {k : Kind} {y y' : ℝ} {t : T w} (h : Same w k y y') (hf : Faithful k y t) : Faithful k y' t := by
  refine ⟨hf.1, hf.2.1.trans h.1, fun s v hv => ?_⟩
  obtain ⟨a, b⟩ := h.2 s v hv
  rw [← a, ← b]; exact hf.2.2 s v hv

/-- Beyond the range of the takums on the same side. -/
def Beyond (M m y y' : ℝ) : Prop :=
  (M < y ∧ M < y') ∨ (y < -M ∧ y' < -M) ∨ (0 < y ∧ y < m ∧ 0 < y' ∧ y' < m) ∨ (-m < y ∧ y < 0 ∧ -m < y' ∧ y' < 0)

theorem same_of_beyond {w : W} {k : Kind} {M m y y' : ℝ} (hm : 0 < m) (hM : 0 < M)
    (hv : ∀ (s : T w) (v : ℝ), value k s = some v → v = 0 ∨ (m ≤ v ∧ v ≤ M) ∨ (v ≤ -m ∧ -M ≤ v))
    (h : Beyond M m y y') : Same w k y y' := by
  refine ⟨?_, fun s v hs => ?_⟩
  · rcases h with h | h | h | h <;> constructor <;> intro h' <;> linarith [h.1, h.2]
  · have := hv s v hs
    rcases h with ⟨a, b⟩ | ⟨a, b⟩ | ⟨a, b, c, d⟩ | ⟨a, b, c, d⟩ <;> rcases this with rfl | ⟨e, f⟩ | ⟨e, f⟩ <;>
      constructor <;> constructor <;> intro <;> linarith

theorem value_range {w : W} {k : Kind} (s : T w) (v : ℝ) (h : value k s = some v) :
    v = 0 ∨ ((2 : ℝ) ^ (-256 : ℤ) ≤ v ∧ v ≤ (2 : ℝ) ^ (256 : ℤ)) ∨ (v ≤ -(2 : ℝ) ^ (-256 : ℤ) ∧ -(2 : ℝ) ^ (256 : ℤ) ≤ v) := by
  rcases value_cases h with ⟨-, h⟩ | ⟨-, -, -, h1, h2, -⟩ | ⟨-, -, -, h1, h2, -⟩
  · exact Or.inl h
  · exact Or.inr (Or.inl ⟨h1, h2⟩)
  · exact Or.inr (Or.inr ⟨h1, h2⟩)

theorem value_range_log {w : W} (s : T w) (v : ℝ) (h : value .log s = some v) :
    v = 0 ∨ (Real.exp (-127.5) ≤ v ∧ v ≤ Real.exp 127.5) ∨ (v ≤ -Real.exp (-127.5) ∧ -Real.exp 127.5 ≤ v) := by
  have p : (0 : ℝ) < 2 ^ (-256 : ℤ) := by positivity
  rcases value_cases h with ⟨-, h⟩ | ⟨-, -, -, h1, -, h2⟩ | ⟨-, -, -, h1, -, h2⟩
  · exact Or.inl h
  · right; left
    have v0 : 0 < v := by linarith
    have := abs_le.mp (h2 rfl)
    rw [abs_of_pos v0] at this
    exact ⟨(Real.le_log_iff_exp_le v0).mp (by linarith [this.1]), (Real.log_le_iff_le_exp v0).mp this.2⟩
  · right; right
    have v0 : 0 < -v := by linarith
    have := abs_le.mp (h2 rfl)
    rw [abs_of_neg (by linarith)] at this
    have a := (Real.le_log_iff_exp_le v0).mp (show (-127.5 : ℝ) ≤ Real.log (-v) by linarith [this.1])
    have b := (Real.log_le_iff_le_exp v0).mp this.2
    exact ⟨by linarith, by linarith⟩

/-! ## Narrowing -/

theorem Spec.Faithful.reduce {w : W} (hw : w.n < W.w64.n) {k : Kind} {y : ℝ} {t : T .w64} (h : Faithful k y t) :
    ∃ v : T w, reduce .w64 w t = .ok v ∧ Faithful k y v := by
  obtain ⟨v, e, hn, hz, -⟩ := narrow_special hw t
  refine ⟨v, e, fun h' => h.1 (hn.mp h'), hz.trans h.2.1, fun s x hx => ?_⟩
  obtain ⟨u, eu, c1, c2, -⟩ := widen_exact hw s
  obtain ⟨u', eu', ru⟩ := narrow_widen hw s
  have : u' = u := by rw [eu] at eu'; injection eu' with eu'; exact eu'.symm
  subst this
  have hu : value k u' = some x := by
    rw [← hx]
    cases k
    · exact c1
    · show (linVal _).map _ = (linVal _).map _; rw [c2]
  obtain ⟨g1, g2⟩ := h.2.2 u' x hu
  have mono : ∀ a b : T .w64, ∀ a' b' : T w, Takum.reduce .w64 w a = .ok a' → Takum.reduce .w64 w b = .ok b' → a.toInt ≤ b.toInt →
      a'.toInt ≤ b'.toInt := by
    intro a b a' b' ea eb hab
    obtain ⟨x1, x2, e1, e2, hle⟩ := narrow_mono hw a b hab
    rw [ea] at e1; rw [eb] at e2
    injection e1 with e1; injection e2 with e2
    rw [e1, e2]; exact hle
  exact ⟨fun h' => mono _ _ _ _ ru e (g1 h'), fun h' => mono _ _ _ _ e ru (g2 h')⟩

/-! ## Conversion of the result -/

theorem kFrom_lin {L : Libm} {w : W} {f : Fl} {z : ℚ} (hf : f.Is z) (h : (kF .lin w).In z) :
    ∃ t : T w, kFrom L .lin w f = .ok t ∧ Faithful .lin (z : ℝ) t := by
  by_cases hz : z = 0
  · subst hz
    obtain ⟨a, b, -⟩ := linEnc_facts (w := w) h
    refine ⟨_, linFrom_enc hf h, ?_⟩
    rw [b.mp rfl]; push_cast; exact Faithful.zero _
  · rw [hf.eq_num hz]
    obtain ⟨t, e, ht⟩ := lin_from_faithful w.src w z hz h
    exact ⟨t, e, ht.faithful (by exact_mod_cast hz)⟩

/-- A logarithm that is off by `4 · 2^-64` of itself. -/
theorem exp_log_err {a r : ℝ} (ha : 0 < a) (h : |r - Real.log a| ≤ 4 / 2 ^ 64 * |Real.log a|) :
    |Real.exp r - a| ≤ 0.6 / 2 ^ 54 * a ∨ (127.5 < Real.log a ∧ 127.5 < r) ∨ (Real.log a < -127.5 ∧ r < -127.5) := by
  by_cases hb : |Real.log a| ≤ 130
  · left
    have h1 : |r - Real.log a| ≤ 520 / 2 ^ 64 := by linarith
    have h2 := Real.abs_exp_sub_one_sub_id_le (x := r - Real.log a) (h1.trans (by norm_num))
    have e : Real.exp r - a = a * (Real.exp (r - Real.log a) - 1) := by
      rw [Real.exp_sub, Real.exp_log ha]; field_simp
    rw [e, abs_mul, abs_of_pos ha, mul_comm]
    apply mul_le_mul_of_nonneg_right _ ha.le
    have h3 : |Real.exp (r - Real.log a) - 1| ≤ (r - Real.log a) ^ 2 + |r - Real.log a| := by
      have := abs_add_le (Real.exp (r - Real.log a) - 1 - (r - Real.log a)) (r - Real.log a)
      rw [sub_add_cancel] at this; linarith
    have h4 : (r - Real.log a) ^ 2 ≤ (520 / 2 ^ 64) ^ 2 := by
      rw [← sq_abs]; gcongr
    norm_num at *; linarith
  · right
    push Not at hb
    have := abs_le.mp h
    rcases le_total 0 (Real.log a) with h0 | h0
    · left; rw [abs_of_nonneg h0] at *; norm_num at *; constructor <;> linarith
    · right; rw [abs_of_nonpos h0] at *; norm_num at *; constructor <;> linarith

theorem kFrom_log {L : Libm} (hA : L.Accurate) (hL : L.Logs) {w : W} {f : Fl} {z : ℚ} (hf : f.Is z) (h : x80.In z) :
    ∃ (t : T w) (y : ℝ), kFrom L .log w f = .ok t ∧ |y - z| ≤ 0.6 / 2 ^ 54 * |(z : ℝ)| ∧ Faithful .log y t := by
  by_cases hz : z = 0
  · subst hz
    rcases hf.cases with ⟨h0, _⟩ | ⟨_, s, rfl⟩
    · exact absurd rfl h0
    · exact ⟨_, 0, logFrom_zero L .ext w s, by simp, Faithful.zero _⟩
  have hzp : 0 < |z| := abs_pos.mpr hz
  have hx : x80 = b64 ∨ x80 = x80 := Or.inr rfl
  have hi : x80.In |z| := ⟨h.1.abs, by rw [abs_abs]; exact h.2⟩
  obtain ⟨r, h1, h2, h3⟩ := hA.log x80 hx |z| hzp hi
  obtain ⟨r', h1', -, h3'⟩ := hL.finite x80 hx |z| hzp hi
  have := h1.unique h1'
  subst this
  have lF : logF .ext w = x80 := by cases w <;> rfl
  obtain ⟨t1, t2⟩ := twoLog_is hx hf hz h1 h2 h3'
  have e1 : kFrom L .log w f = logEnc .ext w (decide (z < 0)) (twoLog L x80 f) := by
    show logFrom L .ext w f = _
    rw [logFrom_eq L .ext w hf hz, lF]
  obtain ⟨t, et, ft⟩ : ∃ t : T w, logEnc .ext w (decide (z < 0)) (twoLog L x80 f) = .ok t ∧
      Faithful .log ((sg (decide (z < 0)) : ℚ) * logG (2 * r)) t := by
    have hl : (twoLog L x80 f).Is (W.w64.lF.rq (2 * r)) := by
      have : W.w64.lF.rq (2 * r) = 2 * r := Fmt.rq_of_rep _ t2.1
      rw [this]; exact t1
    obtain ⟨v, ev, fv⟩ := enc_faithfulLog (w := .w64) (decide (z < 0)) hl
    have hne : ((sg (decide (z < 0)) : ℚ) : ℝ) * logG (2 * r) ≠ 0 := by
      have := logG_pos (2 * r)
      cases decide (z < 0) <;> simp [sg, this.ne']
    have fv := fv.faithful hne
    have red : ∀ w : W, w.n < W.w64.n → ∃ t : T w, (do reduce .w64 w (← fromSAndL .w64 (decide (z < 0)) (twoLog L x80 f))) = .ok t ∧
        Faithful .log ((sg (decide (z < 0)) : ℚ) * logG (2 * r)) t := by
      intro w hw
      rw [ev, ok_bind]; exact fv.reduce hw
    cases w
    · exact red .w8 (by decide)
    · exact red .w16 (by decide)
    · exact red .w32 (by decide)
    · exact ⟨v, ev, fv⟩
  have eg : logG (2 * r) = Real.exp r := by rw [logG_exp]; congr 1; push_cast; ring
  rw [eg] at ft
  have ha : (0 : ℝ) < |(z : ℝ)| := by exact_mod_cast hzp
  have h3 : |(r : ℝ) - Real.log (|(z : ℝ)|)| ≤ 4 / 2 ^ 64 * |Real.log (|(z : ℝ)|)| := by
    have : ((|z| : ℚ) : ℝ) = |(z : ℝ)| := by push_cast; rfl
    rw [this] at h3; exact h3
  have zs : (z : ℝ) = (sg (decide (z < 0)) : ℚ) * |(z : ℝ)| := by
    by_cases hn : z < 0
    · have : (z : ℝ) < 0 := by exact_mod_cast hn
      simp [hn, sg, abs_of_neg this]
    · have : (0 : ℝ) ≤ z := by exact_mod_cast not_lt.mp hn
      simp [hn, sg, abs_of_nonneg this]
  rcases exp_log_err ha h3 with hc | hc | hc
  · refine ⟨t, _, e1.trans et, ?_, ft⟩
    conv_lhs => rw [zs]
    rw [← mul_sub, abs_mul]
    have : |((sg (decide (z < 0)) : ℚ) : ℝ)| = 1 := by cases decide (z < 0) <;> simp [sg]
    rw [this, one_mul]; exact hc
  · refine ⟨t, z, e1.trans et, by rw [sub_self, abs_zero]; positivity, ft.congr (same_of_beyond (Real.exp_pos (-127.5)) (Real.exp_pos 127.5) value_range_log ?_)⟩
    have a := (Real.lt_log_iff_exp_lt ha).mp hc.1
    have b := Real.exp_lt_exp.mpr hc.2
    rw [zs]
    cases decide (z < 0)
    · left; simp only [sg, Bool.false_eq_true, if_false, Rat.cast_one, one_mul]; exact ⟨b, a⟩
    · right; left; simp only [sg, if_true, Rat.cast_neg, Rat.cast_one, neg_mul, one_mul]; exact ⟨by linarith, by linarith⟩
  · refine ⟨t, z, e1.trans et, by rw [sub_self, abs_zero]; positivity, ft.congr (same_of_beyond (Real.exp_pos (-127.5)) (Real.exp_pos 127.5) value_range_log ?_)⟩
    have a := (Real.log_lt_iff_lt_exp ha).mp hc.1
    have b := Real.exp_lt_exp.mpr hc.2
    have c := Real.exp_pos r
    rw [zs]
    right; right
    cases decide (z < 0)
    · left; simp only [sg, Bool.false_eq_true, if_false, Rat.cast_one, one_mul]; exact ⟨c, b, ha, a⟩
    · right; simp only [sg, if_true, Rat.cast_neg, Rat.cast_one, neg_mul, one_mul]
      exact ⟨by linarith, by linarith, by linarith, by linarith⟩

/-- Error of the conversion of the result. -/
noncomputable def outTol : Kind → ℝ
  | .log => 0.6 / 2 ^ 54
  | .lin => 0

theorem kFrom_faithful {L : Libm} (hL : L.Conforming) (k : Kind) {w : W} {f : Fl} {z : ℚ} (hf : f.Is z) (h : (kF k w).In z) :
    ∃ (t : T w) (y : ℝ), kFrom L k w f = .ok t ∧ |y - z| ≤ outTol k * |(z : ℝ)| ∧ Faithful k y t := by
  cases k
  · exact kFrom_log hL.accurate hL.logs hf h
  · obtain ⟨t, e, ft⟩ := kFrom_lin (L := L) hf h
    exact ⟨t, z, e, by simp [outTol], ft⟩

/-! ## The float before the conversion -/

/-- The float `r` is within `ε σ` of `y`, or both are beyond the range of takums on the same side. -/
def Res (F : Fmt) (εσ : ℝ) (y : ℝ) (r : Fl) : Prop :=
  ∃ z : ℚ, r.Is z ∧ F.In z ∧ (|(z : ℝ) - y| ≤ εσ ∨ Beyond ((2 : ℝ) ^ (300 : ℤ)) ((2 : ℝ) ^ (-300 : ℤ)) z y)

theorem Res.conv {k : Kind} {w : W} {F : Fmt} {conv : Fl → C (T w)}
    (hc : ∀ (f : Fl) (z : ℚ), f.Is z → F.In z → ∃ (t : T w) (y : ℝ), conv f = .ok t ∧ |y - z| ≤ outTol k * |(z : ℝ)| ∧ Faithful k y t)
    {ε σ y : ℝ} {r : Fl} (h : Res F (ε * σ) y r)
    (h0 : 0 ≤ ε) (h1 : ε ≤ 1 / 100) (hs : |y| ≤ σ) :
    ∃ (t : T w) (y' : ℝ), conv r = .ok t ∧ |y' - y| ≤ (ε + 1.1 * outTol k) * σ ∧ Faithful k y' t := by
  obtain ⟨z, hz, hi, h⟩ := h
  obtain ⟨t, y', e, hy, ft⟩ := hc r z hz hi
  have o0 : 0 ≤ outTol k := by cases k <;> norm_num [outTol]
  have o1 : outTol k ≤ 1 / 100 := by cases k <;> norm_num [outTol]
  have s0 : 0 ≤ σ := (abs_nonneg y).trans hs
  rcases h with h | h
  · refine ⟨t, y', e, ?_, ft⟩
    have a1 : |(z : ℝ)| ≤ 1.1 * σ := by
      have := abs_add_le ((z : ℝ) - y) y
      rw [sub_add_cancel] at this
      nlinarith
    have a2 := abs_add_le (y' - z) ((z : ℝ) - y)
    rw [sub_add_sub_cancel] at a2
    have a3 : outTol k * |(z : ℝ)| ≤ outTol k * (1.1 * σ) := by gcongr
    nlinarith
  · refine ⟨t, y, e, by rw [sub_self, abs_zero]; positivity, ?_⟩
    refine ft.congr (same_of_beyond (M := (2 : ℝ) ^ (256 : ℤ)) (m := (2 : ℝ) ^ (-256 : ℤ)) (by positivity) (by positivity) value_range ?_)
    have p0 : (0 : ℝ) < (2 : ℝ) ^ (256 : ℤ) := by positivity
    have p1 : (2 : ℝ) * (2 : ℝ) ^ (256 : ℤ) ≤ (2 : ℝ) ^ (300 : ℤ) := by
      rw [← zpow_one_add₀ (by norm_num)]; exact zpow_le_zpow_right₀ (by norm_num) (by norm_num)
    have p2 : (0 : ℝ) < (2 : ℝ) ^ (-300 : ℤ) := by positivity
    have p3 : (2 : ℝ) * (2 : ℝ) ^ (-300 : ℤ) ≤ (2 : ℝ) ^ (-256 : ℤ) := by
      rw [← zpow_one_add₀ (by norm_num)]; exact zpow_le_zpow_right₀ (by norm_num) (by norm_num)
    unfold Beyond at h ⊢
    generalize (2 : ℝ) ^ (300 : ℤ) = A at *
    generalize (2 : ℝ) ^ (256 : ℤ) = B at *
    generalize (2 : ℝ) ^ (-300 : ℤ) = a at *
    generalize (2 : ℝ) ^ (-256 : ℤ) = b at *
    have hy1 : |y' - z| ≤ |(z : ℝ)| / 100 := by
      refine hy.trans ?_
      have := mul_le_mul_of_nonneg_right o1 (abs_nonneg (z : ℝ)); linarith
    rcases h with ⟨u, v⟩ | ⟨u, v⟩ | ⟨u, v, u', v'⟩ | ⟨u, v, u', v'⟩
    · left
      rw [abs_of_pos (by linarith : (0 : ℝ) < z)] at hy1
      have := abs_le.mp hy1
      exact ⟨by linarith [this.1], by linarith⟩
    · right; left
      rw [abs_of_neg (by linarith : (z : ℝ) < 0)] at hy1
      have := abs_le.mp hy1
      exact ⟨by linarith [this.2], by linarith⟩
    · right; right; left
      rw [abs_of_pos u] at hy1
      have := abs_le.mp hy1
      exact ⟨by linarith [this.1], by linarith [this.2], by linarith, by linarith⟩
    · right; right; right
      rw [abs_of_neg v] at hy1
      have := abs_le.mp hy1
      exact ⟨by linarith [this.1], by linarith [this.2], by linarith, by linarith⟩

theorem Res.out {L : Libm} (hL : L.Conforming) {k : Kind} {w : W} {ε σ y : ℝ} {r : Fl} (h : Res (kF k w) (ε * σ) y r)
    (h0 : 0 ≤ ε) (h1 : ε ≤ 1 / 100) (hs : |y| ≤ σ) :
    ∃ (t : T w) (y' : ℝ), kFrom L k w r = .ok t ∧ |y' - y| ≤ (ε + 1.1 * outTol k) * σ ∧ Faithful k y' t :=
  h.conv (fun _ _ hf hz => kFrom_faithful hL k hf hz) h0 h1 hs

end Takum
