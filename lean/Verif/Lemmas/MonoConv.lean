import Verif.Lemmas.MonoFl
import Verif.Lemmas.SymmetryCall
import Verif.Props.LogAdd
import Verif.Props.Widths

/-! # The conversions of argument and result are monotone -/

namespace Takum
open Spec

theorem logEnc_mono (A : Src) (w : W) (s : Bool) {l l' : Fl} {q q' : ℚ} (hl : l.Is q) (hl' : l'.Is q') (hq : (logF A w).Rep q)
    (hq' : (logF A w).Rep q') (hb : |q| ≤ 2 ^ 101) (hb' : |q'| ≤ 2 ^ 101) (h : sg s * q ≤ sg s * q') :
    ∃ t t' : T w, logEnc A w s l = .ok t ∧ logEnc A w s l' = .ok t' ∧ t.toInt ≤ t'.toInt := by
  have red : ∀ w : W, w.n < W.w64.n → x80.Rep q → x80.Rep q' → ∃ t t' : T w, (do reduce .w64 w (← fromSAndL .w64 s l)) = .ok t ∧
      (do reduce .w64 w (← fromSAndL .w64 s l')) = .ok t' ∧ t.toInt ≤ t'.toInt := by
    intro w hw h1 h2
    obtain ⟨a, b, e1, e2, hab⟩ := enc_mono (w := .w64) s hl hl' h1 h2 h
    obtain ⟨c, d, e3, e4, hcd⟩ := narrow_mono hw a b hab
    exact ⟨c, d, by rw [e1, ok_bind, e3], by rw [e2, ok_bind, e4], hcd⟩
  cases A
  · cases w
    · refine enc_mono (w := .w8) s (cast32_is hl hb) (cast32_is hl' hb') ((b32.rq_rep (by decide) q).mono (by decide) (by decide))
        ((b32.rq_rep (by decide) q').mono (by decide) (by decide)) ?_
      exact sg_mono (fun _ _ h => b32.rq_mono (by decide) h) h
    · exact enc_mono (w := .w16) s hl hl' hq hq' h
    · exact enc_mono (w := .w32) s hl hl' (hq.mono (by decide) (by decide)) (hq'.mono (by decide) (by decide)) h
    · exact enc_mono (w := .w64) s hl hl' hq hq' h
  · cases w
    · exact red .w8 (by decide) hq hq'
    · exact red .w16 (by decide) hq hq'
    · exact enc_mono (w := .w32) s hl hl' hq hq' h
    · exact enc_mono (w := .w64) s hl hl' hq hq' h
  · cases w
    · exact red .w8 (by decide) hq hq'
    · exact red .w16 (by decide) hq hq'
    · exact red .w32 (by decide) hq hq'
    · exact enc_mono (w := .w64) s hl hl' hq hq' h

theorem logFrom_finite {L : Libm} (hL : L.Logs) (A : Src) (w : W) {f : Fl} {v : ℚ} (hf : f.Is v) (h : A.fmt.In v) :
    ∃ t : T w, logFrom L A w f = .ok t ∧ t ≠ nar w.n ∧ (v = 0 → t = 0#w.n) ∧ (v < 0 → t.toInt < 0) ∧ (0 < v → 0 < t.toInt) := by
  have h8 := w.n_pos
  by_cases hv : v = 0
  · subst hv
    rcases hf.cases with ⟨h0, _⟩ | ⟨_, s, rfl⟩
    · exact absurd rfl h0
    exact ⟨_, logFrom_zero L A w s, (nar_ne_zero (by omega)).symm, fun _ => rfl, fun h => absurd h (lt_irrefl _),
      fun h => absurd h (lt_irrefl _)⟩
  · obtain ⟨t, e, rt, st⟩ := logFrom_regular hL A w hf hv h
    refine ⟨t, e, rt.2, fun h => absurd h hv, fun h => ?_, fun h => ?_⟩
    · exact (toInt_neg_iff (by omega) rt).mpr (by simpa [h] using st)
    · exact (toInt_pos_iff (by omega) rt).mpr (by simpa [not_lt.mpr h.le] using st)

/-- Conversion of floats to logarithmic takums. -/
theorem logFrom_mono {L : Libm} (hL : L.Logs) (hm : Increasing L.log) (A : Src) (w : W) {f g : Fl} {v u : ℚ} (hf : f.Is v) (hg : g.Is u)
    (hv : A.fmt.In v) (hu : A.fmt.In u) (h : v ≤ u) :
    ∃ t t' : T w, logFrom L A w f = .ok t ∧ logFrom L A w g = .ok t' ∧ t.toInt ≤ t'.toInt := by
  have h8 := w.n_pos
  have abin : ∀ {v : ℚ}, A.fmt.In v → (logF A w).In |v| := fun hv => ⟨(logF_in A w hv).1.abs, by rw [abs_abs]; exact (logF_in A w hv).2⟩
  by_cases hs : v ≠ 0 ∧ u ≠ 0 ∧ (v < 0 ↔ u < 0)
  · obtain ⟨v0, u0, hs⟩ := hs
    have pv := abs_pos.mpr v0
    have pu := abs_pos.mpr u0
    obtain ⟨r, h1, h2, h3⟩ := hL.finite _ (logF_std A w) |v| pv (abin hv)
    obtain ⟨r', h1', h2', h3'⟩ := hL.finite _ (logF_std A w) |u| pu (abin hu)
    obtain ⟨t1, t2⟩ := twoLog_is (logF_std A w) hf v0 h1 h2 h3
    obtain ⟨t1', t2'⟩ := twoLog_is (logF_std A w) hg u0 h1' h2' h3'
    have b : ∀ {r : ℚ}, |r| ≤ 2 ^ 100 → |2 * r| ≤ 2 ^ 101 := by
      intro r h; rw [abs_mul, abs_two]; linarith [show (2 : ℚ) ^ 101 = 2 * 2 ^ 100 by norm_num]
    have nn : ∀ {x : Fl} {r : ℚ}, x.Is r → x ≠ .nan := by rintro x r h rfl; have := h.isfinite; cases this
    have mo : ∀ {a b r r' : ℚ}, 0 < a → 0 < b → (logF A w).In a → (logF A w).In b → (L.log (logF A w) (.num a)).Is r →
        (L.log (logF A w) (.num b)).Is r' → a ≤ b → r ≤ r' := by
      intro a b r r' ha hb ia ib i i' hab
      exact (Fl.le_is i i').mp (hm.mono _ (logF_std A w) (.num a) (.num b) ⟨⟨ha.ne', ia⟩, rfl⟩ ⟨⟨hb.ne', ib⟩, rfl⟩
        ((Fl.le_is (Fl.Is.num ha.ne') (Fl.Is.num hb.ne')).mpr hab) (nn i) (nn i'))
    have es : decide (u < 0) = decide (v < 0) := by simp [hs]
    rw [logFrom_eq L A w hf v0, logFrom_eq L A w hg u0, es]
    refine logEnc_mono A w _ t1 t1' t2.1 t2'.1 (b h3) (b h3') ?_
    rcases lt_or_gt_of_ne v0 with hn | hp
    · have hn' := hs.mp hn
      have := mo pu pv (abin hu) (abin hv) h1' h1 (by rw [abs_of_neg hn, abs_of_neg hn']; linarith)
      simp [hn, sg]; linarith
    · have hp' : 0 < u := by linarith
      have := mo pv pu (abin hv) (abin hu) h1 h1' (by rw [abs_of_pos hp, abs_of_pos hp']; linarith)
      simp [not_lt.mpr hp.le, sg]; linarith
  · obtain ⟨t, e, -, a1, a2, a3⟩ := logFrom_finite hL A w hf hv
    obtain ⟨t', e', -, b1, b2, b3⟩ := logFrom_finite hL A w hg hu
    refine ⟨t, t', e, e', ?_⟩
    have z : (0#w.n).toInt = 0 := by simp
    rcases lt_trichotomy v 0 with h1 | h1 | h1 <;> rcases lt_trichotomy u 0 with h2 | h2 | h2
    · exact absurd ⟨h1.ne, h2.ne, by simp [h1, h2]⟩ hs
    · rw [b1 h2, z]; exact (a2 h1).le
    · exact ((a2 h1).trans (b3 h2)).le
    · linarith
    · rw [b1 h2, a1 h1]
    · rw [a1 h1, z]; exact (b3 h2).le
    · linarith
    · linarith
    · exact absurd ⟨h1.ne', h2.ne', by simp [not_lt.mpr h1.le, not_lt.mpr h2.le]⟩ hs

/-- Ordered, or beyond the range of the takums on the same side. -/
def ClLe (a b : ℚ) : Prop :=
  a ≤ b ∨ ((2 : ℚ) ^ (300 : ℤ) ≤ a ∧ (2 : ℚ) ^ (300 : ℤ) ≤ b) ∨ (a ≤ -(2 : ℚ) ^ (300 : ℤ) ∧ b ≤ -(2 : ℚ) ^ (300 : ℤ)) ∨
    (0 < a ∧ a ≤ (2 : ℚ) ^ (-300 : ℤ) ∧ 0 < b ∧ b ≤ (2 : ℚ) ^ (-300 : ℤ)) ∨
    (a < 0 ∧ -(2 : ℚ) ^ (-300 : ℤ) ≤ a ∧ b < 0 ∧ -(2 : ℚ) ^ (-300 : ℤ) ≤ b)

/-- Faithful takums of two numbers that are ordered up to saturation. -/
theorem faithful_cl (k : Kind) (w : W) {t t' : T w} {y y' : ℝ} {v u : ℚ} (hy : |y - v| ≤ outTol k * |(v : ℝ)|) (ft : Faithful k y t)
    (hy' : |y' - u| ≤ outTol k * |(u : ℝ)|) (ft' : Faithful k y' t')
    (h : ((2 : ℚ) ^ (300 : ℤ) ≤ v ∧ (2 : ℚ) ^ (300 : ℤ) ≤ u) ∨ (v ≤ -(2 : ℚ) ^ (300 : ℤ) ∧ u ≤ -(2 : ℚ) ^ (300 : ℤ)) ∨
      (0 < v ∧ v ≤ (2 : ℚ) ^ (-300 : ℤ) ∧ 0 < u ∧ u ≤ (2 : ℚ) ^ (-300 : ℤ)) ∨
      (v < 0 ∧ -(2 : ℚ) ^ (-300 : ℤ) ≤ v ∧ u < 0 ∧ -(2 : ℚ) ^ (-300 : ℤ) ≤ u)) : t.toInt ≤ t'.toInt := by
  have ho : outTol k ≤ 1 / 2 := by cases k <;> norm_num [outTol]
  have p1 : (2 : ℝ) ^ (256 : ℤ) ≤ (2 : ℝ) ^ (300 : ℤ) / 2 := by
    rw [show (300 : ℤ) = 44 + 256 by norm_num, zpow_add₀ (by norm_num)]
    have : (0 : ℝ) < (2 : ℝ) ^ (256 : ℤ) := by positivity
    have h2 : (2 : ℝ) ≤ (2 : ℝ) ^ (44 : ℤ) := by norm_num
    nlinarith
  have p2 : (2 : ℝ) ^ (-300 : ℤ) * 2 ≤ (2 : ℝ) ^ (-256 : ℤ) := by
    rw [show (-256 : ℤ) = -300 + 44 by norm_num, zpow_add₀ (by norm_num)]
    exact mul_le_mul_of_nonneg_left (by norm_num) (by positivity)
  have p3 : (0 : ℝ) < (2 : ℝ) ^ (300 : ℤ) := by positivity
  have p4 : (0 : ℝ) < (2 : ℝ) ^ (-300 : ℤ) := by positivity
  have k1 : (((2 : ℚ) ^ (300 : ℤ) : ℚ) : ℝ) = (2 : ℝ) ^ (300 : ℤ) := by rw [Rat.cast_zpow, Rat.cast_ofNat]
  have k2 : (((2 : ℚ) ^ (-300 : ℤ) : ℚ) : ℝ) = (2 : ℝ) ^ (-300 : ℤ) := by rw [Rat.cast_zpow, Rat.cast_ofNat]
  have c1 : ∀ {q : ℚ}, (2 : ℚ) ^ (300 : ℤ) ≤ q → (2 : ℝ) ^ (300 : ℤ) ≤ q := by
    intro q h; rw [← k1]; exact Rat.cast_le.mpr h
  have c2 : ∀ {q : ℚ}, q ≤ -(2 : ℚ) ^ (300 : ℤ) → (q : ℝ) ≤ -(2 : ℝ) ^ (300 : ℤ) := by
    intro q h; rw [← k1, ← Rat.cast_neg]; exact Rat.cast_le.mpr h
  have c3 : ∀ {q : ℚ}, q ≤ (2 : ℚ) ^ (-300 : ℤ) → (q : ℝ) ≤ (2 : ℝ) ^ (-300 : ℤ) := by
    intro q h; rw [← k2]; exact Rat.cast_le.mpr h
  have c4 : ∀ {q : ℚ}, -(2 : ℚ) ^ (-300 : ℤ) ≤ q → -(2 : ℝ) ^ (-300 : ℤ) ≤ q := by
    intro q h; rw [← k2, ← Rat.cast_neg]; exact Rat.cast_le.mpr h
  have near : ∀ {q : ℚ} {y : ℝ}, |y - q| ≤ outTol k * |(q : ℝ)| → |y - q| ≤ |(q : ℝ)| / 2 := by
    intro q y h
    have := mul_le_mul_of_nonneg_right ho (abs_nonneg (q : ℝ))
    linarith
  replace hy := abs_le.mp (near hy)
  replace hy' := abs_le.mp (near hy')
  obtain ⟨x, hx⟩ := value_some (k := k) ft.1
  obtain ⟨x', hx'⟩ := value_some (k := k) ft'.1
  have rx := value_range _ _ hx
  have rx' := value_range _ _ hx'
  have q1 : (0 : ℝ) < (2 : ℝ) ^ (256 : ℤ) := by positivity
  have q2 : (0 : ℝ) < (2 : ℝ) ^ (-256 : ℤ) := by positivity
  have zi : (0#w.n).toInt = 0 := by simp
  clear k1 k2
  generalize (2 : ℝ) ^ (300 : ℤ) = M at *
  generalize (2 : ℝ) ^ (-300 : ℤ) = m at *
  generalize (2 : ℝ) ^ (256 : ℤ) = M' at *
  generalize hm' : (2 : ℝ) ^ (-256 : ℤ) = m' at *
  rcases h with ⟨h1, h2⟩ | ⟨h1, h2⟩ | ⟨h1, h2, h3, h4⟩ | ⟨h1, h2, h3, h4⟩
  · replace h2 := c1 h2
    clear h1
    rw [abs_of_nonneg (by linarith : (0 : ℝ) ≤ u)] at hy'
    exact (ft'.2.2 t x hx).1 (by rcases rx with h | ⟨h, h'⟩ | ⟨h, h'⟩ <;> linarith)
  · replace h1 := c2 h1
    clear h2
    rw [abs_of_nonpos (by linarith : (v : ℝ) ≤ 0)] at hy
    exact (ft.2.2 t' x' hx').2 (by rcases rx' with h | ⟨h, h'⟩ | ⟨h, h'⟩ <;> linarith)
  · replace h2 := c3 h2
    replace h4 := c3 h4
    replace h1 : (0 : ℝ) < v := by exact_mod_cast h1
    replace h3 : (0 : ℝ) < u := by exact_mod_cast h3
    rw [abs_of_pos h1] at hy
    rw [abs_of_pos h3] at hy'
    have n0 : t' ≠ 0#w.n := fun e => by have := ft'.2.1.mp e; linarith
    have hp : 0 ≤ t'.toInt := by
      have := (ft'.2.2 _ _ (value_zero k)).1 (by linarith)
      rwa [zi] at this
    refine (ft.2.2 t' x' hx').2 ?_
    rcases value_cases hx' with h | ⟨-, -, -, h, -⟩ | ⟨-, -, h, -⟩
    · exact absurd h.1 n0
    · rw [hm'] at h; linarith
    · omega
  · replace h2 := c4 h2
    replace h4 := c4 h4
    replace h1 : (v : ℝ) < 0 := by exact_mod_cast h1
    replace h3 : (u : ℝ) < 0 := by exact_mod_cast h3
    rw [abs_of_neg h1] at hy
    rw [abs_of_neg h3] at hy'
    have n0 : t ≠ 0#w.n := fun e => by have := ft.2.1.mp e; linarith
    have hp : t.toInt ≤ 0 := by
      have := (ft.2.2 _ _ (value_zero k)).2 (by linarith)
      rwa [zi] at this
    refine (ft'.2.2 t x hx).1 ?_
    rcases value_cases hx with h | ⟨-, -, h, -⟩ | ⟨-, -, -, h, -⟩
    · exact absurd h.1 n0
    · omega
    · rw [hm'] at h; linarith

theorem kFrom_mono {L : Libm} (hL : L.Conforming) (hm : Increasing L.log) (k : Kind) (w : W) {f g : Fl} {v u : ℚ} (hf : f.Is v) (hg : g.Is u)
    (hv : (kF k w).In v) (hu : (kF k w).In u) (h : ClLe v u) :
    ∃ t t' : T w, kFrom L k w f = .ok t ∧ kFrom L k w g = .ok t' ∧ t.toInt ≤ t'.toInt := by
  rcases h with h | h
  · cases k
    · exact logFrom_mono hL.logs hm .ext w hf hg hv hu h
    · exact linFrom_mono w.src w hf hg hv hu h
  obtain ⟨t, y, e, hy, ft⟩ := kFrom_faithful hL k hf hv
  obtain ⟨t', y', e', hy', ft'⟩ := kFrom_faithful hL k hg hu
  exact ⟨t, t', e, e', faithful_cl k w hy ft hy' ft' h⟩

/-- The converted arguments are in the order of the takums. -/
theorem kTo_mono {L : Libm} (hL : L.Conforming) (k : Kind) (w : W) {a b : T w} {x y : ℝ} (hx : value k a = some x) (hy : value k b = some y)
    (h : a.toInt ≤ b.toInt) {r s : Fl} {v u : ℚ} (er : kTo L k w a = .ok r) (es : kTo L k w b = .ok s) (hr : r.Is v) (hs : s.Is u) : v ≤ u := by
  have ha : a ≠ nar w.n := by rw [Ne, ← value_none (k := k), hx]; simp
  have hb : b ≠ nar w.n := by rw [Ne, ← value_none (k := k), hy]; simp
  cases k
  · obtain ⟨x', y', z, e1, e2, -, h3, -⟩ := log_to_increasing L hL.powers hL.accurate hL.specials .ext w (Or.inl rfl) b a hb ha
    change logTo L .ext w a = _ at er
    change logTo L .ext w b = _ at es
    rw [er] at e2; rw [es] at e1
    injection e1 with e1; injection e2 with e2
    subst e1 e2
    by_contra hc
    have := h3.mp ((Fl.lt_iff hs hr).mpr (not_le.mp hc))
    omega
  · obtain ⟨r', e1, i1⟩ := linTo_src w ha
    obtain ⟨s', e2, i2⟩ := linTo_src w hb
    change linTo w.src w a = _ at er
    change linTo w.src w b = _ at es
    rw [er] at e1; rw [es] at e2
    injection e1 with e1; injection e2 with e2
    subst e1 e2
    rw [hr.unique i1, hs.unique i2]
    exact (qv_le_iff ha hb).mpr h

end Takum
