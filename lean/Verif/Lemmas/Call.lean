import Verif.Model.Kinds
import Verif.Lemmas.Elem
import Verif.Lemmas.LinExact
import Verif.Lemmas.LinNear

/-! # The elementary functions of both families: conversion of argument and result -/

namespace Takum
open Spec

/-- The floating type in which the function is evaluated. -/
def kF : Kind → W → Fmt
  | .log, _ => x80
  | .lin, w => w.src.fmt

theorem kF_std (k : Kind) (w : W) : kF k w = b64 ∨ kF k w = x80 := by
  cases k <;> cases w <;> first | exact Or.inl rfl | exact Or.inr rfl

def kTo (L : Libm) (k : Kind) (w : W) (t : T w) : C Fl :=
  match k with
  | .log => logTo L .ext w t
  | .lin => linTo w.src w t

def kFrom (L : Libm) (k : Kind) (w : W) (f : Fl) : C (T w) :=
  match k with
  | .log => logFrom L .ext w f
  | .lin => linFrom w.src w f

theorem ev_x80 (L : Libm) (u : UFun) (f : Fl) : u.ev L x80 f = u.evl L f := by
  unfold UFun.ev; rw [if_neg (by simp [x80, b64])]

theorem ev_b64 (L : Libm) (u : UFun) (f : Fl) : u.ev L b64 f = u.evd L f := by
  unfold UFun.ev; rw [if_pos rfl]

theorem call_eq {L : Libm} {u : UFun} {k : Kind} {w : W} {t : T w} {r : Fl} (h : kTo L k w t = .ok r) :
    u.call L k w t = kFrom L k w (u.fix r (u.ev L (kF k w) r)) := by
  cases k
  · show unaryLog L (u.evl L) u.fix w t = _
    rw [unaryLog_eq h]; show _ = logFrom L .ext w (u.fix r (u.ev L x80 r)); rw [ev_x80]
  · show unaryLin (u.ev L) u.fix w t = _
    rw [unaryLin_eq h]; rfl

theorem bcall_eq {L : Libm} {u : BFun} {k : Kind} {w : W} {a b : T w} {x y : Fl} (h : kTo L k w a = .ok x) (h' : kTo L k w b = .ok y) :
    u.call L k w a b = kFrom L k w (u.fix x y (u.ev L (kF k w) x y)) := by
  cases k
  · show binaryLog L (u.ev L x80) u.fix w a b = _
    rw [binaryLog_eq h h']; rfl
  · show binaryLin (u.ev L) u.fix w a b = _
    rw [binaryLin_eq h h']; rfl

theorem kFrom_bad {L : Libm} {k : Kind} {w : W} {f : Fl} (h : f.isfinite = false) : kFrom L k w f = .ok (nar w.n) := by
  cases k
  · exact logFrom_nonfinite L .ext w h
  · cases f with
    | nan => exact linFrom_nan _ _
    | inf s => exact linFrom_inf _ _ s
    | zero s => simp [Fl.isfinite] at h
    | num q => simp [Fl.isfinite] at h

theorem kFrom_fin {L : Libm} (hL : L.Logs) {k : Kind} {w : W} {f : Fl} {v : ℚ} (hf : f.Is v) (h : (kF k w).In v) :
    ∃ t : T w, kFrom L k w f = .ok t ∧ t ≠ nar w.n ∧ (t = 0#w.n ↔ v = 0) ∧ (t.toInt < 0 ↔ v < 0) := by
  have h8 := w.n_pos
  cases k
  · by_cases hv : v = 0
    · subst hv
      rcases hf.cases with ⟨h0, _⟩ | ⟨_, s, rfl⟩
      · exact absurd rfl h0
      · exact ⟨_, logFrom_zero L .ext w s, zero_ne_nar w, by simp, by simp⟩
    · obtain ⟨t, e, rt, m⟩ := logFrom_regular hL .ext w hf hv h
      exact ⟨t, e, rt.2, by simp [rt.1, hv], by rw [toInt_neg_iff (by omega) rt, m]; simp⟩
  · obtain ⟨a, b, c, -⟩ := linEnc_facts (w := w) h
    exact ⟨_, linFrom_enc hf h, a, b.symm, c.symm⟩

theorem value_none {k : Kind} {n : ℕ} {t : BitVec n} : value k t = none ↔ t = nar n := by
  cases k
  · show logVal t = none ↔ _
    unfold logVal; split_ifs <;> simp_all
  · show (linVal t).map _ = none ↔ _
    unfold linVal; split_ifs <;> simp_all

theorem value_lin {n : ℕ} {t : BitVec n} {q : ℚ} (h : linVal t = some q) : value .lin t = some (q : ℝ) := by
  show (linVal t).map _ = _; rw [h]; rfl

/-- What is known of the float that a takum is converted to. -/
structure Arg (F : Fmt) (w : W) (r : Fl) (v : ℚ) (x : ℝ) : Prop where
  is : r.Is v
  isIn : F.In v
  le : |v| ≤ (2 : ℚ) ^ (300 : ℤ)
  ge : v ≠ 0 → (2 : ℚ) ^ (-300 : ℤ) ≤ |v|
  zero : x = 0 ↔ v = 0
  neg : x < 0 ↔ v < 0
  one : |x| = 1 ↔ |v| = 1
  small : |x| < 1 ↔ |v| < 1
  below : |v| < 1 → |v| ≤ 1 - 1 / 2 ^ (w.n - 3)
  above : 1 < |v| → 1 + 1 / 2 ^ (w.n - 3) ≤ |v|

theorem ell_sep {w : W} {t : T w} (h : ell t ≠ 0) : 1 / 2 ^ (w.n - 5) ≤ |ell t| := by
  obtain ⟨j, hj⟩ := ell_fine (by have := w.n_pos; omega : 5 ≤ w.n) t
  have hp : (0 : ℚ) < 2 ^ (w.n - 5) := by positivity
  have e : ell t = j / 2 ^ (w.n - 5) := by rw [eq_div_iff hp.ne']; exact hj
  rw [e, abs_div, abs_of_pos hp]
  apply div_le_div_of_nonneg_right _ hp.le
  have : j ≠ 0 := by rintro rfl; apply h; rw [e]; simp
  exact_mod_cast Int.one_le_abs this

theorem sep_pow (w : W) : (2 : ℚ) ^ (w.n - 3) = 4 * 2 ^ (w.n - 5) ∧ (8 : ℚ) ≤ 2 ^ (w.n - 5) ∧ (2 : ℚ) ^ (w.n - 5) ≤ 2 ^ 59 := by
  cases w <;> decide +kernel

theorem lam_sep {w : W} {t : T w} : (ell t < 0 → lam (ell t) ≤ 1 - 1 / 2 ^ (w.n - 3)) ∧
    (0 < ell t → 1 + 1 / 2 ^ (w.n - 3) ≤ lam (ell t)) ∧ (ell t = 0 → lam (ell t) = 1) := by
  obtain ⟨s1, s2, s3⟩ := sep_pow w
  have hp : (0 : ℚ) < 2 ^ (w.n - 5) := by positivity
  have hd : (0 : ℚ) < 1 / 2 ^ (w.n - 5) := by positivity
  have hd8 : (1 : ℚ) / 2 ^ (w.n - 5) ≤ 1 / 8 := one_div_le_one_div_of_le (by norm_num) s2
  have e4 : (1 : ℚ) / 2 ^ (w.n - 3) = 1 / 2 ^ (w.n - 5) / 4 := by rw [s1]; field_simp
  rw [e4]
  refine ⟨fun h => ?_, fun h => ?_, fun h => by rw [h]; simp [lam]⟩
  · have hs := ell_sep (t := t) h.ne
    rw [abs_of_neg h] at hs
    generalize (1 : ℚ) / 2 ^ (w.n - 5) = d at *
    have h1 : lam (ell t) ≤ lam (-d) := lam_strictMono.monotone (by linarith)
    rw [lam_affine (j := -1) (x := -d) (by push_cast; linarith) (by push_cast; linarith)] at h1
    push_cast at h1
    norm_num at h1
    linarith
  · have hs := ell_sep (t := t) h.ne'
    rw [abs_of_pos h] at hs
    generalize (1 : ℚ) / 2 ^ (w.n - 5) = d at *
    have h1 : lam d ≤ lam (ell t) := lam_strictMono.monotone (by linarith)
    rw [lam_affine (j := 0) (x := d) (by push_cast; linarith) (by push_cast; linarith)] at h1
    push_cast at h1
    norm_num at h1
    linarith

theorem log_sep {w : W} {v l B : ℝ} (hv : 0 < v) (hB : |2 * B - 1| ≤ 1 / 2 ^ 49)
    (h : |Real.log v - l * B| ≤ 4.01 / 2 ^ 64) :
    (l ≤ -(1 / 2 ^ (w.n - 5)) → v ≤ 1 - 1 / 2 ^ (w.n - 3)) ∧ (1 / 2 ^ (w.n - 5) ≤ l → 1 + 1 / 2 ^ (w.n - 3) ≤ v) := by
  obtain ⟨s1, s2, s3⟩ := sep_pow w
  have s1 : (2 : ℝ) ^ (w.n - 3) = 4 * 2 ^ (w.n - 5) := by exact_mod_cast s1
  have s2 : (8 : ℝ) ≤ 2 ^ (w.n - 5) := by exact_mod_cast s2
  have s3 : (2 : ℝ) ^ (w.n - 5) ≤ 2 ^ 59 := by exact_mod_cast s3
  have hp : (0 : ℝ) < 2 ^ (w.n - 5) := by positivity
  have hd8 : (1 : ℝ) / 2 ^ (w.n - 5) ≤ 1 / 8 := one_div_le_one_div_of_le (by norm_num) s2
  have hd9 : (1 : ℝ) / 2 ^ 59 ≤ 1 / 2 ^ (w.n - 5) := one_div_le_one_div_of_le hp s3
  have e4 : (1 : ℝ) / 2 ^ (w.n - 3) = 1 / 2 ^ (w.n - 5) / 4 := by rw [s1]; field_simp
  rw [e4]
  generalize (1 : ℝ) / 2 ^ (w.n - 5) = d at *
  have hb := abs_le.mp hB
  have hh := abs_le.mp h
  have B1 : 0.49999 ≤ B := by norm_num at hb ⊢; linarith
  have d0 : 0 < d := lt_of_lt_of_le (by norm_num) hd9
  have hε : (4.01 : ℝ) / 2 ^ 64 ≤ 0.13 * d := by norm_num at hd9 ⊢; linarith
  refine ⟨fun hl => ?_, fun hl => ?_⟩
  · have h1 : l * B ≤ -d * 0.49999 := by nlinarith
    have h2 : Real.log v ≤ -(0.36 * d) := by linarith
    have h3 := Real.add_one_le_exp (-Real.log v)
    rw [Real.exp_neg, Real.exp_log hv] at h3
    have h4 : 1 + 0.36 * d ≤ v⁻¹ := by linarith
    have h5 : v * (1 + 0.36 * d) ≤ 1 := by
      have := mul_le_mul_of_nonneg_left h4 hv.le
      rwa [mul_inv_cancel₀ hv.ne'] at this
    have : 1 ≤ (1 - d / 4) * (1 + 0.36 * d) := by nlinarith
    by_contra hc
    push Not at hc
    nlinarith
  · have h1 : d * 0.49999 ≤ l * B := by nlinarith
    have h2 : 0.36 * d ≤ Real.log v := by linarith
    have h3 := Real.add_one_le_exp (Real.log v)
    rw [Real.exp_log hv] at h3
    linarith

theorem logG_cmp (q : ℚ) : 0 < logG q ∧ (logG q < 1 ↔ q < 0) ∧ (logG q = 1 ↔ q = 0) := by
  have h0 : logG 0 = 1 := by simp [logG]
  refine ⟨logG_pos q, ?_, ?_⟩
  · rw [← h0]; exact logG_mono.lt_iff_lt
  · rw [← h0]; exact logG_mono.injective.eq_iff

theorem arg_of {F : Fmt} {w : W} {t : T w} {r : Fl} {v : ℚ} {g : ℝ} (h : r.Is (sg t.msb * v)) (hi : F.In (sg t.msb * v))
    (h1 : (2 : ℚ) ^ (-300 : ℤ) ≤ v) (h2 : v ≤ (2 : ℚ) ^ (300 : ℤ)) (hg : 0 < g) (l1 : g < 1 ↔ ell t < 0) (l2 : g = 1 ↔ ell t = 0)
    (a : ell t < 0 → v ≤ 1 - 1 / 2 ^ (w.n - 3)) (b : 0 < ell t → 1 + 1 / 2 ^ (w.n - 3) ≤ v) (c : ell t = 0 → v = 1) :
    Arg F w r (sg t.msb * v) ((sg t.msb : ℚ) * g) := by
  have hv : 0 < v := lt_of_lt_of_le (by positivity) h1
  have hp : (0 : ℚ) < 1 / 2 ^ (w.n - 3) := by positivity
  have av : |sg t.msb * v| = v := by rw [sg_abs, abs_of_pos hv]
  have ag : |((sg t.msb : ℚ) : ℝ) * g| = g := by cases t.msb <;> simp [sg, abs_of_pos hg]
  have tri := lt_trichotomy (ell t) 0
  have one : g = 1 ↔ v = 1 := by
    rw [l2]
    rcases tri with h | h | h
    · have := a h; constructor <;> intro <;> linarith
    · simp [h, c h]
    · have := b h; constructor <;> intro <;> linarith
  have small : g < 1 ↔ v < 1 := by
    rw [l1]
    rcases tri with h | h | h
    · have := a h; constructor
      · intro; linarith
      · intro; exact h
    · simp [h, c h]
    · have := b h; constructor <;> intro <;> linarith
  refine ⟨h, hi, by rwa [av], fun _ => by rwa [av], ?_, ?_, by rw [av, ag]; exact one, by rw [av, ag]; exact small, ?_, ?_⟩
  · cases t.msb <;> simp [sg, hg.ne', hv.ne']
  · cases t.msb
    · simp only [sg]; norm_num
      exact ⟨fun h => by linarith, fun h => by linarith⟩
    · simp [sg, hg, hv]
  · rw [av]; intro h; rw [← small, l1] at h; exact a h
  · rw [av]; intro h
    rcases tri with h' | h' | h'
    · have := a h'; linarith
    · have := c h'; linarith
    · exact b h'

theorem arg_zero {F : Fmt} {w : W} (s : Bool) : Arg F w (.zero s) 0 0 := by
  refine ⟨Fl.Is.zero s, ⟨Fmt.Rep.zero F, by rw [abs_zero]; positivity⟩, by rw [abs_zero]; positivity, fun h => absurd rfl h,
    by simp, by simp, by simp, by simp, fun _ => ?_, fun h => by simp at h; linarith⟩
  obtain ⟨s1, s2, -⟩ := sep_pow w
  rw [abs_zero, sub_nonneg, div_le_one (by positivity), s1]; linarith

/-- The conversion of the argument. -/
theorem kTo_arg {L : Libm} (hL : L.Powers) (hA : L.Accurate) (hS : L.Specials) (k : Kind) (w : W) {t : T w} {x : ℝ}
    (hx : value k t = some x) : ∃ r v, kTo L k w t = .ok r ∧ Arg (kF k w) w r v x := by
  have h8 := w.n_pos
  have ht : t ≠ nar w.n := by rw [Ne, ← value_none (k := k), hx]; simp
  by_cases h0 : t = 0#w.n
  · subst h0
    cases k
    · have : x = 0 := by
        change logVal _ = _ at hx; unfold logVal at hx; rw [if_neg ht, if_pos rfl] at hx; simpa using hx.symm
      subst this
      exact ⟨_, _, logTo_zero hL .ext w, arg_zero _⟩
    · have : x = 0 := by
        change (linVal _).map _ = _ at hx; unfold linVal at hx; rw [if_neg ht, if_pos rfl] at hx; simpa using hx.symm
      subst this
      obtain ⟨r, e, i⟩ := linTo_src w ht
      rw [qv_zero] at i
      rcases i.cases with ⟨h, _⟩ | ⟨_, s, rfl⟩
      · exact absurd rfl h
      · exact ⟨_, _, e, arg_zero _⟩
  have rt : Regular t := ⟨h0, ht⟩
  cases k
  · have hx' : x = (sg t.msb : ℚ) * logG (ell t) := by
      have := logVal_regular (by omega : 1 ≤ w.n) rt
      change logVal _ = _ at hx; rw [this] at hx; simpa using hx.symm
    obtain ⟨l, f, z, e1, hl, z1, z2, z3, z4, e2, i, n, p⟩ := logTo_finite hL .ext (by decide) w rt
    obtain ⟨f', v, e3, i', n', pv, lg⟩ := logTo_log hL hA .ext (by decide) w (by simp) rt
    rw [e2] at e3
    have : f = f' := by injection e3
    subst this
    have hv : v = Src.ext.fmt.rq z := by
      have := i.unique i'
      cases hm : t.msb
      · rw [hm] at this; simp [sg] at this; exact this.symm
      · rw [hm] at this; simp [sg] at this; exact this.symm
    obtain ⟨g0, g1, g2⟩ := logG_cmp (ell t)
    have pw : powF .ext w = x80 := by cases w <;> rfl
    have hκ : |2 * Real.log (sqe (powF .ext w)) - 1| ≤ 1 / 2 ^ 49 := by
      have := sqe_log (kF_std .log w)
      rw [pw]
      refine this.trans ?_
      have := (sqe_sq (F := x80) (Or.inr rfl)).2
      have : ((kap x80 : ℚ) : ℝ) ≤ 1 / 2 ^ 50 := by
        have := (Rat.cast_le (K := ℝ)).mpr this; push_cast at this; exact this
      show ((kap x80 : ℚ) : ℝ) * _ ≤ _
      nlinarith
    have hlam : ((lamOf .ext w : ℚ) : ℝ) = 4.01 / 2 ^ 64 := by
      have : lamOf .ext w = 4.01 / 2 ^ 64 := by cases w <;> rfl
      rw [this]; push_cast; norm_num
    rw [hlam] at lg
    have pv' : (0 : ℝ) < v := by exact_mod_cast pv
    obtain ⟨c1, c2⟩ := log_sep (w := w) pv' hκ lg
    have hz : v ≤ (2 : ℚ) ^ (300 : ℤ) ∧ (2 : ℚ) ^ (-300 : ℤ) ≤ v := by
      rw [hv]
      obtain ⟨a, b, -⟩ := rq_mid (F := Src.ext.fmt) (Or.inr rfl) z2 z3
      exact ⟨b, a⟩
    have sc : ∀ q : ℚ, ((1 : ℚ) / 2 ^ (w.n - 5) ≤ q → (1 : ℝ) / 2 ^ (w.n - 5) ≤ q) := by
      intro q h; have := (Rat.cast_le (K := ℝ)).mpr h; push_cast at this; exact this
    refine ⟨f, sg t.msb * v, e2, ?_⟩
    rw [hx']
    refine arg_of i' n' hz.2 hz.1 g0 g1 g2 (fun h => ?_) (fun h => ?_) (fun h => ?_)
    · have s := ell_sep (t := t) h.ne
      rw [abs_of_neg h] at s
      have := sc _ s
      push_cast at this
      have := c1 (by linarith)
      apply (Rat.cast_le (K := ℝ)).mp; push_cast; exact this
    · have s := ell_sep (t := t) h.ne'
      rw [abs_of_pos h] at s
      have := c2 (sc _ s)
      apply (Rat.cast_le (K := ℝ)).mp; push_cast; exact this
    · rw [h] at hl
      have : expo .ext w l = l := by cases w <;> rfl
      rw [this] at z1
      rcases hl.cases with ⟨h, _⟩ | ⟨_, s, rfl⟩
      · exact absurd rfl h
      rw [hS.exp_zero] at z1
      have : z = 1 := by injection z1 with z1; exact z1.symm
      rw [hv, this]
      exact Fmt.rq_of_rep _ ⟨1, 0, by norm_num, by decide, by decide⟩
  · have hq := linVal_qv ht
    have hx' : x = (sg t.msb : ℚ) * (lam (ell t) : ℚ) := by
      change (linVal _).map _ = _ at hx; rw [hq, qv_regular rt] at hx
      unfold lv at hx
      simpa using hx.symm
    obtain ⟨r, e, i⟩ := linTo_src w ht
    rw [qv_regular rt] at i
    obtain ⟨b1, b2⟩ := lv_bounds t
    rw [lv_abs] at b1 b2
    obtain ⟨c1, c2, c3⟩ := lam_sep (t := t)
    have h0 : lam 0 = 1 := by simp [lam]
    rw [hx']
    refine ⟨r, _, e, arg_of i (lv_src t) (le_trans (by decide +kernel) b1) (b2.le.trans (by decide +kernel))
      (by exact_mod_cast lam_pos _) ?_ ?_ c1 c2 c3⟩
    · have : ((lam (ell t) : ℚ) : ℝ) < 1 ↔ lam (ell t) < lam 0 := by rw [h0]; exact_mod_cast Iff.rfl
      rw [this]; exact lam_strictMono.lt_iff_lt
    · have : ((lam (ell t) : ℚ) : ℝ) = 1 ↔ lam (ell t) = lam 0 := by rw [h0]; exact_mod_cast Iff.rfl
      rw [this]; exact lam_strictMono.injective.eq_iff

end Takum
