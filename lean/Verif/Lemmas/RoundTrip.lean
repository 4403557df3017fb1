import Verif.Lemmas.Gap
import Verif.Lemmas.LogConv
import Verif.Lemmas.Ideal
import Mathlib.Analysis.Complex.ExponentialBounds

/-! # Error analysis of the conversions of logarithmic takums -/

namespace Takum
open Spec

theorem abs_log_le {x μ : ℝ} (h : |x - 1| ≤ μ) (hμ : μ ≤ 1 / 4) : |Real.log x| ≤ μ * (1 + 2 * μ) := by
  have hμ0 : 0 ≤ μ := le_trans (abs_nonneg _) h
  rw [abs_le] at h
  have hx : 0 < x := by linarith [h.1]
  have h1 := Real.log_le_sub_one_of_pos hx
  have h2 := Real.one_sub_inv_le_log_of_pos hx
  have h3 : x⁻¹ ≤ 1 + μ * (1 + 2 * μ) := by
    rw [inv_le_comm₀ hx (by positivity)]
    rw [inv_le_iff_one_le_mul₀ (by positivity)]
    nlinarith [h.1, mul_nonneg hμ0 hμ0, mul_nonneg (mul_nonneg hμ0 hμ0) hμ0]
  rw [abs_le]
  constructor
  · linarith
  · nlinarith [h.2]

/-- Relative error of the square of the base `SQRTE`. -/
def kap (F : Fmt) : ℚ := 1.4 / 2 ^ F.prec

theorem sqe_sq {F : Fmt} (hF : F = b64 ∨ F = x80) : |sqe F ^ 2 - 363916618873 / 133877442384| ≤ kap F * 2.7 - 1 / 10 ^ 20 ∧ kap F ≤ 1 / 2 ^ 50 := by
  unfold kap; rcases hF with rfl | rfl <;> decide +kernel

theorem sqe_log {F : Fmt} (hF : F = b64 ∨ F = x80) :
    |2 * Real.log (sqe F) - 1| ≤ (kap F : ℝ) * (1 + 1 / 2 ^ 49) := by
  obtain ⟨h1, h2⟩ := sqe_sq hF
  have h1' : |((sqe F : ℚ) : ℝ) ^ 2 - 363916618873 / 133877442384| ≤ (kap F : ℝ) * 2.7 - 1 / 10 ^ 20 := by
    have := (Rat.cast_le (K := ℝ)).mpr h1; push_cast at this; exact this
  have h2' : (kap F : ℝ) ≤ 1 / 2 ^ 50 := by
    have := (Rat.cast_le (K := ℝ)).mpr h2; push_cast at this; exact this
  have hk : (0 : ℝ) ≤ kap F := by
    have : 0 ≤ kap F := by unfold kap; positivity
    exact_mod_cast this
  have he := Real.exp_one_near_20
  have he2 := Real.exp_one_gt_d9
  have hs : (0 : ℝ) < sqe F := by
    have := (sqe_facts (F := F) (by tauto)).1
    exact_mod_cast lt_trans one_pos this
  have d : |((sqe F : ℚ) : ℝ) ^ 2 - Real.exp 1| ≤ (kap F : ℝ) * 2.7 := by
    have := abs_sub_le ((sqe F : ℝ) ^ 2) (363916618873 / 133877442384) (Real.exp 1)
    rw [abs_sub_comm (363916618873 / 133877442384 : ℝ) (Real.exp 1)] at this
    linarith
  have d2 : |((sqe F : ℚ) : ℝ) ^ 2 / Real.exp 1 - 1| ≤ (kap F : ℝ) := by
    rw [div_sub_one (Real.exp_pos 1).ne', abs_div, abs_of_pos (Real.exp_pos 1), div_le_iff₀ (Real.exp_pos 1)]
    nlinarith
  have e : 2 * Real.log (sqe F) - 1 = Real.log ((sqe F : ℝ) ^ 2 / Real.exp 1) := by
    rw [Real.log_div (by positivity) (Real.exp_pos 1).ne', Real.log_exp, Real.log_pow]; norm_num
  rw [e]
  refine (abs_log_le d2 (by linarith)).trans ?_
  have : 1 + 2 * (kap F : ℝ) ≤ 1 + 1 / 2 ^ 49 := by norm_num at h2' ⊢; linarith
  gcongr

/-- The exponent recovered from an approximate power, by an approximate logarithm. -/
theorem recover {B l v r κ lam ε : ℝ} (hκ : |2 * Real.log B - 1| ≤ κ) (hv : |Real.log v - l * Real.log B| ≤ lam)
    (hr : |r - Real.log v| ≤ ε * |Real.log v|) (hε : 0 ≤ ε) :
    |2 * r - l| ≤ (|l| * κ + 2 * lam) * (1 + ε) + ε * |l| := by
  have e1 : 2 * Real.log v - l = 2 * (Real.log v - l * Real.log B) + l * (2 * Real.log B - 1) := by ring
  have e2 : |2 * Real.log v - l| ≤ |l| * κ + 2 * lam := by
    rw [e1]
    refine (abs_add_le _ _).trans ?_
    rw [abs_mul, abs_mul, abs_two]
    nlinarith [abs_nonneg l]
  have e3 : |2 * Real.log v| ≤ |l| + (|l| * κ + 2 * lam) := by
    have := abs_add_le (2 * Real.log v - l) l
    rw [sub_add_cancel] at this
    linarith
  have e4 : |2 * r - 2 * Real.log v| ≤ ε * |2 * Real.log v| := by
    rw [← mul_sub, abs_mul, abs_mul, abs_two]; nlinarith
  have e5 := abs_sub_le (2 * r) (2 * Real.log v) l
  nlinarith

/-- The logarithm of a number with relative error. -/
theorem log_rel {p z μ : ℝ} (hp : 0 < p) (h : |z - p| ≤ μ * p) (hμ : μ ≤ 1 / 4) :
    0 < z ∧ |Real.log z - Real.log p| ≤ μ * (1 + 2 * μ) := by
  have hz : 0 < z := by rw [abs_le] at h; nlinarith [h.1]
  refine ⟨hz, ?_⟩
  rw [← Real.log_div hz.ne' hp.ne']
  apply abs_log_le _ hμ
  rw [div_sub_one hp.ne', abs_div, abs_of_pos hp, div_le_iff₀ hp]
  exact h

/-- Bound on the error of the logarithm of the converted number, by the types involved. -/
def lamOf (A : Src) (w : W) : ℚ :=
  match powF A w, A with
  | _, .f64 => 5 / 2 ^ 53
  | _, _ => 4.01 / 2 ^ 64

/-- The logarithm of the float made from a takum. -/
theorem logTo_log {L : Libm} (hL : L.Powers) (hA' : L.Accurate) (A : Src) (hA : A ≠ .f32) (w : W)
    (hw : A = .f64 → w ≠ .w64) {t : T w} (h : Regular t) :
    ∃ (f : Fl) (v : ℚ), logTo L A w t = .ok f ∧ f.Is (sg t.msb * v) ∧ A.fmt.In (sg t.msb * v) ∧ 0 < v ∧
      |Real.log v - (ell t : ℝ) * Real.log (sqe (powF A w))| ≤ lamOf A w := by
  have pstd : powF A w = b64 ∨ powF A w = x80 := by cases A <;> cases w <;> simp_all [powF]
  obtain ⟨l, f, z, e, hl, z1, z2, z3, z4, e', i, n, p⟩ := logTo_finite hL A hA w h
  obtain ⟨q, hq, hi, hb, hqe⟩ := expo_finite A w hl
  have hqe' : q = ell t := by rw [hqe]; cases A <;> cases w <;> simp_all
  subst hqe'
  obtain ⟨h1, h2, h3⟩ := sqe_facts (powF_std A w)
  obtain ⟨z', w1, w2, w3⟩ := hA'.pow _ pstd _ _ _ h1 h2 h3 hq hi hb
  rw [z1] at w1
  obtain rfl := Fl.num.inj w1
  have hB : (0 : ℝ) < sqe (powF A w) := by exact_mod_cast lt_trans one_pos h1
  have hP : (0 : ℝ) < (sqe (powF A w) : ℝ) ^ (ell t : ℝ) := Real.rpow_pos_of_pos hB _
  have hprec : (4 : ℝ) / 2 ^ (powF A w).prec ≤ 4 / 2 ^ 53 := by
    rcases pstd with hh | hh <;> rw [hh] <;> norm_num [b64, x80]
  obtain ⟨hz, hlog⟩ := log_rel hP w3 (by norm_num at hprec ⊢; linarith)
  rw [Real.log_rpow hB] at hlog
  have pv : 0 < A.fmt.rq z := lt_of_lt_of_le (by positivity) p
  refine ⟨f, A.fmt.rq z, e', i, n, pv, ?_⟩
  by_cases hc : A = .f64 ∧ w = .w8
  · obtain ⟨rfl, rfl⟩ := hc
    have hz1 : (2 : ℝ) ^ (b64.emin + (b64.prec : ℤ)) ≤ |(z : ℝ)| := by
      rw [abs_of_pos hz]
      have h0 : (2 : ℚ) ^ (b64.emin + (b64.prec : ℤ)) ≤ (2 : ℚ) ^ (-300 : ℤ) :=
        zpow_le_zpow_right₀ (by norm_num) (by decide)
      have := (Rat.cast_le (K := ℝ)).mpr (h0.trans z2)
      rw [Rat.cast_zpow] at this
      exact this
    have hr := rq_real_err (F := b64) (x := (z : ℝ)) hz1
    rw [Fmt.rq_cast, abs_of_pos hz] at hr
    obtain ⟨-, hlog2⟩ := log_rel (p := (z : ℝ)) (z := ((b64.rq z : ℚ) : ℝ)) (μ := 1 / 2 ^ 53) hz
      (by rw [one_div_mul_eq_div]; exact hr) (by norm_num)
    have := abs_sub_le (Real.log ((b64.rq z : ℚ) : ℝ)) (Real.log z) ((ell t : ℝ) * Real.log (sqe (powF .f64 .w8)))
    show |Real.log ((b64.rq z : ℚ) : ℝ) - _| ≤ _
    refine this.trans ((add_le_add hlog2 hlog).trans ?_)
    show _ ≤ (((5 / 2 ^ 53 : ℚ)) : ℝ)
    norm_num [powF, x80]
  · have hrz : A.fmt.rq z = z := by
      apply Fmt.rq_of_rep
      have : A.fmt = powF A w := by cases A <;> cases w <;> first | rfl | exact absurd rfl hA | exact absurd ⟨rfl, rfl⟩ hc
      rw [this]; exact z4.1
    rw [hrz]
    refine hlog.trans ?_
    cases A
    · exact absurd rfl hA
    · have : powF .f64 w = b64 := by cases w <;> first | rfl | exact absurd ⟨rfl, rfl⟩ hc
      rw [this]
      show _ ≤ (((5 / 2 ^ 53 : ℚ)) : ℝ)
      norm_num [b64]
    · show _ ≤ (((4.01 / 2 ^ 64 : ℚ)) : ℝ)
      norm_num [powF, x80]

theorem logEnc_close (A : Src) (hA : A ≠ .f32) (w : W) (hw : A = .f64 → w ≠ .w64) {t : T w} (ht : Regular t)
    {l : Fl} {q η : ℚ} (hl : l.Is q) (hq : x80.Rep q) (hη : |q - ell t| ≤ η) :
    ∃ v : T w, logEnc A w t.msb l = .ok v ∧ Regular v ∧ v.msb = t.msb ∧
      |ell v - ell t| ≤ (if w = .w64 then 2 else 4) * (η + 1 / 2 ^ 64) := by
  have hpos : 0 ≤ η + 1 / 2 ^ 64 := add_nonneg ((abs_nonneg _).trans hη) (by positivity)
  cases A
  · exact absurd rfl hA
  · cases w
    · exact enc_reduce_close (w := .w8) (by decide) ht hl hq hη
    · exact enc_reduce_close (w := .w16) (by decide) ht hl hq hη
    · obtain ⟨v, a, b, c, d⟩ := enc_near_ell (w := .w32) (Or.inl rfl) ht hl hq hη
      exact ⟨v, a, b, c, d.trans (by rw [if_neg (by decide)]; linarith)⟩
    · exact absurd rfl (hw rfl)
  · cases w
    · exact enc_reduce_close (w := .w8) (by decide) ht hl hq hη
    · exact enc_reduce_close (w := .w16) (by decide) ht hl hq hη
    · exact enc_reduce_close (w := .w32) (by decide) ht hl hq hη
    · exact enc_near_ell (w := .w64) (Or.inr rfl) ht hl hq hη

/-- A regular takum survives the trip. -/
theorem round_trip {L : Libm} (hL : L.Powers) (hA' : L.Accurate) (A : Src) (hA : A ≠ .f32) (w : W)
    (hw : A = .f64 → w ≠ .w64) {t : T w} (h : Regular t) :
    ∃ f, logTo L A w t = .ok f ∧ logFrom L A w f = .ok t := by
  have pstd : powF A w = b64 ∨ powF A w = x80 := by cases A <;> cases w <;> simp_all [powF]
  obtain ⟨f, v, e, i, n, pv, hv⟩ := logTo_log hL hA' A hA w hw h
  refine ⟨f, e, ?_⟩
  have hF : logF A w = x80 := by cases A <;> cases w <;> first | rfl | exact absurd rfl hA
  have hne : sg t.msb * v ≠ 0 := mul_ne_zero (by cases t.msb <;> simp [sg]) pv.ne'
  have habs : |sg t.msb * v| = v := by rw [sg_abs, abs_of_pos pv]
  have hdec : decide (sg t.msb * v < 0) = t.msb := by
    cases t.msb
    · simp [sg]; exact pv.le
    · simp [sg]; exact pv
  have hi := logF_in A w n
  rw [hF] at hi
  have hin : x80.In v := by rw [← habs]; exact ⟨hi.1.abs, by rw [abs_abs]; exact hi.2⟩
  obtain ⟨r, r1, r2, r3⟩ := hA'.log x80 (Or.inr rfl) v pv hin
  have hk := sqe_log pstd
  have key := recover hk hv r3 (by positivity)
  have hl255 : |ell t| ≤ 255 := abs_ell_le t
  set η : ℚ := (|ell t| * (kap (powF A w) * (1 + 1 / 2 ^ 49)) + 2 * lamOf A w) * (1 + 4 / 2 ^ 64) + 4 / 2 ^ 64 * |ell t|
    with hηdef
  have hη : |2 * r - ell t| ≤ η := by
    apply (Rat.cast_le (K := ℝ)).mp
    rw [hηdef]
    push_cast
    exact key
  have hsmall : η ≤ 1 := by
    have h1 : kap (powF A w) ≤ 1 / 2 ^ 50 := (sqe_sq pstd).2
    have h2 : lamOf A w ≤ 5 / 2 ^ 53 := by unfold lamOf; split <;> norm_num
    have : η ≤ (255 * (1 / 2 ^ 50 * (1 + 1 / 2 ^ 49)) + 2 * (5 / 2 ^ 53)) * (1 + 4 / 2 ^ 64) + 4 / 2 ^ 64 * 255 := by
      rw [hηdef]; gcongr
      unfold kap; positivity
    refine this.trans (by norm_num)
  have hr100 : |r| ≤ 2 ^ 100 := by
    have : |2 * r| ≤ 256 := by
      have := abs_add_le (2 * r - ell t) (ell t)
      rw [sub_add_cancel] at this; linarith
    rw [abs_mul, abs_two] at this
    linarith [show (256 : ℚ) ≤ 2 ^ 100 by norm_num]
  obtain ⟨l1, l2⟩ := twoLog_is (L := L) (Or.inr rfl) i hne (by rw [habs]; exact r1) r2 hr100
  rw [logFrom_eq L A w i hne, hF, hdec]
  obtain ⟨u, eu, ru, su, du⟩ := logEnc_close A hA w hw h l1 l2.1 hη
  rw [eu]
  congr 1
  by_contra hc
  have gap := ell_gap (w := w) (a := t) (b := u) su.symm (fun h' => hc h'.symm)
  have hlt : (if w = .w64 then 2 else 4) * (η + 1 / 2 ^ 64) < max 1 ((|ell t| + 1) / 2) / 2 ^ (w.n - 5) := by
    have h0 : 0 ≤ |ell t| := abs_nonneg _
    by_cases h64 : w = .w64
    · have hAe : A = .ext := by cases A <;> first | rfl | exact absurd rfl hA | exact absurd h64 (hw rfl)
      subst hAe
      subst h64
      rw [if_pos rfl, lt_div_iff₀ (by positivity)]
      have e1 : η = (|ell t| * (1.4 / 2 ^ 64 * (1 + 1 / 2 ^ 49)) + 2 * (4.01 / 2 ^ 64)) * (1 + 4 / 2 ^ 64) + 4 / 2 ^ 64 * |ell t| := rfl
      rw [e1, lt_max_iff]
      have e2 : W.n .w64 - 5 = 59 := rfl
      rw [e2]
      rcases le_or_gt |ell t| 1 with h1 | h1
      · left
        norm_num
        linarith
      · right
        norm_num
        linarith
    · have hn : w.n - 5 ≤ 27 := by cases w <;> first | decide | exact absurd rfl h64
      rw [if_neg h64, lt_div_iff₀ (by positivity), lt_max_iff]
      left
      have h1 : kap (powF A w) ≤ 1 / 2 ^ 50 := (sqe_sq pstd).2
      have h2 : lamOf A w ≤ 5 / 2 ^ 53 := by unfold lamOf; split <;> norm_num
      have h3 : η ≤ (255 * (1 / 2 ^ 50 * (1 + 1 / 2 ^ 49)) + 2 * (5 / 2 ^ 53)) * (1 + 4 / 2 ^ 64) + 4 / 2 ^ 64 * 255 := by
        rw [hηdef]; gcongr
        unfold kap; positivity
      have h4 : (2 : ℚ) ^ (w.n - 5) ≤ 2 ^ 27 := pow_le_pow_right₀ (by norm_num) hn
      have h5 : 0 ≤ η + 1 / 2 ^ 64 := add_nonneg ((abs_nonneg _).trans hη) (by positivity)
      calc 4 * (η + 1 / 2 ^ 64) * 2 ^ (w.n - 5) ≤ 4 * (η + 1 / 2 ^ 64) * 2 ^ 27 := by gcongr
        _ ≤ 4 * ((255 * (1 / 2 ^ 50 * (1 + 1 / 2 ^ 49)) + 2 * (5 / 2 ^ 53)) * (1 + 4 / 2 ^ 64) + 4 / 2 ^ 64 * 255 + 1 / 2 ^ 64) * 2 ^ 27 := by gcongr
        _ < 1 := by norm_num
  exact absurd (lt_of_le_of_lt (gap.trans du) hlt) (lt_irrefl _)

end Takum
