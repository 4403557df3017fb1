import Verif.Lemmas.CrossRound
import Verif.Props.LogConv
import Verif.Lemmas.SymmetryCall

/-!
# From one family to the other in a wider type, and back (C81)
-/

namespace Takum
open Spec

/-- The floating-point type through which two widths are converted. -/
def via (b : W) : Src := if b = .w64 then .ext else .f64

theorem via_ne (b : W) : via b ≠ .f32 := by cases b <;> decide

theorem linFromLog_via (L : Libm) {a b : W} (h : a.n < b.n) (t : T a) :
    linFromLog L a b t = (do linFrom (via b) b (← logTo L (via b) a t)) := by
  cases a <;> cases b <;> first | rfl | exact absurd h (by decide)

theorem logFromLin_via (L : Libm) {a b : W} (h : a.n < b.n) (t : T b) :
    logFromLin L b a t = (do logFrom L (via b) a (← linTo (via b) b t)) := by
  cases a <;> cases b <;> first | rfl | exact absurd h (by decide)

theorem logFromLin_via' (L : Libm) {a b : W} (h : a.n < b.n) (t : T a) :
    logFromLin L a b t = (do logFrom L (via b) b (← linTo (via b) a t)) := by
  cases a <;> cases b <;> first | rfl | exact absurd h (by decide)

theorem linFromLog_via' (L : Libm) {a b : W} (h : a.n < b.n) (t : T b) :
    linFromLog L b a t = (do linFrom (via b) a (← logTo L (via b) b t)) := by
  cases a <;> cases b <;> first | rfl | exact absurd h (by decide)

theorem linTo_via {a b : W} (h : a.n ≤ b.n) {t : T a} (ht : Regular t) :
    ∃ f : Fl, linTo (via b) a t = .ok f ∧ f.Is (lv t) ∧ (via b).fmt.In (lv t) := by
  have h5 : 5 ≤ a.n := by have := a.n_pos; omega
  have hl := linVal_lv h5 ht
  obtain ⟨⟨e1, i1⟩, h2⟩ := lin_to_exact a t
  have is : (exactFl (linVal t)).Is (lv t) := by
    rw [hl]; unfold exactFl; simp only
    rw [if_neg (lv_ne t)]; exact Fl.Is.num (lv_ne t)
  unfold via
  by_cases hb : b = .w64
  · rw [if_pos hb]; exact ⟨_, e1, is, i1 _ hl⟩
  · rw [if_neg hb]
    have ha : a ≠ .w64 := by rintro rfl; cases b <;> simp_all [W.n]
    exact ⟨_, (h2 ha).1, is, (h2 ha).2 _ hl⟩

theorem logTo_two {L : Libm} (hL : L.Conforming) (A : Src) (hA : A ≠ .f32) (w : W) (hw : A = .f64 → w ≠ .w64) {t : T w} (h : Regular t) :
    ∃ (f : Fl) (v : ℚ), logTo L A w t = .ok f ∧ f.Is (sg t.msb * v) ∧ A.fmt.In (sg t.msb * v) ∧ 0 < v ∧
      |2 * Real.log v - (ell t : ℝ)| ≤ 1 / 2 ^ 40 := by
  have pstd : powF A w = b64 ∨ powF A w = x80 := by cases A <;> cases w <;> simp_all [powF]
  obtain ⟨f, v, e, i, n, pv, hv⟩ := logTo_log hL.powers hL.accurate A hA w hw h
  refine ⟨f, v, e, i, n, pv, ?_⟩
  have hk := sqe_log pstd
  have h1 : ((kap (powF A w) : ℚ) : ℝ) ≤ 1 / 2 ^ 50 := by
    have := (Rat.cast_le (K := ℝ)).mpr (sqe_sq pstd).2; push_cast at this; exact this
  have h2 : ((lamOf A w : ℚ) : ℝ) ≤ 5 / 2 ^ 53 := by
    have : lamOf A w ≤ 5 / 2 ^ 53 := by unfold lamOf; split <;> norm_num
    have := (Rat.cast_le (K := ℝ)).mpr this; push_cast at this; exact this
  have hl255 : |(ell t : ℝ)| ≤ 255 := by
    have := (Rat.cast_le (K := ℝ)).mpr (abs_ell_le t); push_cast at this; exact this
  have e1 : 2 * Real.log v - (ell t : ℝ) = 2 * (Real.log v - (ell t : ℝ) * Real.log (sqe (powF A w))) +
      (ell t : ℝ) * (2 * Real.log (sqe (powF A w)) - 1) := by ring
  rw [e1]
  refine (abs_add_le _ _).trans ?_
  rw [abs_mul, abs_mul, abs_two]
  have h3 : |2 * Real.log (sqe (powF A w)) - 1| ≤ 1 / 2 ^ 49 := by
    refine hk.trans ?_
    norm_num at *
    linarith
  have h4 := mul_le_mul hl255 h3 (abs_nonneg _) (by norm_num)
  have h5 := hv.trans h2
  norm_num at *
  linarith

theorem sg_ne (s : Bool) : sg s ≠ 0 := by cases s <;> simp [sg]

theorem sg_decide {s : Bool} {v : ℚ} (hv : 0 < v) : decide (sg s * v < 0) = s := by
  cases s
  · simp [sg]; exact hv.le
  · simp [sg]; exact hv

theorem wide {a b : W} (h : a.n < b.n) : (256 : ℝ) * 2 ^ (a.n - 5) ≤ 2 ^ (b.n - 5) ∧ (2 : ℝ) ^ (a.n - 5) ≤ 2 ^ 27 ∧ a ≠ .w64 ∧ b ≠ .w8 := by
  cases a <;> cases b <;> first | exact absurd h (by decide) | (refine ⟨?_, ?_, by decide, by decide⟩ <;> norm_num [W.n])

theorem tail_small {w : W} (h : w ≠ .w64) : (2 * (rhoTol w : ℝ) + 2 / 2 ^ w.grid) * 2 ^ (w.n - 5) ≤ 0.01 := by
  cases w <;> first | exact absurd rfl h | norm_num [rhoTol, W.grid, W.n]

theorem lt_gap {w : W} {x : ℚ} {δ : ℝ} (h : δ * 2 ^ (w.n - 5) ≤ 0.2 * |(x : ℝ)| + 0.3) : δ < gapOf w x := by
  unfold gapOf
  rw [lt_div_iff₀ (by positivity)]
  refine lt_of_le_of_lt h ?_
  rw [lt_max_iff]
  rcases le_or_gt |(x : ℝ)| 1 with h1 | h1
  · left; norm_num; linarith
  · right; norm_num; linarith

/-- C81: a logarithmic takum converted to a wider linear takum and back is unchanged. -/
theorem log_lin_log {L : Libm} (hL : L.Conforming) (a b : W) (hab : a.n < b.n) (t : T a) :
    ∃ u : T b, linFromLog L a b t = .ok u ∧ logFromLin L b a u = .ok t := by
  obtain ⟨wd, w27, ha, hb⟩ := wide hab
  by_cases h0 : t = 0#a.n
  · obtain ⟨u, e, z, -⟩ := lin_from_log L hL.powers a b t
    obtain ⟨v, e', z', -⟩ := log_from_lin L hL.logs b a u
    exact ⟨u, e, by rw [e', z'.mpr (z.mpr h0), h0]⟩
  by_cases hn : t = nar a.n
  · obtain ⟨u, e, -, z, -⟩ := lin_from_log L hL.powers a b t
    obtain ⟨v, e', -, z', -⟩ := log_from_lin L hL.logs b a u
    exact ⟨u, e, by rw [e', z'.mpr (z.mpr hn), hn]⟩
  have ht : Regular t := ⟨h0, hn⟩
  obtain ⟨f, v, e, i, n, pv, hv⟩ := logTo_two hL (via b) (via_ne b) a (fun _ => ha) ht
  obtain ⟨u, eu, fu⟩ := linFrom_acc (via b) b i n
  have hz : sg t.msb * v ≠ 0 := mul_ne_zero (sg_ne _) pv.ne'
  have hz' : |sg t.msb * v| = v := by rw [sg_abs, abs_of_pos pv]
  have hzr : |((sg t.msb * v : ℚ) : ℝ)| = v := by rw [← Rat.cast_abs, hz']
  have vr : (0 : ℝ) < v := by exact_mod_cast pv
  set x := ell t with hx
  have x255 : |(x : ℝ)| ≤ 255 := by
    have := (Rat.cast_le (K := ℝ)).mpr (abs_ell_le t); push_cast at this; exact this
  have x0 := abs_nonneg (x : ℝ)
  have hlv : |Real.log v| ≤ |(x : ℝ)| / 2 + 1 / 2 ^ 40 := by
    have := abs_add_le (2 * Real.log v - (x : ℝ)) x
    rw [sub_add_cancel, abs_mul, abs_two] at this
    norm_num at *; linarith
  obtain ⟨l2, l2'⟩ := log_two_lt
  have hX : |((lamInv v : ℚ) : ℝ)| + 1 ≤ 0.73 * |(x : ℝ)| + 2.1 := by
    have h1 := log_lam (lamInv v)
    rw [lam_lamInv pv] at h1
    have h2 : |((lamInv v : ℚ) : ℝ) * Real.log 2| ≤ |(x : ℝ)| / 2 + 1 / 2 ^ 40 + Real.log 2 := by
      have := abs_sub_le (((lamInv v : ℚ) : ℝ) * Real.log 2) (Real.log v) 0
      rw [sub_zero, sub_zero, abs_sub_comm] at this
      linarith
    rw [abs_mul, abs_of_pos (by linarith : 0 < Real.log 2)] at h2
    have h3 := abs_nonneg ((lamInv v : ℚ) : ℝ)
    have h4 : 0.69 * |((lamInv v : ℚ) : ℝ)| ≤ |((lamInv v : ℚ) : ℝ)| * Real.log 2 := by
      rw [mul_comm]; exact mul_le_mul_of_nonneg_left l2'.le h3
    have h5 : (1 : ℝ) / 2 ^ 40 ≤ 0.001 := by norm_num
    norm_num at h4 h5 l2 ⊢
    linarith
  obtain ⟨ru, su, cu⟩ := faithful_lin_close hb fu hz (by rw [hz']; norm_num at *; linarith)
  rw [hz', hzr] at cu
  rw [sg_decide pv] at su
  set X : ℝ := |((lamInv v : ℚ) : ℝ)| with hXdef
  have X0 : 0 ≤ X := abs_nonneg _
  refine ⟨u, by rw [linFromLog_via L hab, e, ok_bind, eu], ?_⟩
  obtain ⟨f', e', i', n'⟩ := linTo_via (le_refl b.n) ru
  rw [logFromLin_via L hab, e', ok_bind]
  set N : ℝ := 2 ^ (a.n - 5) with hN
  have N1 : 1 ≤ N := one_le_pow₀ (by norm_num)
  set δ : ℝ := (X + 1) / 2 ^ (b.n - 5) with hδ
  have δN : δ * N ≤ (X + 1) / 256 := by
    rw [hδ, div_mul_eq_mul_div, div_le_div_iff₀ (by positivity) (by norm_num)]
    nlinarith
  have δ0 : 0 ≤ δ := by positivity
  have δs : δ ≤ 1 / 4 := by
    have h1 : (2 : ℝ) ^ 11 ≤ 2 ^ (b.n - 5) := pow_le_pow_right₀ (by norm_num) (by have := W.n_ge16 hb; omega)
    have : X + 1 ≤ 200 := by norm_num at *; linarith
    rw [hδ, div_le_iff₀ (by positivity)]
    norm_num at *; linarith
  obtain ⟨pl, cl⟩ := log_rel vr cu δs
  have la : |((lv u : ℚ) : ℝ)| = lam (ell u) := by
    have : |lv u| = lam (ell u) := by
      unfold lv; rw [sg_abs, abs_of_pos (lam_pos _)]
    rw [← Rat.cast_abs, this]
  have cl' : |Real.log (lam (ell u) : ℝ) - Real.log v| ≤ 1.5 * δ := by
    refine cl.trans ?_
    nlinarith
  have fin : |2 * Real.log (|((lv u : ℚ) : ℝ)|) - (x : ℝ)| ≤ 3 * δ + 1 / 2 ^ 40 := by
    rw [la]
    have e1 : 2 * Real.log (lam (ell u) : ℝ) - (x : ℝ) = 2 * (Real.log (lam (ell u) : ℝ) - Real.log v) + (2 * Real.log v - x) := by ring
    rw [e1]
    refine (abs_add_le _ _).trans ?_
    rw [abs_mul, abs_two]; linarith
  apply logFrom_near hL.accurate (via b) (via_ne b) ha ht i' (lv_ne u) n' _ (η := 3 * δ + 1 / 2 ^ 40) _ fin
  · apply lt_gap
    rw [← hN]
    have h3 : (1 / 2 ^ 40 + 1 / 2 ^ 50) * N ≤ 1 / 2 ^ 12 := by
      norm_num at w27 ⊢; linarith
    have e3 : 4 * (3 * δ + 1 / 2 ^ 40 + 1 / 2 ^ 50) * N = 12 * (δ * N) + 4 * ((1 / 2 ^ 40 + 1 / 2 ^ 50) * N) := by ring
    rw [e3]
    norm_num at hX δN h3 ⊢
    linarith
  · unfold lv; rw [sg_decide (lam_pos _), su]
  · have : (1 : ℝ) / 2 ^ 40 ≤ 1 / 4 := by norm_num
    linarith

/-- C81: a linear takum converted to a wider logarithmic takum and back is unchanged, if its magnitude is in
the range `e^-127 … e^127` of the logarithmic takums. -/
theorem lin_log_lin {L : Libm} (hL : L.Conforming) (a b : W) (hab : a.n < b.n) (t : T a)
    (hr : ∀ x : ℝ, value .lin t = some x → x = 0 ∨ |Real.log (|x|)| ≤ 127) :
    ∃ u : T b, logFromLin L a b t = .ok u ∧ linFromLog L b a u = .ok t := by
  obtain ⟨wd, w27, ha, hb⟩ := wide hab
  by_cases h0 : t = 0#a.n
  · obtain ⟨u, e, z, -⟩ := log_from_lin L hL.logs a b t
    obtain ⟨v, e', z', -⟩ := lin_from_log L hL.powers b a u
    exact ⟨u, e, by rw [e', z'.mpr (z.mpr h0), h0]⟩
  by_cases hn : t = nar a.n
  · obtain ⟨u, e, -, z, -⟩ := log_from_lin L hL.logs a b t
    obtain ⟨v, e', -, z', -⟩ := lin_from_log L hL.powers b a u
    exact ⟨u, e, by rw [e', z'.mpr (z.mpr hn), hn]⟩
  have ht : Regular t := ⟨h0, hn⟩
  have h5 : 5 ≤ a.n := by have := a.n_pos; omega
  have hlvt : value .lin t = some ((lv t : ℚ) : ℝ) := value_lin (linVal_lv h5 ht)
  have hz := lv_ne t
  have hzr : ((lv t : ℚ) : ℝ) ≠ 0 := by exact_mod_cast hz
  have hlog := (hr _ hlvt).resolve_left hzr
  obtain ⟨u, y, eu, cy, fu⟩ := log_from_lin_accurate hL a b t _ hlvt
  have hza : |lv t| = lam (ell t) := by unfold lv; rw [sg_abs, abs_of_pos (lam_pos _)]
  have hzar : |((lv t : ℚ) : ℝ)| = (lam (ell t) : ℝ) := by rw [← Rat.cast_abs, hza]
  set p : ℝ := (lam (ell t) : ℝ) with hp
  have pp : 0 < p := by rw [hp]; exact_mod_cast lam_pos _
  rw [hzar] at hlog cy
  -- the sign and the size of the perturbed number
  have yz : |y| - p ≤ 1 / 2 ^ 54 * p ∧ p - |y| ≤ 1 / 2 ^ 54 * p := by
    have h1 := abs_abs_sub_abs_le y ((lv t : ℚ) : ℝ)
    rw [hzar] at h1
    have h2 := h1.trans cy
    rw [abs_le] at h2
    exact ⟨h2.2, by linarith [h2.1]⟩
  obtain ⟨ya, cly⟩ := log_rel (z := |y|) pp (by rw [abs_le]; constructor <;> linarith [yz.1, yz.2] : |(|y|) - p| ≤ 1 / 2 ^ 54 * p) (by norm_num)
  have hy : y ≠ 0 := abs_pos.mp ya
  have sy : decide (y < 0) = t.msb := by
    have hb' : |y - ((lv t : ℚ) : ℝ)| < p := by
      refine lt_of_le_of_lt cy ?_
      rw [show (1 / 2 ^ 54 : ℝ) * p = p / 2 ^ 54 by ring]
      exact div_lt_self pp (by norm_num)
    rw [abs_lt] at hb'
    have hl : ((lv t : ℚ) : ℝ) = (sg t.msb : ℝ) * p := by unfold lv; push_cast; rfl
    rw [hl] at hb'
    rcases Bool.eq_false_or_eq_true t.msb with hm | hm <;> rw [hm] at hb' ⊢ <;> simp [sg] at hb' ⊢ <;> linarith [hb'.1, hb'.2]
  have cly' : |2 * Real.log (|y|) - 2 * Real.log p| ≤ 1 / 2 ^ 50 := by
    rw [← mul_sub, abs_mul, abs_two]
    norm_num at *; linarith
  obtain ⟨ru, su, cu⟩ := faithful_log_close hb fu hy (by
    have := abs_add_le (2 * Real.log (|y|) - 2 * Real.log p) (2 * Real.log p)
    rw [sub_add_cancel, abs_mul 2 (Real.log p), abs_two] at this
    norm_num at *; linarith)
  rw [sy] at su
  obtain ⟨f, v, e, i, n, pv, hv⟩ := logTo_two hL (via b) (via_ne b) b (by unfold via; split_ifs with h <;> simp [h]) ru
  refine ⟨u, eu, ?_⟩
  rw [linFromLog_via' L hab, e, ok_bind]
  set x := ell t with hx
  have x255 : |x| ≤ 255 := abs_ell_le t
  have x255r : |(x : ℝ)| ≤ 255 := by
    have := (Rat.cast_le (K := ℝ)).mpr x255; push_cast at this; exact this
  have x0 := abs_nonneg (x : ℝ)
  obtain ⟨l2, l2'⟩ := log_two_lt
  have hlp : |2 * Real.log p| ≤ 1.4 * |(x : ℝ)| + 1.4 := by
    have h1 := log_lam x
    have := abs_add_le (Real.log p - x * Real.log 2) (x * Real.log 2)
    rw [sub_add_cancel, abs_mul, abs_of_pos (by linarith : 0 < Real.log 2)] at this
    rw [abs_mul, abs_two]
    have h4 : |(x : ℝ)| * Real.log 2 ≤ |(x : ℝ)| * 0.7 := mul_le_mul_of_nonneg_left l2.le x0
    norm_num at h4 l2 ⊢
    linarith
  set N : ℝ := 2 ^ (a.n - 5) with hN
  have N1 : 1 ≤ N := one_le_pow₀ (by norm_num)
  set Y : ℝ := |2 * Real.log (|y|)| with hY
  have Y0 : 0 ≤ Y := abs_nonneg _
  have hY1 : Y + 1 ≤ 1.4 * |(x : ℝ)| + 2.5 := by
    have := abs_add_le (2 * Real.log (|y|) - 2 * Real.log p) (2 * Real.log p)
    rw [sub_add_cancel] at this
    norm_num at *; linarith
  set δ : ℝ := (Y + 1) / 2 ^ (b.n - 5) with hδ
  have δN : δ * N ≤ (Y + 1) / 256 := by
    rw [hδ, div_mul_eq_mul_div, div_le_div_iff₀ (by positivity) (by norm_num)]
    nlinarith
  have δ0 : 0 ≤ δ := by positivity
  have δs : δ ≤ 0.18 := by
    have h1 : (2 : ℝ) ^ 11 ≤ 2 ^ (b.n - 5) := pow_le_pow_right₀ (by norm_num) (by have := W.n_ge16 hb; omega)
    have : Y + 1 ≤ 360 := by norm_num at hY1; linarith
    rw [hδ, div_le_iff₀ (by positivity)]
    norm_num at h1 ⊢; linarith
  have vr : (0 : ℝ) < v := by exact_mod_cast pv
  -- the float against the number
  have hvp : |Real.log v - Real.log p| ≤ δ / 2 + 1 / 2 ^ 40 := by
    have e1 : 2 * (Real.log v - Real.log p) = (2 * Real.log v - ell u) + ((ell u : ℝ) - 2 * Real.log (|y|)) + (2 * Real.log (|y|) - 2 * Real.log p) := by ring
    have h1 := abs_add_le ((2 * Real.log v - ell u) + ((ell u : ℝ) - 2 * Real.log (|y|))) (2 * Real.log (|y|) - 2 * Real.log p)
    have h2 := abs_add_le (2 * Real.log v - ell u) ((ell u : ℝ) - 2 * Real.log (|y|))
    rw [← e1, abs_mul, abs_two] at h1
    norm_num at *; linarith
  set η : ℝ := δ / 2 + 1 / 2 ^ 40 with hη
  have η0 : 0 ≤ η := by positivity
  have ηs : η ≤ 0.1 := by rw [hη]; norm_num at *; linarith
  have hrel : |(v : ℝ) - lam x| ≤ (1.2 * η) * lam x := by
    have ev : (v : ℝ) = p * Real.exp (Real.log v - Real.log p) := by
      rw [Real.exp_sub, Real.exp_log vr, Real.exp_log pp]; field_simp
    have hb' := Real.abs_exp_sub_one_sub_id_le (x := Real.log v - Real.log p) (by norm_num at *; linarith)
    set d := Real.log v - Real.log p
    have h1 : |Real.exp d - 1| ≤ 1.2 * η := by
      have h2 := abs_add_le (Real.exp d - 1 - d) d
      rw [sub_add_cancel] at h2
      have h3 : d ^ 2 ≤ 0.1 * η := by
        rw [← sq_abs]; nlinarith [abs_nonneg d]
      norm_num at *; linarith
    have e2 : (v : ℝ) - lam x = (Real.exp d - 1) * p := by rw [ev]; show p * _ - p = _; ring
    rw [e2, abs_mul, abs_of_pos pp]
    exact mul_le_mul_of_nonneg_right h1 pp.le
  have hcl := lamInv_close (lam_pos x) pv (by norm_num at *; linarith) hrel
  rw [lamInv_lam] at hcl
  have hz2 : sg u.msb * v ≠ 0 := mul_ne_zero (sg_ne _) pv.ne'
  have hz3 : |sg u.msb * v| = v := by rw [sg_abs, abs_of_pos pv]
  apply linFrom_near (via b) (via_ne b) ht i hz2 n _ (η := 3 * (1.2 * η)) (by rw [hz3]; exact hcl)
  · rw [hz3]
    have h1 := log_lam x
    have h2 : |(x : ℝ) * Real.log 2| ≤ 127 + Real.log 2 := by
      have := abs_sub_le ((x : ℝ) * Real.log 2) (Real.log p) 0
      rw [sub_zero, sub_zero, abs_sub_comm] at this
      linarith
    rw [abs_mul, abs_of_pos (by linarith : 0 < Real.log 2)] at h2
    have h4 : 0.69 * |(x : ℝ)| ≤ |(x : ℝ)| * Real.log 2 := by
      rw [mul_comm]; exact mul_le_mul_of_nonneg_left l2'.le x0
    have h5 : |((lamInv v : ℚ) : ℝ)| ≤ 255 := by
      have := abs_add_le (((lamInv v : ℚ) : ℝ) - x) x
      rw [sub_add_cancel] at this
      norm_num at h4 l2 hcl ηs
      linarith
    apply (Rat.cast_le (K := ℝ)).mp; push_cast; exact h5
  · apply lt_gap
    rw [← hN]
    have h3 : (1 : ℝ) / 2 ^ 40 * N ≤ 1 / 2 ^ 12 := by
      norm_num at w27 ⊢; linarith
    have h4 := tail_small ha
    rw [← hN] at h4
    have e3 : (2 * (3 * (1.2 * η) + (rhoTol a : ℝ)) + 2 / 2 ^ a.grid) * N = 3.6 * (δ * N) + 7.2 * (1 / 2 ^ 40 * N) +
        (2 * (rhoTol a : ℝ) + 2 / 2 ^ a.grid) * N := by rw [hη]; ring
    rw [e3]
    norm_num at hY1 δN h3 h4 ⊢
    linarith
  · rw [sg_decide pv, su]

/-- C81: the range is needed: the largest 8-bit linear takum, `2^239`, does not come back. -/
theorem lin_log_lin_outside {L : Libm} (hL : L.Conforming) :
    ∃ u : T .w16, logFromLin L .w8 .w16 (0x7f#8) = .ok u ∧ linFromLog L .w16 .w8 u ≠ .ok (0x7f#8 : T .w8) := by
  have v7f : value .lin (0x7f#8 : T .w8) = some (((2 : ℚ) ^ 239 : ℚ) : ℝ) := value_lin (by decide +kernel)
  have v7e : value .lin (0x7e#8 : T .w8) = some (((2 : ℚ) ^ 223 : ℚ) : ℝ) := value_lin (by decide +kernel)
  obtain ⟨u, y, eu, -, fu⟩ := log_from_lin_accurate hL .w8 .w16 _ _ v7f
  refine ⟨u, eu, fun hc => ?_⟩
  obtain ⟨x, hx⟩ := value_some (k := .log) fu.1
  obtain ⟨v, y', ev, cy, fv⟩ := lin_from_log_accurate hL .w16 .w8 u x hx
  rw [hc] at ev
  obtain rfl : (0x7f#8 : T .w8) = v := by injection ev
  have hxb : |x| ≤ (2 : ℝ) ^ (222 : ℕ) := by
    have key : ∀ z : ℝ, |Real.log (|z|)| ≤ 127.5 → z ≠ 0 → |z| ≤ (2 : ℝ) ^ (222 : ℕ) := by
      intro z h hz
      have hp : 0 < |z| := abs_pos.mpr hz
      rw [← Real.log_le_log_iff hp (by positivity), Real.log_pow]
      have := (abs_le.mp h).2
      have h2 := log_two_lt.2
      norm_num at this h2 ⊢
      linarith
    rcases value_cases hx with ⟨-, h⟩ | ⟨-, -, -, h, -, h'⟩ | ⟨-, -, -, h, -, h'⟩
    · rw [h, abs_zero]; positivity
    · exact key x (h' rfl) (by have : (0 : ℝ) < (2 : ℝ) ^ (-256 : ℤ) := by positivity
                               intro h0; rw [h0] at h; linarith)
    · exact key x (h' rfl) (by have : (0 : ℝ) < (2 : ℝ) ^ (-256 : ℤ) := by positivity
                               intro h0; rw [h0] at h; linarith)
  have ht : crossTol .w16 .w8 ≤ 1 := by
    unfold crossTol; rw [if_neg (by decide)]; norm_num [toTol]
  have hy : y' ≤ (((2 : ℚ) ^ 223 : ℚ) : ℝ) := by
    have h1 := mul_le_mul ht (le_refl |x|) (abs_nonneg x) (by norm_num)
    have h2 := (abs_le.mp (cy.trans h1)).2
    have h3 := le_abs_self x
    have h4 : (((2 : ℚ) ^ 223 : ℚ) : ℝ) = 2 * (2 : ℝ) ^ (222 : ℕ) := by push_cast; rw [← pow_succ']
    rw [h4]
    linarith
  exact absurd ((fv.2.2 _ _ v7e).2 hy) (by decide)

/-! ## The hypotheses can be met -/

/-- A regular takum of both kinds. -/
example : ∃ u : T .w64, linFromLog ideal .w32 .w64 (0x80000001#32) = .ok u ∧ logFromLin ideal .w64 .w32 u = .ok (0x80000001#32) :=
  log_lin_log ideal_conforming .w32 .w64 (by decide) _

/-- The number of the takum is -1.5. -/
example : ∃ u : T .w16, logFromLin ideal .w8 .w16 (0xbc#8) = .ok u ∧ linFromLog ideal .w16 .w8 u = .ok (0xbc#8) := by
  refine lin_log_lin ideal_conforming .w8 .w16 (by decide) _ (fun x hx => Or.inr ?_)
  have : value .lin (0xbc#8 : T .w8) = some (((-3 / 2 : ℚ)) : ℝ) := value_lin (by decide +kernel)
  rw [this] at hx
  obtain rfl := Option.some.inj hx
  have e : |(((-3 / 2 : ℚ)) : ℝ)| = 3 / 2 := by norm_num
  rw [e, abs_of_nonneg (Real.log_nonneg (by norm_num))]
  have := Real.log_le_sub_one_of_pos (show (0 : ℝ) < 3 / 2 by norm_num)
  linarith

end Takum
