import Verif.Lemmas.TestFuns
import Verif.Lemmas.CrossRound
import Verif.Lemmas.ElemAll

/-! # Conversions of two approximations of the same number -/

namespace Takum.Test
open Takum Spec

theorem ell_lt_255 {w : W} (hw : w ≠ .w64) {t : T w} (ht : Regular t) : |ell t| ≤ 255 - 1 / 2 ^ 20 := by
  have h5 : 5 ≤ w.n := by have := w.n_pos; omega
  rw [ell_sg h5, sg_abs]
  refine (psi_pos_abs_le ht).trans ?_
  cases w
  · norm_num [W.encB, W.encN]
  · norm_num [W.encB, W.encN]
  · norm_num [W.encB, W.encN]
  · exact absurd rfl hw

/-- A float within a relative distance of `2^-46` of a linear takum of up to 32 bits is converted to it. -/
theorem near_takum {w : W} (hw : w ≠ .w64) {A : Src} (hA : A ≠ .f32) {t : T w} (ht : Regular t) {f : Fl} {z : ℚ} (hf : f.Is z)
    (hi : A.fmt.In z) (h : |z - lv t| ≤ 1 / 2 ^ 46 * |lv t|) : linFrom A w f = .ok t := by
  have l0 := lam_pos (ell t)
  have ha : |lv t| = lam (ell t) := by
    unfold lv; rw [abs_mul, abs_of_pos l0]; cases t.msb <;> simp [sg]
  have hz : z ≠ 0 := by
    rintro rfl
    rw [zero_sub, abs_neg, ha] at h
    norm_num at h; linarith
  have hsn : (z < 0 ↔ lv t < 0) := by
    have h1 := abs_le.mp h
    constructor <;> intro hn
    · by_contra hc
      rw [abs_of_nonneg (not_lt.mp hc)] at h1 ha
      norm_num at h1; linarith [h1.1]
    · rw [abs_of_neg hn] at h1 ha
      norm_num at h1; linarith [h1.2]
  have hs : decide (z < 0) = t.msb := by
    rw [Bool.eq_iff_iff, decide_eq_true_iff, hsn, lv_neg_iff]
  have hd : |(|z|) - lam (ell t)| ≤ 1 / 2 ^ 46 * lam (ell t) := by
    rw [← ha]; exact (abs_abs_sub_abs_le _ _).trans h
  have hc := lamInv_close (u := lam (ell t)) (v := |z|) l0 (abs_pos.mpr hz) (ε := 1 / 2 ^ 46) (by norm_num) (by
    have := (Rat.cast_le (K := ℝ)).mpr hd; push_cast at this ⊢; exact this)
  rw [lamInv_lam] at hc
  have hb : |lamInv (|z|)| ≤ 255 := by
    have h1 : |lamInv (|z|) - ell t| ≤ 3 * (1 / 2 ^ 46) := by
      apply (Rat.cast_le (K := ℝ)).mp; push_cast; exact_mod_cast hc
    have h2 := abs_add_le (lamInv (|z|) - ell t) (ell t)
    rw [sub_add_cancel] at h2
    have h3 := ell_lt_255 hw ht
    norm_num at h1 h3; linarith
  refine linFrom_near A hA ht hf hz hi hs hc hb ?_
  have g : (1 : ℝ) / 2 ^ (w.n - 5) ≤ gapOf w (ell t) := by
    unfold gapOf
    exact div_le_div_of_nonneg_right (le_max_left _ _) (by positivity)
  refine lt_of_lt_of_le ?_ g
  cases w
  · norm_num [rhoTol, W.grid, W.n]
  · norm_num [rhoTol, W.grid, W.n]
  · norm_num [rhoTol, W.grid, W.n]
  · exact absurd rfl hw

/-- Two nearby floats are converted to the same takum or to neighbours. -/
theorem close_pair {w : W} (hw : w ≠ .w64) {A B : Src} (hA : A ≠ .f32) (hB : B ≠ .f32) {f g : Fl} {p q : ℚ} (hf : f.Is p)
    (hp : A.fmt.In p) (hg : g.Is q) (hq : B.fmt.In q) (hc : |p - q| ≤ 1 / 2 ^ 47 * |q|) :
    ∃ u v : T w, linFrom A w f = .ok u ∧ linFrom B w g = .ok v ∧ |u.toInt - v.toInt| ≤ 1 := by
  by_cases h : ∃ t : T w, t ≠ nar w.n ∧ ((p < qv t ∧ qv t < q) ∨ (q < qv t ∧ qv t < p))
  · obtain ⟨t, tn, h⟩ := h
    have hq0 : qv t ≠ 0 := by
      intro h0
      rw [h0] at h
      have := abs_nonneg q
      rcases h with ⟨h1, h2⟩ | ⟨h1, h2⟩
      · rw [abs_of_neg (by linarith : p - q < 0), abs_of_pos h2] at hc; norm_num at hc; linarith
      · rw [abs_of_pos (by linarith : 0 < p - q), abs_of_neg h1] at hc; norm_num at hc; linarith
    have ht : Regular t := ⟨fun h0 => hq0 (by rw [h0, qv_zero]), tn⟩
    rw [qv_regular ht] at h
    have h1 : |q - lv t| ≤ |p - q| := by
      rcases h with ⟨h1, h2⟩ | ⟨h1, h2⟩
      · rw [abs_of_pos (by linarith : 0 < q - lv t), abs_of_neg (by linarith : p - q < 0)]; linarith
      · rw [abs_of_neg (by linarith : q - lv t < 0), abs_of_pos (by linarith : 0 < p - q)]; linarith
    have h2 : |p - lv t| ≤ |p - q| := by
      rcases h with ⟨h1, h2⟩ | ⟨h1, h2⟩
      · rw [abs_of_neg (by linarith : p - lv t < 0), abs_of_neg (by linarith : p - q < 0)]; linarith
      · rw [abs_of_pos (by linarith : 0 < p - lv t), abs_of_pos (by linarith : 0 < p - q)]; linarith
    have h3 : |q| ≤ 2 * |lv t| := by
      have := abs_add_le (q - lv t) (lv t)
      rw [sub_add_cancel] at this
      have := abs_nonneg q
      norm_num at hc; linarith
    have h4 : |p - q| ≤ 1 / 2 ^ 46 * |lv t| := by norm_num at hc ⊢; linarith
    exact ⟨t, t, near_takum hw hA ht hf hp (h2.trans h4), near_takum hw hB ht hg hq (h1.trans h4), by simp⟩
  · push Not at h
    exact bracket hf hp hg hq fun t tn => ⟨fun c => absurd c.2 (not_lt.mpr ((h t tn).1 c.1)), fun c => absurd c.2 (not_lt.mpr ((h t tn).2 c.1))⟩

theorem qv_range {w : W} {t : T w} (ht : t ≠ nar w.n) :
    (qv t : ℝ) = 0 ∨ ((2 : ℝ) ^ (-256 : ℤ) ≤ qv t ∧ (qv t : ℝ) ≤ (2 : ℝ) ^ (256 : ℤ)) ∨
      ((qv t : ℝ) ≤ -(2 : ℝ) ^ (-256 : ℤ) ∧ -(2 : ℝ) ^ (256 : ℤ) ≤ qv t) := by
  refine value_range (k := .lin) t _ ?_
  show (linVal t).map (fun q : ℚ => (q : ℝ)) = _
  rw [linVal_qv ht]; rfl

/-- Numbers outside of the range of the takums on the same side. -/
def Outside (p q : ℝ) : Prop :=
  ((2 : ℝ) ^ (256 : ℤ) ≤ p ∧ (2 : ℝ) ^ (256 : ℤ) ≤ q) ∨ (p ≤ -(2 : ℝ) ^ (256 : ℤ) ∧ q ≤ -(2 : ℝ) ^ (256 : ℤ)) ∨
    (0 < p ∧ p ≤ (2 : ℝ) ^ (-256 : ℤ) ∧ 0 < q ∧ q ≤ (2 : ℝ) ^ (-256 : ℤ)) ∨
    (-(2 : ℝ) ^ (-256 : ℤ) ≤ p ∧ p < 0 ∧ -(2 : ℝ) ^ (-256 : ℤ) ≤ q ∧ q < 0)

theorem outside_pair {w : W} {A B : Src} {f g : Fl} {p q : ℚ} (hf : f.Is p) (hp : A.fmt.In p) (hg : g.Is q) (hq : B.fmt.In q)
    (h : Outside p q) : ∃ u v : T w, linFrom A w f = .ok u ∧ linFrom B w g = .ok v ∧ |u.toInt - v.toInt| ≤ 1 := by
  refine bracket hf hp hg hq fun t tn => ?_
  have r := qv_range tn
  have c : ∀ a b : ℚ, a < b ↔ (a : ℝ) < b := fun a b => (Rat.cast_lt (K := ℝ)).symm
  simp only [c]
  have p1 : (0 : ℝ) < (2 : ℝ) ^ (256 : ℤ) := by positivity
  have p2 : (0 : ℝ) < (2 : ℝ) ^ (-256 : ℤ) := by positivity
  unfold Outside at h
  generalize (2 : ℝ) ^ (256 : ℤ) = a at *
  generalize (2 : ℝ) ^ (-256 : ℤ) = b at *
  generalize (qv t : ℝ) = x at *
  constructor <;> rintro ⟨h1, h2⟩ <;> rcases r with r | ⟨r1, r2⟩ | ⟨r1, r2⟩ <;>
    rcases h with ⟨h3, h4⟩ | ⟨h3, h4⟩ | ⟨h3, h4, h5, h6⟩ | ⟨h3, h4, h5, h6⟩ <;> linarith

/-- The results of a function in `double` and `long double`, both accurate. -/
theorem res_pair {w : W} (hw : w ≠ .w64) {f g : Fl} {y δ ε : ℝ} (hδ : δ ≤ 1 / 2 ^ 49) (hε : ε ≤ 1 / 2 ^ 49)
    (hf : Res b64 (δ * |y|) y f) (hg : Res x80 (ε * |y|) y g) :
    ∃ u v : T w, linFrom .f64 w f = .ok u ∧ linFrom .ext w g = .ok v ∧ |u.toInt - v.toInt| ≤ 1 := by
  obtain ⟨p, hp, ip, h1⟩ := hf
  obtain ⟨q, hq, iq, h2⟩ := hg
  have y0 := abs_nonneg y
  have e1 : δ * |y| ≤ 1 / 2 ^ 49 * |y| := mul_le_mul_of_nonneg_right hδ y0
  have e2 : ε * |y| ≤ 1 / 2 ^ 49 * |y| := mul_le_mul_of_nonneg_right hε y0
  have B1 : (2 : ℝ) ^ (300 : ℤ) = 2 ^ (44 : ℤ) * (2 : ℝ) ^ (256 : ℤ) := by rw [← zpow_add₀ (by norm_num)]; norm_num
  have B2 : (2 : ℝ) ^ (-256 : ℤ) = 2 ^ (44 : ℤ) * (2 : ℝ) ^ (-300 : ℤ) := by rw [← zpow_add₀ (by norm_num)]; norm_num
  have p1 : (0 : ℝ) < (2 : ℝ) ^ (256 : ℤ) := by positivity
  have p2 : (0 : ℝ) < (2 : ℝ) ^ (-300 : ℤ) := by positivity
  have p3 : (2 : ℝ) ^ (-300 : ℤ) ≤ (2 : ℝ) ^ (256 : ℤ) := zpow_le_zpow_right₀ (by norm_num) (by norm_num)
  -- both beyond the range
  have far : ∀ a b : ℝ, |b - y| ≤ 1 / 2 ^ 49 * |y| ∨ Beyond ((2 : ℝ) ^ (300 : ℤ)) ((2 : ℝ) ^ (-300 : ℤ)) b y →
      Beyond ((2 : ℝ) ^ (300 : ℤ)) ((2 : ℝ) ^ (-300 : ℤ)) a y → Outside a b := by
    intro a b hb ha
    unfold Beyond at ha hb
    unfold Outside
    rw [B1] at ha hb
    rw [B2]
    clear h1 h2 e1 e2 B1 B2 hδ hε
    generalize (2 : ℝ) ^ (256 : ℤ) = s at *
    generalize (2 : ℝ) ^ (-300 : ℤ) = m at *
    norm_num at ha hb ⊢
    rcases ha with ⟨a1, a2⟩ | ⟨a1, a2⟩ | ⟨a1, a2, a3, a4⟩ | ⟨a1, a2, a3, a4⟩
    · left
      refine ⟨by linarith, ?_⟩
      rcases hb with hb | ⟨b1, b2⟩ | ⟨b1, b2⟩ | ⟨b1, b2, b3, b4⟩ | ⟨b1, b2, b3, b4⟩ <;> try linarith
      rw [abs_of_pos (by linarith : 0 < y), abs_le] at hb; linarith [hb.1]
    · right; left
      refine ⟨by linarith, ?_⟩
      rcases hb with hb | ⟨b1, b2⟩ | ⟨b1, b2⟩ | ⟨b1, b2, b3, b4⟩ | ⟨b1, b2, b3, b4⟩ <;> try linarith
      rw [abs_of_neg (by linarith : y < 0), abs_le] at hb; linarith [hb.2]
    · right; right; left
      refine ⟨a1, by linarith, ?_⟩
      rcases hb with hb | ⟨b1, b2⟩ | ⟨b1, b2⟩ | ⟨b1, b2, b3, b4⟩ | ⟨b1, b2, b3, b4⟩ <;> try (constructor <;> linarith)
      rw [abs_of_pos a3, abs_le] at hb; constructor <;> linarith [hb.1, hb.2]
    · right; right; right
      refine ⟨by linarith, a2, ?_⟩
      rcases hb with hb | ⟨b1, b2⟩ | ⟨b1, b2⟩ | ⟨b1, b2, b3, b4⟩ | ⟨b1, b2, b3, b4⟩ <;> try (constructor <;> linarith)
      rw [abs_of_neg a4, abs_le] at hb; constructor <;> linarith [hb.1, hb.2]
  have sym : ∀ a b, Outside a b → Outside b a := by
    unfold Outside; intro a b h; tauto
  rcases h1 with h1 | h1
  · rcases h2 with h2 | h2
    · have h1' := h1.trans e1
      have h2' := h2.trans e2
      refine close_pair hw (by decide) (by decide) hp ip hq iq ?_
      apply (Rat.cast_le (K := ℝ)).mp
      push_cast
      have a1 := abs_sub_le (p : ℝ) y q
      rw [abs_sub_comm y q] at a1
      have a2 := abs_add_le (y - (q : ℝ)) q
      rw [sub_add_cancel, abs_sub_comm] at a2
      clear far sym B1 B2 p1 p2 p3
      norm_num at h1' h2' ⊢
      linarith
    · exact outside_pair hp ip hq iq (sym _ _ (far _ _ (.inl (h1.trans e1)) h2))
  · exact outside_pair hp ip hq iq (far _ _ (h2.imp (fun h => h.trans e2) id) h1)

end Takum.Test
