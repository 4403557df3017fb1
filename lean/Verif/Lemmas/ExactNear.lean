import Verif.Lemmas.CrossRound
import Verif.Lemmas.ElemExp
import Verif.Lemmas.Gap
import Verif.Lemmas.LinFrom

/-! # Floats close to a linear takum are converted to that takum -/

namespace Takum
open Spec

theorem rho_error (A : Src) {w : W} (hw : w ≠ .w64) {x : ℚ} (hx : |x| ≤ 255.5) : |rho A w x - x| ≤ 1 / 2 ^ (w.n - 5) / 16 := by
  have e1 := rq_err_any (F := b32) (Or.inl rfl)
  have e2 := rq_err_any (F := b64) (Or.inr (Or.inl rfl))
  have e3 := rq_err_any (F := x80) (Or.inr (Or.inr rfl))
  have hx' : |x| ≤ 256 := hx.trans (by norm_num)
  have c3 := e3 x hx'
  rw [show b32.prec = 24 from rfl] at e1
  rw [show b64.prec = 53 from rfl] at e2
  rw [show x80.prec = 64 from rfl] at e3 c3
  have b3 : |x80.rq x| ≤ 256 := by
    have := abs_add_le (x80.rq x - x) x
    rw [sub_add_cancel] at this
    norm_num at c3 hx
    linarith
  have c1 := e1 x hx'
  have c2 := e2 x hx'
  have d1 := (abs_sub_le _ (x80.rq x) _).trans (add_le_add (e1 _ b3) c3)
  have d2 := (abs_sub_le _ (x80.rq x) _).trans (add_le_add (e2 _ b3) c3)
  have c0 : |id x - x| ≤ 0 := by simp
  cases A <;> cases w
  · exact c1.trans (by norm_num [W.n])
  · exact c1.trans (by norm_num [W.n])
  · exact c0.trans (by positivity)
  · exact absurd rfl hw
  · exact c1.trans (by norm_num [W.n])
  · exact c2.trans (by norm_num [W.n])
  · exact c0.trans (by positivity)
  · exact absurd rfl hw
  · exact d1.trans (by norm_num [W.n])
  · exact d2.trans (by norm_num [W.n])
  · exact c3.trans (by norm_num [W.n])
  · exact absurd rfl hw

theorem lamInv_near {u v δ : ℚ} (hu : 0 < u) (d0 : δ ≤ 1 / 2 ^ 30) (h : |v - u| ≤ δ * u) : 0 < v ∧ |lamInv v - lamInv u| ≤ 2 * δ * (1 + 1 / 2 ^ 20) := by
  obtain ⟨h1, h2⟩ := abs_le.mp h
  have dp : 0 ≤ δ := by
    by_contra hc
    have := (abs_nonneg _).trans h
    nlinarith
  have hv : 0 < v := by nlinarith
  refine ⟨hv, ?_⟩
  rcases le_total u v with huv | huv
  · have s := lamInv_step hu huv
    have m := (lamInv_le_iff hu hv).mpr huv
    have : (v - u) / u ≤ δ := by rw [div_le_iff₀ hu]; linarith
    rw [abs_of_nonneg (by linarith)]
    nlinarith
  · have s := lamInv_step hv huv
    have m := (lamInv_le_iff hv hu).mpr huv
    have : (u - v) / v ≤ δ * (1 + 1 / 2 ^ 20) := by
      rw [div_le_iff₀ hv]
      have h3 : u * (1 - δ) ≤ v := by linarith
      have h4 : (1 : ℚ) ≤ (1 + 1 / 2 ^ 20) * (1 - δ) := by linarith
      calc u - v ≤ δ * u := by linarith
        _ ≤ δ * (u * ((1 + 1 / 2 ^ 20) * (1 - δ))) := mul_le_mul_of_nonneg_left (le_mul_of_one_le_right hu.le h4) dp
        _ = δ * (1 + 1 / 2 ^ 20) * (u * (1 - δ)) := by ring
        _ ≤ δ * (1 + 1 / 2 ^ 20) * v := mul_le_mul_of_nonneg_left h3 (by positivity)
    rw [abs_of_nonpos (by linarith)]
    linarith

/-- How close a float has to be: for 64 bits the `long double` has few bits to spare. -/
def Tol (w : W) (e δ : ℚ) : Prop :=
  (w ≠ .w64 ∧ δ ≤ 1 / 2 ^ 40) ∨ δ ≤ 5 / 2 ^ 64 ∨ (δ ≤ 9 / 2 ^ 64 ∧ 2 ≤ |e|)

theorem Tol.le {w : W} {e δ : ℚ} (h : Tol w e δ) : δ ≤ 1 / 2 ^ 40 := by
  rcases h with h | h | h
  · exact h.2
  · exact h.trans (by norm_num)
  · exact h.1.trans (by norm_num)

/-- A float close to the value of a takum is converted to that takum. -/
theorem linFrom_close (A : Src) {w : W} (hA : w = .w64 → A = .ext) {t : T w} (ht : Regular t) {z δ : ℚ} (hz : A.fmt.In z) (hd : Tol w (ell t) δ)
    (h : |z - lv t| ≤ δ * |lv t|) : z ≠ 0 ∧ linFrom A w (.num z) = .ok t := by
  have hl : 0 < |lv t| := abs_pos.mpr (lv_ne t)
  have d40 := hd.le
  have dlt : δ * |lv t| < |lv t| := by
    have : δ < 1 := d40.trans_lt (by norm_num)
    nlinarith
  have hz0 : z ≠ 0 := by rintro rfl; rw [zero_sub, abs_neg] at h; linarith
  have sz : t.msb = decide (z < 0) := by
    rw [Bool.eq_iff_iff, decide_eq_true_iff, ← lv_neg_iff]
    obtain ⟨h1, h2⟩ := abs_lt.mp (lt_of_le_of_lt h dlt)
    constructor
    · intro hn; rw [abs_of_neg hn] at h2; linarith
    · intro hn; by_contra hc; rw [abs_of_nonneg (not_lt.mp hc)] at h1; linarith
  refine ⟨hz0, ?_⟩
  have hab : |(|z| - |lv t|)| ≤ δ * |lv t| := (abs_abs_sub_abs_le z (lv t)).trans h
  obtain ⟨-, near⟩ := lamInv_near hl (d40.trans (by norm_num)) hab
  rw [lv_abs, lamInv_lam] at near
  obtain ⟨l, el, il⟩ := linFrom_spec A w (Fl.Is.num hz0) hz0 hz
  obtain ⟨u, eu, ru, su, al⟩ := enc_almost (w := w) (decide (z < 0)) il (rho_rep A w hz0 hz)
  rw [el, eu]
  congr 1
  by_contra hc
  have gap := ell_gap (w := w) (a := t) (b := u) (by rw [su, sz]) (fun h' => hc h'.symm)
  have a1 := al t ht sz
  set x := lamInv |z| with hxd
  set q := rho A w x with hq
  have b255 := abs_ell_le t
  have a2 : |ell u - ell t| ≤ 2 * (|q - x| + |x - ell t|) + 2 / 2 ^ w.grid := by
    have t1 := abs_sub_le (ell u) q (ell t)
    have t2 := abs_sub_le q x (ell t)
    rw [abs_sub_comm (ell t) q] at a1
    linarith
  have x255 : |x| ≤ 255.5 := by
    have := abs_add_le (x - ell t) (ell t)
    rw [sub_add_cancel] at this
    have : 2 * δ * (1 + 1 / 2 ^ 20) ≤ 1 / 4 := by linarith
    norm_num
    linarith
  have final := gap.trans a2
  have M1 : (1 : ℚ) ≤ max 1 ((|ell t| + 1) / 2) := le_max_left _ _
  by_cases hw : w = .w64
  · subst hw
    obtain rfl := hA rfl
    have hr : |q - x| ≤ |x| / 2 ^ 64 + 1 / 2 ^ 100 := by
      have hr := rq_err_add (F := x80) (Or.inr rfl) x
      have : (2 : ℝ) ^ (-1000 : ℤ) ≤ 1 / 2 ^ 100 := by
        have := zpow_le_zpow_right₀ (show (1 : ℝ) ≤ 2 by norm_num) (show (-1000 : ℤ) ≤ -100 by norm_num)
        norm_num at this ⊢; exact this
      have h2 := hr.trans (add_le_add_right this _)
      rw [show x80.prec = 64 from rfl] at h2
      refine (Rat.cast_le (K := ℝ)).mp ?_
      push_cast
      exact h2
    have xl : |x| ≤ |ell t| + 1 / 2 ^ 30 := by
      have := abs_add_le (x - ell t) (ell t)
      rw [sub_add_cancel] at this
      have : 2 * δ * (1 + 1 / 2 ^ 20) ≤ 1 / 2 ^ 30 := by linarith
      linarith
    have M2 : (|ell t| + 1) / 2 ≤ max 1 ((|ell t| + 1) / 2) := le_max_right _ _
    generalize hM : max 1 ((|ell t| + 1) / 2) = M at final M1 M2
    rw [show W.n .w64 - 5 = 59 from rfl, show W.grid .w64 = 64 from rfl, div_le_iff₀ (by positivity)] at final
    have key : δ ≤ 5 / 2 ^ 64 ∨ (δ ≤ 9 / 2 ^ 64 ∧ 3 / 2 ≤ M) := by
      rcases hd with h | h | h
      · exact absurd rfl h.1
      · exact Or.inl h
      · exact Or.inr ⟨h.1, by linarith [h.2]⟩
    norm_num at final hr xl near key
    rcases key with k | ⟨k1, k2⟩ <;> linarith
  · have hr := rho_error A hw x255
    rw [← hq] at hr
    have hn : w.n - 5 ≤ 27 := by cases w <;> first | decide | exact absurd rfl hw
    have g0 : (1 : ℚ) / 2 ^ 27 ≤ 1 / 2 ^ (w.n - 5) := one_div_le_one_div_of_le (by positivity) (pow_le_pow_right₀ (by norm_num) hn)
    have g1 : (2 : ℚ) / 2 ^ w.grid ≤ 1 / 2 ^ (w.n - 5) / 4 := by cases w <;> norm_num [W.grid, W.n]
    have g2 : 1 / 2 ^ (w.n - 5) ≤ max 1 ((|ell t| + 1) / 2) / 2 ^ (w.n - 5) := div_le_div_of_nonneg_right M1 (by positivity)
    generalize (1 : ℚ) / 2 ^ (w.n - 5) = g at *
    norm_num at g0 near d40
    linarith

end Takum
