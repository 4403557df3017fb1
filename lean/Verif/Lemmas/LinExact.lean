import Verif.Props.LinArith

/-! # Lemmas for the correct rounding of 8- and 16-bit linear arithmetic -/

namespace Takum
open Spec

/-! ### Takums as multiples -/

theorem ell_fine {n : ℕ} (hn : 5 ≤ n) (t : BitVec n) : ∃ j : ℤ, ell t * 2 ^ (n - 5) = j := by
  obtain ⟨d, hd, h1, h2⟩ := exists_piece (pos_nonneg t) (pos_lt hn t)
  have e : psi (pos t) * 2 ^ (n - 5) = ((bias d * 2 ^ (n - 5) + 2 ^ rr d * (low t - d * 2 ^ (n - 5)) : ℤ) : ℚ) := by
    rw [psi_eq_piece h1 h2]
    unfold piece pos
    push_cast
    field_simp
  rw [ell_sg hn]
  cases t.msb
  · exact ⟨_, by simp only [sg, Bool.false_eq_true, if_false, one_mul]; exact e⟩
  · refine ⟨-(bias d * 2 ^ (n - 5) + 2 ^ rr d * (low t - d * 2 ^ (n - 5)) : ℤ), ?_⟩
    simp only [sg, if_true, neg_mul, one_mul]; rw [e, ← Int.cast_neg]

theorem ell_inj {n : ℕ} (hn : 5 ≤ n) {a b : BitVec n} (hs : a.msb = b.msb) (h : ell a = ell b) : a = b := by
  apply ext_low (by omega) hs
  by_contra hne
  rcases lt_or_gt_of_ne hne with h1 | h1
  · have := ell_lt_mkT hn hs h1; rw [h] at this; exact lt_irrefl _ this
  · have := ell_lt_mkT hn hs.symm h1; rw [h] at this; exact lt_irrefl _ this

theorem ell_spacing {n : ℕ} (hn : 5 ≤ n) {a b : BitVec n} (hs : a.msb = b.msb) (hne : a ≠ b) :
    1 ≤ |ell a - ell b| * 2 ^ (n - 5) := by
  obtain ⟨i, hi⟩ := ell_fine hn a
  obtain ⟨j, hj⟩ := ell_fine hn b
  have e : |ell a - ell b| * 2 ^ (n - 5) = ((|i - j| : ℤ) : ℚ) := by
    push_cast; rw [← hi, ← hj, ← sub_mul, abs_mul, abs_of_pos (show (0 : ℚ) < 2 ^ (n - 5) by positivity)]
  have : i - j ≠ 0 := by
    intro h
    apply hne
    apply ell_inj hn hs
    have hp : (2 : ℚ) ^ (n - 5) ≠ 0 := by positivity
    apply mul_right_cancel₀ hp
    rw [hi, hj]; congr 1; omega
  rw [e]
  exact_mod_cast Int.one_le_abs this

theorem near_unique {n : ℕ} (hn : 5 ≤ n) {a t : BitVec n} {x : ℚ} (ha : Regular a)
    (h : NearestEll a.msb x t) (hc : |x - ell a| * 2 ^ (n - 5) < 1 / 2) : t = a := by
  obtain ⟨-, hs, hm⟩ := h
  by_contra hne
  have h1 := ell_spacing hn hs hne
  have hle : |ell t - x| ≤ |ell a - x| := by
    rcases hm a ha rfl with h | ⟨h, _⟩
    · exact h.le
    · exact h.le
  rw [abs_sub_comm (ell a) x] at hle
  have h2 : |ell t - ell a| ≤ |ell t - x| + |x - ell a| := abs_sub_le _ _ _
  have hp : (0 : ℚ) < 2 ^ (n - 5) := by positivity
  have h3 : |ell t - ell a| * 2 ^ (n - 5) ≤ (|x - ell a| + |x - ell a|) * 2 ^ (n - 5) :=
    mul_le_mul_of_nonneg_right (by linarith) hp.le
  linarith

theorem near_close {n : ℕ} (hn : 5 ≤ n) {a : BitVec n} {x : ℚ} (ha : Regular a)
    (hc : |x - ell a| * 2 ^ (n - 5) < 1 / 2) : NearestEll a.msb x a := by
  refine ⟨ha, rfl, ?_⟩
  intro t' ht' hs
  by_cases hne : t' = a
  · subst hne; exact Or.inr ⟨rfl, Or.inl rfl⟩
  · left
    have h1 := ell_spacing hn hs hne
    have h2 : |ell t' - ell a| ≤ |ell t' - x| + |x - ell a| := abs_sub_le _ _ _
    rw [abs_sub_comm (ell a) x]
    have hp : (0 : ℚ) < 2 ^ (n - 5) := by positivity
    have h3 := mul_le_mul_of_nonneg_right h2 hp.le
    rw [add_mul] at h3
    by_contra hle
    have h4 := mul_le_mul_of_nonneg_right (not_lt.mp hle) hp.le
    linarith

/-! ### The slope of `lam` -/

theorem lam_tangent {j : ℤ} {y : ℚ} (h : (j : ℚ) ≤ y) : (1 + (y - j)) * (2 : ℚ) ^ j ≤ lam y := by
  have hj : j ≤ ⌊y⌋ := Int.le_floor.mpr h
  obtain ⟨k, hk⟩ := Int.eq_ofNat_of_zero_le (sub_nonneg.mpr hj)
  have e : ⌊y⌋ = j + k := by omega
  have f0 := Int.fract_nonneg y
  have hy : y = ⌊y⌋ + Int.fract y := (Int.floor_add_fract y).symm
  unfold lam
  rw [e, zpow_add₀ (by norm_num), zpow_natCast]
  have h2 : (k : ℚ) + 1 ≤ 2 ^ k := by
    have : k + 1 ≤ 2 ^ k := Nat.lt_two_pow_self
    exact_mod_cast this
  have h1 : (1 : ℚ) ≤ 2 ^ k := one_le_pow₀ (by norm_num)
  have hy' : y - j = k + Int.fract y := by
    have : (⌊y⌋ : ℚ) = j + k := by rw [e]; push_cast; ring
    linarith
  rw [hy']
  have hp : (0 : ℚ) < (2 : ℚ) ^ j := zpow_pos (by norm_num) _
  have h3 : (1 + ((k : ℚ) + Int.fract y)) ≤ (1 + Int.fract y) * 2 ^ k := by nlinarith
  calc (1 + ((k : ℚ) + Int.fract y)) * (2 : ℚ) ^ j ≤ ((1 + Int.fract y) * 2 ^ k) * (2 : ℚ) ^ j :=
        mul_le_mul_of_nonneg_right h3 hp.le
    _ = _ := by ring

theorem lam_slope {x y : ℚ} (h : x ≤ y) : (y - x) * (2 : ℚ) ^ ⌊x⌋ ≤ lam y - lam x := by
  have h1 := lam_tangent ((Int.floor_le x).trans h)
  have h2 : lam x = (1 + (x - ⌊x⌋)) * (2 : ℚ) ^ ⌊x⌋ := by unfold lam Int.fract; rfl
  rw [h2]; nlinarith

/-- Numbers that are close relative to their size have close positions. -/
theorem lam_close {x y η : ℚ} (h0 : 0 < η) (h1 : η ≤ 1) (h : |lam x - lam y| < η / 4 * lam y) : |x - y| < η := by
  obtain ⟨b1, b2⟩ := lam_bounds y
  have hp : (0 : ℚ) < (2 : ℚ) ^ ⌊y⌋ := zpow_pos (by norm_num) _
  rw [zpow_add_one₀ (by norm_num)] at b2
  rw [abs_lt] at h
  rw [abs_lt]
  constructor
  · -- x ≤ y - η would make lam x too small
    by_contra hh
    have hx : x ≤ y - η := by linarith
    have h2 := lam_strictMono.monotone hx
    have h3 := lam_slope (show y - η ≤ y by linarith)
    have hf : ⌊y⌋ - 1 ≤ ⌊y - η⌋ := by
      rw [Int.le_floor]; push_cast; linarith [Int.floor_le y]
    have h4 : (2 : ℚ) ^ (⌊y⌋ - 1) ≤ (2 : ℚ) ^ ⌊y - η⌋ := zpow_le_zpow_right₀ (by norm_num) hf
    rw [zpow_sub_one₀ (by norm_num)] at h4
    have h5 : η * ((2 : ℚ) ^ ⌊y⌋ * 2⁻¹) ≤ η * (2 : ℚ) ^ ⌊y - η⌋ := mul_le_mul_of_nonneg_left h4 h0.le
    have h6 : η * (lam y / 4) ≤ η * ((2 : ℚ) ^ ⌊y⌋ * 2⁻¹) := mul_le_mul_of_nonneg_left (by linarith) h0.le
    linarith
  · by_contra hh
    have hx : y + η ≤ x := by linarith
    have h2 := lam_strictMono.monotone hx
    have h3 := lam_slope (show y ≤ y + η by linarith)
    have h6 : η * (lam y / 4) ≤ η * ((2 : ℚ) ^ ⌊y⌋) := mul_le_mul_of_nonneg_left (by linarith) h0.le
    linarith

/-! ### Numbers whose position is exact -/

/-- Significands short enough for the position to be computed without rounding. -/
def sumFmt : W → Fmt
  | .w8 => ⟨14, -1024, 1024⟩
  | _ => ⟨43, -1024, 1024⟩

def gapK : W → ℕ
  | .w8 => 9
  | _ => 30

theorem exact_facts {w : W} (hw : w = .w8 ∨ w = .w16) {v : ℚ} (hv : v ≠ 0) (h : (sumFmt w).In v) :
    w.src.fmt.In v ∧ NearestEll (decide (v < 0)) (lamInv |v|) (linEnc w v) := by
  rcases hw with rfl | rfl
  · have hb : b64.In v := h.mono (by decide) (by decide) (by decide)
    have r1 : b32.Rep (lamInv |v|) :=
      lamInv_rep hv h (by decide) (k := 10) (by decide) (by decide) (by decide) (by decide)
    obtain ⟨t, e, hn⟩ := linFrom_nearestEll .f64 .w8 (Fl.Is.mk false v) hv hb (b32.rq_of_rep r1)
      (onGrid_lamInv hv h.1 (by decide) (by decide))
    have e' := linFrom_enc (w := .w8) (Fl.Is.mk false v) hb
    rw [show linFrom (W.src .w8) .w8 (Fl.mk false v) = .ok t from e] at e'
    rw [← Except.ok.inj e']
    exact ⟨hb, hn⟩
  · have hb : b64.In v := h.mono (by decide) (by decide) (by decide)
    have r1 : b64.Rep (lamInv |v|) :=
      lamInv_rep hv h (by decide) (k := 10) (by decide) (by decide) (by decide) (by decide)
    obtain ⟨t, e, hn⟩ := linFrom_nearestEll .f64 .w16 (Fl.Is.mk false v) hv hb (b64.rq_of_rep r1)
      (onGrid_lamInv hv h.1 (by decide) (by decide))
    have e' := linFrom_enc (w := .w16) (Fl.Is.mk false v) hb
    rw [show linFrom (W.src .w16) .w16 (Fl.mk false v) = .ok t from e] at e'
    rw [← Except.ok.inj e']
    exact ⟨hb, hn⟩

theorem sumFmt_facts {w : W} (hw : w = .w8 ∨ w = .w16) :
    (sumFmt w).prec = gapK w + (w.n - 5) + 2 ∧ (sumFmt w).emin = -1024 ∧ (sumFmt w).emax = 1024 ∧
      w.n - 5 + 3 < gapK w ∧ gapK w ≤ 30 ∧ w.n - 5 ≤ 11 := by
  rcases hw with rfl | rfl <;> decide

/-- The significand of a linear takum. -/
theorem lv_sig {w : W} (t : T w) : ∃ k : ℤ, lv t = k * (2 : ℚ) ^ (⌊ell t⌋ - (w.n - 5 : ℕ)) ∧ |k| < 2 ^ (w.n - 5 + 1) := by
  obtain ⟨j, hj⟩ := ell_fine (by have := w.n_pos; omega : 5 ≤ w.n) t
  obtain ⟨b1, b2⟩ := lam_bounds (ell t)
  have hp : (0 : ℚ) < (2 : ℚ) ^ (⌊ell t⌋ - (w.n - 5 : ℕ)) := zpow_pos (by norm_num) _
  have e : lam (ell t) = ((2 ^ (w.n - 5) + (j - ⌊ell t⌋ * 2 ^ (w.n - 5)) : ℤ) : ℚ) * (2 : ℚ) ^ (⌊ell t⌋ - (w.n - 5 : ℕ)) := by
    unfold lam Int.fract
    push_cast; rw [← hj, zpow_sub₀ (by norm_num), zpow_natCast]; field_simp
  set k0 : ℤ := 2 ^ (w.n - 5) + (j - ⌊ell t⌋ * 2 ^ (w.n - 5)) with hk0
  have hk : |k0| < 2 ^ (w.n - 5 + 1) := by
    have h1 : 0 < (k0 : ℚ) := by
      have := lam_pos (ell t); rw [e] at this; exact pos_of_mul_pos_left this hp.le
    have h2 : (k0 : ℚ) < 2 ^ (w.n - 5 + 1) := by
      rw [e] at b2
      have : (2 : ℚ) ^ (⌊ell t⌋ + 1) = 2 ^ (w.n - 5 + 1) * (2 : ℚ) ^ (⌊ell t⌋ - (w.n - 5 : ℕ)) := by
        rw [← zpow_natCast, ← zpow_add₀ (by norm_num)]; congr 1; push_cast; ring
      rw [this] at b2
      exact lt_of_mul_lt_mul_right b2 hp.le
    have h1' : 0 < k0 := by exact_mod_cast h1
    rw [abs_of_pos h1']
    exact_mod_cast h2
  cases hs : t.msb
  · exact ⟨k0, by unfold lv; rw [hs, e]; simp [sg], hk⟩
  · exact ⟨-k0, by unfold lv; rw [hs, e]; simp [sg], by rw [abs_neg]; exact hk⟩

theorem floor_ell {w : W} (t : T w) : -255 ≤ ⌊ell t⌋ ∧ ⌊ell t⌋ < 256 := by
  have h5 : 5 ≤ w.n := by have := w.n_pos; omega
  have h3 := abs_ell_lt t
  rw [abs_lt] at h3
  refine ⟨?_, by rw [Int.floor_lt]; push_cast; linarith⟩
  rw [Int.le_floor, ell_sg h5]
  have p1 := psi_ge (pos_nonneg t) (pos_lt h5 t)
  have p2 := psi_lt_255 (pos_nonneg t) (pos_lt h5 t)
  cases t.msb <;> simp [sg] <;> linarith

theorem sumFmt_in {w : W} (hw : w = .w8 ∨ w = .w16) {v : ℚ} {k e : ℤ} (h : v = k * (2 : ℚ) ^ e)
    (hk : |k| < 2 ^ (gapK w + (w.n - 5) + 2)) (he : -1024 ≤ e) (he' : e ≤ 900) : (sumFmt w).In v := by
  obtain ⟨h1, h2, h3, h4, h5, h6⟩ := sumFmt_facts hw
  refine ⟨⟨k, e, h, by rw [h1]; exact hk, by omega⟩, ?_⟩
  rw [h, h3, abs_mul, abs_of_pos (show (0 : ℚ) < (2 : ℚ) ^ e from zpow_pos (by norm_num) _)]
  have hk' : (|(k : ℚ)|) < (2 : ℚ) ^ (50 : ℤ) := by
    have : |k| < 2 ^ 50 := lt_of_lt_of_le hk (pow_le_pow_right₀ (by norm_num) (by omega))
    have h' : ((|k| : ℤ) : ℚ) < ((2 ^ 50 : ℤ) : ℚ) := by exact_mod_cast this
    rw [Int.cast_abs] at h'
    exact lt_of_lt_of_le h' (by norm_num)
  calc |(k : ℚ)| * (2 : ℚ) ^ e < (2 : ℚ) ^ (50 : ℤ) * (2 : ℚ) ^ e := mul_lt_mul_of_pos_right hk' (zpow_pos (by norm_num) _)
    _ = (2 : ℚ) ^ (50 + e) := by rw [zpow_add₀ (by norm_num)]
    _ ≤ _ := zpow_le_zpow_right₀ (by norm_num) (by omega)

/-- Products are exact. -/
theorem prod_in {w : W} (hw : w = .w8 ∨ w = .w16) (a b : T w) : (sumFmt w).In (lv a * lv b) := by
  obtain ⟨h1, h2, h3, h4, h5, h6⟩ := sumFmt_facts hw
  obtain ⟨k, e, hk⟩ := lv_sig a
  obtain ⟨k', e', hk'⟩ := lv_sig b
  have f1 := floor_ell a
  have f2 := floor_ell b
  apply sumFmt_in hw (k := k * k') (e := (⌊ell a⌋ - (w.n - 5 : ℕ)) + (⌊ell b⌋ - (w.n - 5 : ℕ)))
  · rw [e, e', zpow_add₀ (by norm_num)]; push_cast; ring
  · rw [abs_mul]
    calc |k| * |k'| < 2 ^ (w.n - 5 + 1) * 2 ^ (w.n - 5 + 1) := mul_lt_mul'' hk hk' (abs_nonneg _) (abs_nonneg _)
      _ = 2 ^ ((w.n - 5 + 1) + (w.n - 5 + 1)) := (pow_add _ _ _).symm
      _ ≤ _ := pow_le_pow_right₀ (by norm_num) (by omega)
  · omega
  · omega

theorem NearestEll.sign {n : ℕ} {s : Bool} {x : ℚ} {t : BitVec n} (h : NearestEll s x t) : t.msb = s := h.2.1

/-- `v (1 ± 2^-K)` is encoded as the takum with number `v`. -/
theorem enc_close {w : W} (hw : w = .w8 ∨ w = .w16) {a : T w} (ha : Regular a) {s : ℤ} (hs : s = 1 ∨ s = -1) :
    linEnc w (lv a + s * |lv a| * (2 : ℚ) ^ (-(gapK w : ℤ))) = a ∧
      (sumFmt w).In (lv a + s * |lv a| * (2 : ℚ) ^ (-(gapK w : ℤ))) := by
  obtain ⟨h1, h2, h3, h4, h5, h6⟩ := sumFmt_facts hw
  have h8 : 5 ≤ w.n := by have := w.n_pos; omega
  obtain ⟨k, e, hk⟩ := lv_sig a
  have f1 := floor_ell a
  set ε : ℚ := (2 : ℚ) ^ (-(gapK w : ℤ)) with hε
  have ε0 : 0 < ε := zpow_pos (by norm_num) _
  have εK : ε * 2 ^ gapK w = 1 := by
    rw [hε, zpow_neg, zpow_natCast]; field_simp
  have ε1 : ε * 2 ^ (w.n - 5) * 16 ≤ 1 := by
    rw [← εK, mul_assoc]
    apply mul_le_mul_of_nonneg_left _ ε0.le
    rw [show (16 : ℚ) = 2 ^ 4 by norm_num, ← pow_add]
    exact pow_le_pow_right₀ (by norm_num) (by omega)
  have pn : (1 : ℚ) ≤ 2 ^ (w.n - 5) := one_le_pow₀ (by norm_num)
  have ε2 : ε * 16 ≤ 1 := by nlinarith
  set v := lv a + s * |lv a| * ε with hv
  have apos : 0 < |lv a| := abs_pos.mpr (lv_ne a)
  have hs1 : |(s : ℚ)| = 1 := by rcases hs with rfl | rfl <;> simp
  have hin : (sumFmt w).In v := by
    apply sumFmt_in hw (k := k * 2 ^ gapK w + s * |k|) (e := ⌊ell a⌋ - (w.n - 5 : ℕ) - gapK w)
    · rw [hv, hε, e, zpow_sub₀ (by norm_num) _ (gapK w : ℤ), zpow_natCast, zpow_neg, zpow_natCast, abs_mul,
        abs_of_pos (show (0 : ℚ) < (2 : ℚ) ^ (⌊ell a⌋ - (w.n - 5 : ℕ)) from zpow_pos (by norm_num) _)]
      push_cast; field_simp
    · have hs2 : |s * (|k|)| = |k| := by rcases hs with rfl | rfl <;> simp
      calc |k * 2 ^ gapK w + s * (|k|)| ≤ |k * 2 ^ gapK w| + |s * (|k|)| := abs_add_le _ _
        _ = |k| * 2 ^ gapK w + |k| := by rw [hs2, abs_mul, abs_of_pos (show (0 : ℤ) < 2 ^ gapK w by positivity)]
        _ ≤ |k| * 2 ^ gapK w + |k| * 2 ^ gapK w := by
            have : (1 : ℤ) ≤ 2 ^ gapK w := one_le_pow₀ (by norm_num)
            have := mul_le_mul_of_nonneg_left this (abs_nonneg k)
            linarith
        _ = |k| * 2 ^ (gapK w + 1) := by rw [pow_succ]; ring
        _ < 2 ^ (w.n - 5 + 1) * 2 ^ (gapK w + 1) := mul_lt_mul_of_pos_right hk (by positivity)
        _ = _ := by rw [← pow_add]; congr 1; omega
    · omega
    · omega
  have hvs : v ≠ 0 ∧ (v < 0 ↔ lv a < 0) := by
    rcases lt_or_gt_of_ne (lv_ne a) with hn | hp
    · have ea : |lv a| = -lv a := abs_of_neg hn
      have hv0 : v < 0 := by
        rw [hv, ea]; rcases hs with rfl | rfl <;> push_cast <;> nlinarith
      exact ⟨hv0.ne, iff_of_true hv0 hn⟩
    · have ea : |lv a| = lv a := abs_of_pos hp
      have hv0 : 0 < v := by
        rw [hv, ea]; rcases hs with rfl | rfl <;> push_cast <;> nlinarith
      exact ⟨hv0.ne', iff_of_false (not_lt.mpr hv0.le) (not_lt.mpr hp.le)⟩
  have hv0 := hvs.1
  refine ⟨?_, hin⟩
  obtain ⟨-, hn⟩ := exact_facts hw hv0 hin
  have hdec : decide (v < 0) = a.msb := by
    rw [Bool.eq_iff_iff, decide_eq_true_iff, hvs.2, lv_neg_iff]
  rw [hdec] at hn
  refine near_unique h8 ha hn ?_
  have hlt : |lamInv (|v|) - ell a| < 4 * ε * 2 := by
    apply lam_close (by linarith) (by linarith)
    rw [lam_lamInv (abs_pos.mpr hv0), ← lv_abs]
    have h7 : |(|v| - |lv a|)| ≤ |v - lv a| := abs_abs_sub_abs_le _ _
    have h9 : |v - lv a| = |lv a| * ε := by
      rw [hv, add_sub_cancel_left, abs_mul, abs_mul, hs1, abs_abs, abs_of_pos ε0]; ring
    rw [h9] at h7
    have : 0 < |lv a| * ε := mul_pos apos ε0
    linarith
  have hp : (0 : ℚ) < 2 ^ (w.n - 5) := by positivity
  have := mul_lt_mul_of_pos_right hlt hp
  linarith

/-- Sums, the first summand not being the smaller one. -/
theorem sum_nearest {w : W} (hw : w = .w8 ∨ w = .w16) {a b : T w} (ha : Regular a) (hle : |lv b| ≤ |lv a|)
    (h0 : lv a + lv b ≠ 0) :
    NearestEll (decide (lv a + lv b < 0)) (lamInv |lv a + lv b|) (linEnc w (w.src.fmt.rq (lv a + lv b))) := by
  obtain ⟨h1, h2, h3, h4, h5, h6⟩ := sumFmt_facts hw
  have h8 : 5 ≤ w.n := by have := w.n_pos; omega
  obtain ⟨k, e, hk⟩ := lv_sig a
  obtain ⟨k', e', hk'⟩ := lv_sig b
  have f1 := floor_ell a
  have f2 := floor_ell b
  have hell : ell b ≤ ell a := by
    rw [lv_abs, lv_abs] at hle
    exact lam_strictMono.le_iff_le.mp hle
  have hfl : ⌊ell b⌋ ≤ ⌊ell a⌋ := Int.floor_le_floor hell
  obtain ⟨d, hd⟩ := Int.eq_ofNat_of_zero_le (sub_nonneg.mpr hfl)
  by_cases hD : d ≤ gapK w
  · have hin : (sumFmt w).In (lv a + lv b) := by
      apply sumFmt_in hw (k := k * 2 ^ d + k') (e := ⌊ell b⌋ - (w.n - 5 : ℕ))
      · rw [e, e', show ⌊ell a⌋ - (w.n - 5 : ℕ) = (⌊ell b⌋ - (w.n - 5 : ℕ)) + d by omega, zpow_add₀ (by norm_num), zpow_natCast]
        push_cast; ring
      · calc |k * 2 ^ d + k'| ≤ |k * 2 ^ d| + |k'| := abs_add_le _ _
          _ = |k| * 2 ^ d + |k'| := by rw [abs_mul, abs_of_pos (show (0 : ℤ) < 2 ^ d by positivity)]
          _ < 2 ^ (w.n - 5 + 1) * 2 ^ d + 2 ^ (w.n - 5 + 1) := by
              have := mul_lt_mul_of_pos_right hk (show (0 : ℤ) < 2 ^ d by positivity)
              linarith
          _ ≤ 2 ^ (w.n - 5 + 1) * 2 ^ gapK w + 2 ^ (w.n - 5 + 1) * 2 ^ gapK w := by
              have q1 : (2 : ℤ) ^ d ≤ 2 ^ gapK w := pow_le_pow_right₀ (by norm_num) hD
              have q2 : (1 : ℤ) ≤ 2 ^ gapK w := one_le_pow₀ (by norm_num)
              have p0 : (0 : ℤ) < 2 ^ (w.n - 5 + 1) := by positivity
              have := mul_le_mul_of_nonneg_left q1 p0.le
              have := mul_le_mul_of_nonneg_left q2 p0.le
              linarith
          _ = 2 ^ (gapK w + (w.n - 5) + 2) := by
              rw [← two_mul, ← pow_add, ← pow_succ']; congr 1; omega
      · omega
      · omega
    obtain ⟨i1, i2⟩ := exact_facts hw h0 hin
    rw [w.src.fmt.rq_of_rep i1.1]
    exact i2
  · -- the smaller summand does not matter
    set ε : ℚ := (2 : ℚ) ^ (-(gapK w : ℤ)) with hε
    have ε0 : 0 < ε := zpow_pos (by norm_num) _
    have hb : |lv b| ≤ |lv a| * ε := by
      rw [lv_abs, lv_abs]
      have b1 := (lam_bounds (ell b)).2
      have b2 := (lam_bounds (ell a)).1
      calc lam (ell b) ≤ (2 : ℚ) ^ (⌊ell b⌋ + 1) := b1.le
        _ ≤ (2 : ℚ) ^ (⌊ell a⌋ + -(gapK w : ℤ)) := zpow_le_zpow_right₀ (by norm_num) (by omega)
        _ = (2 : ℚ) ^ ⌊ell a⌋ * ε := by rw [zpow_add₀ (by norm_num)]
        _ ≤ _ := mul_le_mul_of_nonneg_right b2 ε0.le
    have εK : ε * 2 ^ gapK w = 1 := by
      rw [hε, zpow_neg, zpow_natCast]; field_simp
    have ε1 : ε * 2 ^ (w.n - 5) * 16 ≤ 1 := by
      rw [← εK, mul_assoc]
      apply mul_le_mul_of_nonneg_left _ ε0.le
      rw [show (16 : ℚ) = 2 ^ 4 by norm_num, ← pow_add]
      exact pow_le_pow_right₀ (by norm_num) (by omega)
    have pn : (1 : ℚ) ≤ 2 ^ (w.n - 5) := one_le_pow₀ (by norm_num)
    have ε2 : ε * 16 ≤ 1 := by nlinarith
    have apos : 0 < |lv a| := abs_pos.mpr (lv_ne a)
    obtain ⟨c1, c2⟩ := enc_close hw ha (s := 1) (Or.inl rfl)
    obtain ⟨c3, c4⟩ := enc_close hw ha (s := -1) (Or.inr rfl)
    rw [← hε] at c1 c2 c3 c4
    have hbb := abs_le.mp hb
    have v1 : lv a + ((-1 : ℤ) : ℚ) * |lv a| * ε ≤ lv a + lv b := by push_cast; linarith
    have v2 : lv a + lv b ≤ lv a + ((1 : ℤ) : ℚ) * |lv a| * ε := by push_cast; linarith
    have sin : ∀ v : ℚ, (sumFmt w).In v → w.src.fmt.In v := by
      intro v hv
      rcases hw with rfl | rfl
      · exact hv.mono (by decide) (by decide) (by decide)
      · exact hv.mono (by decide) (by decide) (by decide)
    have r1 := Fmt.le_rq w.src.fmt (src_prec w) (sin _ c4).1 v1
    have r2 := Fmt.rq_le w.src.fmt (src_prec w) (sin _ c2).1 v2
    have hs : |lv a + lv b| ≤ (2 : ℚ) ^ (600 : ℤ) := sum_le (lv_bounds a).2 (lv_bounds b).2
    have m1 := linEnc_mono (w := w) (sin _ c4) (rq_src_in hs) r1
    have m2 := linEnc_mono (w := w) (rq_src_in hs) (sin _ c2) r2
    rw [c3] at m1
    rw [c1] at m2
    have hres : linEnc w (w.src.fmt.rq (lv a + lv b)) = a := BitVec.eq_of_toInt_eq (le_antisymm m2 m1)
    rw [hres]
    have hdec : decide (lv a + lv b < 0) = a.msb := by
      rw [Bool.eq_iff_iff, decide_eq_true_iff, ← lv_neg_iff]
      rcases lt_or_gt_of_ne (lv_ne a) with hn | hp
      · rw [abs_of_neg hn] at hbb
        exact ⟨fun _ => hn, fun _ => by nlinarith⟩
      · rw [abs_of_pos hp] at hbb
        exact ⟨fun h => by nlinarith, fun h => absurd h (not_lt.mpr hp.le)⟩
    rw [hdec]
    apply near_close h8 ha
    have hlt : |lamInv (|lv a + lv b|) - ell a| < 4 * ε * 2 := by
      apply lam_close (by linarith) (by linarith)
      rw [lam_lamInv (abs_pos.mpr h0), ← lv_abs]
      have h7 : |(|lv a + lv b| - |lv a|)| ≤ |lv a + lv b - lv a| := abs_abs_sub_abs_le _ _
      rw [add_sub_cancel_left] at h7
      have : 0 < |lv a| * ε := mul_pos apos ε0
      linarith
    have hp : (0 : ℚ) < 2 ^ (w.n - 5) := by positivity
    have := mul_lt_mul_of_pos_right hlt hp
    linarith

end Takum
