import Verif.Lemmas.Widths

/-! # Lemmas for precision, sign and absolute value -/

namespace Takum
open Spec

theorem lut_prec : ∀ d < 16, lut precisionLut d = .ok (11 - rr d) := by decide

theorem mask_dr {n k : ℕ} (hn : 5 ≤ n) (hk : k = n - 5) (t mask : BitVec n)
    (hm : mask >>> k = 0xf#n) : ((t &&& mask) >>> k).toNat = dr t := by
  rw [BitVec.ushiftRight_and_distrib, hm, BitVec.toNat_and, BitVec.toNat_ushiftRight,
    Nat.shiftRight_eq_div_pow, hk]
  have e : (0xf#n).toNat = 2 ^ 4 - 1 := by
    rw [BitVec.toNat_ofNat]
    apply Nat.mod_eq_of_lt
    calc 15 < 2 ^ 5 := by norm_num
      _ ≤ 2 ^ n := Nat.pow_le_pow_right (by norm_num) hn
  rw [e, Nat.and_two_pow_sub_one_eq_mod]
  unfold dr low
  rw [pow16 hn, mul_comm 16, Nat.mod_mul_right_div_self]

theorem precision_spec (w : W) (t : T w) : precision w t = .ok (w.n - 5 - r t) := by
  have h8 := w.n_pos
  have hr := r_eq (by omega) t
  have hd := dr_lt (by omega) t
  have h7 := rr_le _ hd
  have key : t = 0#w.n ∨ t = NAR w.n → r t = 7 := by
    rw [NAR_eq (by omega)]
    intro h
    have hl : low t = 0 := by
      rcases h with h | h
      · rw [h, zero_eq, mkT_low (by omega) _ (by positivity)]
      · rw [h, nar_eq, mkT_low (by omega) _ (by positivity)]
    rw [hr]; unfold dr; rw [hl]; simp; rfl
  by_cases h : t = 0#w.n ∨ t = NAR w.n
  · rw [key h]
    cases w
    · exact if_pos h
    · exact if_pos h
    · exact if_pos h
    · exact if_pos h
  · rw [hr]
    cases w
    · refine (if_neg h).trans ?_
      rw [mask_dr (by decide) (by decide) t 0x78#8 (by decide), lut_prec _ hd]
      change Except.ok _ = _
      congr 1
      show (if 11 - rr (dr t) < 8 then 0 else 11 - rr (dr t) - 8) = 8 - 5 - rr (dr t)
      split <;> omega
    · refine (if_neg h).trans ?_
      rw [mask_dr (by decide) (by decide) t 0x7800#16 (by decide), lut_prec _ hd]
      congr 1
    · refine (if_neg h).trans ?_
      rw [mask_dr (by decide) (by decide) t 0x78000000#32 (by decide), lut_prec _ hd]
      change Except.ok _ = _
      congr 1
      show 11 - rr (dr t) + 16 = 32 - 5 - rr (dr t)
      omega
    · refine (if_neg h).trans ?_
      rw [mask_dr (by decide) (by decide) t 0x7800000000000000#64 (by decide), lut_prec _ hd]
      change Except.ok _ = _
      congr 1
      show 11 - rr (dr t) + 48 = 64 - 5 - rr (dr t)
      omega

theorem ONE_eq (w : W) : ONE w = mkT w.n false (2 ^ (w.n - 2)) := by cases w <;> decide

theorem psi_eight : psi 8 = 0 := by
  rw [psi_eq_piece (d := 8) (by norm_num) (by norm_num)]; decide +kernel

theorem two_pow_sub_two {n : ℕ} (hn : 2 ≤ n) : 2 ^ (n - 1) = 2 * 2 ^ (n - 2) := by
  rw [← pow_succ']; congr 1; omega

theorem ONE_facts (w : W) : (ONE w).msb = false ∧ low (ONE w) = 2 ^ (w.n - 2) ∧ Regular (ONE w) ∧
    ell (ONE w) = 0 := by
  have h8 := w.n_pos
  have h2 := two_pow_sub_two (by omega : 2 ≤ w.n)
  have h3 : 1 ≤ 2 ^ (w.n - 2) := Nat.one_le_two_pow
  have hlt : 2 ^ (w.n - 2) < 2 ^ (w.n - 1) := by omega
  rw [ONE_eq]
  refine ⟨mkT_msb (by omega) _ hlt, mkT_low (by omega) _ hlt, regular_mkT (by omega) _ h3 hlt, ?_⟩
  rw [ell_mkT (by omega) _ hlt]
  have : ((2 ^ (w.n - 2) : ℕ) : ℚ) / ((2 ^ (w.n - 5) : ℕ) : ℚ) = 8 := by
    have : 2 ^ (w.n - 2) = 8 * 2 ^ (w.n - 5) := by
      rw [show (8 : ℕ) = 2 ^ 3 by norm_num, ← pow_add]; congr 1; omega
    rw [this, Nat.cast_mul, mul_div_assoc, div_self (by positivity)]; norm_num
  rw [this, psi_eight, mul_zero]

theorem ell_zero_iff {w : W} (t : T w) : ell t = 0 ↔ low t = 2 ^ (w.n - 2) := by
  have h8 := w.n_pos
  obtain ⟨o1, o2, o3, o4⟩ := ONE_facts w
  have e : ell t = 0 ↔ psi (pos t) = psi (pos (ONE w)) := by
    have : psi (pos (ONE w)) = 0 := by
      have := ell_sg (by omega) (ONE w)
      rw [o4, o1] at this; simpa [sg] using this.symm
    rw [this, ell_sg (by omega)]
    cases t.msb <;> simp [sg]
  rw [e]
  constructor
  · intro h
    have := psi_inj (pos_nonneg _) (pos_lt (by omega) _) (pos_nonneg _) (pos_lt (by omega) _) h
    unfold pos at this
    rw [div_left_inj' (by positivity), o2] at this
    exact_mod_cast this
  · intro h; unfold pos; rw [h, o2]

/-- `absolute` on everything but NaR. -/
theorem absolute_spec {w : W} {t : T w} (h : t ≠ nar w.n) :
    absolute w t = .ok (if t.msb then -t else t) := by
  have h8 := w.n_pos
  set b := max w.n 32 with hb
  have lo := nar_lt (by omega) h
  rw [nar_toInt (by omega)] at lo
  have hi := BitVec.toInt_lt (x := t)
  have hbn : (2 : ℤ) ^ (w.n - 1) ≤ 2 ^ (b - 1) := pow_le_pow_right₀ (by norm_num) (by omega)
  have ck : ∀ x : ℤ, -2 ^ (w.n - 1) < x → x < 2 ^ (w.n - 1) → chk b x = .ok x := by
    intro x h1 h2
    unfold chk; exact if_pos ⟨by omega, by omega⟩
  have hmsb : t.msb = true ↔ t.toInt < 0 := by
    have := toInt_mkT (by omega) t
    have h1 := low_lt t
    have h3 : ((2 ^ (w.n - 1) : ℕ) : ℤ) = 2 ^ (w.n - 1) := by push_cast; rfl
    rw [this]
    cases t.msb
    · simp
    · simp; omega
  have z : -2 ^ (w.n - 1) < (0 : ℤ) ∧ (0 : ℤ) < 2 ^ (w.n - 1) := by
    have : (0 : ℤ) < 2 ^ (w.n - 1) := by positivity
    omega
  unfold absolute
  simp only [← hb, isNeg_eq]
  cases hm : t.msb
  · have h0 : ¬ t.toInt < 0 := by rw [← hmsb, hm]; simp
    have e : b2i (decide (0 ≤ t.toInt)) = 1 := by unfold b2i; simp; omega
    have e0 : b2i false = 0 := rfl
    simp only [e, e0, zero_mul, one_mul]
    simp only [ck _ (show -2 ^ (w.n - 1) < -t.toInt by omega) (by omega), ck 0 z.1 z.2, ck _ lo hi, bind, Except.bind, zero_add]
    simp [pure, Except.pure]
  · have h0 : t.toInt < 0 := hmsb.mp hm
    have e : b2i (decide (0 ≤ t.toInt)) = 0 := by unfold b2i; simp; omega
    have e0 : b2i true = 1 := rfl
    simp only [e, e0, zero_mul, one_mul]
    simp only [ck _ (show -2 ^ (w.n - 1) < -t.toInt by omega) (by omega), ck 0 z.1 z.2, bind, Except.bind, add_zero]
    simp only [pure, Except.pure, if_true]
    congr 1
    apply BitVec.eq_of_toInt_eq
    rw [BitVec.toInt_ofInt, BitVec.toInt_neg]

end Takum
