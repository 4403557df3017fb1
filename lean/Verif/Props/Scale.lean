import Verif.Props.Integers

/-!
# C111: powers of two in linear takum arithmetic
-/

namespace Takum
open Spec

theorem rg_toward : ∀ i < 255, rg ((i : ℕ) : ℤ) ≤ rg ((i : ℕ) + 1 : ℤ) ∧ rg (-(i : ℕ) : ℤ) ≤ rg (-(i : ℕ) - 1 : ℤ) := by
  decide +kernel

theorem rg_up (i k : ℕ) : i + k ≤ 255 → rg (i : ℤ) ≤ rg ((i + k : ℕ) : ℤ) ∧ rg (-(i : ℤ)) ≤ rg (-((i + k : ℕ) : ℤ)) := by
  induction k with
  | zero => simp
  | succ k ih =>
    intro h
    obtain ⟨h1, h2⟩ := ih (by omega)
    obtain ⟨h3, h4⟩ := rg_toward (i + k) (by omega)
    refine ⟨h1.trans ?_, h2.trans ?_⟩
    · rwa [show ((i + (k + 1) : ℕ) : ℤ) = ((i + k : ℕ) : ℤ) + 1 by push_cast; ring]
    · rwa [show -((i + (k + 1) : ℕ) : ℤ) = -((i + k : ℕ) : ℤ) - 1 by push_cast; ring]

/-- The regime is no longer for a characteristic between another one and 0. -/
theorem rg_closer {c c' : ℤ} (h1 : -255 ≤ c) (h2 : c ≤ 255) (h : 0 ≤ c' ∧ c' ≤ c ∨ c ≤ c' ∧ c' ≤ 0) : rg c' ≤ rg c := by
  rcases h with ⟨g1, g2⟩ | ⟨g1, g2⟩
  · obtain ⟨i, rfl⟩ := Int.eq_ofNat_of_zero_le g1
    obtain ⟨k, hk⟩ := Int.eq_ofNat_of_zero_le (sub_nonneg.mpr g2)
    have := (rg_up i k (by omega)).1
    rwa [show ((i + k : ℕ) : ℤ) = c by push_cast; omega] at this
  · obtain ⟨i, hi⟩ := Int.eq_ofNat_of_zero_le (by omega : 0 ≤ -c')
    obtain ⟨k, hk⟩ := Int.eq_ofNat_of_zero_le (sub_nonneg.mpr g1)
    have := (rg_up i k (by omega)).2
    rwa [show -((i + k : ℕ) : ℤ) = c by push_cast; omega, show -(i : ℤ) = c' by omega] at this

theorem floor_ell_lt {n : ℕ} (h5 : 5 ≤ n) {t : BitVec n} (ht : Regular t) : ⌊ell t⌋ < 255 := by
  have key : ∀ u : BitVec n, u.msb = false → ell u < 255 := fun u h => by
    rw [ell_sg h5, h]; simp only [sg, Bool.false_eq_true, if_false, one_mul]
    exact psi_lt_255 (pos_nonneg u) (pos_lt h5 u)
  rw [Int.floor_lt]
  push_cast
  cases hs : t.msb
  · exact key t hs
  · obtain ⟨n1, -, n3, n4⟩ := regular_neg (by omega) ht
    rw [← n4]; exact key _ (by rw [n1, hs]; rfl)

theorem scale_takum {w : W} (hw : 12 ≤ w.n) {t : T w} (ht : Regular t) (j : ℤ)
    (h : 1 ≤ |lv t * (2 : ℚ) ^ j| ∧ j ≤ 0 ∨ |lv t * (2 : ℚ) ^ j| ≤ 1 ∧ 0 ≤ j) :
    ∃ s : T w, s ≠ nar w.n ∧ qv s = lv t * (2 : ℚ) ^ j := by
  have hz : ∀ e : ℤ, (0 : ℚ) < (2 : ℚ) ^ e := fun e => zpow_pos (by norm_num) _
  have one : (1 : ℚ) < 2 := by norm_num
  have add : ∀ a b : ℤ, (2 : ℚ) ^ (a + b) = 2 ^ a * 2 ^ b := fun a b => zpow_add₀ (by norm_num) a b
  have f1 := (floor_ell t).1
  have f2 := floor_ell_lt (by omega : 5 ≤ w.n) ht
  set c := ⌊ell t⌋ with hc
  obtain ⟨b1, b2⟩ := lam_bounds (ell t)
  rw [← lv_abs, ← hc] at b1 b2
  have ab : |lv t * (2 : ℚ) ^ j| = |lv t| * (2 : ℚ) ^ j := by rw [abs_mul, abs_of_pos (hz j)]
  rw [ab] at h
  have l1 : (2 : ℚ) ^ (c + j) ≤ |lv t| * (2 : ℚ) ^ j := by rw [add]; exact mul_le_mul_of_nonneg_right b1 (hz j).le
  have l2 : |lv t| * (2 : ℚ) ^ j < (2 : ℚ) ^ (c + j + 1) := by
    rw [show c + j + 1 = c + 1 + j by ring, add (c + 1)]; exact mul_lt_mul_of_pos_right b2 (hz j)
  have hcl : 0 ≤ c + j ∧ c + j ≤ c ∨ c ≤ c + j ∧ c + j ≤ 0 := by
    rcases h with ⟨g, gj⟩ | ⟨g, gj⟩
    · left
      have : (2 : ℚ) ^ (0 : ℤ) < (2 : ℚ) ^ (c + j + 1) := by rw [zpow_zero]; linarith
      have := (zpow_lt_zpow_iff_right₀ one).mp this
      omega
    · right
      have : (2 : ℚ) ^ (c + j) ≤ (2 : ℚ) ^ (0 : ℤ) := by rw [zpow_zero]; linarith
      have := (zpow_le_zpow_iff_right₀ one).mp this
      omega
  rcases eq_or_ne j 0 with rfl | j0
  · exact ⟨t, ht.2, by rw [qv_regular ht, zpow_zero, mul_one]⟩
  have hr := rg_closer f1 (by omega) hcl
  obtain ⟨i1, i2, -⟩ := rg_spec f1 f2
  obtain ⟨k, hk⟩ := lam_multiple hw t i1 i2 (lam_bounds _).1 (lam_bounds _).2.le
  rw [← lv_abs] at hk
  obtain ⟨s, rs, es⟩ := lin_takum_exists hw (c := c + j) (d := |lv t| * (2 : ℚ) ^ j) (K := k * 2 ^ (rg c - rg (c + j))) (by omega) (by omega) l1 l2 (by
    rw [hk, mul_assoc, ← add]
    push_cast
    rw [mul_assoc, ← zpow_natCast (2 : ℚ) (rg c - rg (c + j)), ← add]
    congr 2
    rw [Nat.cast_sub hr]; ring)
  rcases le_or_gt 0 (lv t) with g | g
  · exact ⟨s, rs.2, by rw [qv_regular rs, es, abs_of_nonneg g]⟩
  · exact ⟨-s, neg_ne_nar rs.2, by rw [qv_neg rs.2, qv_regular rs, es, abs_of_neg g]; ring⟩

theorem pow_takum {w : W} (hw : 12 ≤ w.n) {c : ℤ} (h1 : -255 < c) (h2 : c < 255) : ∃ t : T w, Regular t ∧ lv t = (2 : ℚ) ^ c := by
  have i1 := (rg_spec h1.le h2).1
  refine lin_takum_exists hw (c := c) (K := 2 ^ (w.n - 5 - rg c)) h1 h2 le_rfl (zpow_lt_zpow_right₀ (by norm_num) (by omega)) ?_
  push_cast
  rw [← zpow_natCast (2 : ℚ) (w.n - 5 - rg c), ← zpow_add₀ (by norm_num)]
  congr 1
  rw [Nat.cast_sub (by omega : rg c ≤ w.n - 5)]; ring

/-- C111: for 16, 32 and 64 bits the powers of two from `2^-254` to `2^254` are linear takums, and inversion is exact on them. -/
theorem lin_powers_of_two (w : W) (hw : w ≠ .w8) (c : ℤ) (hc : |c| ≤ 254) :
    ∃ t s : T w, linVal t = some ((2 : ℚ) ^ c) ∧ linVal s = some ((2 : ℚ) ^ (-c)) ∧ linInversion w t = .ok s := by
  have hn : 12 ≤ w.n := by cases w <;> first | exact absurd rfl hw | decide
  rw [abs_le] at hc
  obtain ⟨t, rt, et⟩ := pow_takum hn (w := w) (c := c) (by omega) (by omega)
  obtain ⟨s, rs, es⟩ := pow_takum hn (w := w) (c := -c) (by omega) (by omega)
  refine ⟨t, s, by rw [linVal_qv rt.2, qv_regular rt, et], by rw [linVal_qv rs.2, qv_regular rs, es], ?_⟩
  have e : 1 / qv t = qv s := by rw [qv_regular rt, qv_regular rs, et, es, zpow_neg, one_div]
  rw [(linInversion_eq rt).1, e]
  have hx : x80.rq (qv s) = qv s := by
    apply x80.rq_of_rep
    rw [qv_regular rs]
    exact (lv_in s (F := x80) (by cases w <;> decide) (by decide) (by decide)).1
  rw [hx, rq_qv, linEnc_qv rs.2]

example : W.w32 ≠ .w8 ∧ |(-254 : ℤ)| ≤ 254 := by decide

/-- C111: for 16, 32 and 64 bits, multiplying or dividing by a power of two that moves the number towards 1, but not beyond it,
is exact, and dividing by the same power of two gives the number back. -/
theorem lin_scaling_exact (w : W) (hw : w ≠ .w8) (a b b' : T w) (x : ℚ) (j : ℤ) (ha : linVal a = some x)
    (hb : linVal b = some ((2 : ℚ) ^ j)) (hb' : linVal b' = some ((2 : ℚ) ^ (-j)))
    (h : 1 ≤ |x * 2 ^ j| ∧ |x * 2 ^ j| ≤ |x| ∨ |x| ≤ |x * 2 ^ j| ∧ |x * 2 ^ j| ≤ 1) :
    ∃ s : T w, linVal s = some (x * 2 ^ j) ∧ linMultiplication w a b = .ok s ∧ linDivision w a b' = .ok s ∧
      linDivision w s b = .ok a ∧ linMultiplication w s b' = .ok a := by
  have hn : 12 ≤ w.n := by cases w <;> first | exact absurd rfl hw | decide
  have hz : ∀ e : ℤ, (0 : ℚ) < (2 : ℚ) ^ e := fun e => zpow_pos (by norm_num) _
  have an : a ≠ nar w.n := by rintro rfl; simp [linVal] at ha
  have bn : b ≠ nar w.n := by rintro rfl; simp [linVal] at hb
  have bn' : b' ≠ nar w.n := by rintro rfl; simp [linVal] at hb'
  rw [linVal_qv an] at ha
  rw [linVal_qv bn] at hb
  rw [linVal_qv bn'] at hb'
  have ha := Option.some.inj ha
  have hb := Option.some.inj hb
  have hb' := Option.some.inj hb'
  have rb : Regular b := ⟨fun e => (hz j).ne' (by rw [← hb, e, qv_zero]), bn⟩
  have rb' : Regular b' := ⟨fun e => (hz (-j)).ne' (by rw [← hb', e, qv_zero]), bn'⟩
  obtain ⟨s, sn, es⟩ : ∃ s : T w, s ≠ nar w.n ∧ qv s = x * 2 ^ j := by
    by_cases x0 : x = 0
    · exact ⟨0#w.n, zero_ne_nar w, by rw [qv_zero, x0, zero_mul]⟩
    have ra : Regular a := ⟨fun e => x0 (by rw [← ha, e, qv_zero]), an⟩
    rw [qv_regular ra] at ha
    rw [← ha]
    apply scale_takum hn ra
    rw [ha]
    have hx : 0 < |x| := abs_pos.mpr x0
    have e : |x * (2 : ℚ) ^ j| = |x| * 2 ^ j := by rw [abs_mul, abs_of_pos (hz j)]
    have one : (1 : ℚ) < 2 := by norm_num
    rcases h with ⟨h1, h2⟩ | ⟨h1, h2⟩
    · left
      refine ⟨h1, ?_⟩
      rw [e] at h2
      have : (2 : ℚ) ^ j ≤ 2 ^ (0 : ℤ) := by rw [zpow_zero]; nlinarith
      exact (zpow_le_zpow_iff_right₀ one).mp this
    · right
      refine ⟨h2, ?_⟩
      rw [e] at h1
      have : (2 : ℚ) ^ (0 : ℤ) ≤ 2 ^ j := by rw [zpow_zero]; nlinarith
      exact (zpow_le_zpow_iff_right₀ one).mp this
  have inv : ∀ y : ℚ, y / 2 ^ (-j) = y * 2 ^ j := fun y => by rw [zpow_neg, div_inv_eq_mul]
  have back : x * 2 ^ j / 2 ^ j = x := mul_div_cancel_right₀ _ (hz j).ne'
  have back' : x * 2 ^ j * 2 ^ (-j) = x := by rw [zpow_neg]; exact mul_inv_cancel_right₀ (hz j).ne' _
  refine ⟨s, by rw [linVal_qv sn, es], ?_, ?_, ?_, ?_⟩
  · rw [linMultiplication_eq an bn, ha, hb, ← es, rq_qv, linEnc_qv sn]
  · rw [linDivision_eq an rb', ha, hb', inv, ← es, rq_qv, linEnc_qv sn]
  · rw [linDivision_eq sn rb, hb, es, back, ← ha, rq_qv, linEnc_qv an]
  · rw [linMultiplication_eq sn bn', hb', es, back', ← ha, rq_qv, linEnc_qv an]

/-- `300 / 4`. -/
example : linVal (0x592c#16 : T .w16) = some 300 ∧ linVal (0x3400#16 : T .w16) = some ((2 : ℚ) ^ (-2 : ℤ)) ∧
    linVal (0x4c00#16 : T .w16) = some ((2 : ℚ) ^ (2 : ℤ)) ∧ (1 : ℚ) ≤ |300 * 2 ^ (-2 : ℤ)| ∧ |(300 : ℚ) * 2 ^ (-2 : ℤ)| ≤ |300| := by
  refine ⟨by decide +kernel, ?_, ?_, by norm_num, by norm_num⟩ <;> decide +kernel

/-- Away from 1 the product need not be exact: `(1 + 1/2048) 2` has too many bits for 16. -/
example : linVal (0x4001#16 : T .w16) = some (1 + 1 / 2048) ∧ linMultiplication .w16 0x4001#16 0x4800#16 = .ok 0x4800#16 ∧
    linVal (0x4800#16 : T .w16) = some 2 := by decide +kernel

end Takum
